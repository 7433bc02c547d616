import Verif.Model.Machine

/-!
# Running a function in a transform

Models `transform_and_run` of `/repo/haiku/_src/test_utils.py`, with which the functions of tests are run. The arguments of the function are part of the program; `functools.wraps` and the form with
arguments before the function are not modelled.
-/

namespace Verif.TestUtils

/-- `random.PRNGKey(seed) if seed is not None else None` (`/repo/haiku/_src/test_utils.py` 76). -/
def seedRng : Option Int → RngArg
  | none => .none
  | some n => .key (.root n)

/-- The wrapper made by `transform_and_run(f, seed, run_apply)` (`/repo/haiku/_src/test_utils.py` 73-82): `init`, then `apply` on what it returned, with the same rng, and the output without the state;
nothing (`None`) without `run_apply`. -/
def transformAndRun (seed : Option Int) (runApply : Bool) (f : Prog) : Prog :=
  .bind (.initT (seedRng seed) f) fun r =>
    match r with
    | .pair (.bundle params) (.bundle state) =>
      if runApply then
        .bind (.applyT (some params) (some state) (seedRng seed) f) fun r =>
          match r with
          | .pair out _ => .ret out
          | _ => .raise .structureMismatch
      else .ret .none
    | _ => .raise .structureMismatch

end Verif.TestUtils
