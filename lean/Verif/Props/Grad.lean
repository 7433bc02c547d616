import Verif.Model.Grad
import Verif.Props.Control

/-!
# `hk.value_and_grad` and `hk.grad`
-/

namespace Verif.Props.Grad
open Verif Names Frame LW Verif.Grad
open Verif.Props.Context Verif.Props.Control

/-! ### What is claimed -/

/-- The value of a function with one output at each argument, called directly in the world `w`, without gradients. -/
def plainValue (f : Val → Prog) (w : World) (y : Val) : Option Val :=
  match ((f y).run stackMach w).1 with
  | .ok v => some v
  | .error _ => none

/-- The first output of a function with something beside its output. -/
def plainFirst (f : Val → Prog) (w : World) (y : Val) : Option Val :=
  match ((f y).run stackMach w).1 with
  | .ok (.pair a _) => some a
  | _ => none

/-! ### Lemmas -/

theorem ref_stateful (hasAux : Bool) (f : Val → Prog) (st : IState) (x : Val) : Ref (statefulFun stackMach hasAux (fun x => (f x).run stackMach) st x) (statefulFun localMach hasAux (fun x => (f x).run localMach) st x) :=
  Ref.temp st ((ref_run (f x)).bind fun out => (Ref.ite (ref_asPair out) (Ref.pure _)).bind fun _ => (Ref.internal true).bind fun _ => Ref.pure _)

theorem ref_jax (D : (Val → Option Val) → Val → Val) {F : Val → M World (Val × Val × Diff)} {G : Val → M LW (Val × Val × Diff)} (h : ∀ x, Ref (F x) (G x)) (x : Val) : Ref (jaxValueAndGrad D F x) (jaxValueAndGrad D G x) := by
  refine ⟨fun s tl rest => ?_, fun s => ?_⟩
  · have e : (fun y => firstOf (F y (toWorld s tl rest)).1) = fun y => firstOf (G y s).1 := by
      funext y
      rw [(h y).1 s tl rest]
    unfold jaxValueAndGrad
    rw [e, (h x).1 s tl rest]
    rcases G x s with ⟨e | r, s'⟩ <;> rfl
  · have := (h x).2 s
    unfold jaxValueAndGrad
    rcases hg : G x s with ⟨e | r, s'⟩ <;> rw [hg] at this <;> exact this

theorem ref_vg (D : (Val → Option Val) → Val → Val) (hasAux : Bool) (f : Val → Prog) (x : Val) :
    Ref (valueAndGrad stackMach D hasAux (fun x => (f x).run stackMach) x) (valueAndGrad localMach D hasAux (fun x => (f x).run localMach) x) :=
  (Ref.internal true).bind fun st => (ref_jax D (ref_stateful hasAux f st) x).bind fun _ => (Ref.update _).bind fun _ => Ref.ite (Ref.pure _) (Ref.pure _)

/-- What is done to an output. -/
def split (hasAux : Bool) (v : Val) : Except Exc (Val × Val) :=
  match hasAux, v with
  | false, v => .ok (v, .none)
  | true, .pair a b => .ok (a, b)
  | true, _ => .error .structureMismatch

theorem stateful_eq (hasAux : Bool) (m : Val → M LW Val) (s : LW) (x : Val) : statefulFun localMach hasAux m s.ist x s =
    match m x s with
    | (.error e, s1) => (.error e, s.back s1)
    | (.ok v, s1) =>
      match split hasAux v with
      | .error e => (.error e, s.back s1)
      | .ok r => (.ok (r.1, r.2, difference s.ist s1.ist), s.back s1) := by
  unfold statefulFun
  rw [temp_eq, load_self]
  unfold M.bind
  rcases m x s with ⟨e | v, s1⟩
  · rfl
  · cases hasAux with
    | false => rfl
    | true => cases v <;> rfl

/-- The value at an argument after `split`. -/
def valueAt (hasAux : Bool) (o : Except Exc Val) : Option Val :=
  match o with
  | .error _ => none
  | .ok v => match split hasAux v with
    | .ok r => some r.1
    | .error _ => none

theorem vg_eq (D : (Val → Option Val) → Val → Val) (hasAux : Bool) {m : Val → M LW Val} (x : Val) (hm : Pres GrowL (m x)) {s : LW} (hw : s.loc.WF) : valueAndGrad localMach D hasAux m x s =
    match m x s with
    | (.error e, s1) => (.error e, s.back s1)
    | (.ok v, s1) =>
      match split hasAux v with
      | .error e => (.error e, s.back s1)
      | .ok _ => (.ok (v, D (fun y => valueAt hasAux (m y s).1) x), s.commit s1) := by
  have hD : (fun y => firstOf (statefulFun localMach hasAux m s.ist y s).1) = fun y => valueAt hasAux (m y s).1 := by
    funext y
    rw [stateful_eq]
    rcases m y s with ⟨e | v, s1⟩
    · rfl
    · show _ = valueAt hasAux (.ok v)
      unfold valueAt
      dsimp only
      rcases split hasAux v with e | r <;> rfl
  unfold valueAndGrad
  rw [M.bind, internal_eq]
  dsimp only
  unfold jaxValueAndGrad M.bind
  dsimp only
  rw [hD, stateful_eq]
  have hg := hm s
  rcases h : m x s with ⟨e | v, s1⟩
  · rfl
  · rw [h] at hg
    dsimp only
    have hs : ∀ r, split hasAux v = .ok r → (if hasAux then (.pair r.1 r.2) else r.1) = v := by
      intro r hr
      cases hasAux with
      | false => cases hr; rfl
      | true => cases v <;> cases hr; rfl
    rcases hsp : split hasAux v with e | r
    · rfl
    · have hv := hs r hsp
      dsimp only
      rw [update_diff hw hg]
      dsimp only
      cases hasAux with
      | false => rw [← hv]; rfl
      | true => rw [← hv]; rfl

theorem vg_world (D : (Val → Option Val) → Val → Val) (hasAux : Bool) (f : Val → Prog) (x : Val) (w : World) (hw : InTransform w) (ht : Tidy w) : valueAndGrad stackMach D hasAux (fun x => (f x).run stackMach) x w =
    match (f x).run stackMach w with
    | (.error e, w1) => (.error e, undo w w1)
    | (.ok v, w1) =>
      match split hasAux v with
      | .error e => (.error e, undo w w1)
      | .ok _ => (.ok (v, D (fun y => valueAt hasAux ((f y).run stackMach w).1) x), keepNames w w1) := by
  obtain ⟨F, rest, r, tl, hF, hr⟩ := hw
  rw [← toWorld_curr hF hr, tidy_toWorld] at ht
  have e1 : valueAndGrad stackMach D hasAux (fun x => (f x).run stackMach) x w =
      ((valueAndGrad localMach D hasAux (fun x => (f x).run localMach) x (curr F r w)).1, toWorld (valueAndGrad localMach D hasAux (fun x => (f x).run localMach) x (curr F r w)).2 tl rest) := by
    conv_lhs => rw [← toWorld_curr hF hr]
    exact (ref_vg D hasAux f x).1 _ _ _
  have e2 : (fun y => valueAt hasAux ((f y).run stackMach w).1) = fun y => valueAt hasAux ((f y).run localMach (curr F r w)).1 := by
    funext y
    rw [run_curr hF hr]
  have hundo : ∀ s1 : LW, toWorld ((curr F r w).back s1) tl rest = undo w (toWorld s1 tl rest) := by
    intro s1
    conv_rhs => rw [undo, ← toWorld_curr hF hr]
    rfl
  have hkeep : ∀ s1 : LW, toWorld ((curr F r w).commit s1) tl rest = keepNames w (toWorld s1 tl rest) := by
    intro s1
    unfold keepNames onTop toWorld LW.commit
    rw [hF]
    rfl
  rw [e1, e2, vg_eq D hasAux x (grow_run (f x)) ht, run_curr hF hr]
  rcases (f x).run localMach (curr F r w) with ⟨e | v, s1⟩
  · show (_, toWorld _ tl rest) = _
    rw [hundo]
  · dsimp only
    rcases split hasAux v with e | q
    · show (_, toWorld _ tl rest) = _
      rw [hundo]
    · show (_, toWorld _ tl rest) = _
      rw [hkeep]

theorem first_eq (f : Val → Prog) (w : World) : (fun y => valueAt true ((f y).run stackMach w).1) = plainFirst f w := by
  funext y
  unfold plainFirst valueAt split
  rcases ((f y).run stackMach w).1 with e | v
  · rfl
  · cases v <;> rfl

theorem value_eq (f : Val → Prog) (w : World) : (fun y => valueAt false ((f y).run stackMach w).1) = plainValue f w := by
  funext y
  unfold plainValue valueAt split
  rcases ((f y).run stackMach w).1 with e | v <;> rfl

/-! ### Claims -/

/-- C185: `hk.value_and_grad` and `hk.grad` of a function that returns give its value, and the derivative of the function as it would be without gradients from the same world, at the argument; parameters, state, rng and module objects are left as the
function leaves them. -/
theorem grad_of_plain (D : (Val → Option Val) → Val → Val) (f : Val → Prog) (x : Val) (w w1 : World) (v : Val) (hw : InTransform w) (ht : Tidy w) (h : (f x).run stackMach w = (.ok v, w1)) :
    valueAndGrad stackMach D false (fun x => (f x).run stackMach) x w = (.ok (v, D (plainValue f w) x), keepNames w w1) ∧
    grad stackMach D false (fun x => (f x).run stackMach) x w = (.ok (D (plainValue f w) x), keepNames w w1) := by
  have e : valueAndGrad stackMach D false (fun x => (f x).run stackMach) x w = (.ok (v, D (plainValue f w) x), keepNames w w1) := by
    rw [vg_world D false f x w hw ht, h, value_eq]
    rfl
  refine ⟨e, ?_⟩
  rw [grad, M.bind, e]
  rfl

/-- C185: with `has_aux`, what comes beside the output is returned and not differentiated. -/
theorem grad_of_aux (D : (Val → Option Val) → Val → Val) (f : Val → Prog) (x : Val) (w w1 : World) (v aux : Val) (hw : InTransform w) (ht : Tidy w) (h : (f x).run stackMach w = (.ok (.pair v aux), w1)) :
    valueAndGrad stackMach D true (fun x => (f x).run stackMach) x w = (.ok (.pair v aux, D (plainFirst f w) x), keepNames w w1) ∧
    grad stackMach D true (fun x => (f x).run stackMach) x w = (.ok (.pair (D (plainFirst f w) x) aux), keepNames w w1) := by
  have e : valueAndGrad stackMach D true (fun x => (f x).run stackMach) x w = (.ok (.pair v aux, D (plainFirst f w) x), keepNames w w1) := by
    rw [vg_world D true f x w hw ht, h, first_eq]
    rfl
  refine ⟨e, ?_⟩
  rw [grad, M.bind, e]
  rfl

/-- C185: if the function raises, so do both, and nothing but module objects is changed; so also if `has_aux` is given and the function returns no pair. -/
theorem grad_raises (D : (Val → Option Val) → Val → Val) (hasAux : Bool) (f : Val → Prog) (x : Val) (w : World) (hw : InTransform w) (ht : Tidy w) :
    (∀ e w1, (f x).run stackMach w = (.error e, w1) → grad stackMach D hasAux (fun x => (f x).run stackMach) x w = (.error e, undo w w1)) ∧
    (∀ v w1, (f x).run stackMach w = (.ok v, w1) → (∀ a b, v ≠ .pair a b) → grad stackMach D true (fun x => (f x).run stackMach) x w = (.error .structureMismatch, undo w w1)) := by
  refine ⟨fun e w1 h => ?_, fun v w1 h hv => ?_⟩
  · rw [grad, M.bind, vg_world D hasAux f x w hw ht, h]
  · have : split true v = .error .structureMismatch := by
      cases v with
      | pair a b => exact absurd rfl (hv a b)
      | _ => rfl
    rw [grad, M.bind, vg_world D true f x w hw ht, h]
    dsimp only
    rw [this]

/-- C185: outside of a transform both raise and do nothing. -/
theorem grad_outside (D : (Val → Option Val) → Val → Val) (hasAux : Bool) (f : Val → Prog) (x : Val) (w : World) (hw : w.frames = []) : grad stackMach D hasAux (fun x => (f x).run stackMach) x w = (.error .notInTransform, w) := by
  obtain ⟨fs, hk, nc, hp, lg⟩ := w
  cases hw
  rfl

/-! ### Cases -/

/-- The squares; with a parameter, a state and a key. -/
def squares (aux : Bool) : Val → Prog
  | .int n => .bind (body false) fun v => if aux then .ret (.pair (.int (n * n)) v) else .ret (.int (n * n))
  | _ => .raise .indexError

/-- Forward differences stand for the derivative. -/
def ahead (F : Val → Option Val) : Val → Val
  | .int n => match F (.int (n + 1)), F (.int n) with
    | some (.int a), some (.int b) => .int (a - b)
    | _, _ => .none
  | _ => .none

example : InTransform busy ∧ Tidy busy ∧ ((squares false (.int 5)).run stackMach busy).1 = .ok (.int 25) ∧ ahead (plainValue (squares false) busy) (.int 5) = .int 11 ∧
    (grad stackMach ahead false (fun x => (squares false x).run stackMach) (.int 5) busy).1 = .ok (.int 11) ∧
    topState (grad stackMach ahead false (fun x => (squares false x).run stackMach) (.int 5) busy).2 = [("~".toList, [("s".toList, ⟨[], .f32, [5]⟩)])] :=
  ⟨busy_in, busy_tidy, by decide +kernel⟩

example : ((squares true (.int 5)).run stackMach busy).1 = .ok (.pair (.int 25) (.int 3)) ∧
    (grad stackMach ahead true (fun x => (squares true x).run stackMach) (.int 5) busy).1 = .ok (.pair (.int 11) (.int 3)) := by decide +kernel

example : ((squares false .none).run stackMach busy).1 = .error .indexError ∧
    (grad stackMach ahead false (fun x => (squares false x).run stackMach) .none busy).1 = .error .indexError ∧
    (grad stackMach ahead true (fun x => (squares false x).run stackMach) (.int 5) busy).1 = .error .structureMismatch ∧
    topState (grad stackMach ahead true (fun x => (squares false x).run stackMach) (.int 5) busy).2 = [] := by decide +kernel

example : World.initial.frames = [] := rfl

end Verif.Props.Grad
