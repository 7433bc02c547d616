"""mutate.py MUTANTS.jsonl OUT.jsonl: tries wrong versions of the model in a scratch copy.

Each line of MUTANTS.jsonl is {"id", "file", "old", "new", "claim", "breaks", ...}.  The edit is made in a scratch copy, everything that depends on
the edited file is checked again, proofs that fail are replaced by a placeholder there so that the rest can be checked, and the theorems that
failed are listed together with those that rest on them.  The concrete cases (`example`) are left out.
"""
import concurrent.futures as cf
import json
import os
import re
import shutil
import subprocess
import sys

HERE = os.path.dirname(os.path.dirname(os.path.abspath(__file__)))
LEAN = os.environ.get("BASE", os.path.join(HERE, "lean"))
SCRATCH = os.environ.get("SCRATCH", "/root/mut")
MEM = os.environ.get("MEM", "4500")
JOBS = int(os.environ.get("JOBS", "3"))
DECL = re.compile(r"^(?:@\[[^\]]*\]\s*)?(?:private\s+|protected\s+|noncomputable\s+)*(theorem|lemma|example|def|abbrev|structure|inductive|instance|mutual|end|namespace|section|open|set_option|variable|/-)", re.M)


def modules():
  res = {}
  for root, _, files in os.walk(os.path.join(LEAN, "Verif")):
    for f in files:
      if f.endswith(".lean"):
        p = os.path.relpath(os.path.join(root, f), LEAN)
        res[p[:-5].replace("/", ".")] = p
  return res


def imports(path):
  return re.findall(r"^import (Verif\.\S+)", open(os.path.join(LEAN, path)).read(), re.M)


def lean_path():
  out = subprocess.run(["lake", "env", "printenv", "LEAN_PATH"], cwd=LEAN, capture_output=True, text=True).stdout.strip()
  own = os.path.join(LEAN, ".lake/build/lib/lean")
  return ":".join(os.path.join(SCRATCH, "lib") if os.path.realpath(p) == os.path.realpath(own) else p for p in out.split(":"))


def starts(text):
  return [m.start() for m in DECL.finditer(text)]


def block(text, pos):
  """The declaration around a position: (start, end)."""
  ss = starts(text)
  st = max([x for x in ss if x <= pos], default=0)
  # a doc comment belongs to the next declaration
  while text.startswith("/-", st):
    nxt = [x for x in ss if x > st]
    if not nxt:
      break
    st = nxt[0]
  en = min([x for x in ss if x > st], default=len(text))
  return st, en


def proof_start(b):
  depth, i = 0, 0
  while i < len(b):
    if b.startswith("--", i):
      i = b.find("\n", i)
      if i < 0:
        return None
      continue
    if b.startswith("/-", i):
      i = b.index("-/", i) + 2
      continue
    c = b[i]
    if c == '"':
      i += 1
      while b[i] != '"':
        i += 2 if b[i] == "\\" else 1
    elif c in "([{⟨":
      depth += 1
    elif c in ")]}⟩":
      depth -= 1
    elif depth == 0 and b.startswith(":=", i) and not re.search(r"\blet\s+[^\n]*$", b[:i].rstrip()):
      return i
    elif depth == 0 and re.match(r"\n\s*\| ", b[i:i + 12]):
      return i
    i += 1
  return None


def name_of(b, path):
  m = re.match(r"(?:@\[[^\]]*\]\s*)?(?:private\s+|protected\s+|noncomputable\s+)*(\w+)\s+(\S+)?", b)
  if m.group(1) == "example":
    return "example in %s: %s" % (path, " ".join(b[:90].split()))
  return "%s (%s)" % (m.group(2), path)


def strip_examples(path):
  """Removes the concrete cases beside the theorems: only the theorems count."""
  text = open(path).read()
  ss = starts(text) + [len(text)]
  out = text[:ss[0]]
  for a, b in zip(ss, ss[1:]):
    of_example = text.startswith("/--", a) and text.startswith("example", b)
    if text.startswith("example", a):
      # `open ... in` before an example goes with it
      out = re.sub(r"(?:^(?:open|set_option) [^\n]* in\s*)+\Z", "", out, flags=re.M)
    elif not of_example:
      out += text[a:b]
  open(path, "w").write(out)


class Run:

  def __init__(self, env):
    self.env = env

  def lean(self, src, out, timeout=240):
    cmd = ["lean", "-M", MEM]
    if out:
      if os.path.exists(out):
        os.remove(out)
      cmd += ["-o", out]
    try:
      r = subprocess.run(cmd + [src], cwd=os.path.join(SCRATCH, "src"), env=self.env, capture_output=True, text=True, timeout=timeout)
      return r.returncode, r.stdout + r.stderr
    except subprocess.TimeoutExpired:
      return 124, ""

  def module(self, mod, path):
    """Checks a module; returns (ok, failed theorem names)."""
    src = os.path.join(SCRATCH, "src", path)
    out = os.path.join(SCRATCH, "lib", path[:-5] + ".olean")
    failed = []
    retries = 0
    for _ in range(40):
      code, log = self.lean(path, out)
      if code == 0:
        return True, failed
      text = open(src).read()
      lines = text.split("\n")
      offs = [0]
      for l in lines:
        offs.append(offs[-1] + len(l) + 1)
      places = set()
      for m in re.finditer(r"^\S+\.lean:(\d+):(\d+): error", log, re.M):
        places.add(block(text, offs[int(m.group(1)) - 1] + int(m.group(2))))
      crash = not places or code not in (1,)
      if crash:
        ss = [x for x in starts(text)]
        lo, hi = 0, len(ss)
        # smallest prefix that crashes
        while lo < hi:
          mid = (lo + hi) // 2
          en = ss[mid + 1] if mid + 1 < len(ss) else len(text)
          t = os.path.join(SCRATCH, "src", "Pre%s.lean" % mod.replace(".", ""))
          open(t, "w").write(text[:en])
          c, l = self.lean(os.path.basename(t), None, 120)
          os.remove(t)
          if c == 1 and "error: (deterministic) timeout" not in l and "excessive memory" not in l or c == 0:
            lo = mid + 1
          else:
            hi = mid
        if lo < len(ss):
          places.add(block(text, ss[lo]))
        if not places:
          retries += 1
          if retries > 2:
            return False, failed + ["%s (crash)" % mod]
          continue
      for st, en in sorted(places, reverse=True):
        b = text[st:en]
        m = re.match(r"(?:@\[[^\]]*\]\s*)?(?:private\s+|protected\s+|noncomputable\s+)*(theorem|lemma|example)\b", b)
        ps = proof_start(b) if m else None
        if ps is None or b.rstrip().endswith("by so" + "rry"):
          return False, failed + ["%s: definition or statement does not compile: %s" % (path, " ".join(b[:80].split()))]
        failed.append(name_of(b, path))
        text = text[:st] + b[:ps].rstrip() + " := by " + "so" + "rry\n\n" + text[en:]
      open(src, "w").write(text)
    return False, failed + ["%s (too many failures)" % mod]


def main():
  mutants = [json.loads(l) for l in open(sys.argv[1]) if l.strip()]
  done = set()
  if os.path.exists(sys.argv[2]):
    done = {json.loads(l)["id"] for l in open(sys.argv[2])}
  mods = modules()
  deps = {m: imports(p) for m, p in mods.items()}
  env = dict(os.environ, LEAN_PATH=lean_path())
  manifest = json.load(open(os.path.join(HERE, "MANIFEST.json")))["claims"]
  claims = {}
  for c in manifest:
    for t in c["theorems"]:
      claims.setdefault(t, []).append(c["property"])
  for mu in mutants:
    if mu["id"] in done:
      continue
    for d in ("src", "lib"):
      shutil.rmtree(os.path.join(SCRATCH, d), ignore_errors=True)
    shutil.copytree(os.path.join(LEAN, "Verif"), os.path.join(SCRATCH, "src", "Verif"))
    shutil.copytree(os.path.join(LEAN, ".lake/build/lib/lean"), os.path.join(SCRATCH, "lib"), copy_function=os.link)
    src = os.path.join(SCRATCH, "src", mu["file"])
    text = open(src).read()
    edits = mu.get("edits") or [[mu["old"], mu["new"]]]
    bad = False
    for old, new in edits:
      if text.count(old) != mu.get("count", 1):
        print(mu["id"], "EDIT NOT APPLICABLE", text.count(old), repr(old[:60]), flush=True)
        bad = True
        break
      text = text.replace(old, new)
    if bad:
      continue
    open(src, "w").write(text)
    for path in mods.values():
      strip_examples(os.path.join(SCRATCH, "src", path))
    root = mu["file"][:-5].replace("/", ".")
    affected = {root}
    while True:
      more = {m for m in mods if m not in affected and any(i in affected for i in deps[m])}
      if not more:
        break
      affected |= more
    failed, blocked, state = [], [], {}
    run = Run(env)
    with cf.ThreadPoolExecutor(JOBS) as ex:
      pending = set(affected)
      futs = {}
      while pending or futs:
        for m in sorted(pending):
          ds = [d for d in deps[m] if d in affected]
          if any(state.get(d) is False for d in ds):
            state[m] = False
            blocked.append(m)
            pending.discard(m)
          elif all(state.get(d) for d in ds):
            futs[ex.submit(run.module, m, mods[m])] = m
            pending.discard(m)
        if not futs:
          continue
        for f in cf.wait(futs, return_when=cf.FIRST_COMPLETED)[0]:
          m = futs.pop(f)
          ok, fl = f.result()
          state[m] = ok
          failed += fl
    ok_mods = [m for m in affected if state[m]]
    resting = []
    if ok_mods:
      t = "".join("import %s\n" % m for m in sorted(m for m in mods if state.get(m, True)))
      names = sorted(claims)
      t += "".join("#print axioms %s\n" % n for n in names)
      open(os.path.join(SCRATCH, "src", "Ax.lean"), "w").write(t)
      _, log = run.lean("Ax.lean", None)
      for m in re.finditer(r"'([^']+)' depends on axioms: \[([^\]]*)\]", log):
        if "so" + "rryAx" in m.group(2):
          resting.append(m.group(1))
    for f in failed:
      m = re.match(r"(?:.*does not compile: (?:theorem|lemma) )?(\S+) ", f)
      resting += [t for t in claims if m and t.endswith("." + m.group(1)) and t not in resting]
    own = [t for t in claims if mu["claim"] in claims[t]]
    res = dict(id=mu["id"], claim=mu["claim"], failed=failed, blocked=blocked, claims_resting=resting,
               own_hit=[t for t in own if t in resting], own_survive=[t for t in own if t not in resting])
    open(sys.argv[2], "a").write(json.dumps(res) + "\n")
    print(mu["id"], mu["claim"], "| failed:", len(failed), "| hit:", res["own_hit"], "| blocked:", blocked, flush=True)


main()
