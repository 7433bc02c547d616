"""Appends the results of tools/mutate.py to seeded/LOG.jsonl: seedlog.py MUTANTS RESULTS [NOTES].

NOTES is a JSON object from mutant ids to {"tightened": [...], "note": "..."}.
"""
import json
import os
import re
import sys

root = os.path.dirname(os.path.dirname(os.path.abspath(__file__)))
log = os.path.join(root, "seeded/LOG.jsonl")
muts = {}
for l in open(sys.argv[1]):
  if l.strip():
    d = json.loads(l)
    muts[d["id"]] = d
notes = json.load(open(sys.argv[3])) if len(sys.argv) > 3 else {}
done = {json.loads(l)["id"] for l in open(log) if l.strip()} if os.path.exists(log) else set()


def definition(path, old):
  """The definition that the edited text is part of."""
  src = open(os.path.join(root, "lean", path)).read()
  at = src.find(old)
  if at < 0:
    return path
  at += len(old) - len(old.lstrip())
  name = path
  for m in re.finditer(r"^(?:private |protected |noncomputable |mutual\s+)*(?:def|abbrev|structure|inductive|instance) (\S+)", src, re.M):
    if m.start() > at:
      break
    name = m.group(1)
  return f"{path}: {name}"


with open(log, "a") as f:
  for l in open(sys.argv[2]):
    r = json.loads(l)
    if r["id"] in done:
      continue
    m = muts[r["id"]]
    n = notes.get(r["id"], {})
    direct = [x for x in r["failed"]]
    f.write(json.dumps({
        "id": r["id"], "definition": definition(m["file"], m["old"]), "edit": {"old": m["old"], "new": m["new"]},
        "claim": m["claim"], "breaks": m.get("breaks", ""), "failed_directly": direct, "failed_of_claim": r["own_hit"],
        "tightened": n.get("tightened", []), "note": n.get("note", "")}) + "\n")
