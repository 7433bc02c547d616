"""Rewrites the generated parts of DESIGN.md: the list of properties and the list of modelled code.

The properties come from properties.jsonl, tools/plan.json (model and proof method) and MANIFEST.json (status, theorems, note); the modelled
code from the header comments of the files under lean/Verif/Model.
"""
import glob
import json
import os
import re

root = os.path.dirname(os.path.dirname(os.path.abspath(__file__)))
plan = {}
for e in json.load(open(os.path.join(root, "tools/plan.json"))):
  for p in e["ids"]:
    plan[p] = e
claims = {c["property"]: c for c in json.load(open(os.path.join(root, "MANIFEST.json")))["claims"]}
out = []
for line in open(os.path.join(root, "properties.jsonl")):
  d = json.loads(line)
  c, e = claims[d["id"]], plan[d["id"]]
  out.append(f"* **{d['id']}** {d['title']} — *{c['status']}*. Model: {e['model']}. Proof: {e['proof']}.")
  out.append("  " + (c["note"].strip() + " " if c["note"].strip() else "") + "Theorems: " + ", ".join(f"`{t.replace('Verif.Props.', '')}`" for t in c["theorems"]) + ".")
props = "\n".join(out)
out = []
for path in sorted(glob.glob(os.path.join(root, "lean/Verif/Model/*.lean"))):
  m = re.search(r"/-!\n(.*?)-/", open(path).read(), re.S)
  text = re.sub(r"\s+", " ", re.sub(r"^# (.*)\n", r"\1.", m.group(1)).strip())
  out.append(f"* `{os.path.relpath(path, os.path.join(root, 'lean/Verif'))}` – {text}")
model = "\n".join(out)
path = os.path.join(root, "DESIGN.md")
s = open(path).read()
for name, text in (("properties", props), ("model", model)):
  a, b = f"<!-- begin {name} -->", f"<!-- end {name} -->"
  i, j = s.index(a) + len(a), s.index(b)
  s = s[:i] + "\n" + text + "\n" + s[j:]
open(path, "w").write(s)
