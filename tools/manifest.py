"""Regenerates MANIFEST.json from the doc comments of the theorems under lean/Verif/Props and tools/status.json.

A theorem is listed under property Cnn when its doc comment starts with Cnn (several ids may be separated by commas).
"""
import glob
import json
import os
import re

root = os.path.dirname(os.path.dirname(os.path.abspath(__file__)))
props = [json.loads(l)["id"] for l in open(os.path.join(root, "properties.jsonl")) if l.strip()]
status = json.load(open(os.path.join(root, "tools", "status.json")))
thms = {p: [] for p in props}
for path in sorted(glob.glob(os.path.join(root, "lean/Verif/Props/**/*.lean"), recursive=True)):
  src = open(path).read()
  ns = re.search(r"^namespace (\S+)", src, re.M).group(1)
  for m in re.finditer(r"/-- ((?:C\d\d+(?:, )?)+)\b((?:(?!-/).)*)-/\s*(?:@\[[^\]]*\]\s*)?theorem (\S+)", src, re.S):
    for c in re.findall(r"C\d+", m.group(1)):
      thms[c].append(ns + "." + m.group(3))
claims = []
for p in props:
  st = status.get(p)
  if st is None:
    if thms[p]:
      print("no status for", p, thms[p])
    continue
  claims.append({"property": p, "status": st["status"], "theorems": thms[p], "note": st["note"]})
  if st["status"] != "not_applicable" and not thms[p]:
    print("no theorem for", p)
json.dump({"claims": claims}, open(os.path.join(root, "MANIFEST.json"), "w"), indent=1)
print(len(claims), "claims;", "missing:", [p for p in props if p not in status])
