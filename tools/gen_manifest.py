#!/usr/bin/env python3
"""Collects theorem names C<nn>_* from lean/Verif/Props and writes MANIFEST.json.
Status/notes that are not plain 'proved' are in NOTES below."""
import re, json, glob, os
root = os.path.join(os.path.dirname(os.path.abspath(__file__)), "..")
NOTES = json.load(open(os.path.join(root, "tools", "notes.json")))
props = [json.loads(l) for l in open(os.path.join(root, "properties.jsonl"))]
th = {}
for f in sorted(glob.glob(os.path.join(root, "lean/Verif/Props/*.lean"))):
    s = open(f).read()
    ns = re.search(r"^namespace (\S+)", s, re.M).group(1)
    for m in re.finditer(r"^theorem (C(\d\d+)_\w+)", s, re.M):
        th.setdefault("C" + m.group(2), []).append(ns + "." + m.group(1))
claims = []
for p in props:
    i = p["id"]; t = th.get(i, [])
    n = NOTES.get(i, {})
    if not t and not n: continue
    claims.append(dict(property=i, status=n.get("status", "proved"), theorems=t, note=n.get("note", "")))
json.dump({"claims": claims}, open(os.path.join(root, "MANIFEST.json"), "w"), indent=1, ensure_ascii=False)
print(len(claims), "claims;", sum(len(c["theorems"]) for c in claims), "theorems; missing:",
      [p["id"] for p in props if p["id"] not in {c["property"] for c in claims}])
