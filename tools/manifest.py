#!/usr/bin/env python3
"""Regenerate MANIFEST.json: theorems named C<number>_* in lean/Verif/Props, statuses and notes from tools/notes.json."""
import json, re, glob, os
root = os.path.dirname(os.path.dirname(os.path.abspath(__file__)))
notes = json.load(open(os.path.join(root, "tools/notes.json")))
props = [json.loads(l)["id"] for l in open(os.path.join(root, "properties.jsonl")) if l.strip()]
th = {}
for f in sorted(glob.glob(os.path.join(root, "lean/Verif/Props/*.lean"))):
    ns = []
    for line in open(f):
        m = re.match(r"namespace (\S+)", line)
        if m: ns.append(m.group(1))
        m = re.match(r"end (\S+)", line)
        if m and ns and ns[-1] == m.group(1): ns.pop()
        m = re.match(r"(?:private )?theorem (C\d+)(_\S+)", line)
        if m: th.setdefault(m.group(1), []).append(".".join(ns + [m.group(1) + m.group(2)]))
claims = []
for p in props:
    n = notes.get(p)
    if n is None or not th.get(p):
        continue
    claims.append({"property": p, "status": n["status"], "theorems": th[p], "note": n.get("note", "")})
json.dump({"claims": claims}, open(os.path.join(root, "MANIFEST.json"), "w"), indent=1)
print(len(claims), "claims;", "no claim yet:", [p for p in props if p not in [c["property"] for c in claims]])
