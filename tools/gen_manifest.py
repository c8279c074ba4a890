#!/usr/bin/env python3
"""Regenerates MANIFEST.json.  Theorem names are collected from the Lean sources by their Cnn_ prefix; the
status and note of each property are given here."""
import json, os, re, glob
root = os.path.dirname(os.path.dirname(os.path.abspath(__file__)))
STATUS = {}
exec(open(os.path.join(root, "tools", "status.py")).read())
ths = {}
for f in sorted(glob.glob(os.path.join(root, "lean/Verif/Props/**/*.lean"), recursive=True)):
    ns = []
    for line in open(f):
        m = re.match(r"namespace (\S+)", line)
        if m: ns.append(m.group(1))
        m = re.match(r"end (\S+)\s*$", line)
        if m and ns and ns[-1] == m.group(1): ns.pop()
        m = re.match(r"theorem (C\d\d\d?(?:_\w+)?)(?![\w.])", line)
        if m:
            ths.setdefault(m.group(1).split("_")[0], []).append(".".join(ns + [m.group(1)]))
claims = []
ids = [json.loads(l)["id"] for l in open(os.path.join(root, "properties.jsonl"))]
for i in ids:
    if i in STATUS:
        st, note = STATUS[i]
        assert st == "not_applicable" or ths.get(i), i
        claims.append(dict(property=i, status=st, theorems=ths.get(i, []), note=note))
    elif i in ths:
        raise SystemExit("no status for " + i)
json.dump({"claims": claims}, open(os.path.join(root, "MANIFEST.json"), "w"), indent=1, ensure_ascii=False)
print(len(claims), "claims", sum(len(c["theorems"]) for c in claims), "theorems; missing:", [i for i in ids if i not in STATUS])
