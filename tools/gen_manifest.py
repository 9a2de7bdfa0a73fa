#!/usr/bin/env python3
"""Writes /verif/MANIFEST.json from CLAIMS below, checking that every named theorem exists under lean/Verif/Props."""
import json, re, glob, sys, os
root = os.path.dirname(os.path.dirname(os.path.abspath(__file__)))
names = {}
for f in glob.glob(root + "/lean/Verif/Props/*.lean"):
    ns = []
    for line in open(f):
        m = re.match(r"\s*namespace\s+(\S+)", line)
        if m: ns.append(m.group(1))
        m = re.match(r"\s*end\s+(\S+)\s*$", line)
        if m and ns and ns[-1] == m.group(1): ns.pop()
        m = re.match(r"\s*(?:private\s+|protected\s+)?theorem\s+(\S+)", line)
        if m: names.setdefault(m.group(1), ".".join(ns + [m.group(1)]))
exec(open(root + "/tools/claims.py").read())
ids = [json.loads(l)["id"] for l in open(root + "/properties.jsonl")]
out, bad = [], []
for i in ids:
    if i not in CLAIMS:
        print("no claim for", i); continue
    status, thms, note = CLAIMS[i]
    full = []
    for t in thms.split():
        if t in names: full.append(names[t])
        else: bad.append((i, t))
    out.append(dict(property=i, status=status, theorems=full, note=note))
for i in CLAIMS:
    if i not in ids: bad.append((i, "?"))
used = {t for c in out for t in c["theorems"]}
for n, f in sorted(names.items()):
    if re.match(r"C\d\d_", n) and f not in used: print("unclaimed theorem", f)
if bad:
    print("BAD", bad); sys.exit(1)
json.dump({"claims": out}, open(root + "/MANIFEST.json", "w"), indent=1)
print(len(out), "claims")
