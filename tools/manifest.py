#!/usr/bin/env python3
"""Writes MANIFEST.json from the table below and checks that each theorem name exists in the sources."""
import json, re, glob, os, sys
root = os.path.dirname(os.path.dirname(os.path.abspath(__file__)))
claims = []
def c(prop, status, theorems, note):
    claims.append(dict(property=prop, status=status, theorems=theorems.split(), note=note))

exec(open(os.path.join(root, "tools", "claims.py")).read())

names = set()
for f in glob.glob(root + "/lean/Verif/**/*.lean", recursive=True):
    ns = []
    for line in open(f):
        m = re.match(r"namespace (\S+)", line)
        if m: ns.append(m[1])
        m = re.match(r"end (\S+)", line)
        if m and ns and ns[-1] == m[1]: ns.pop()
        m = re.match(r"(?:private |protected )?theorem (\S+)", line)
        if m: names.add(".".join(ns + [m[1]]))
bad = [t for x in claims for t in x["theorems"] if t not in names]
if bad: print("unknown theorems:", bad); sys.exit(1)
json.dump({"claims": claims}, open(root + "/MANIFEST.json", "w"), indent=1, ensure_ascii=False)
used = {t for x in claims for t in x["theorems"]}
print(len(claims), "claims;", "unused property theorems:", sorted(n for n in names if re.search(r"(^|\.)C\d\d_", n) and n not in used))
