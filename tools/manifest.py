#!/usr/bin/env python3
# Generates ../MANIFEST.json.  Status per property is declared here; theorem names are collected from
# lean/Verif/Props/*.lean by the C<nn>_ prefix.
import json, os, re, glob
here = os.path.dirname(os.path.abspath(__file__))
root = os.path.join(here, "..")
STATUS = {}
exec(open(os.path.join(here, "status.py")).read())
thms = {}
for f in sorted(glob.glob(os.path.join(root, "lean/Verif/Props/**/*.lean"), recursive=True)):
    ns = []
    for line in open(f):
        m = re.match(r"\s*(?:noncomputable\s+)?section\b", line)
        m = re.match(r"namespace\s+(\S+)", line)
        if m: ns.append(m.group(1))
        m = re.match(r"end\s+(\S+)", line)
        if m and ns and ns[-1] == m.group(1): ns.pop()
        m = re.match(r"(?:private\s+)?theorem\s+((C\d\d+)_\S+)", line)
        if m: thms.setdefault(m.group(2), []).append(".".join(ns + [m.group(1)]))
claims = []
for l in open(os.path.join(root, "properties.jsonl")):
    i = json.loads(l)["id"]
    if i in STATUS:
        st, note = STATUS[i]
        claims.append(dict(property=i, status=st, theorems=thms.get(i, []), note=note))
        if st in ("proved", "partial") and not thms.get(i): print("no theorems for", i)
    else:
        if thms.get(i): print("theorems but no status:", i)
json.dump(dict(claims=claims), open(os.path.join(root, "MANIFEST.json"), "w"), indent=1)
print(len(claims), "claims", sum(len(c["theorems"]) for c in claims), "theorems",
      {s: sum(c["status"] == s for c in claims) for s in ("proved", "partial", "not_applicable")})
