#!/usr/bin/env python3
"""Writes MANIFEST.json from the theorem names in lean/Verif/Props and tools/notes.json."""
import json, re, glob, os
root = os.path.dirname(os.path.dirname(os.path.abspath(__file__)))
notes = json.load(open(root + "/tools/notes.json"))
thms = {}
for f in sorted(glob.glob(root + "/lean/Verif/Props/*.lean")):
    ns = []
    for line in open(f):
        m = re.match(r"(namespace|end) ([\w.]+)", line)
        if m and m.group(1) == "namespace":
            ns.append(m.group(2))
        elif m and ns and ns[-1] == m.group(2):
            ns.pop()
        m = re.match(r"theorem (C(\d\d+)_\w+)", line)
        if m:
            thms.setdefault("C" + m.group(2), []).append(".".join(ns + [m.group(1)]))
props = [json.loads(l)["id"] for l in open(root + "/properties.jsonl") if l.strip()]
claims = []
for p in props:
    ts = thms.get(p, [])
    if not ts:
        print("no theorem for", p)
        continue
    bad = [t for t in ts if t.endswith("_partial") or t.endswith("_violated")]
    claims.append({"property": p, "status": "partial" if bad else "proved", "theorems": ts, "note": notes.get(p, "")})
    if bad and p not in notes:
        print("no note for", p)
for p in thms:
    if p not in props:
        print("no property for", p)
json.dump({"claims": claims}, open(root + "/MANIFEST.json", "w"), indent=1)
with open(root + "/lean/Verif/Axioms.lean", "w") as o:
    for f in sorted(glob.glob(root + "/lean/Verif/Props/*.lean")):
        o.write("import Verif.Props.%s\n" % os.path.basename(f)[:-5])
    o.write("/-! Axioms of every property theorem, printed at build time (generated by tools/manifest.py). -/\n\n")
    for p in sorted(thms):
        for t in thms[p]:
            o.write("#print axioms %s\n" % t)
print(len(claims), "claims", sum(c["status"] == "proved" for c in claims), "proved")
