#!/usr/bin/env python3
"""Write MANIFEST.json from tools/claims.txt.

A line of claims.txt is `Cxx | proved/partial | theorem theorem ... | note`. Theorem names get the `Verif.` prefix.
"""
import json, os, re
here = os.path.dirname(os.path.abspath(__file__))
claims = []
src = ""
for d, _, fs in os.walk(os.path.join(here, "..", "lean", "Verif")):
    for f in fs:
        if f.endswith(".lean"):
            src += open(os.path.join(d, f)).read()
names = set(re.findall(r"^theorem (\S+)", src, re.M))
for line in open(os.path.join(here, "claims.txt")):
    line = line.strip()
    if not line or line.startswith("#"):
        continue
    p, status, ths, note = [x.strip() for x in line.split("|", 3)]
    ths = ths.split()
    for t in ths:
        assert t in names, t
    claims.append({"property": p, "status": status, "theorems": ["Verif." + t for t in ths], "note": note})
listed = {t[len("Verif."):] for c in claims for t in c["theorems"]}
for n in sorted(names):
    if re.match(r"C\d\d_", n) and n not in listed:
        print("not listed:", n)
json.dump({"claims": claims}, open(os.path.join(here, "..", "MANIFEST.json"), "w"), indent=1)
