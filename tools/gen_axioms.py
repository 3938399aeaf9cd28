#!/usr/bin/env python3
"""Write section 6 of DESIGN.md: the axioms each theorem of MANIFEST.json depends on. Needs a finished build."""
import json, os, re, subprocess, tempfile
here = os.path.dirname(os.path.abspath(__file__))
root = os.path.join(here, "..")
ths = [t for c in json.load(open(os.path.join(root, "MANIFEST.json")))["claims"] for t in c["theorems"]]
with tempfile.NamedTemporaryFile("w", suffix=".lean", delete=False) as f:
    f.write("import Verif\n" + "".join("#print axioms %s\n" % t for t in ths))
out = subprocess.run(["lake", "env", "lean", f.name], cwd=os.path.join(root, "lean"), capture_output=True, text=True).stdout
os.unlink(f.name)
out = re.sub(r"\n\s+", " ", out)
groups = {}
for t in ths:
    m = re.search(r"'%s' depends on axioms: \[([^\]]*)\]" % re.escape(t), out)
    if not m:
        assert "'%s' does not depend on any axioms" % t in out, t
    groups.setdefault(tuple(m.group(1).split(", ")) if m else (), []).append(t.split(".", 1)[1])
sec = "## 6. Axioms per theorem\n\nWritten by `tools/gen_axioms.py` from `#print axioms`; all names are in namespace `Verif`.\n"
for ax, l in sorted(groups.items()):
    sec += "\n**%s**: " % (", ".join("`%s`" % a for a in ax) if ax else "none") + ", ".join(sorted(set(l))) + ".\n"
p = os.path.join(root, "DESIGN.md")
s = open(p).read()
s = s[:s.index("## 6. Axioms per theorem")] + sec
open(p, "w").write(s)
print({", ".join(k): len(v) for k, v in groups.items()})
