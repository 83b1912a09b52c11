#!/usr/bin/env python3
"""Writes AXIOMS.txt: the axioms of every theorem named in MANIFEST.json, as Lean prints them.
Needs a finished `lake build` in lean/."""
import json, os, re, subprocess, tempfile
here = os.path.dirname(os.path.abspath(__file__))
root = os.path.join(here, "..")
claims = json.load(open(os.path.join(root, "MANIFEST.json")))["claims"]
names = [t for c in claims for t in c["theorems"]]
src = "import Verif\n" + "".join(f"#print axioms {n}\n" for n in names)
with tempfile.NamedTemporaryFile("w", suffix=".lean", delete=False) as f:
    f.write(src)
out = subprocess.run(["lake", "env", "lean", f.name], cwd=os.path.join(root, "lean"), capture_output=True, text=True)
os.unlink(f.name)
text = re.sub(r"\n\s+", " ", out.stdout)
found = dict(re.findall(r"'([^']+)' (depends on axioms: \[[^\]]*\]|does not depend on any axioms)", text))
with open(os.path.join(root, "AXIOMS.txt"), "w") as f:
    for c in claims:
        for n in c["theorems"]:
            f.write(f"{c['property']} {n} {found.get(n, 'MISSING')}\n")
