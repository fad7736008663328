#!/usr/bin/env python3
"""Write tools/axioms.txt: the axioms every theorem named in MANIFEST.json depends on."""
import json, os, subprocess, tempfile
HERE = os.path.dirname(os.path.abspath(__file__))
claims = json.load(open(os.path.join(HERE, "..", "MANIFEST.json")))["claims"]
names = sorted({t for c in claims for t in c["theorems"]})
with tempfile.NamedTemporaryFile("w", suffix=".lean", delete=False) as f:
    f.write("import Verif\n" + "".join(f"#print axioms {n}\n" for n in names))
out = subprocess.run(["lake", "env", "lean", f.name], cwd=os.path.join(HERE, "..", "lean"),
                     capture_output=True, text=True).stdout
out = out.replace("\n ", " ")
open(os.path.join(HERE, "axioms.txt"), "w").write(out)
os.unlink(f.name)
