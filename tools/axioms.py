#!/usr/bin/env python3
"""Write tools/axioms.json: the axioms of every theorem named in MANIFEST.json (needs a finished build)."""
import json, os, re, subprocess, tempfile
root = os.path.dirname(os.path.dirname(os.path.abspath(__file__)))
ts = [t for c in json.load(open(f"{root}/MANIFEST.json"))["claims"] for t in c["theorems"]]
with tempfile.NamedTemporaryFile("w", suffix=".lean", delete=False) as f:
    f.write("import Verif\n" + "".join(f"#print axioms {t}\n" for t in ts))
o = subprocess.run(["lake", "env", "lean", f.name], cwd=f"{root}/lean", capture_output=True, text=True).stdout
os.unlink(f.name)
r = {}
for m in re.finditer(r"'([\w.']+)' (?:depends on axioms: \[([^\]]*)\]|does not depend on any axioms)", o):
    r[m.group(1)] = sorted(x.strip() for x in (m.group(2) or "").replace("\n", " ").split(",") if x.strip())
bad = {a for v in r.values() for a in v} - {"propext", "Classical.choice", "Quot.sound"}
print(len(r), "of", len(ts), "theorems; unexpected axioms:", bad)
json.dump(r, open(f"{root}/tools/axioms.json", "w"), indent=1)
