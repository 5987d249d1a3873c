#!/usr/bin/env python3
"""Writes ../AXIOMS.txt: the axioms of every theorem of ../MANIFEST.json, as Lean prints them. Needs a finished `lake build`."""
import json, os, re, subprocess, tempfile
root = os.path.join(os.path.dirname(os.path.abspath(__file__)), "..")
thms = sorted({t for x in json.load(open(os.path.join(root, "MANIFEST.json")))["claims"] for t in x["theorems"]})
with tempfile.NamedTemporaryFile("w", suffix=".lean", delete=False) as f:
    f.write("import Verif\n" + "".join("#print axioms %s\n" % t for t in thms))
r = subprocess.run(["lake", "env", "lean", f.name], cwd=os.path.join(root, "lean"), capture_output=True, text=True)
os.unlink(f.name)
out = re.sub(r",\s+", ", ", r.stdout)
lines = re.findall(r"^'\S+' (?:depends on axioms: \[.*?\]|does not depend on any axioms)", out, re.M)
assert r.returncode == 0 and len(lines) == len(thms), (r.returncode, len(lines), len(thms), r.stderr, r.stdout[-500:])
open(os.path.join(root, "AXIOMS.txt"), "w").write("\n".join(lines) + "\n")
print(len(lines), "theorems; axioms used:", sorted({a for l in lines for a in re.findall(r"[\w.]+(?=[,\]])", l.split("axioms", 1)[1])}))
