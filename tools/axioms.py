#!/usr/bin/env python3
"""Writes AXIOMS.txt: the axioms of every theorem in MANIFEST.json. Run after `lake build`."""
import json, os, re, subprocess, tempfile
root = os.path.dirname(os.path.dirname(os.path.abspath(__file__)))
claims = json.load(open(root + "/MANIFEST.json"))["claims"]
names = [t for c in claims for t in c["theorems"]]
with tempfile.NamedTemporaryFile("w", suffix=".lean", delete=False) as f:
    f.write("import Verif\n" + "".join(f"#print axioms {n}\n" for n in names))
out = subprocess.run(["lake", "env", "lean", f.name], cwd=root + "/lean", capture_output=True, text=True).stdout
os.unlink(f.name)
lines = [re.sub(r"\s+", " ", m.group(0)) for m in re.finditer(r"'[^']+' (depends on axioms: \[[^\]]*\]|does not depend on any axioms)", out)]
assert len(lines) == len(names), (len(lines), len(names), out[-2000:])
used = {a for l in lines for m in [re.search(r"\[(.*)\]", l)] if m for a in m.group(1).split(", ")}
assert used <= {"propext", "Classical.choice", "Quot.sound"}, used
open(root + "/AXIOMS.txt", "w").write("\n".join(lines) + "\n")
print(len(lines), "theorems; axioms used:", sorted(used))
