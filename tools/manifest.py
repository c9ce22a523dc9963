#!/usr/bin/env python3
"""Regenerate MANIFEST.json: the theorems `Cnn_*` of lean/Verif/Props with the status and note of tools/claims.json.
A property whose theorems include a `_partial` one cannot be listed as proved."""
import glob, json, os, re
root = os.path.join(os.path.dirname(os.path.abspath(__file__)), "..")
notes = json.load(open(os.path.join(root, "tools", "claims.json")))
thms = {}
for p in sorted(glob.glob(os.path.join(root, "lean/Verif/Props/*.lean"))):
    for m in re.finditer(r"^theorem ((C\d\d)_\w+)", open(p).read(), re.M):
        thms.setdefault(m.group(2), []).append("GkrMimc." + m.group(1))
claims = []
for c in sorted(thms):
    st, note = notes[c]
    assert not (st == "proved" and any(t.endswith("_partial") for t in thms[c])), c
    claims.append({"property": c, "status": st, "theorems": thms[c], "note": note})
json.dump({"claims": claims}, open(os.path.join(root, "MANIFEST.json"), "w"), indent=1)
print(len(claims), "claims", sum(len(x) for x in thms.values()), "theorems; without theorems:",
      [c for c in notes if c not in thms])
