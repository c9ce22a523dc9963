#!/usr/bin/env python3
"""Write lean/Verif/Model/Arks.lean from hash/ark.go (or, with --check, compare)."""
import os, re, sys
REPO = "/repo"
OUT = os.path.join(os.path.dirname(os.path.abspath(__file__)), "..", "lean", "Verif", "Model", "Arks.lean")
lines = open(os.path.join(REPO, "hash/ark.go")).read().split("\n")
blocks, cur, start = [], None, 0
for n, l in enumerate(lines, 1):
    if "range [...]string{" in l:
        cur, start = [], n
    m = re.match(r'\s*"(\d+)"', l)
    if m and cur is not None:
        cur.append(m.group(1))
    if cur is not None and ".SetString(" in l:
        blocks.append((start, n + 1, cur)); cur = None
out = ["import Verif.Model.Field", "", "/-! The constants of hash/ark.go, written by tools/gen_arks.py.",
       "`SetString` reads a decimal number; all of them are below the modulus (`consts_canonical`). -/", "",
       "namespace GkrMimc", ""]
for name, src, (a, b, vals) in zip(["xNats", "yNats", "arkNats"], ["xArr", "yArr", "Arks"], blocks):
    out.append(f"/-- The values of {src}, the corresponding loop of `initArk`, hash/ark.go:{a}-{b}. -/")
    out.append(f"def {name} : List Nat := [")
    out.append(",\n".join("  " + v for v in vals) + "]")
    out.append("")
out += ["theorem consts_canonical : (∀ x ∈ xNats, x < frModulus) ∧ (∀ x ∈ yNats, x < frModulus) ∧",
        "    (∀ x ∈ arkNats, x < frModulus) := by decide +kernel", "",
        "theorem consts_length : xNats.length = 100 ∧ yNats.length = 100 ∧ arkNats.length = 100 := by decide +kernel", "",
        "/-- `xArr`, hash/ark.go:9 and `initArk`, hash/ark.go:15-337. -/",
        "def xArr : List Fr := xNats.map (fun n : Nat => (n : Fr))", "",
        "/-- `yArr`, hash/ark.go:10 and `initArk`, hash/ark.go:15-337. -/",
        "def yArr : List Fr := yNats.map (fun n : Nat => (n : Fr))", "",
        "/-- `Arks`, hash/ark.go:13 and `initArk`, hash/ark.go:15-337. -/",
        "def arks : List Fr := arkNats.map (fun n : Nat => (n : Fr))", "", "end GkrMimc", ""]
text = "\n".join(out)
if "--check" in sys.argv:
    ok = open(OUT).read() == text
    print("arks", "match" if ok else "DIFFER"); sys.exit(0 if ok else 1)
open(OUT, "w").write(text)
print([len(b[2]) for b in blocks], [b[:2] for b in blocks])
