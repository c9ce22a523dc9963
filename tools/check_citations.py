#!/usr/bin/env python3
"""Check the source citations in lean/Verif against /repo.

Every `path.go:a-b` must lie inside the file. When the text just before the citation is a
back-quoted Go function name, the cited range must be exactly that function's declaration; after "of `Name`" (a part of the
function) the range must lie inside the declaration."""
import glob, os, re, sys

REPO = sys.argv[1] if len(sys.argv) > 1 else "/repo"
ROOT = os.path.join(os.path.dirname(os.path.abspath(__file__)), "..", "lean", "Verif")
CITE = re.compile(r"(?:`([\w.]+)(?:\([^`]*\))?`[, (]*)?((?:[a-z]+/)+[\w]+\.go):(\d+)(?:-(\d+))?")
FUNC = re.compile(r"^func (?:\([^)]*\) )?(\w+)\(")

def functions(lines):
    out = {}
    for n, l in enumerate(lines):
        m = FUNC.match(l)
        if m:
            e = n
            while not lines[e].startswith("}"):
                e += 1
            out.setdefault(m.group(1), []).append((n + 1, e + 1))
    return out

bad = total = exact = 0
for p in sorted(glob.glob(os.path.join(ROOT, "**", "*.lean"), recursive=True)):
    text = open(p).read()
    for m in CITE.finditer(text):
        total += 1
        name, f, a, b = m.group(1), m.group(2), int(m.group(3)), int(m.group(4) or m.group(3))
        path = os.path.join(REPO, f)
        if not os.path.exists(path):
            bad += 1; print(f"{p}: no file {f}"); continue
        lines = open(path).read().split("\n")
        if not (1 <= a <= b <= len(lines)):
            bad += 1; print(f"{p}: {f}:{a}-{b} out of range"); continue
        fs = functions(lines)
        if name and name.split(".")[-1] in fs:
            exact += 1
            part = text[:m.start()].rstrip().endswith(" of")
            if not any((x <= a and b <= y) if part else (a, b) == (x, y) for x, y in fs[name.split(".")[-1]]):
                bad += 1; print(f"{p}: `{name}` cited {f}:{a}-{b}, is {fs[name.split('.')[-1]]}")
print(f"{total} citations, {exact} checked as whole functions, {bad} wrong")
sys.exit(1 if bad else 0)
