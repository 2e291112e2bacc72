#!/usr/bin/env python3
"""List the functions of /repo whose lines no model definition cites."""
import re, pathlib, collections
root = pathlib.Path(__file__).resolve().parent.parent
repo = pathlib.Path("/repo")
cov = collections.defaultdict(set)
for f in (root / "lean/Verif").rglob("*.lean"):
    text = f.read_text()
    for c in re.findall(r"/-(.*?)-/", text, re.S):
        name = None
        for m in re.finditer(r"([\w/]+\.go):(\d+)(?:-(\d+))?|\b(\d+)-(\d+)\b", c):
            if m[1]:
                name = m[1]
                cov[name].update(range(int(m[2]), int(m[3] or m[2]) + 1))
            elif name:
                cov[name].update(range(int(m[4]), int(m[5]) + 1))
total = missing = 0
for f in sorted(repo.rglob("*.go")):
    name = str(f.relative_to(repo))
    if name.endswith("_test.go"): continue
    for i, line in enumerate(f.read_text().split("\n"), 1):
        if line.startswith("func "):
            total += 1
            if i not in cov[name]:
                missing += 1
                print(f"{name}:{i} {line[5:100]}")
print(f"{missing} of {total} functions not cited")
