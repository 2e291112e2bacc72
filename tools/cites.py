#!/usr/bin/env python3
"""Print each `file.go:a-b` citation of the model beside the cited lines of /repo, for checking by eye."""
import re, sys, pathlib
root = pathlib.Path(__file__).resolve().parent.parent / "lean/Verif"
for f in ([root / a for a in sys.argv[1:]] or sorted(root.rglob("*.lean"))):
    for m in re.finditer(r"([\w/]+\.go):(\d+)-(\d+)([^\n]*)", f.read_text()):
        src = pathlib.Path("/repo", m[1]).read_text().split("\n")
        a, b = int(m[2]), int(m[3])
        print(f"{f.name}: {m[0][:60]} | {src[a-1].strip()[:50]} | {src[b-1].strip()[:20] if b <= len(src) else 'PAST END'}")
