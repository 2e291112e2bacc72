#!/usr/bin/env python3
"""Regenerate MANIFEST.json from the theorem names in lean/Verif/Props and tools/notes.json.

A property is `partial` if one of its theorems ends in `_partial` or `_fails`, else `proved`.
tools/notes.json may override the status and supplies the notes."""
import json, re, pathlib, collections
root = pathlib.Path(__file__).resolve().parent.parent
thms = collections.defaultdict(list)
for f in sorted((root / "lean/Verif/Props").rglob("*.lean")):
    ns = []
    for line in f.read_text().split("\n"):
        m = re.match(r"namespace (\S+)", line)
        if m: ns.append(m[1])
        m = re.match(r"end (\S+)", line)
        if m and ns and ns[-1] == m[1]: ns.pop()
        m = re.match(r"(?:private )?theorem (C(\d+)_\S+)", line)
        if m: thms["C" + m[2]].append(".".join(ns + [m[1]]))
notes = json.loads((root / "tools/notes.json").read_text())
claims = []
for line in (root / "properties.jsonl").read_text().split("\n"):
    if not line.strip(): continue
    pid = json.loads(line)["id"]
    t = thms.get(pid, [])
    n = notes.get(pid, {})
    status = n.get("status")
    if status is None:
        if not t: status = "not_applicable"
        elif any(x.endswith(("_partial", "_fails")) for x in t): status = "partial"
        else: status = "proved"
    claims.append({"property": pid, "status": status, "theorems": t,
                   "note": n.get("note", "" if t else "not modelled yet")})
(root / "MANIFEST.json").write_text(json.dumps({"claims": claims}, indent=1) + "\n")
print(collections.Counter(c["status"] for c in claims), sum(len(c["theorems"]) for c in claims), "theorems")
print("missing:", [c["property"] for c in claims if not c["theorems"]])
