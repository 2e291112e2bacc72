#!/usr/bin/env python3
"""Apply seeded bugs to a scratch copy of the model and report which theorems stop proving.

usage: mutate.py BUGS.json      (a list of {def, file, old, new, claim [, target]})
Appends one line per bug to seeded/LOG.jsonl.  `file` is relative to lean/Verif."""
import json, re, subprocess, sys, pathlib, shutil
root = pathlib.Path(__file__).resolve().parent.parent
scratch = pathlib.Path("/tmp/mut/lean")
scratch.parent.mkdir(exist_ok=True)
subprocess.run(["rsync", "-a", "--delete", str(root / "lean") + "/", str(scratch) + "/"], check=True) \
    if shutil.which("rsync") else (shutil.rmtree(scratch, ignore_errors=True), shutil.copytree(root / "lean", scratch, symlinks=True))

def decl_at(path, line):
    lines = path.read_text().split("\n")
    for i in range(min(line, len(lines)) - 1, -1, -1):
        m = re.match(r"(?:@\[.*?\] )?(?:private |protected )*(theorem|def|instance|example|lemma|abbrev)\s*(\S*)", lines[i])
        if m:
            if m[1] == "example":
                for j in range(i, -1, -1):
                    k = re.match(r"(?:private )?theorem (\S+)", lines[j])
                    if k: return f"example after {k[1]}"
                return "example"
            return m[2] or m[1]
    return "?"

log = root / "seeded/LOG.jsonl"
log.parent.mkdir(exist_ok=True)
for bug in json.load(open(sys.argv[1])):
    f = scratch / "Verif" / bug["file"]
    orig = f.read_text()
    if orig.count(bug["old"]) != 1:
        print("!! pattern count", orig.count(bug["old"]), bug["def"]); continue
    f.write_text(orig.replace(bug["old"], bug["new"]))
    r = subprocess.run(["lake", "build"] + bug.get("target", "").split(), cwd=scratch, capture_output=True, text=True)
    out = r.stdout + r.stderr
    failed = []
    for m in re.finditer(r"error: (Verif/\S+?\.lean):(\d+):\d+", out):
        n = decl_at(scratch / m[1], int(m[2]))
        if n not in failed: failed.append(n)
    f.write_text(orig)
    if r.returncode != 0 and not failed:
        print("!! build aborted", bug["def"], out[-300:]); continue
    print(("caught " if failed else "SURVIVED ") + bug["def"], "|", bug["new"][:60].replace("\n", " "), "|", failed[:6])
    with log.open("a") as h:
        h.write(json.dumps({"definition": bug["def"], "edit": bug.get("edit") or f"{bug['old']} -> {bug['new']}",
            "claim_broken": bug["claim"], "theorems_failed": failed, "theorems_tightened": bug.get("tightened", [])}) + "\n")
