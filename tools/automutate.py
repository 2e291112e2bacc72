#!/usr/bin/env python3
"""Generate small bugs in the definitions of the model and report which theorems stop proving.

usage: automutate.py SEED COUNT_PER_DEF [FILE ...]     (FILE is relative to lean/Verif/Model)
Works in a scratch copy; definitions already in seeded/LOG.jsonl are skipped unless COUNT_PER_DEF > 1.
Caught bugs are appended to seeded/LOG.jsonl; survivors are printed only, for a person to look at."""
import json, os, random, re, subprocess, sys, pathlib, shutil
root = pathlib.Path(__file__).resolve().parent.parent
scratch = pathlib.Path(os.environ.get("SCRATCH", "/tmp/automut/lean"))
scratch.parent.mkdir(parents=True, exist_ok=True)
shutil.rmtree(scratch, ignore_errors=True)
shutil.copytree(root / "lean", scratch, symlinks=True)
rnd = random.Random(int(sys.argv[1])); per = int(sys.argv[2])

OPS = [(" < ", " ≤ "), (" ≤ ", " < "), (" > ", " ≥ "), (" ≥ ", " > "), (" + 1", " + 2"), (" + 1", ""), (" - 1", ""), (" - 1", " - 2"),
    (" && ", " || "), (" || ", " && "), (" ∧ ", " ∨ "), (" ∨ ", " ∧ "), ("true", "false"), ("false", "true"),
    (" == ", " != "), (" != ", " == "), (".lt", ".gt"), (".gt", ".lt"), (".eq", ".lt"), (" + ", " - "), (" - ", " + "),
    ("0#64", "1#64"), ("1#64", "0#64"), ("0#w", "1#w"), (" * ", " + "), (" / ", " % "), (" % ", " / "),
    ("isSome", "isNone"), ("isNone", "isSome"), (".next", ".prev"), (".prev", ".next"), (".head", ".tail"), (".tail", ".head"),
    ("xor ", "or "), (" &&& ", " ||| "), ("lower", "upper"), ("left", "right"), ("right", "left"), (".1", ".2"), (".2", ".1"),
    ("succ", "pred"), (" 0 ", " 1 "), (" 1 ", " 0 "), (" 2 ", " 3 "), ("32", "64"), ("64", "32"), ("start", "stop"), ("min ", "max "), ("max ", "min ")]
RX = [(r"if (.+?) = (.+?) then", r"if \1 ≠ \2 then"), (r"if (.+?) ≠ (.+?) then", r"if \1 = \2 then"),
    (r"if (.+?) then (.+?) else (.+)$", r"if \1 then \3 else \2"), (r"\b([us]lt) (\S+) (\S+)\b", r"\1 \3 \2"),
    (r"\.ok \((.+?) ++ (\[.+?\])\)", r".ok (\2 ++ \1)"), (r"(\w+) \+\+ (\w+)", r"\2 ++ \1"), (r"(\d+)", lambda m: str(int(m[1]) + 1)),
    (r"\(!(.+?)\)", r"(\1)"), (r"if !", "if "), (r"if (\w[^=<>≤≥]*?) then", r"if !(\1) then"), (r"⟨(\S+), (\S+)⟩", r"⟨\2, \1⟩"),
    (r"\bcmp (\S+) (\S+)", r"cmp \2 \1"), (r"\.error .+$", ".ok default"), (r"\.reverse\b", ""), (r"\.dropLast", ".tail")]

def blocks(path):
    """(name, start, end) of the definitions, by line."""
    lines = path.read_text().split("\n"); ns = []; out = []
    for i, l in enumerate(lines):
        m = re.match(r"namespace (\S+)", l)
        if m: ns.append(m[1])
        m = re.match(r"end (\S+)", l)
        if m and ns and ns[-1] == m[1]: ns.pop()
        m = re.match(r"(?:protected |private |noncomputable )*def (\S+)", l)
        if m:
            j = i + 1
            while j < len(lines) and (lines[j].startswith(" ") or lines[j].startswith("termination") or lines[j].startswith("decreasing")): j += 1
            out.append((".".join([x for x in ns if x != "Gost"] + [m[1]]), i, j))
    return lines, out

def mutants(lines, i, j):
    """All mutants of the body: (line, new text)."""
    res = []
    for k in range(i, j):
        l = lines[k]
        if l.lstrip().startswith(("--", "/-")): continue
        body = 0
        if k == i or ":=" in l and k < i + 4:
            p = l.find(":="); body = p + 2 if p >= 0 else len(l)
        if l.lstrip().startswith("|") and "=>" in l: body = l.index("=>") + 2
        if "termination_by" in l or "decreasing_by" in l: break
        s = l[body:]
        for a, b in OPS:
            p = s.find(a)
            while p >= 0:
                res.append((k, l[:body] + s[:p] + b + s[p + len(a):])); p = s.find(a, p + 1)
        for a, b in RX:
            for m in re.finditer(a, s):
                n = s[:m.start()] + (b(m) if callable(b) else m.expand(b)) + s[m.end():]
                if n != s: res.append((k, l[:body] + n))
    return [r for r in res if r[1] != lines[r[0]]]

def decl_at(path, line):
    lines = path.read_text().split("\n")
    for i in range(min(line, len(lines)) - 1, -1, -1):
        m = re.match(r"(?:@\[.*?\] )?(?:private |protected )*(theorem|def|instance|example|lemma|abbrev|structure|inductive)\s*(\S*)", lines[i])
        if m:
            if m[1] == "example":
                for t in range(i, -1, -1):
                    q = re.match(r"(?:private )?theorem (\S+)", lines[t])
                    if q: return f"example after {q[1]}"
                return "example"
            return m[2] or m[1]
    return "?"

# which property theorems use a lemma (by name, transitively)
uses = {}
for f in (scratch / "Verif").rglob("*.lean"):
    cur = None
    for l in f.read_text().split("\n"):
        m = re.match(r"(?:@\[.*?\] )?(?:private |protected )*(?:theorem|lemma) (\S+)", l)
        if m: cur = m[1]; uses.setdefault(cur, set())
        elif re.match(r"(def|example|instance|structure|namespace|end|open|section)", l): cur = None
        if cur: uses[cur] |= {w.split(".")[-1] for w in re.findall(r"[\w.']+", l)}
rev = {}
for t, ws in uses.items():
    for w in ws: rev.setdefault(w, set()).add(t)
def claims(names):
    seen, todo = set(), [n.replace("example after ", "") for n in names]
    while todo:
        n = todo.pop()
        if n in seen: continue
        seen.add(n)
        if not re.match(r"C\d", n): todo += rev.get(n.split(".")[-1], ())
    return sorted({re.match(r"C\d+", n)[0] for n in seen if re.match(r"C\d+", n)})

titles = {(d := json.loads(l))["id"]: d["title"] for l in (root / "properties.jsonl").open()}
log = root / "seeded/LOG.jsonl"
def logged():
    return {json.loads(l)["definition"] for l in log.open()}
done = logged()
def is_done(n): return any(n == d or n.endswith("." + d) or d.endswith("." + n) for d in done)
files = sys.argv[3:] or sorted(p.name for p in (scratch / "Verif/Model").glob("*.lean"))
for name in files:
    f = scratch / "Verif/Model" / name
    orig = f.read_text(); lines, bs = blocks(f)
    for d, i, j in bs:
        if per == 1 and is_done(d): continue
        ms = mutants(lines, i, j); rnd.shuffle(ms); good = 0; tries = 0
        for k, new in ms:
            if good >= per or tries >= 4 + per: break
            f.write_text("\n".join(lines[:k] + [new] + lines[k + 1:]))
            tries += 1
            r = subprocess.run(["lake", "build", "Verif.Model." + name[:-5]], cwd=scratch, capture_output=True, text=True)
            if r.returncode != 0: continue
            r = subprocess.run(["lake", "build"], cwd=scratch, capture_output=True, text=True)
            out = r.stdout + r.stderr
            failed, bad = [], False
            for m in re.finditer(r"error: (Verif/\S+?\.lean):(\d+):\d+", out):
                n = decl_at(scratch / m[1], int(m[2]))
                if m[1].startswith("Verif/Model"): bad = True
                if n not in failed: failed.append(n)
            if bad or (r.returncode != 0 and not failed): continue
            good += 1
            print(("caught " if failed else "SURVIVED ") + d, "|", lines[k].strip(), "->", new.strip(), "|", failed[:6], flush=True)
            if failed:
                with log.open("a") as h:
                    h.write(json.dumps({"definition": d, "edit": f"{lines[k].strip()} -> {new.strip()}", "claim_broken": "; ".join(f"{c} {titles[c]}" for c in claims(failed)),
                        "theorems_failed": failed, "theorems_tightened": []}, ensure_ascii=False) + "\n")
        if good == 0: print("none", d, len(ms), flush=True)
    f.write_text(orig)
