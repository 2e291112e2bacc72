#!/usr/bin/env python3
"""Translates the assertions of /repo/ops_test.go and /repo/bitwise_test.go into Lean examples about the model
(lean/Verif/Tests/Ops.lean).  They test that the model agrees with the code; they prove no property."""
import re, pathlib
root = pathlib.Path(__file__).resolve().parent.parent
W = {"I8": 8, "I16": 16, "I32": 32, "I64": 64, "ISize": 64, "U8": 8, "U16": 16, "U32": 32, "U64": 64, "USize": 64}
CONST = {"math.MaxInt": 2**63-1, "math.MinInt": -2**63, "math.MaxUint": 2**64-1}
for n in (8, 16, 32, 64):
    CONST[f"math.MaxInt{n}"] = 2**(n-1)-1; CONST[f"math.MinInt{n}"] = -2**(n-1); CONST[f"math.MaxUint{n}"] = 2**n-1
def num(e):
    m = re.fullmatch(r"(math\.\w+)\s*\+\s*(\d+)", e)
    if m: return CONST[m[1]] + int(m[2])
    return CONST[e] if e in CONST else int(e)
def lit(t, e): return f"(BitVec.ofInt {W[t]} ({num(e)}))"
GO = {"WrappingDiv", "CheckedDiv", "CheckedRem", "SaturatingDiv"}
def fn(t, m):
    s = "s" if t[0] == "I" else "u"
    if m == "Pow": return "Ints.pow"
    if m in ("WrappingSub",): return "Ints.wrappingSub"
    if m == "WrappingMul": return "Ints.isizeWrappingMul" if t == "ISize" else "Ints.wrappingMul"
    if t == "ISize" and m in ("CheckedSub", "SaturatingSub"): return "Ints.isize" + m
    if t == "USize" and m in ("CheckedMul", "SaturatingMul"): return "Ints.usize" + m
    return f"Ints.{s}{m}"
def small(lhs, rhs):
    m = re.fullmatch(r"(\w+)\((.+?)\)\.(\w+)\((.+)\)", lhs)
    if not m or m[1] not in W: return None
    t, f = m[1], m[3]
    arg = f"(BitVec.ofInt 32 ({num(m[4])}))" if f == "Pow" else lit(t, m[4])
    r = re.fullmatch(r"Some\((\w+)\((.+)\)\)", rhs)
    if r: val = f"(some {lit(r[1], r[2])})"
    elif re.fullmatch(r"None\[\w+\]\(\)", rhs): val = "none"
    else:
        r = re.fullmatch(r"(\w+)\((.+)\)", rhs)
        val = lit(r[1], r[2])
    if f in GO: val = f".ok {val}"
    return f"{fn(t, f)} {lit(t, m[2])} {arg} = {val}"
# 128 bits: a little expression parser
def big(e):
    toks = re.findall(r"\w+|\"[^\"]*\"|[().{}:,+-]", e)
    i = 0
    def peek(): return toks[i] if i < len(toks) else None
    def eat(x=None):
        nonlocal i
        t = toks[i]; i += 1
        assert x is None or t == x, (t, x, e)
        return t
    def atom():
        t = eat()
        if t[0] == '"': return ("str", f"({t}.toUTF8.toList)")
        if t == "-": k, v = atom(); return ("int", f"-{v}")
        if t.isdigit(): return ("int", t)
        if t == "U64_MAX": return ("u64", "(BitVec.allOnes 64)")
        if t == "I64_MAX": return ("i64", "(BitVec.intMax 64)")
        if t == "I64_MIN": return ("i64", "(BitVec.intMin 64)")
        if t == "I128_MAX": return ("I128", "(⟨BitVec.intMax 64, BitVec.allOnes 64⟩ : I128)")
        if t == "I128_MIN": return ("I128", "(⟨BitVec.intMin 64, 0#64⟩ : I128)")
        if t in ("I128_FromI64", "I128_FromU64", "U128_FromU64"):
            eat("("); k, v = expr(); eat(")")
            if k == "int": v = f"(BitVec.ofInt 64 ({v}))"
            return (t[:4], f"(.ok ({t[:4]}.{t[5].lower()}{t[6:]} {v}) : Go {t[:4]})")
        if t == "U64":
            eat("("); k, v = expr(); eat(")"); return ("u64", v)
        if t in ("U128", "I128"):
            eat("{"); eat("high"); eat(":"); _, h = expr(); eat(","); eat("low"); eat(":"); k, l = expr(); eat("}")
            f = lambda x: f"{x}#64" if x.isdigit() else x
            return (t, f"(.ok ⟨{f(h)}, {f(l)}⟩ : Go {t})")
        raise Exception((t, e))
    def expr():
        k, v = atom()
        while peek() in (".", "+"):
            if eat() == "+":
                _, w = atom(); v = f"({v} + {w}#64)"; continue
            m = eat(); eat("(")
            if m == "Abs": eat(")"); k, v = "u64", f"(Ints.sAbs {v})"; continue
            if not v.startswith("(.ok") and k in ("I128", "U128") and v.startswith("(⟨"): v = f"(.ok {v} : Go {k})"
            if m == "ToString": eat(")"); v = f"({k}.toStr <$> {v})"; k = "gostr"; continue
            if m == "Neg": eat(")"); v = f"(I128.neg <$> {v})"; continue
            _, w = expr(); eat(")")
            low = m.lower()
            v = f"({v} >>= fun a => {w} >>= fun b => {k}.{low} a b)" if m in ("Div", "Rem") else f"({v} >>= fun a => {w} >>= fun b => .ok ({k}.{low} a b))"
        return (k, v)
    k, v = expr()
    assert i == len(toks), e
    return k, v
def split(s):
    out, d, cur, q = [], 0, "", False
    for c in s:
        if c == '"': q = not q
        if not q:
            if c in "([{": d += 1
            if c in ")]}": d -= 1
            if c == "," and d == 0: out.append(cur.strip()); cur = ""; continue
        cur += c
    return out + [cur.strip()]
lines, n = [], 0
for f in ("ops_test.go", "bitwise_test.go"):
    for no, l in enumerate(open(f"/repo/{f}").read().split("\n"), 1):
        m = re.match(r"func (Test_\w+)", l)
        if m: lines.append(f"\n-- {f}:{no} {m[1]}")
        m = re.match(r"\s*AssertEq\((.*)\)$", l)
        if not m: continue
        a = split(m[1])
        s = small(a[0], a[1])
        if s is None:
            (k1, v1), (k2, v2) = big(a[0]), big(a[1])
            if k2 == "str": v2 = f"(.ok {v2} : Go GoStr)"
            s = f"{v1} = {v2}"
        lines.append(f"example : {s} := by decide +kernel"); n += 1
head = '''import Verif.Model.Ints
import Verif.Model.Int128
/-
The assertions of /repo/ops_test.go and /repo/bitwise_test.go, about the model (written by tools/gotests.py).  These are
tests that the model agrees with the code where the repository itself says what the code does; they prove no property.
-/
namespace Gost
'''
(root / "lean/Verif/Tests/Ops.lean").write_text(head + "\n".join(lines) + "\nend Gost\n")
print(n, "assertions")
