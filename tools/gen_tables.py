#!/usr/bin/env python3
"""Generates lean/Verif/Model/{EntityTable,FoldTable,UniTable}.lean from the *text* of
/repo/commonmark/{entitytrans,normalize_reference,inlines}.py (nothing of the repo is imported or run)
and, for the Unicode Nd class, from this Python's unicodedata."""
import ast, re, unicodedata, sys
R = "/repo/commonmark/"
O = "/verif/lean/Verif/Model/"

def chunked(name, ty, items, out, per=150):
    names = []
    for k in range(0, len(items), per):
        n = f"{name}{k // per}"
        names.append(n)
        out.append(f"def {n} : List {ty} := [")
        ch = items[k:k + per]
        line = "  "
        for i, x in enumerate(ch):
            x = x + (", " if i + 1 < len(ch) else "")
            if len(line) + len(x) > 100:
                out.append(line.rstrip())
                line = "  "
            line += x
        out.append(line.rstrip() + "]")
        out.append("")
    out.append(f"def {name} : List {ty} :=")
    out.append("  " + " ++\n  ".join(names))
    out.append("")

# --- entities
src = open(R + "entitytrans.py", encoding="utf-8").read()
def grab(pat, close):
    i = src.index(pat) + len(pat)
    j = src.index(close, i)
    return src[i:j]
html5 = ast.literal_eval("{" + grab("_html5 = {", "\n}\n") + "\n}")
cref = ast.literal_eval("{" + grab("_invalid_charrefs = {", "\n}\n") + "\n}")
cps = ast.literal_eval("[" + grab("_invalid_codepoints = set([", "\n])\n") + "\n]")
out = ["/- Generated by tools/gen_tables.py from /repo/commonmark/entitytrans.py:13-2245",
       "(`_html5`), 2247-2282 (`_invalid_charrefs`) and 2284-2305 (`_invalid_codepoints`).",
       "On Python >= 3.4 the repo uses the identical tables of the standard library",
       "(`html.unescape`).  Values are code points. -/",
       "namespace CM", ""]
chunked("html5Tab", "(String × List Nat)",
        ['("%s", [%s])' % (k, ", ".join(hex(ord(c)) for c in v)) for k, v in html5.items()], out)
out.append("def invalidCharrefs : List (Nat × Nat) := [")
out.append("  " + ",\n  ".join("(%s, %s)" % (hex(k), hex(ord(v))) for k, v in cref.items()) + "]")
out.append("")
out.append("def invalidCodepoints : List Nat := [")
out.append("  " + ",\n  ".join(", ".join(hex(c) for c in cps[i:i + 12]) for i in range(0, len(cps), 12)) + "]")
out += ["", "end CM", ""]
open(O + "EntityTable.lean", "w").write("\n".join(out))

# --- case folding
s2 = open(R + "normalize_reference.py").read()
tbl = "".join(re.findall(r"^    '([^']*)'$", s2[s2.index("Start of Unicode"):s2.index("End of Unicode")], re.M))
ent = []
cur_i, cur_j = -1, 0
for e in tbl.split(";"):
    arr = e.split(",")
    info = [int(x, 36) if x else 0 for x in arr[0].split(":")]
    sfx = [int(x, 36) for x in arr[1:]]
    streak, stride = 0, 1
    if len(info) == 2: fdt, delta = info
    elif len(info) == 3: fdt, streak, delta = info
    else: fdt, streak, delta, stride = info
    cur_i += fdt + 1
    cur_j -= delta
    ent.append((cur_i, cur_i + streak, stride, cur_j, sfx))
out = ["/- Generated by tools/gen_tables.py from /repo/commonmark/normalize_reference.py:63-91",
       "(the argument of `_parse_table`): the raw table and its decoded ranges",
       "(first, last, stride, delta, suffix).  `Verif.Proofs.Fold` proves that decoding the raw",
       "table with the model of `_parse_table` gives exactly these ranges. -/",
       "namespace CM", "",
       "/-- The raw table in pieces. -/",
       "def foldRaw : List String :="]
parts = [tbl[i:i + 80] for i in range(0, len(tbl), 80)]
out.append("  [" + ",\n  ".join('"%s"' % p for p in parts) + "]")
out.append("")
chunked("foldRanges", "(Nat × Nat × Nat × Int × List Nat)",
        ["(%d, %d, %d, %d, [%s])" % (a, b, c, d, ", ".join(map(str, f))) for a, b, c, d, f in ent], out, 100)
out += ["end CM", ""]
open(O + "FoldTable.lean", "w").write("\n".join(out))

# --- \d and punctuation
nd = [c for c in range(0x110000) if unicodedata.category(chr(c)) == "Nd"]
rs = []
for c in nd:
    if rs and rs[-1][1] == c - 1: rs[-1][1] = c
    else: rs.append([c, c])
for a, b in rs:
    assert (b - a + 1) % 10 == 0
    for c in range(a, b + 1):
        assert unicodedata.decimal(chr(c)) == (c - a) % 10
s3 = open(R + "inlines.py", encoding="utf-8").read()
i = s3.index("rePunctuation = re.compile(")
blk = s3[i:s3.index("\n)\n", i)]
pat = "".join(ast.literal_eval(x) for x in re.findall(r"r'(?:[^'\\]|\\.)*'", blk))
cls = pat[1:pat.index("]|\\uD800")]
toks = re.findall(r"\\u[0-9A-Fa-f]{4}|\\x[0-9A-Fa-f]{2}|\\.|.", cls)
def cp(t):
    if t.startswith("\\u") or t.startswith("\\x"): return int(t[2:], 16)
    return ord(t[-1])
pr = []
k = 0
while k < len(toks):
    if k + 2 < len(toks) and toks[k + 1] == "-":
        pr.append((cp(toks[k]), cp(toks[k + 2]))); k += 3
    else:
        pr.append((cp(toks[k]), cp(toks[k]))); k += 1
out = ["/- Generated by tools/gen_tables.py.",
       "`ndRanges`: code points of Unicode category Nd, i.e. what `\\d` matches in a `str` pattern and",
       "`int()` accepts (unicodedata %s); every range starts with a digit zero." % unicodedata.unidata_version,
       "`punctRanges`: the character class of `rePunctuation`, /repo/commonmark/inlines.py:25-44.  The",
       "surrogate-pair alternatives (lines 44-50) cannot match a single character of a Python 3 string. -/",
       "namespace CM", ""]
chunked("ndRanges", "(Nat × Nat)", ["(%s, %s)" % (hex(a), hex(b)) for a, b in rs], out)
chunked("punctRanges", "(Nat × Nat)", ["(%s, %s)" % (hex(a), hex(b)) for a, b in pr], out)
out += ["end CM", ""]
open(O + "UniTable.lean", "w").write("\n".join(out))
print(len(html5), len(cref), len(cps), len(ent), len(rs), len(pr), unicodedata.unidata_version, sys.version)
