#!/usr/bin/env python3
"""Write COVERAGE.md: for every function of /repo/src, the model definitions that cite its lines.

Run from /verif. Citations have the form `src/tree/mod.rs:298-309` or, after a file has been named in
the same comment, `mod.rs:298-309` or just `298-309`.
"""
import re, glob, os, collections

REPO = "/repo/src"
files = sorted(glob.glob(REPO + "/**/*.rs", recursive=True))
rel = lambda p: os.path.relpath(p, "/repo")

def functions(path):
    lines = open(path).read().split("\n")
    out, impl, test_from = [], [], None
    for n, line in enumerate(lines, 1):
        if re.match(r"\s*#\[cfg\(test\)\]", line) and n < len(lines) and re.match(r"\s*(pub )?mod \w+ \{", lines[n]):
            test_from = n
            break
    stop = test_from or len(lines) + 1
    depth, stack = 0, []
    pending = None
    cfgtest = False
    for n, line in enumerate(lines[: stop - 1], 1):
        code = re.sub(r"//.*", "", line)
        code = re.sub(r'"(\\.|[^"\\])*"', '""', code)
        code = re.sub(r"'(\\.|[^'\\])'", "' '", code)
        if re.search(r"#\[cfg\(test\)\]", code):
            cfgtest = True
        m = re.match(r"\s*(unsafe )?(impl|trait|pub trait|pub\(crate\) trait)\b(.*)", code)
        if m and depth == 0:
            pending = ("impl", m.group(0).strip(), n)
        m = re.match(r"\s*(pub(\([a-z]+\))? )?(const )?(unsafe )?fn (\w+)", code)
        if m and not (pending and pending[0] == "fn"):
            pending = ("fn", m.group(5), n, cfgtest)
            cfgtest = False
        elif re.match(r"\s*(pub )?(struct|enum|type|use|static|const)\b", code):
            cfgtest = False
        for ch in code:
            if ch == "{":
                depth += 1
                stack.append(pending if pending else None)
                pending = None
            elif ch == "}":
                depth -= 1
                top = stack.pop()
                if top and top[0] == "fn":
                    owner = next((s[1] for s in reversed(stack) if s and s[0] == "impl"), "")
                    if not any(s and s[0] == "fn" for s in stack):
                        out.append((top[1], top[2], n, owner, top[3]))
            elif ch == ";" and pending and pending[0] == "fn" and code.count("(") <= code.count(")"):
                pending = None
    return out

def owner_name(o):
    o = re.sub(r"^(unsafe )?(impl|pub trait|pub\(crate\) trait|trait)\s*", "", o)
    # drop a leading <...>
    if o.startswith("<"):
        d = 0
        for i, c in enumerate(o):
            d += (c == "<") - (c == ">")
            if d == 0:
                o = o[i + 1:].strip()
                break
    m = re.search(r"\bfor\s+(&?\w*\s*\w+)", o)
    t = re.match(r"(\w+(?:::\w+)*)", o)
    if m and t:
        return f"{m.group(1).strip()} as {t.group(1)}"
    return t.group(1) if t else o

cites = collections.defaultdict(list)   # file -> [(lo, hi, def, module)]
names = {rel(f): f for f in files}
base = collections.defaultdict(list)
for f in names:
    base[os.path.basename(f)].append(f)

for lf in sorted(glob.glob("lean/Verif/**/*.lean", recursive=True)):
    if "/Model/" not in lf:
        continue
    text = open(lf).read()
    mod = lf[len("lean/Verif/"):-5].replace("/", ".")
    for m in re.finditer(r"/--(.*?)-/\s*((?:@\[[^\]]*\]\s*)?(?:noncomputable |protected |private )?(?:def|structure|inductive|abbrev|class|instance|theorem)\s*([\w.'₀-₉]*))?", text, re.S):
        doc, name = m.group(1), m.group(3) or "(instance)"
        cur = None
        for c in re.finditer(r"((?:src/)?(?:[\w]+/)*[\w]+\.rs)|(\d+)(?:-(\d+))?", doc):
            if c.group(1):
                p = c.group(1)
                cand = [f for f in names if f.endswith("/" + p) or f == p]
                if len(cand) > 1:
                    cand = [f for f in cand if f == "src/" + p] or [f for f in cand if f == "src/tree/" + p] or cand
                cur = cand[0] if cand else None
            elif cur:
                pre = doc[: c.start()].rstrip()
                if not re.search(r"(\.rs:|,|and|;|\()$", pre):
                    continue
                lo = int(c.group(2)); hi = int(c.group(3) or lo)
                if hi >= lo and hi < 1300:
                    cites[cur].append((lo, hi, name, mod))

out = ["# Which definitions model which function", "",
       "Generated by `tools/coverage.py` from the citations in the comments of `lean/Verif/Model`.",
       "Functions under `cfg(test)` are not listed. A dash marks a function no definition cites; the",
       "reason is given at the end.", ""]
missing = []
tot = 0
for f in names:
    fs = [x for x in functions(names[f]) if not x[4]]
    if not fs:
        continue
    out += [f"## {f}", "", "| function | lines | modelled by |", "|---|---|---|"]
    for (n, lo, hi, owner, _) in fs:
        tot += 1
        hit = collections.OrderedDict()
        for (a, b, d, mod) in cites[f]:
            # the citation covers the function body or lies inside it
            if a <= hi and b >= lo and (b - a < 200):
                hit.setdefault((mod, d), None)
        label = f"{owner_name(owner)}::{n}" if owner else n
        if hit:
            by = collections.OrderedDict()
            for (mod, d) in hit:
                by.setdefault(mod, []).append(d)
            s = "; ".join(f"{m.replace('Model.', '')}: " + ", ".join(f"`{d}`" for d in ds[:4]) + (" …" if len(ds) > 4 else "") for m, ds in by.items())
        else:
            s = "—"
            missing.append((f, label))
        out.append(f"| `{label}` | {lo}-{hi} | {s} |")
    out.append("")
import json
reasons = json.load(open("tools/uncovered.json")) if os.path.exists("tools/uncovered.json") else {}
out += ["## Functions no definition cites", ""]
for f, l in missing:
    out.append(f"* `{l}` ({f}): {reasons.get(f + ' ' + l, reasons.get(l, 'TODO'))}")
open("COVERAGE.md", "w").write("\n".join(out) + "\n")
print(tot, "functions,", len(missing), "without citation")
