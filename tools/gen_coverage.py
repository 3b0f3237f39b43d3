"""Writes COVERAGE.md: for every Rust source file in /repo, the functions whose lines are cited by a
definition of the model, and those that are not cited."""
import os, re, sys, collections
REPO = "/repo"
HERE = os.path.dirname(os.path.abspath(__file__))
MODEL = os.path.join(HERE, "..", "lean", "Verif", "Model")

files = []
for d, ds, fs in os.walk(REPO):
    ds[:] = [x for x in ds if x not in (".git", "target", "tests", "benches", "examples")]
    for f in fs:
        if f.endswith(".rs"):
            files.append(os.path.relpath(os.path.join(d, f), REPO))

def functions(path):
    L = open(os.path.join(REPO, path)).read().split("\n")
    out, impl, stack = [], "", []
    test_from = None
    for i, l in enumerate(L):
        if re.match(r"\s*#\[cfg\(test\)\]", l) and i + 1 < len(L) and re.match(r"\s*(pub )?mod ", L[i + 1]):
            test_from = i
            break
    depth = 0
    i = 0
    n = len(L) if test_from is None else test_from
    cur_impl = []
    while i < n:
        l = L[i]
        m = re.match(r"\s*(?:pub(?:\([a-z]+\))? )?(?:const )?(?:async )?(?:unsafe )?(?:extern \"C\" )?fn\s+([A-Za-z0-9_]+)", l)
        mi = re.match(r"(\s*)(?:unsafe )?(impl|trait|pub trait)\b(.*)", l)
        if mi and not m:
            t = re.sub(r"^\s*<[^{]*?>\s+(?=[A-Z&(])", "", mi.group(3)).strip()
            # drop generics after impl
            depth_a = 0
            t = mi.group(3)
            if t.startswith("<"):
                k = 0
                for k, ch in enumerate(t):
                    if ch == "<": depth_a += 1
                    if ch == ">" and t[k-1] != "-": depth_a -= 1
                    if depth_a == 0: break
                t = t[k+1:]
            t = t.strip().rstrip("{").strip()
            t = t.split(" where")[0]
            t = re.sub(r"<.*", "", t) if " for " not in t else re.sub(r"<[^ ]*>", "", t)
            cur_impl = [t.strip().rstrip(",")]
            i += 1
            continue
        if m:
            d, seen, j = 0, False, i
            while j < len(L):
                s = re.sub(r'"(\\.|[^"])*"', "", L[j]); s = re.sub(r"'[{}]'", "", s); s = re.sub(r"//.*", "", s)
                for ch in s:
                    if ch == "{": d += 1; seen = True
                    if ch == "}": d -= 1
                if (seen and d <= 0) or (not seen and s.rstrip().endswith(";")): break
                j += 1
            indented = l.startswith("    ")
            name = m.group(1)
            ctx = cur_impl[0] if (indented and cur_impl) else ""
            has_body = seen
            out.append((i + 1, j + 1, name, ctx, has_body))
            i = j + 1
            continue
        i += 1
    return out

cites = collections.defaultdict(list)   # file -> [(a, b, model)]
unresolved = []
OH = "openvm-bus-interaction-handler/src/"
HINT = {("Extraction.lean", "utils.rs"): "openvm/src/utils.rs",
        ("Extraction.lean", "expression.rs"): "autoprecompiles/src/expression.rs", ("Extraction.lean", "bus_map.rs"): "autoprecompiles/src/bus_map.rs",
        ("Elf.lean", "lib.rs"): "riscv-elf/src/lib.rs", ("Symbols.lean", "lib.rs"): "riscv-elf/src/lib.rs",
        ("OpenVm.lean", "lib.rs"): OH + "lib.rs", ("RangeOptimizer.lean", "lib.rs"): OH + "lib.rs",
        ("OpenVm.lean", "openvm", "bus_map.rs"): OH + "bus_map.rs",
        ("OpenVm.lean", "autoprecompiles", "bus_map.rs"): "autoprecompiles/src/bus_map.rs"}
for f in sorted(os.listdir(MODEL)):
    text = open(os.path.join(MODEL, f)).read()
    full = set(p for p in files if p in text)
    for m in re.finditer(r"([A-Za-z0-9_/.-]+\.rs):([0-9]+(?:-[0-9]+)?(?:,\s*[0-9]+(?:-[0-9]+)?)*)", text):
        name, ranges = m.group(1), m.group(2)
        cand = [p for p in files if p == name or p.endswith("/" + name)]
        if len(cand) > 1:
            pref = HINT.get((f, name)) or HINT.get((f, text[max(0, m.start()-20):m.start()].split()[-1].lstrip("("), name))
            c2 = [p for p in cand if p == pref]
            if c2: cand = c2
        if len(cand) > 1:
            c2 = [p for p in cand if p in full]
            if c2: cand = c2
        if len(cand) != 1:
            unresolved.append((f, name, cand)); continue
        for r in re.split(r",\s*", ranges):
            a, _, b = r.partition("-")
            cites[cand[0]].append((int(a), int(b or a), f[:-5]))

if "-v" in sys.argv:
    for u in unresolved: print(u)

SKIP = [
 ("cli-openvm-riscv", "command line"), ("openvm-riscv/guest", "guest programs"), ("openvm-riscv/scripts", "scripts"),
 ("riscv-types", "trait declarations"),
 ("riscv-elf/src/bin", "command line"), ("riscv-runtime", "guest runtime"), ("metrics-viewer", "viewer"),

 ("autoprecompiles/src/export.rs", "debug output"), ("autoprecompiles/src/stats_logger.rs", "debug output"),
 ("autoprecompiles/src/optimistic/config.rs", "environment variables"),
 ("constraint-solver/src/effect.rs", "data types and conversions; only used with numbers"),
 ("constraint-solver/src/rule_based_optimizer/tests.rs", "tests"), ("constraint-solver/src/rule_based_optimizer/types.rs", "type aliases"),
 ("constraint-solver/src/test_utils.rs", "tests"), ("openvm/src/test_utils.rs", "tests"),
 ("isa-utils/src/lib.rs", "type declarations"), ("number/src/expression_convertible.rs", "trait for conversion"),
 ("openvm-riscv/src/isa/instruction_formatter.rs", "output for people"), ("openvm-riscv/src/isa/trace_generator", "wiring of OpenVM chips"),
 ("openvm/build.rs", "build script"), 
 ("openvm/src/air_builder.rs", "wiring of the symbolic builder of OpenVM"),
]
lines = ["# Which functions of the code are modelled", "",
 "Generated by `tools/gen_coverage.py`. A function counts as modelled if a definition in `lean/Verif/Model` cites",
 "lines of it; the comment of that definition says what is simplified. Functions of test modules are left out.", ""]
tot = mod = 0
per = []
for p in sorted(files):
    fs = functions(p)
    fs = [x for x in fs if x[4]]
    if not fs: continue
    hit, miss = [], []
    for a, b, name, ctx, _ in fs:
        ms = sorted(set(m for (x, y, m) in cites.get(p, []) if x <= b and y >= a))
        label = (ctx + "::" if ctx else "") + name
        (hit if ms else miss).append((label, ms))
    tot += len(fs); mod += len(hit)
    per.append((p, hit, miss))
for p, hit, miss in per:
    if not hit: continue
    lines.append(f"## {p} ({len(hit)} of {len(hit) + len(miss)})"); lines.append("")
    by = collections.OrderedDict()
    for label, ms in hit:
        by.setdefault(", ".join(ms), []).append(label)
    for k, v in by.items():
        lines.append(f"* in {k}: " + ", ".join(f"`{x}`" for x in v))
    if miss:
        lines.append("* not modelled: " + ", ".join(f"`{x[0]}`" for x in miss))
    lines.append("")
lines.append("## Files without modelled functions"); lines.append("")
for p, hit, miss in per:
    if hit: continue
    why = next((w for pre, w in SKIP if p.startswith(pre)), None)
    lines.append(f"* {p} ({len(miss)})" + (f": {why}" if why else ""))
open(os.path.join(HERE, "..", "COVERAGE.md"), "w").write("\n".join(lines) + "\n")
print(mod, "of", tot)
