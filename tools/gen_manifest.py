#!/usr/bin/env python3
"""Write MANIFEST.json from the theorems named C<nn>_* in lean/Verif/Props and the notes below."""
import json, os, re, sys

ROOT = os.path.dirname(os.path.dirname(os.path.abspath(__file__)))
NOTES = json.load(open(os.path.join(ROOT, "tools", "notes.json")))

theorems = {}
for d, _, fs in sorted(os.walk(os.path.join(ROOT, "lean", "Verif"))):
    for f in sorted(fs):
        if not f.endswith(".lean"):
            continue
        ns = []
        for line in open(os.path.join(d, f)):
            m = re.match(r"namespace (\S+)", line)
            if m:
                ns.append(m.group(1))
            m = re.match(r"end (\S+)", line)
            if m and ns and ns[-1] == m.group(1):
                ns.pop()
            m = re.match(r"theorem (C\d\d+)_(\w+)", line)
            if m:
                theorems.setdefault(m.group(1), []).append(
                    ".".join(ns + [f"{m.group(1)}_{m.group(2)}"]))

claims = []
for line in open(os.path.join(ROOT, "properties.jsonl")):
    pid = json.loads(line)["id"]
    note = NOTES.get(pid, {})
    th = theorems.get(pid, [])
    if not th and "status" not in note:
        continue
    status = note.get("status", "proved")
    claims.append({"property": pid, "status": status, "theorems": th, "note": note.get("note", "")})
unknown = set(theorems) - {c["property"] for c in claims}
if unknown:
    sys.exit(f"theorems without property: {unknown}")
json.dump({"claims": claims}, open(os.path.join(ROOT, "MANIFEST.json"), "w"), indent=1, ensure_ascii=False)
print(len(claims), "claims,", sum(len(c["theorems"]) for c in claims), "theorems")
