#!/usr/bin/env python3
"""Regenerate MANIFEST.json and lean/Verif.lean from the Lean sources.

A theorem whose name starts with Cnn_ belongs to property Cnn.  The status of a
property is "partial" if it is listed in PARTIAL, else "proved"."""
import json, os, re, glob
root = os.path.dirname(os.path.dirname(os.path.abspath(__file__)))
notes = json.load(open(os.path.join(root, "tools", "notes.json")))
thms = {}
mods = []
for f in sorted(glob.glob(os.path.join(root, "lean/Verif/**/*.lean"), recursive=True)):
    mods.append(os.path.relpath(f, os.path.join(root, "lean"))[:-5].replace("/", "."))
    ns = []
    for line in open(f, encoding="utf-8"):
        m = re.match(r"namespace (\S+)", line)
        if m: ns.append(m[1])
        m = re.match(r"end (\S+)", line)
        if m and ns and ns[-1] == m[1]: ns.pop()
        m = re.match(r"(?:private )?theorem (C\d\d+)_(\S+)", line)
        if m:
            thms.setdefault(m[1], []).append(".".join(ns + [m[1] + "_" + m[2].rstrip(":")]))
claims = []
for line in open(os.path.join(root, "properties.jsonl"), encoding="utf-8"):
    pid = json.loads(line)["id"]
    n = notes.get(pid, {})
    if pid not in thms:
        claims.append({"property": pid, "status": n.get("status", "partial"), "theorems": [],
                       "note": n.get("note", "not yet modelled")})
        continue
    claims.append({"property": pid, "status": n.get("status", "proved"), "theorems": thms[pid],
                   "note": n.get("note", "")})
unknown = set(thms) - {c["property"] for c in claims}
assert not unknown, unknown
json.dump({"claims": claims}, open(os.path.join(root, "MANIFEST.json"), "w"), indent=1, ensure_ascii=False)
with open(os.path.join(root, "lean/Verif.lean"), "w") as g:
    for m in mods: g.write(f"import {m}\n")
print({c["property"]: (c["status"], len(c["theorems"])) for c in claims if c["theorems"]})
