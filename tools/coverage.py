#!/usr/bin/env python3
"""List which parts of /repo the comments of the model cite: COVERAGE.md."""
import re, os, collections
root = "/verif/lean/Verif"
src = {}
for d, _, fs in os.walk("/repo/src"):
    if "tests" in d: continue
    for f in fs:
        if f.endswith((".cc", ".h")): src[f] = os.path.relpath(os.path.join(d, f), "/repo")
cites = collections.defaultdict(lambda: collections.defaultdict(set))
pat = re.compile(r"([A-Za-z0-9_]+\.(?:cc|h))(?:[ :]+(?:lines? )?((?:\d+(?:[-–]\d+)?(?:, |,| and )?)+))?")
for d, _, fs in os.walk(root):
    for f in fs:
        if not f.endswith(".lean"): continue
        t = open(os.path.join(d, f)).read()
        area = os.path.relpath(d, root)
        for m in pat.finditer(t):
            if m[1] not in src: continue
            rs = cites[src[m[1]]][area]
            for r in re.finditer(r"(\d+)(?:[-–](\d+))?", m[2] or ""):
                rs.add((int(r[1]), int(r[2] or r[1])))
def merge(rs):
    out = []
    for a, b in sorted(rs):
        if out and a <= out[-1][1] + 3: out[-1][1] = max(out[-1][1], b)
        else: out.append([a, b])
    return out
with open("/verif/COVERAGE.md", "w") as o:
    o.write("# Parts of the code cited by the model\n\nGenerated by `tools/coverage.py` from the comments of the Lean files.\nLines not listed are not modelled; files of `/repo/src` without any\ncitation are at the end.\n\n| file | areas | lines |\n|---|---|---|\n")
    for f in sorted(cites):
        areas = ", ".join(sorted(cites[f]))
        rs = merge(set().union(*cites[f].values()))
        o.write("| %s | %s | %s |\n" % (f, areas, ", ".join("%d–%d" % (a, b) if a != b else str(a) for a, b in rs) or "named only"))
    o.write("\n## Not modelled at all\n\n")
    for f in sorted(set(src.values()) - set(cites)): o.write("* %s\n" % f)
    print(len(cites), len(src))
