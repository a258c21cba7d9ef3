#!/usr/bin/env python3
"""Write AXIOMS.md: the axioms of every property theorem (needs a finished lake build)."""
import json, subprocess, re, collections
th = [t for c in json.load(open("/verif/MANIFEST.json"))["claims"] for t in c["theorems"]]
open("/tmp/ax.lean", "w").write("import Verif\n" + "".join("#print axioms %s\n" % t for t in th))
o = subprocess.run(["lake", "env", "lean", "/tmp/ax.lean"], cwd="/verif/lean", capture_output=True, text=True)
by = collections.defaultdict(list)
for m in re.finditer(r"'([^']+(?:'(?=' ))?)' (?:depends on axioms: \[([^\]]*)\]|does not depend on any axioms)", o.stdout):
    by[", ".join(sorted(x.strip() for x in (m[2] or "").split(",") if x.strip()))].append(m[1])
n = sum(map(len, by.values()))
with open("/verif/AXIOMS.md", "w") as f:
    f.write("# Axioms of the property theorems\n\nGenerated by `tools/axioms.py` from `#print axioms`.\n")
    for k in sorted(by, key=lambda k: (len(k), k)):
        f.write("\n## %s\n\n" % (k or "none"))
        for t in by[k]: f.write("* %s\n" % t)
print(n, len(th), {k: len(v) for k, v in by.items()}, o.stderr[-500:], [l for l in o.stdout.split("\n") if "error" in l][:5])
