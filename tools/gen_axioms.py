#!/usr/bin/env python3
# Writes AXIOMS.md: the axioms each claimed theorem depends on, as printed by Lean.
import json, os, re, subprocess, tempfile
root = os.path.abspath(os.path.join(os.path.dirname(__file__), ".."))
ths = []
for c in json.load(open(root + "/MANIFEST.json"))["claims"]:
    for t in c["theorems"]:
        if t not in ths: ths.append(t)
f = tempfile.NamedTemporaryFile("w", suffix=".lean", delete=False)
f.write("import Verif\n" + "".join("#print axioms %s\n" % t for t in ths)); f.close()
out = subprocess.run(["lake", "env", "lean", f.name], cwd=root + "/lean", capture_output=True, text=True).stdout
out = re.sub(r"\s+", " ", out)
res = re.findall(r"'([^']+)' (does not depend on any axioms|depends on axioms: \[([^\]]*)\])", out)
groups = {}
for n, _, ax in res: groups.setdefault(ax, []).append(n)
assert len(res) == len(ths), (len(res), len(ths))
with open(root + "/AXIOMS.md", "w") as g:
    g.write("# Axioms of the claimed theorems (`#print axioms`, written by tools/gen_axioms.py)\n")
    for ax in sorted(groups):
        g.write("\n## %s\n\n" % (ax or "no axioms"))
        for n in groups[ax]: g.write("* %s\n" % n)
print({k: len(v) for k, v in groups.items()})
