#!/usr/bin/env python3
"""Write AXIOMS.md: the axioms of every theorem named in MANIFEST.json, as reported by Lean (needs a finished `lake build`)."""
import json, os, re, subprocess, tempfile, collections
root = os.path.dirname(os.path.dirname(os.path.abspath(__file__)))
names = []
for c in json.load(open(f"{root}/MANIFEST.json"))["claims"]:
    names += [t for t in c["theorems"] if t not in names]
with tempfile.NamedTemporaryFile("w", suffix=".lean", delete=False) as f:
    f.write("import Verif\n" + "".join(f"#print axioms {n}\n" for n in names))
out = subprocess.run(["lake", "env", "lean", f.name], cwd=f"{root}/lean", capture_output=True, text=True).stdout
os.unlink(f.name)
ax = {}
for m in re.finditer(r"'(\S+)' (does not depend on any axioms|depends on axioms: \[([^\]]*)\])", out):
    ax[m.group(1)] = sorted(x.strip() for x in (m.group(3) or "").replace("\n", " ").split(",") if x.strip())
missing = [n for n in names if n not in ax]
groups = collections.defaultdict(list)
for n in names:
    if n in ax: groups[", ".join(ax[n]) or "(none)"].append(n)
with open(f"{root}/AXIOMS.md", "w") as g:
    g.write("# Axioms of the property theorems\n\nGenerated by `tools/axioms.py` from `#print axioms`.\n")
    for k in sorted(groups, key=lambda k: (k.count(","), k)):
        g.write(f"\n## {k}: {len(groups[k])} theorems\n\n" + "".join(f"* `{n}`\n" for n in groups[k]))
print({k: len(v) for k, v in groups.items()}, "missing:", missing)
