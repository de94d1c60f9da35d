#!/usr/bin/env python3
"""Assemble DESIGN.md."""
import json, os, re, glob
root = os.path.dirname(os.path.dirname(os.path.abspath(__file__)))
props = [json.loads(l) for l in open(f"{root}/properties.jsonl") if l.strip()]
claims = {c["property"]: c for c in json.load(open(f"{root}/MANIFEST.json"))["claims"]}
methods = json.load(open(f"{root}/tools/methods.json"))
where = {}
for f in sorted(glob.glob(f"{root}/lean/Verif/Props/*.lean")):
    for m in re.finditer(r"^theorem (C\d\d\S*)", open(f).read(), re.M):
        for c in re.findall(r"C\d{2,3}(?=_)", m.group(1)):
            where.setdefault(c, set()).add(os.path.basename(f)[:-5])
out = open(f"{root}/tools/design_head.md").read()
out += "## 5. Each property: model, proof, status\n\n| Property | Model and proof | Theorems in Props/ | Status |\n|---|---|---|---|\n"
for p in props:
    i = p["id"]; c = claims[i]
    st = c["status"] + (": " + c["note"] if c["note"] else "")
    out += f"| {i} {p['title']} | {methods[i]} | {', '.join(sorted(where.get(i, [])))} ({len(c['theorems'])}) | {st.replace('|', '/')} |\n"
out += open(f"{root}/tools/design_tail.md").read()
open(f"{root}/DESIGN.md", "w").write(out)
