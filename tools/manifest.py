#!/usr/bin/env python3
"""Regenerate MANIFEST.json from the theorem names in lean/Verif/Props (names start with Cnn, possibly several)
and from tools/status.json ({"Cnn": {"status": ..., "note": ...}})."""
import re, json, glob, os
root = os.path.dirname(os.path.dirname(os.path.abspath(__file__)))
props = [json.loads(l) for l in open(f"{root}/properties.jsonl") if l.strip()]
over = json.load(open(f"{root}/tools/status.json"))
thms = {}
for f in sorted(glob.glob(f"{root}/lean/Verif/Props/*.lean")):
    ns = []
    for line in open(f):
        m = re.match(r"namespace (\S+)", line)
        if m: ns.append(m.group(1)); continue
        m = re.match(r"end (\S+)", line)
        if m and ns and ns[-1] == m.group(1): ns.pop(); continue
        m = re.match(r"(?:private |protected )?theorem (C\d\d\S*)", line)
        if m:
            name = m.group(1)
            full = ".".join(ns + [name])
            for c in re.findall(r"C\d{2,3}(?=_)", name):
                thms.setdefault(c, []).append(full)
claims = []
for p in props:
    i = p["id"]; o = over.get(i, {})
    t = thms.get(i, [])
    if "theorems" in o: t = t + [x for x in o["theorems"] if x not in t]
    if not t and "status" not in o: continue
    st = o.get("status", "proved")
    claims.append({"property": i, "status": st, "theorems": t,
                   "note": o.get("note", "")})
unknown = set(thms) - {p["id"] for p in props}
if unknown: print("theorems for unlisted properties:", unknown)
json.dump({"claims": claims}, open(f"{root}/MANIFEST.json", "w"), indent=1, ensure_ascii=False)
print(len(claims), "claims;", sum(len(c["theorems"]) for c in claims), "theorems; without:",
      [p["id"] for p in props if p["id"] not in thms])
