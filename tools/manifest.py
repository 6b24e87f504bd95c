#!/usr/bin/env python3
"""Writes /verif/MANIFEST.json from tools/claims.txt and lean/Verif.lean's import list.
claims.txt lines:  ID | status | theorem, theorem, ... | note
"""
import json, os, re
here = os.path.dirname(os.path.abspath(__file__))
root = os.path.join(here, "..")
claims = []
names = set()
mods = []
for d, _, fs in os.walk(os.path.join(root, "lean/Verif")):
    for f in sorted(fs):
        if f.endswith(".lean"):
            path = os.path.join(d, f)
            mods.append(os.path.relpath(path, os.path.join(root, "lean"))[:-5].replace("/", "."))
            ns = []
            for line in open(path):
                m = re.match(r"namespace (\S+)", line)
                if m: ns.append(m.group(1)); continue
                m = re.match(r"end (\S+)", line)
                if m and ns and ns[-1] == m.group(1): ns.pop(); continue
                m = re.match(r"(?:@\[[^\]]*\] )?(?:private )?theorem (\S+)", line)
                if m: names.add(".".join(ns + [m.group(1)]))
with open(os.path.join(root, "lean/Verif.lean"), "w") as f:
    for m in sorted(mods): f.write("import %s\n" % m)
for line in open(os.path.join(here, "claims.txt")):
    line = line.strip()
    if not line or line.startswith("#"): continue
    i, st, ths, note = [x.strip() for x in line.split("|", 3)]
    pre = ""
    tl = []
    for t in [x.strip() for x in ths.split(",") if x.strip()]:
        if t.endswith(":"): continue
        if ":" in t:
            pre, t = t.split(":", 1)
        full = ("Verif." + pre.strip() + "." + t.strip())
        if full not in names: print("MISSING", i, full)
        tl.append(full)
    claims.append(dict(property=i, status=st, theorems=tl, note=note))
json.dump({"claims": claims}, open(os.path.join(root, "MANIFEST.json"), "w"), indent=1)
props = [json.loads(l)["id"] for l in open(os.path.join(root, "properties.jsonl"))]
done = {c["property"] for c in claims}
print("claims", len(claims), "uncovered:", [p for p in props if p not in done])
