#!/usr/bin/env python3
"""DESIGN.md = design_head.md + a table with one line per property (modules from the theorem names, method from METHOD)."""
import json, re, os
root = os.path.dirname(os.path.dirname(os.path.abspath(__file__)))
METHOD = json.load(open(f"{root}/tools/method.json"))   # [first, last, models, method]
mods = {}
for f in open(f"{root}/lean/Verif.lean").read().split():
    if not f.startswith("Verif."): continue
    for m in re.finditer(r"^theorem\s+(C\d+)_", open(f"{root}/lean/" + f.replace(".", "/") + ".lean").read(), re.M):
        l = mods.setdefault(m.group(1), [])
        if f[6:] not in l: l.append(f[6:])
out = open(f"{root}/tools/design_head.md").read()
out += "## Property by property\n\n| id | property | model | theorems in | how it is proved |\n|---|---|---|---|---|\n"
for d in sorted((json.loads(l) for l in open(f"{root}/properties.jsonl") if l.strip()), key=lambda d: int(d["id"][1:])):
    i = int(d["id"][1:])
    r = [x for x in METHOD if x[0] <= i <= x[1]]
    if not r: print("no method for", d["id"]); continue
    out += f"| {d['id']} | {d['title']} | {r[-1][2]} | {', '.join(mods.get(d['id'], []))} | {r[-1][3]} |\n"
out += "\nNothing in the list is judged inexpressible; the parts that are runtime only\n(float rounding, torch, file bytes) are excluded in the statements.\n"
open(f"{root}/DESIGN.md", "w").write(out)
