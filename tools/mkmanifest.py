#!/usr/bin/env python3
"""Regenerate MANIFEST.json from the theorem names in lean/Verif and tools/notes.json."""
import json, re, glob, os
root = os.path.dirname(os.path.dirname(os.path.abspath(__file__)))
ids = [json.loads(l)["id"] for l in open(f"{root}/properties.jsonl") if l.strip()]
thms = {}
for f in open(f"{root}/lean/Verif.lean").read().split():
    if not f.startswith("Verif."): continue
    p = f"{root}/lean/" + f.replace(".", "/") + ".lean"
    ns = []
    for line in open(p):
        if m := re.match(r"namespace\s+(\S+)", line): ns.append(m.group(1))
        elif m := re.match(r"(?:section|mutual)\b\s*(\S*)", line): ns.append(None)
        elif ns and re.match(r"end\b(\s+[A-Z]\w*)?\s*$", line): ns.pop()
        elif m := re.match(r"theorem\s+(C\d+)_(\w+)", line):
            thms.setdefault(m.group(1), []).append(".".join([x for x in ns if x] + [m.group(1) + "_" + m.group(2)]))
notes = json.load(open(f"{root}/tools/notes.json"))
claims = []
for i in ids:
    t = thms.pop(i, [])
    st, note = notes.get(i, [None, ""])
    if st is None:
        st = "partial"
    if not t:
        st, note = "not_applicable", "not modelled yet"
    claims.append({"property": i, "status": st, "theorems": t, "note": note})
if thms: print("theorems without property:", sorted(thms))
print("missing notes:", [c["property"] for c in claims if c["theorems"] and not c["note"]])
print("no theorems:", [c["property"] for c in claims if not c["theorems"]])
json.dump({"claims": claims}, open(f"{root}/MANIFEST.json", "w"), indent=1)
