#!/bin/sh
# Writes /verif/AXIOMS.txt: the axioms of every property theorem, asked from Lean after a build.
cd "$(dirname "$0")/../lean" || exit 1
t=$(mktemp -d)
python3 - > "$t/A.lean" <<'P'
import json
print("import Verif")
for c in json.load(open("../MANIFEST.json"))["claims"]:
    for n in c["theorems"]:
        print("#print axioms", n)
P
lake env lean "$t/A.lean" | python3 -c "
import sys,re
s=sys.stdin.read()
s=re.sub(r'\n\s+',' ',s)
print(s,end='')" > ../AXIOMS.txt
rm -r "$t"
sed 's/^[^ ]* //' ../AXIOMS.txt | sort | uniq -c
