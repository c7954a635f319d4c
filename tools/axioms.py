#!/usr/bin/env python3
"""Print the axioms of every theorem named in MANIFEST.json and rewrite the table at the end of DESIGN.md."""
import json, re, subprocess, sys
names = []
for cl in json.load(open("/verif/MANIFEST.json"))["claims"]:
    for t in cl["theorems"]:
        if t not in names: names.append(t)
src = "import Verif\n" + "".join(f"#print axioms {n}\n" for n in names)
open("/tmp/Axioms.lean", "w").write(src)
out = subprocess.run(["lake", "env", "lean", "/tmp/Axioms.lean"], cwd="/verif/lean", capture_output=True, text=True)
txt = (out.stdout + out.stderr).replace("\n ", " ")
rows, bad = {}, []
for line in txt.split("\n"):
    m = re.match(r"'(.*)' depends on axioms: \[(.*)\]", line)
    m2 = re.match(r"'(.*)' does not depend on any axioms", line)
    if m: rows[m.group(1)] = m.group(2)
    elif m2: rows[m2.group(1)] = "none"
    elif line.strip(): bad.append(line)
ok = {"propext", "Classical.choice", "Quot.sound"}
for n in names:
    a = rows.get(n)
    if a is None or (a != "none" and not set(x.strip() for x in a.split(",")) <= ok): bad.append(f"{n}: {a}")
print(len(names), "theorems;", "problems:" if bad else "ok", "\n".join(bad))
D = open("/verif/DESIGN.md").read()
mark = "## Axioms per theorem\n"
if mark in D: D = D[:D.index(mark)]
D = D.rstrip("\n") + "\n\n" + mark + "\nOutput of `#print axioms` for every theorem of MANIFEST.json (`tools/axioms.py`).\n\n| Theorem | Axioms |\n|---|---|\n"
D += "".join(f"| `{n}` | {rows.get(n)} |\n" for n in names)
open("/verif/DESIGN.md", "w").write(D)
sys.exit(1 if bad else 0)
