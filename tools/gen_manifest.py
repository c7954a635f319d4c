#!/usr/bin/env python3
"""Write MANIFEST.json. Each entry: property, status, theorems (short names, all in namespace given), note."""
import json
C = []
def c(pid, status, theorems, note):
    C.append({"property": pid, "status": status, "theorems": theorems, "note": note})
def q(ns, names):
    return [f"{ns}.{n}" for n in names.split()]
exec(open(__file__.replace("gen_manifest.py", "manifest_entries.py")).read())
C.sort(key=lambda e: e["property"])
json.dump({"claims": C}, open("/verif/MANIFEST.json", "w"), indent=1)
