#!/usr/bin/env python3
"""Regenerate lean/Verif.lean (imports) and MANIFEST.json from the sources.

Theorems named Cnn_... in lean/Verif/Props are collected per property; tools/notes.json holds the status
overrides and notes.
"""
import json, os, re
root = os.path.dirname(os.path.dirname(os.path.abspath(__file__)))
lean = os.path.join(root, "lean")
mods = []
for d, _, fs in os.walk(os.path.join(lean, "Verif")):
    for f in fs:
        if f.endswith(".lean"):
            mods.append(os.path.relpath(os.path.join(d, f), lean)[:-5].replace(os.sep, "."))
mods.sort()
with open(os.path.join(lean, "Verif.lean"), "w") as f:
    f.write("".join(f"import {m}\n" for m in mods))
thms = {}
for m in mods:
    if not m.startswith("Verif.Props."):
        continue
    src = open(os.path.join(lean, m.replace(".", "/") + ".lean")).read()
    for t in re.findall(r"^theorem (C\d\d_\w+'?)", src, re.M):
        thms.setdefault(t[:3], []).append("Lima.Props." + t)
notes = json.load(open(os.path.join(root, "tools", "notes.json")))
claims = []
for line in open(os.path.join(root, "properties.jsonl")):
    p = json.loads(line)["id"]
    n = notes.get(p, {})
    ts = thms.get(p, [])
    status = n.get("status")
    if status is None:
        status = "proved"
        if not ts or any(t.endswith("_partial") for t in ts):
            status = "partial"
    note = n.get("note", "" if ts else "not proved yet")
    claims.append({"property": p, "status": status, "theorems": ts, "note": note})
with open(os.path.join(root, "MANIFEST.json"), "w") as f:
    json.dump({"claims": claims}, f, indent=1, ensure_ascii=False)
    f.write("\n")
print({c["property"]: (c["status"], len(c["theorems"])) for c in claims})
