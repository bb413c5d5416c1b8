#!/usr/bin/env python3
"""Regenerate MANIFEST.json from the theorem names in lean/Verif/Props and tools/status.json.

A theorem named Cnn_... belongs to property Cnn. A property is listed once it has a theorem; it is
"partial" if status.json says so, else "proved". Theorems ending in _partial force "partial".
"""
import glob, json, os, re

root = os.path.dirname(os.path.dirname(os.path.abspath(__file__)))
status = json.load(open(os.path.join(root, "tools", "status.json")))
ids = [json.loads(l)["id"] for l in open(os.path.join(root, "properties.jsonl"))]
thms = {i: [] for i in ids}
for f in sorted(glob.glob(os.path.join(root, "lean/Verif/Props/*.lean"))):
    for line in open(f):
        m = re.match(r"theorem (C(\d\d\d?)_\w+)", line)
        if m:
            thms.setdefault("C" + m.group(2), []).append("Gopoet." + m.group(1))
claims = []
for i in ids:
    st = status.get(i, {})
    if not thms[i] and st.get("status") != "not_applicable":
        print("no theorem yet:", i)
        continue
    s = st.get("status", "proved")
    if s == "proved" and any(t.endswith("_partial") for t in thms[i]):
        raise SystemExit(f"{i} has _partial theorems but status proved")
    claims.append({"property": i, "status": s, "theorems": thms[i], "note": st.get("note", "")})
json.dump({"claims": claims}, open(os.path.join(root, "MANIFEST.json"), "w"), indent=1)
