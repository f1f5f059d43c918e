#!/usr/bin/env python3
"""Writes MANIFEST.json: the theorems named Cnn_... of lean/Verif/Props, grouped by property.
Statuses and notes come from tools/notes.json."""
import json, re, pathlib
root = pathlib.Path(__file__).resolve().parent.parent
notes = json.loads((root / "tools/notes.json").read_text())
ths = {}
for f in sorted((root / "lean/Verif/Props").glob("*.lean")):
    for m in re.finditer(r"^theorem (C(\d\d)_\w+)", f.read_text(), re.M):
        ths.setdefault("C" + m.group(2), []).append("ElmParser." + m.group(1))
claims = []
for line in (root / "properties.jsonl").read_text().splitlines():
    p = json.loads(line)
    n = notes.get(p["id"], {})
    t = ths.get(p["id"], []) 
    status = n.get("status", "proved" if t else "partial")
    if status == "proved" and not t: raise SystemExit(p["id"] + " has no theorem")
    claims.append({"property": p["id"], "status": status, "theorems": t, "note": n.get("note", "" if t else "not proved yet")})
(root / "MANIFEST.json").write_text(json.dumps({"claims": claims}, indent=1) + "\n")
for c in claims: print(c["property"], c["status"], len(c["theorems"]))
