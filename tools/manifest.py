#!/usr/bin/env python3
"""Regenerate MANIFEST.json from the property theorems in lean/Verif/**/Props*.lean and notes.json."""
import json, pathlib, re

root = pathlib.Path(__file__).resolve().parent.parent
notes = json.loads((root / "tools" / "notes.json").read_text())
props = [json.loads(l) for l in (root / "properties.jsonl").read_text().splitlines() if l.strip()]
found = {}
for f in sorted((root / "lean" / "Verif").rglob("Props*.lean")):
    ns = None
    for line in f.read_text().splitlines():
        m = re.match(r"namespace (\S+)", line)
        if m:
            ns = m.group(1)
        m = re.match(r"(?:private )?theorem (C\d+_\w+)", line)
        if m:
            found.setdefault(m.group(1).split("_")[0], []).append(f"{ns}.{m.group(1)}")
claims = []
for p in props:
    ths = found.get(p["id"], [])
    note = notes.get(p["id"], {})
    if ths:
        weak = any(t.endswith(("_partial", "_violated")) for t in ths)
        status = note.get("status", "partial" if weak else "proved")
    elif "status" in note:
        status = note["status"]
    else:
        continue
    claims.append({"property": p["id"], "status": status, "theorems": ths, "note": note.get("note", p["title"])})
(root / "MANIFEST.json").write_text(json.dumps({"claims": claims}, indent=1) + "\n")
for c in claims:
    print(c["property"], c["status"], len(c["theorems"]))
