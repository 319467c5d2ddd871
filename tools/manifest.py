#!/usr/bin/env python3
"""Regenerates MANIFEST.json and lean/Verif.lean.

The theorems of a property are those of lean/Verif/Props whose name starts with the property id.
Status and note of each property are in tools/notes.json: {"C01": ["proved", "note"], ...}.
"""
import json, pathlib, re

root = pathlib.Path(__file__).resolve().parent.parent
notes = json.loads((root / "tools/notes.json").read_text())
thms = {}
for p in sorted((root / "lean/Verif/Props").glob("*.lean")):
    for m in re.finditer(r"^theorem (C\d\d+)(_\w+'?)", p.read_text(), re.M):
        thms.setdefault(m.group(1), []).append("Unc." + m.group(1) + m.group(2))
claims = []
for line in (root / "properties.jsonl").read_text().splitlines():
    pid = json.loads(line)["id"]
    if pid in notes:
        status, note = notes[pid]
        claims.append({"property": pid, "status": status, "theorems": thms.get(pid, []), "note": note})
    elif pid in thms:
        print("no note for", pid)
(root / "MANIFEST.json").write_text(json.dumps({"claims": claims}, indent=1) + "\n")
mods = sorted(str(p.relative_to(root / "lean").with_suffix("")).replace("/", ".")
              for p in (root / "lean/Verif").rglob("*.lean"))
(root / "lean/Verif.lean").write_text("".join("import %s\n" % m for m in mods))
