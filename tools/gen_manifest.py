#!/usr/bin/env python3
"""Writes MANIFEST.json. Theorem names are collected from lean/Verif/Props/*.lean:
every theorem called C<nn>_... belongs to property C<nn>. Status and note come from
tools/claims.json; properties without an entry there are left out."""
import json, re, pathlib
root = pathlib.Path(__file__).resolve().parent.parent
thms = {}
for f in sorted((root / "lean/Verif/Props").glob("*.lean")):
    for m in re.finditer(r"^theorem (C\d\d\w*)", f.read_text(), re.M):
        thms.setdefault(m.group(1)[:3], []).append("Bms." + m.group(1))
claims = json.loads((root / "tools/claims.json").read_text())
ids = [json.loads(l)["id"] for l in (root / "properties.jsonl").read_text().splitlines() if l.strip()]
out = []
for i in ids:
    if i not in claims:
        continue
    status, note = claims[i]
    out.append({"property": i, "status": status, "theorems": thms.get(i, []), "note": note})
    if status != "not_applicable" and not thms.get(i):
        raise SystemExit(f"{i}: no theorem")
for i in thms:
    if i not in claims:
        print("no claim entry for", i)
(root / "MANIFEST.json").write_text(json.dumps({"claims": out}, indent=1) + "\n")
print(len(out), "claims,", sum(len(o["theorems"]) for o in out), "theorems")
