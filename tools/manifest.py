#!/usr/bin/env python3
"""Generates MANIFEST.json and checks that each theorem named exists in lean/Verif/Props."""
import json, re, pathlib, sys
ROOT = pathlib.Path(__file__).resolve().parent.parent
names = {}
for f in (ROOT / "lean/Verif/Props").glob("*.lean"):
    for m in re.finditer(r"^theorem (C\d\d\w*)", f.read_text(), re.M):
        names[m.group(1)] = f.name
status = {}
exec((ROOT / "tools/status.py").read_text())
props = [json.loads(l)["id"] for l in (ROOT / "properties.jsonl").read_text().splitlines() if l.strip()]
claims = []
used = set()
for p in props:
    st, note, extra = status[p]
    ths = sorted(n for n in names if n.startswith(p + "_")) + extra
    for t in extra:
        assert t in names, t
    used |= set(ths)
    if not ths and st != "not_applicable":
        print("no theorem:", p); st = "partial"
        continue
    claims.append({"property": p, "status": st, "theorems": ["Netcode." + t for t in ths], "note": note})
print("unused:", sorted(set(names) - used))
(ROOT / "MANIFEST.json").write_text(json.dumps({"claims": claims}, indent=1) + "\n")
print(len(claims), "claims;", sum(c["status"] == "proved" for c in claims), "proved")
