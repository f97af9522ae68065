#!/usr/bin/env python3
"""Regenerate MANIFEST.json: theorem names are scanned from lean/Verif/Props, statuses and notes are in status.json."""
import json, re, pathlib
root = pathlib.Path(__file__).resolve().parent.parent
status = json.load(open(root / "tools" / "status.json"))
props = [json.loads(l)["id"] for l in open(root / "properties.jsonl") if l.strip()]
thms = {}
for f in sorted((root / "lean/Verif/Props").glob("*.lean")):
    for m in re.finditer(r"^theorem (C\d+_\w+)", f.read_text(), re.M):
        thms.setdefault(m.group(1).split("_")[0], []).append("ProxNLP." + m.group(1))
claims = []
for p in props:
    if p in thms:
        s = status.get(p, {"status": "proved", "note": ""})
        claims.append({"property": p, "status": s["status"], "theorems": thms[p], "note": s["note"]})
    elif p in status:
        claims.append({"property": p, "status": status[p]["status"], "theorems": [], "note": status[p]["note"]})
    else:
        print("no theorem yet:", p)
json.dump({"claims": claims}, open(root / "MANIFEST.json", "w"), indent=1, ensure_ascii=False)
print(len(claims), "claims")
