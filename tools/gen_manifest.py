#!/usr/bin/env python3
"""Regenerate MANIFEST.json from the theorems named Cnn_* in lean/Verif/Props and notes.json.

A property is "proved" unless one of its theorems ends in _partial or _false; a status can be
overridden in notes.json: {"C01": {"status": "...", "note": "..."}}.
"""
import json, re, pathlib
root = pathlib.Path(__file__).resolve().parent.parent
notes = json.loads((root / "tools" / "notes.json").read_text())
ids = [json.loads(l)["id"] for l in (root / "properties.jsonl").read_text().splitlines() if l.strip()]
thms = {i: [] for i in ids}
for f in sorted((root / "lean" / "Verif" / "Props").glob("*.lean")):
    ns = []
    for line in f.read_text().splitlines():
        m = re.match(r"namespace (\S+)", line)
        if m: ns.append(m.group(1))
        m = re.match(r"end (\S+)", line)
        if m and ns and ns[-1] == m.group(1): ns.pop()
        m = re.match(r"theorem (C\d\d+)_(\S+)", line)
        if m:
            thms.setdefault(m.group(1), []).append(".".join(ns + [f"{m.group(1)}_{m.group(2)}"]))
claims = []
for i in ids:
    t = thms.get(i, [])
    n = notes.get(i, {})
    if not t:
        continue
    st = n.get("status") or ("partial" if any(x.endswith(("_partial", "_false")) for x in t) else "proved")
    claims.append({"property": i, "status": st, "theorems": t, "note": n.get("note", "")})
(root / "MANIFEST.json").write_text(json.dumps({"claims": claims}, indent=1) + "\n")
print(len(claims), "claims; missing:", [i for i in ids if not thms.get(i)])
extra = [k for k in thms if k not in ids]
if extra: print("NOT IN properties.jsonl:", extra)
