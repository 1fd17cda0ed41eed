#!/usr/bin/env python3
"""Write lean/Verif.lean and MANIFEST.json from the files in lean/Verif.

A theorem belongs to the property whose id starts its name.  A property is `partial` when one of its
theorems ends in `_partial`.  Notes are in tools/notes.json.
"""
import json, pathlib, re

root = pathlib.Path(__file__).resolve().parent.parent
lean = root / "lean"
mods = sorted(p.relative_to(lean).with_suffix("").as_posix().replace("/", ".")
              for p in (lean / "Verif").rglob("*.lean"))
(lean / "Verif.lean").write_text("".join(f"import {m}\n" for m in mods))

props = [json.loads(l) for l in (root / "properties.jsonl").read_text().splitlines() if l.strip()]
notes = json.loads((root / "tools" / "notes.json").read_text())
found = {}
for path in sorted((lean / "Verif" / "Props").rglob("*.lean")):
    ns = []
    for line in path.read_text().splitlines():
        if m := re.match(r"namespace (\S+)", line):
            ns.append(m.group(1))
        elif m := re.match(r"end (\S+)", line):
            if ns and ns[-1] == m.group(1):
                ns.pop()
        elif m := re.match(r"theorem ((C\d\d+)_\S+)", line):
            found.setdefault(m.group(2), []).append(".".join(ns + [m.group(1)]))
ids = {p["id"] for p in props}
for k in found:
    assert k in ids, k
claims, missing = [], []
for p in props:
    i = p["id"]
    if i not in found:
        missing.append(i)
        if notes.get(i, "").startswith("n/a:"):
            claims.append({"property": i, "status": "not_applicable", "theorems": [],
                           "note": notes[i][4:].strip()})
        continue
    st = "partial" if any(t.endswith("_partial") for t in found[i]) else "proved"
    claims.append({"property": i, "status": st, "theorems": found[i], "note": notes.get(i, "")})
(root / "MANIFEST.json").write_text(json.dumps({"claims": claims}, indent=1, ensure_ascii=False) + "\n")
print(len(claims), "claims;", sum(c["status"] == "partial" for c in claims), "partial; missing:", " ".join(missing))
