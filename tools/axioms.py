#!/usr/bin/env python3
"""Print, for each set of axioms, the theorems of the manifest that depend on exactly that set."""
import collections, json, pathlib, re, subprocess, tempfile

root = pathlib.Path(__file__).resolve().parent.parent
names = [t for c in json.loads((root / "MANIFEST.json").read_text())["claims"] for t in c["theorems"]]
with tempfile.NamedTemporaryFile("w", suffix=".lean") as f:
    f.write("import Verif\n" + "".join(f"#print axioms {n}\n" for n in names))
    f.flush()
    out = subprocess.run(["lake", "env", "lean", f.name], cwd=root / "lean", capture_output=True, text=True).stdout
groups = collections.defaultdict(list)
for n, a in re.findall(r"'(\S+)' (does not depend on any axioms|depends on axioms: \[[^\]]*\])", out):
    groups[", ".join(sorted(x.strip() for x in a.split("[")[1].rstrip("]").split(","))) if "[" in a else "none"].append(n)
for k, v in groups.items():
    print(f"{k}: {len(v)} theorems" + ("" if len(v) > 40 else ": " + ", ".join(v)))
assert sum(map(len, groups.values())) == len(names)
