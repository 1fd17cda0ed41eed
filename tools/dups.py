"""List names declared in two modules (the root module imports everything, so they would clash)."""
import collections
import pathlib
import re

seen = collections.defaultdict(list)
for path in pathlib.Path("/verif/lean/Verif").rglob("*.lean"):
    spaces = []
    for line in path.read_text().splitlines():
        if m := re.match(r"namespace (\S+)", line):
            spaces.append(m.group(1))
        elif m := re.match(r"end (\S+)", line):
            if spaces and spaces[-1] == m.group(1):
                spaces.pop()
        elif m := re.match(r"(?:@\[[^\]]*\] )?(?:noncomputable )?(?:theorem|lemma|def|abbrev|structure|inductive) (\S+)", line):
            seen[".".join(spaces + [m.group(1)])].append(path.name)
for name, files in sorted(seen.items()):
    if len(files) > 1:
        print(name, files)
