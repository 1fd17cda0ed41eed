#!/usr/bin/env python3
"""A sweep of small random edits over the model.

usage: sweep.py RESULTS.jsonl PER_DEFINITION SEED [FILE...]

Every edit changes one number, operator, comparison, variable or error of one definition in `lean/Verif/Model`.  The
modules with theorems of the manifest are compiled one after another, those that need the fewest others first, until
a theorem has lost its proof.  What is of interest are the edits that no theorem notices.
"""
import hashlib, json, os, pathlib, random, re, shutil, subprocess, sys
from concurrent.futures import ThreadPoolExecutor
import mutate as m

m.work = pathlib.Path("/tmp/sweep")
SWAPS = [(" + ", " - "), (" - ", " + "), ("<", "≤"), ("≤", "<"), (" = ", " ≠ "), (" ≠ ", " = "), ("true", "false"),
         ("false", "true"), ("∧", "∨"), ("∨", "∧"), (".valueError", ".indexError"), (".indexError", ".valueError"),
         (".typeError", ".valueError"), (".keyError", ".valueError"), ("nx", "ny"), ("ny", "nx"), (".1", ".2"), (".2", ".1"), ("drop", "take"),
         ("min", "max"), ("max", "min"), ("row", "col"), ("col", "row"), (" r ", " s "), (" s ", " r "), ("*r", "*s"), ("*s", "*r"),
         (".head", ".getLast"), ("+", "-"), ("-", "+"), ("*", "+"), ("/", "*"), ("^2", "^3"), ("fst", "snd"), ("snd", "fst"), ("i", "j"), ("j", "i"),
         ("x", "y"), ("y", "x"), ("h", "l"), ("pure ", "pure <| id ")]


def definitions(text):
    """Name, start of the body and end of every definition."""
    for d in re.finditer(r"^(?:noncomputable |private )*(?:def|abbrev) (\S+)", text, re.M):
        end = re.search(r"\n\n|\n(?=/--|end |def |section|namespace|variable|theorem|instance|structure)|\Z", text[d.end():]).start() + d.end()
        body = text.find(":=", d.end(), end)
        bar = text.find("\n  |", d.end(), end)
        starts = [b for b in (body, bar) if b >= 0]
        if starts:
            yield d.group(1), min(starts) + 2, end


def edits(text, a, b):
    body = text[a:b]
    out = []
    for t in re.finditer(r"(?<![\w.])\d+(?![\w.]|\])", body):
        n = int(t.group(0))
        out.append((a + t.start(), a + t.end(), str(n + 1)))
        if n > 1:
            out.append((a + t.start(), a + t.end(), str(n - 1)))
    for t in re.finditer(r"(?<![\w.])-?\d+\.\d+", body):
        k = min(t.group(0).find(".") + 3, len(t.group(0)) - 1)
        out.append((a + t.start(), a + t.end(), t.group(0)[:k] + str((int(t.group(0)[k]) + 3) % 10) + t.group(0)[k + 1:]))
    for old, new in SWAPS[:-1]:
        pat = re.escape(old)
        if old[0].isalpha():
            pat = r"(?<![\w.])" + pat
        if old[-1].isalnum():
            pat += r"(?!\w)"
        for t in re.finditer(pat, body):
            out.append((a + t.start(), a + t.end(), new))
    return out


def main():
    res, per, seed, files = pathlib.Path(sys.argv[1]), int(sys.argv[2]), sys.argv[3], sys.argv[4:]
    src, path = m.setup()
    mods = {}
    for p in sorted((src / "Verif").rglob("*.lean")):
        mods[m.modname(p, src)] = set(re.findall(r"^import (Verif\.\S+)", p.read_text(), re.M))

    def closure(x):
        return mods[x].union(*map(closure, mods[x]))

    mods = {x: closure(x) for x in mods}
    base, stamp = m.work / "base", m.work / "base.json"
    old = json.loads(stamp.read_text()) if stamp.exists() else {}
    key = {}
    for x in sorted(mods, key=lambda x: len(mods[x])):
        text = (src / (x.replace(".", "/") + ".lean")).read_text()
        key[x] = hashlib.sha256((m.COMPILE + text + "".join(key[d] for d in sorted(mods[x]))).encode()).hexdigest()
    errors = m.build({x for x in mods if old.get(x) != key[x]}, mods, src, base, path)
    assert not any(errors.values()), {k: v for k, v in errors.items() if v}
    stamp.write_text(json.dumps(key))
    deps, home = m.graph(base, mods)
    names = [t for c in json.loads((m.work / "MANIFEST.json").read_text())["claims"] for t in c["theorems"]]
    done = set()
    if res.exists():
        done = {json.loads(l)["id"] for l in res.read_text().splitlines()}

    jobs = []
    for p in sorted((src / "Verif" / "Model").glob("*.lean")):
        if files and p.name not in files:
            continue
        text = p.read_text()
        rng = random.Random(seed + p.name)
        for name, a, b in definitions(text):
            es = edits(text, a, b)
            rng.shuffle(es)
            jobs.append((p, text, name, es))

    def run(mu, p, text, e):
        """None when the edit does not compile, otherwise the theorems that lost their proof (the first found)."""
        first = m.modname(p, src)
        hit = {n for n in deps if home[n] == first and mu["definition"] in n.split(".")}
        reach = m.reaching(deps, hit.__contains__)
        todo = {home[n] for n in reach}
        out = m.work / ("out-" + mu["id"])
        shutil.rmtree(out, ignore_errors=True)
        subprocess.run(["cp", "-rs", str(base), str(out)], check=True)
        try:
            for x in todo:
                m.olean(out, x).unlink()
                pathlib.Path(str(m.olean(out, x)) + ".deps").unlink()
            mine = m.work / (mu["id"] + ".lean")
            mine.write_text(text[:e[0]] + e[2] + text[e[1]:])
            env = dict(os.environ, LEAN_PATH=":".join([str(out)] + path))
            errs = {}

            def comp(x):
                f = mine if x == first else src / (x.replace(".", "/") + ".lean")
                try:
                    r = subprocess.run(["lean", "--run", str(m.work / "compile.lean"), str(f), x, str(m.olean(out, x))], env=env,
                                       capture_output=True, text=True, timeout=1200)
                    errs[x] = r.stdout.splitlines() + (["FATAL " + r.stderr[:300]] if r.returncode else [])
                except subprocess.TimeoutExpired:
                    errs[x] = ["FATAL timeout"]

            comp(first)
            mine.unlink()
            if errs[first]:
                return None
            built, left = {first}, set(todo) - {first}
            goals = sorted({home[n] for n in names if n in reach and home[n] in todo}, key=lambda x: len(mods[x] & todo))
            for g in goals:
                for x in sorted((mods[g] | {g}) & left, key=lambda x: len(mods[x])):
                    comp(x)
                    left.discard(x)
                    built.add(x)
                new, _ = m.graph(out, built)
                broken = m.reaching(new, lambda n: n == "sorryAx" or n in deps and n not in new and home[n] in built)
                failed = [n for n in names if n in broken and home[n] in built]
                if failed:
                    return failed
            return []
        finally:
            shutil.rmtree(out)

    def job(j):
        p, text, name, es = j
        got = 0
        for k, e in enumerate(es):
            if got == per:
                break
            line = text[:e[0]].count("\n")
            ident = f"{seed}-{p.stem}-{name}-{k}"
            old_line = text.splitlines()[line].strip()
            new_line = (text[:e[0]] + e[2] + text[e[1]:]).splitlines()[line].strip()
            mu = {"id": ident, "file": "Model/" + p.name, "definition": name.split(".")[-1], "old": old_line, "new": new_line}
            if ident in done:
                got += 1
                continue
            failed = run(mu, p, text, e)
            if failed is None:
                continue
            got += 1
            with res.open("a") as fh:
                fh.write(json.dumps({**mu, "failed": failed}, ensure_ascii=False) + "\n")
            print(ident, failed[:3] if failed else "SURVIVES " + old_line + "  =>  " + new_line, flush=True)

    with ThreadPoolExecutor(3) as ex:
        list(ex.map(job, jobs))


main()
