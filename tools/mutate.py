#!/usr/bin/env python3
"""Mutation testing of the theorems.

usage: mutate.py MUTANTS.json RESULTS.jsonl

Each mutant is {"id", "file", "old", "new", "definition", "edit", "claims": [...]}: in a scratch copy the text `old`
of `lean/Verif/<file>` is replaced by `new`, and every module that imports it is compiled again.  A file with errors
is compiled all the same (its broken theorems contain `sorry`), so one can tell for each theorem of the
manifest whether it still has a proof.  With NARROW=1 in the environment only the modules needed for the theorems
of the expected claims are compiled again.
"""
import hashlib, json, os, pathlib, re, shutil, subprocess, sys
from concurrent.futures import ThreadPoolExecutor, wait, FIRST_COMPLETED

root = pathlib.Path(__file__).resolve().parent.parent
work = pathlib.Path("/tmp/mut")

COMPILE = r'''
import Lean
open Lean Elab
unsafe def main (args : List String) : IO UInt32 := do
  let [file, mod, out] := args | return 2
  initSearchPath (← findSysroot)
  enableInitializersExecution
  let input ← IO.FS.readFile file
  let ictx := Parser.mkInputContext input file
  let (header, pstate, msgs) ← Parser.parseHeader ictx
  let opts : Options := Elab.async.set {} false
  let (env, msgs) ← processHeader header opts msgs ictx 0 (leakEnv := true) (mainModule := mod.toName)
  let env := env.setMainModule mod.toName
  let s ← IO.processCommands ictx pstate (Command.mkState env msgs opts)
  for m in s.commandState.messages.toList do
    if m.severity == .error then
      let t ← m.data.toString
      IO.println s!"{m.pos.line}: {(t.splitOn "\n").headD ""}"
  let env := s.commandState.env
  writeModule env out
  let mine : Name → Bool := fun n => n == ``sorryAx || match env.getModuleIdxFor? n with
    | some i => (env.header.moduleNames[i]!).getRoot == `Verif
    | none => true
  let mut txt := ""
  for (n, c) in env.constants.map₂.toList do
    txt := txt ++ toString n
    for d in c.getUsedConstantsAsSet.toList do
      if mine d then txt := txt ++ "\t" ++ toString d
    txt := txt ++ "\n"
  IO.FS.writeFile (out ++ ".deps") txt
  return 0
'''


def strip_examples(text):
    out, skip = [], False
    for line in text.splitlines():
        if re.match(r"(example\b|theorem demo_)", line):
            if out and out[-1].endswith("-/"):
                i = len(out) - 1
                while not out[i].startswith("/-"):
                    i -= 1
                if out[i].startswith("/--"):
                    del out[i:]
            while out and re.match(r"(open|set_option) .* in$", out[-1]):
                out.pop()
            skip = True
        elif skip and re.match(r"\S", line):
            skip = False
        if not skip:
            out.append(line)
    return "\n".join(out) + "\n"


def setup():
    work.mkdir(exist_ok=True)
    src = work / "lean"
    if src.exists():
        shutil.rmtree(src)
    shutil.copytree(root / "lean", src, ignore=shutil.ignore_patterns(".lake"))
    shutil.copy(root / "MANIFEST.json", work / "MANIFEST.json")
    for p in (src / "Verif").rglob("*.lean"):
        p.write_text(strip_examples(p.read_text()))
    (work / "compile.lean").write_text(COMPILE)
    out = subprocess.run(["lake", "env"], cwd=root / "lean", capture_output=True, text=True).stdout
    path = re.search(r"^LEAN_PATH=(.*)$", out, re.M).group(1).split(":")
    return src, [p for p in path if "/verif/" not in p]


def modname(p, src):
    return p.relative_to(src).with_suffix("").as_posix().replace("/", ".")


def olean(out, m):
    return out / (m.replace(".", "/") + ".olean")


def build(todo, mods, src, out, path, stop=None):
    """Compile the modules `todo` into `out`; returns their errors.  Gives up when `stop` has errors."""
    env = dict(os.environ, LEAN_PATH=":".join([str(out)] + path))
    errors = {}

    def comp(m):
        o = olean(out, m)
        o.parent.mkdir(parents=True, exist_ok=True)
        try:
            r = subprocess.run(["lean", "--run", str(work / "compile.lean"), str(src / (m.replace(".", "/") + ".lean")), m,
                                str(o)], env=env, capture_output=True, text=True, timeout=900)
            errors[m] = r.stdout.splitlines() + (["FATAL " + r.stderr[:300]] if r.returncode else [])
        except subprocess.TimeoutExpired:
            errors[m] = ["FATAL timeout"]
        return m

    left, running, fin = set(todo), {}, set()
    with ThreadPoolExecutor(4) as ex:
        while left or running:
            for m in sorted(left):
                if all(d in fin or d not in todo for d in mods[m]):
                    running[ex.submit(comp, m)] = m
                    left.discard(m)
            done, _ = wait(running, return_when=FIRST_COMPLETED)
            for f in done:
                m = running.pop(f)
                f.result()
                fin.add(m)
                if m == stop and errors[m]:
                    left.clear()
    return errors


def graph(out, mods):
    deps, home = {}, {}
    for m in mods:
        f = pathlib.Path(str(olean(out, m)) + ".deps")
        if f.exists():
            for line in f.read_text().splitlines():
                n, *ds = line.split("\t")
                deps[n] = ds
                home[n] = m
    return deps, home


def reaching(deps, bad):
    """The constants that depend on a constant for which `bad` holds."""
    users = {}
    for n, ds in deps.items():
        for d in ds:
            users.setdefault(d, []).append(n)
    seen = {n for n in list(deps) + list(users) if bad(n)}
    stack = list(seen)
    while stack:
        for u in users.get(stack.pop(), []):
            if u not in seen:
                seen.add(u)
                stack.append(u)
    return seen


def main():
    muts = json.loads(pathlib.Path(sys.argv[1]).read_text())
    res = pathlib.Path(sys.argv[2])
    done = set()
    if res.exists():
        done = {json.loads(l)["id"] for l in res.read_text().splitlines()}
    src, path = setup()
    mods = {}
    for p in sorted((src / "Verif").rglob("*.lean")):
        mods[modname(p, src)] = set(re.findall(r"^import (Verif\.\S+)", p.read_text(), re.M))
    def closure(m):
        return mods[m].union(*map(closure, mods[m]))

    mods = {m: closure(m) for m in mods}
    base = work / "base"
    stamp = work / "base.json"
    old = json.loads(stamp.read_text()) if stamp.exists() else {}
    key = {}
    for m in sorted(mods, key=lambda m: len(mods[m])):
        text = (src / (m.replace(".", "/") + ".lean")).read_text()
        key[m] = hashlib.sha256((COMPILE + text + "".join(key[d] for d in sorted(mods[m]))).encode()).hexdigest()
    errors = build({m for m in mods if old.get(m) != key[m]}, mods, src, base, path)
    assert not any(errors.values()), {k: v for k, v in errors.items() if v}
    stamp.write_text(json.dumps(key))
    deps, home = graph(base, mods)
    names = [t for c in json.loads((work / "MANIFEST.json").read_text())["claims"] for t in c["theorems"]]
    assert all(n in deps for n in names)
    for mu in muts:
        if mu["id"] in done:
            continue
        p = src / "Verif" / mu["file"]
        orig = p.read_text()
        if orig.count(mu["old"]) < 1 or (orig.count(mu["old"]) > 1 and not mu.get("all")):
            print(mu["id"], "text found", orig.count(mu["old"]), "times", flush=True)
            continue
        first = modname(p, src)
        hit = {n for n in deps if home[n] == first and mu["definition"] in n.split(".")}
        if not hit:
            print(mu["id"], "definition not found", flush=True)
            continue
        p.write_text(orig.replace(mu["old"], mu["new"]))
        todo = {home[n] for n in reaching(deps, hit.__contains__)}
        if os.environ.get("NARROW") and mu["claims"]:
            want = {home[n] for n in names if re.search(r"C\d+", n).group(0) in mu["claims"]}
            todo &= want.union(*(mods[m] for m in want))
            todo.add(first)
        out = work / "out"
        if out.exists():
            shutil.rmtree(out)
        subprocess.run(["cp", "-rs", str(base), str(out)], check=True)
        for m in todo:
            olean(out, m).unlink()
            pathlib.Path(str(olean(out, m)) + ".deps").unlink()
        errors = build(todo, mods, src, out, path, first)
        p.write_text(orig)
        if errors[first]:
            print(mu["id"], "does not compile:", errors[first][:3], flush=True)
            continue
        if os.environ.get("NARROW") and mu["claims"]:
            for m in {home[n] for n in reaching(deps, hit.__contains__)} - todo:
                pathlib.Path(str(olean(out, m)) + ".deps").unlink()
            seen = todo
        else:
            seen = set(mods)
        new, _ = graph(out, mods)
        broken = reaching(new, lambda n: n == "sorryAx" or n in deps and n not in new and home[n] in seen)
        failed = [n for n in names if n in broken and home[n] in seen]
        fc = sorted({re.search(r"C\d+", f).group(0) for f in failed})
        missed = [c for c in mu["claims"] if c not in fc]
        with res.open("a") as fh:
            fh.write(json.dumps({**mu, "failed": failed, "failed_claims": fc, "missed": missed,
                                 "errors": {k: v[:4] for k, v in errors.items() if v}}, ensure_ascii=False) + "\n")
        print(mu["id"], "expected", mu["claims"], "failed", fc, "MISSED" if missed else "", missed, flush=True)


if __name__ == "__main__":
    main()
