#!/usr/bin/env python3
"""Mutation testing. Usage: mutate.py [id-prefix ...]. Mutants are listed in seeded/mutants.py as dicts
id, file (under lean/Verif), definition, old, new, claim. The project is copied to /tmp/mut, one mutant is applied, `lake build` is
run, and one line per mutant is appended to seeded/LOG.jsonl. Property theorems count as failed if their own proof has an error, if
their module depends on a module with an error, or if they use a declaration of their own module that has one. The optional field
refute is a Lean file checked against the mutated definitions alone: an execution on which the property fails."""
import json, os, re, subprocess, sys
ROOT, MUT = "/verif/lean", "/tmp/mut"
ns = {}
exec(open("/verif/seeded/mutants.py").read(), ns)
muts = ns["MUTANTS"]
want = sys.argv[1:]
logp = "/verif/seeded/LOG.jsonl"
done = set()
if os.path.exists(logp):
    for l in open(logp):
        if l.strip(): done.add(json.loads(l).get("id"))
if want: muts = [m for m in muts if any(m["id"].startswith(w) for w in want)]
else: muts = [m for m in muts if m["id"] not in done]
prop_thms = sorted({t for c in json.load(open("/verif/MANIFEST.json"))["claims"] for t in c["theorems"]})

def modfile(m): return m.replace(".", "/") + ".lean"
def decls(path):
    """(line, short name) of each declaration"""
    out = []
    for i, l in enumerate(open(path).read().split("\n"), 1):
        m = re.match(r"(?:private |protected )?(?:theorem|def|abbrev|structure|inductive|instance|lemma|example)\s*([^\s:({\[]*)", l)
        if m: out.append((i, m.group(1) or "example"))
    return out
def enclosing(path, line):
    name = "?"
    for i, n in decls(path):
        if i <= line: name = n
    return name
imports = {}
def imps(mod, base):
    if mod not in imports:
        p = f"{base}/{modfile(mod)}"
        imports[mod] = re.findall(r"^import (Verif\.\S+)", open(p).read(), re.M) if os.path.exists(p) else []
    return imports[mod]
def bodies(path):
    """text of each declaration"""
    lines = open(path).read().split("\n"); ds = decls(path)
    return [(n, "\n".join(lines[i - 1:(ds[k + 1][0] - 1 if k + 1 < len(ds) else len(lines))])) for k, (i, n) in enumerate(ds)]
def dependents(path, names):
    """declarations of the file that use, directly or not, one of the names"""
    bad = set(names); bs = bodies(path); change = True
    while change:
        change = False
        for n, b in bs:
            if n not in bad and n != "example" and any(re.search(r"(?<![\w.'])" + re.escape(x) + r"(?![\w'])", b) for x in bad if x not in ("example", "?")):
                bad.add(n); change = True
    return bad
def closure(mod, base, seen=None):
    seen = set() if seen is None else seen
    for i in imps(mod, base):
        if i not in seen:
            seen.add(i); closure(i, base, seen)
    return seen
where = {}
for dp, _, fs in os.walk(f"{ROOT}/Verif"):
    for f in fs:
        if f.endswith(".lean"):
            mod = os.path.relpath(f"{dp}/{f}", ROOT)[:-5].replace("/", ".")
            src = open(f"{dp}/{f}").read()
            for t in prop_thms:
                if re.search(r"^theorem " + re.escape(t.split(".")[-1]) + r"\b", src, re.M): where.setdefault(t, []).append(mod)

subprocess.run(f"rm -rf {MUT} && cp -a {ROOT} {MUT}", shell=True, check=True)
for m in muts:
    p = f"{MUT}/Verif/{m['file']}"
    orig = open(p).read()
    if orig.count(m["old"]) != 1:
        print(m["id"], "PATTERN OCCURS", orig.count(m["old"]), "TIMES"); continue
    open(p, "w").write(orig.replace(m["old"], m["new"]))
    try:
        r = subprocess.run(["lake", "build"], cwd=MUT, capture_output=True, text=True, timeout=1500)
        txt = r.stdout + r.stderr
    except subprocess.TimeoutExpired as e:
        txt = (e.stdout or b"").decode() + "\nerror: timeout"; 
    errs = re.findall(r"error: (Verif/\S+?\.lean):(\d+):", txt)
    direct = []
    for f, l in errs:
        d = f"{f[6:]}: {enclosing(MUT + '/' + f, int(l))}"
        if d not in direct: direct.append(d)
    badmods = {f[:-5].replace("/", ".") for f, _ in errs}
    failed = []
    for t, mods in where.items():
        for mod in mods:
            names = {d.split(": ")[1] for d in direct if d.split(": ")[0] == mod.replace(".", "/")[6:] + ".lean"}
            if names: names = dependents(f"{MUT}/{modfile(mod)}", names)
            if (closure(mod, MUT) & badmods) or t.split(".")[-1] in names:
                failed.append(t); break
    refuted = None
    if m.get("refute"):
        # a concrete execution of the mutated model on which the property fails, checked against the mutated definitions alone
        open(f"{MUT}/Refute.lean", "w").write(m["refute"])
        deps = re.findall(r"^import (Verif\.\S+)", m["refute"], re.M)
        subprocess.run(["lake", "build"] + deps, cwd=MUT, capture_output=True)
        q = subprocess.run(["lake", "env", "lean", "Refute.lean"], cwd=MUT, capture_output=True, text=True)
        refuted = q.returncode == 0 and "sorry" not in q.stdout
        if not refuted: print(q.stdout[:1500])
    open(p, "w").write(orig)
    rec = {"id": m["id"], "definition": m["definition"], "file": m["file"], "edit": f"{m['old'].strip()}  ==>  {m['new'].strip()}",
           "claim": m["claim"], "first_errors": direct[:12], "theorems_failed": failed, "survived": not errs,
           "theorems_tightened": m.get("tightened", [])}
    if refuted is not None: rec["counterexample_on_mutant"] = m["refute"].strip(); rec["counterexample_checked"] = refuted
    open(logp, "a").write(json.dumps(rec, ensure_ascii=False) + "\n")
    print(m["id"], "SURVIVED" if not errs else "killed", direct[:4], len(failed), "" if refuted is None else "refuted" if refuted else "NOT REFUTED", flush=True)
