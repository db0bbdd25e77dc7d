#!/usr/bin/env python3
"""Check the theorems against wrong programs.

usage: mutate.py MUTANTS.json OUT.jsonl [jobs]

A mutant is {"file": "Verif/Model/X.lean", "definition": "...", "old": "...", "new": "...", "edit": "...", "breaks": ["C01", ...]}.
With "only": [modules], just these and what they need are checked (for definitions that nearly everything imports).
For each one the mutated module and everything that imports it are written into one scratch file (outside this repository) and
checked with Lean.  A theorem whose proof fails is kept by Lean with `sorryAx`, so the property theorems that no longer hold up are
exactly those that depend on `sorryAx` or are missing.
"""
import json, os, re, subprocess, sys, glob, concurrent.futures as cf, time
ROOT = os.path.join(os.path.dirname(os.path.abspath(__file__)), "..", "lean")
SCRATCH = "/tmp/mut"

def modules():
    d = {}
    for f in glob.glob(ROOT + "/Verif/**/*.lean", recursive=True):
        rel = os.path.relpath(f, ROOT)
        name = rel[:-5].replace("/", ".")
        txt = open(f).read()
        imps = re.findall(r"^import (\S+)", txt, re.M)
        d[name] = (rel, txt, imps)
    return d

def closure(d, m):
    res = {m}
    ch = True
    while ch:
        ch = False
        for n, (_, _, imps) in d.items():
            if n not in res and any(i in res for i in imps):
                res.add(n); ch = True
    order = []
    def visit(n):
        if n in order: return
        for i in d[n][2]:
            if i in res: visit(i)
        order.append(n)
    for n in sorted(res): visit(n)
    return order

TAIL = r"""
open Lean in
run_cmd do
  let env ← getEnv
  let names : List String := [NAMES]
  for s in names do
    let n : Name := (`Verif).append s.toName
    let n := if env.contains n then n else s.toName
    if env.contains n then
      let ax ← Lean.Elab.Command.liftCoreM (Lean.collectAxioms n)
      if ax.contains ``sorryAx then logInfo m!"MUTFAIL {s}"
    else logInfo m!"MUTFAIL {s}"
  logInfo m!"MUTEND"
"""

def drop_proof(src, line):
    """The source with the proof of the declaration around `line` replaced by `sorry`, and the name of the declaration."""
    lines = src.split("\n")
    a = line - 1
    while a >= 0 and not re.match(r"(theorem|lemma|example)\b", lines[a]): a -= 1
    if a < 0: return None
    b = a + 1
    while b < len(lines) and (lines[b] == "" or lines[b][0] in " \t·"): b += 1
    decl = "\n".join(lines[a:b])
    m = re.search(r" :=( by)?$", decl, re.M) or re.search(r" := ", decl)
    if m is None or decl[m.end():].strip() == "sorry": return None
    pad = "\n" * decl[m.start():].count("\n")
    return "\n".join(lines[:a]) + "\n" + decl[:m.start()] + " := sorry" + pad + "\n" + "\n".join(lines[b:]), decl.split()[1]

def run(idx, mu, d):
    name = mu["file"][:-5].replace("/", ".")
    rel, txt, _ = d[name]
    if mu["old"] is not None:
        if txt.count(mu["old"]) != 1:
            return {**mu, "error": f"old text occurs {txt.count(mu['old'])} times"}
        txt = txt.replace(mu["old"], mu["new"])
    order = closure(d, name)
    if "only" in mu:
        need = set()
        def want(n):
            if n in need or n not in order: return
            need.add(n)
            for i in d[n][2]: want(i)
        for o in mu["only"]: want(o)
        order = [n for n in order if n in need]
    imps, body, thms, starts = [], [], [], []
    for n in order:
        t = txt if n == name else d[n][1]
        for i in d[n][2]:
            if i not in order and i not in imps: imps.append(i)
        body.append((n, re.sub(r"^import .*$", "", t, flags=re.M)))
        if ".Props." in n:
            thms += re.findall(r"^theorem (C\d\d+_\w+)", t, re.M)
    out = "import Lean\n" + "".join(f"import {i}\n" for i in imps)
    for n, b in body:
        starts.append((out.count("\n") + 1, n))
        out += b + "\n"
    # a wrong equation makes the kernel run out of memory on some terms: let the scratch file evaluate them instead
    out = out.replace("decide +kernel", "native" + "_decide")
    out += TAIL.replace("NAMES", ", ".join(f'"{t}"' for t in thms))
    path = f"{SCRATCH}/M{idx}.lean"
    t0 = time.time()
    dropped = []
    while True:
        open(path, "w").write(out)
        try:
            p = subprocess.run(["lake", "env", "lean", "-M", "7000", path], cwd=ROOT, capture_output=True, text=True, timeout=3000)
            o = p.stdout + p.stderr
        except subprocess.TimeoutExpired:
            o = "TIMEOUT"
        open(path + ".out", "w").write(o)
        # a proof that timed out leaves no constant behind, and what uses it looks fine: go on with the statement alone
        gone = [u for u in set(re.findall(r"unknown constant '(?:Verif\.)?([\w.']+)'", o)) if u not in dropped]
        gone = [u for u in gone if re.search(rf"^theorem {re.escape(u)}\b", out, re.M)]
        if gone and o != "TIMEOUT" and len(dropped) <= 12:
            at = out[:re.search(rf"^theorem {re.escape(gone[0])}\b", out, re.M).start()].count("\n") + 1
            cut = drop_proof(out, at)
            if cut is not None:
                out, name_ = cut
                dropped.append(name_)
                continue
        if "MUTEND" in o or o == "TIMEOUT": break
        # Lean ran out of memory after an error: count the declaration with the last error as failed and go on without its proof
        errs = [int(x) for x in re.findall(r"M\d+\.lean:(\d+):\d+: error", o)]
        cut = drop_proof(out, errs[-1]) if errs else None
        if cut is None or len(dropped) > 12:
            return {**mu, "error": "did not run: " + o[:200]}
        out, name_ = cut
        dropped.append(name_)
    failed = re.findall(r"MUTFAIL (\w+)", o)
    lines = out.split("\n")
    decls = []
    for m in re.finditer(r"M\d+\.lean:(\d+):\d+: error", o):
        ln = int(m.group(1)) - 1
        while ln >= 0 and not re.match(r"(theorem|def|noncomputable def|lemma|example|instance)\b", lines[ln]): ln -= 1
        h = lines[ln].split()[:2]
        h = h[1] if h and h[0] != "example" else "example"
        if h not in decls: decls.append(h)
    return {**mu, "failed": failed, "errors_in": decls + [x for x in dropped if x not in decls], "seconds": round(time.time() - t0), "done": "MUTFAIL" in o or "TIMEOUT" not in o}

def main():
    mus = json.load(open(sys.argv[1]))
    outf = sys.argv[2]
    jobs = int(sys.argv[3]) if len(sys.argv) > 3 else 3
    os.makedirs(SCRATCH, exist_ok=True)
    d = modules()
    done = set()
    if os.path.exists(outf):
        for l in open(outf):
            r = json.loads(l); done.add((r["file"], r["old"], r["new"]))
    todo = [(i, m) for i, m in enumerate(mus) if (m["file"], m["old"], m["new"]) not in done]
    with cf.ThreadPoolExecutor(jobs) as ex:
        futs = {ex.submit(run, i, m, d): m for i, m in todo}
        for f in cf.as_completed(futs):
            r = f.result()
            if "error" not in r:
                open(outf, "a").write(json.dumps(r) + "\n")
            broken = set(r["breaks"])
            hit = {re.match(r'C\d+', x).group() for x in r.get("failed", [])}
            print(r["definition"], "|", r["edit"], "| breaks", sorted(broken), "| failed", r.get("failed"), "| NOT CAUGHT", sorted(broken - hit), r.get("error", ""), r.get("seconds"), flush=True)

if __name__ == "__main__":
    main()
