#!/usr/bin/env python3
"""Mutation testing of the theorems.

For each mutant (a textual edit of one model file) the edited module and every module that depends on it are
concatenated into one scratch file outside /verif, which imports the untouched modules.  Lean keeps going after a
failed proof, and `#print axioms` then tells for every property theorem whether its proof still stands (a theorem
that used a failed lemma depends on the placeholder axiom, one that did not elaborate is missing).

usage: mutate.py MUTANTS.py [-j N] [id ...]      appends to seeded/LOG.jsonl
"""
import json, os, re, subprocess, sys, runpy, time
from concurrent.futures import ThreadPoolExecutor
ROOT = os.path.dirname(os.path.dirname(os.path.abspath(__file__)))
LEAN = os.environ.get("MUT_LEAN", os.path.join(ROOT, "lean")); SCR = os.environ.get("MUT_SCRATCH", "/tmp/mut")
def mods():
    out = {}
    for d in ("Model", "Spec", "Proofs", "Props"):
        p = os.path.join(LEAN, "Verif", d)
        for f in sorted(os.listdir(p)):
            if f.endswith(".lean"):
                t = open(os.path.join(p, f)).read()
                imps = re.findall(r"^import (\S+)", t, re.M)
                out[f"Verif.{d}.{f[:-5]}"] = (imps, re.sub(r"^import \S+\n", "", t, flags=re.M))
    return out
MODS = mods()
ORDER = []
def visit(m):
    if m in ORDER or m not in MODS: return
    for i in MODS[m][0]: visit(i)
    ORDER.append(m)
for m in MODS: visit(m)
def dependents(m):
    s = {m}
    for x in ORDER:
        if any(i in s for i in MODS[x][0]): s.add(x)
    return [x for x in ORDER if x in s]
def run(mu):
    mid, mod, edits = mu["id"], "Verif.Model." + mu["file"], mu["edits"]
    body = MODS[mod][1]
    for old, new in edits:
        if body.count(old) != 1: return mu, None, f"edit matches {body.count(old)} times: {old!r}", 0
        body = body.replace(old, new)
    deps = dependents(mod)
    ext = []
    for d in deps:
        for i in MODS[d][0]:
            if i not in deps and i not in ext: ext.append(i)
    names = []; txt = "".join(f"import {i}\n" for i in ext)
    spans = []
    for d in deps:
        t = body if d == mod else MODS[d][1]
        spans.append((txt.count("\n") + 1, d)); txt += f"section\n{t}\nend\n"
        if d.startswith("Verif.Props."):
            names += re.findall(r"^(?:private )?theorem ((?:C\d{2,3})_\w+)", MODS[d][1], re.M)
    for n in names: txt += f"#print axioms Verif.{n}\n"
    path = os.path.join(SCR, f"{mid}.lean"); open(path, "w").write(txt)
    t0 = time.time()
    r = subprocess.run(["lake", "env", "lean", "-DmaxRecDepth=2000", path], cwd=LEAN, capture_output=True, text=True, timeout=4000)
    out = r.stdout + r.stderr; open(os.path.join(SCR, f"{mid}.out"), "w").write(out)
    ok = set(); bad = set()
    flat = re.sub(r"\n\s+", " ", out)
    for m in re.finditer(r"'Verif\.(C\d{2,3}_\w+)' (depends on axioms: \[([^\]]*)\]|does not depend)", flat):
        axs = {x.strip() for x in (m.group(3) or "").split(",")} - {""}
        # a lemma the kernel rejected shows up as an axiom of its own name
        (ok if axs <= {"propext", "Classical.choice", "Quot.sound"} else bad).add(m.group(1))
    failed = [n for n in names if n not in ok]
    # first failing declarations
    lines = txt.split("\n"); decl = []
    for m in re.finditer(r"\.lean:(\d+):\d+: error", out):
        ln = int(m.group(1))
        for k in range(min(ln, len(lines)) - 1, -1, -1):
            mm = re.match(r"(?:@\[[^\]]*\] *)?(?:private |protected )*(theorem|def|example|instance|abbrev|inductive|structure)\b *(\S*)", lines[k])
            if mm:
                d = [s for s in spans if s[0] <= ln][-1][1]
                nm = d + ":" + (mm.group(2) if mm.group(1) != "example" else "example")
                if nm not in decl: decl.append(nm)
                break
    return mu, failed, decl, time.time() - t0
def main():
    a = sys.argv[1:]; j = 4; log = True
    ms = runpy.run_path(a.pop(0))["MUTANTS"]
    if "-j" in a: i = a.index("-j"); j = int(a[i + 1]); del a[i:i + 2]
    if "-n" in a: a.remove("-n"); log = False
    if a: ms = [m for m in ms if m["id"] in a]
    with ThreadPoolExecutor(j) as ex:
        for mu, failed, decl, dt in ex.map(run, ms):
            if failed is None: print(mu["id"], "ERROR", decl, flush=True); continue
            props = sorted({f.split("_")[0] for f in failed})
            miss = [c for c in mu["breaks"] if c not in props]
            print(f"{mu['id']} [{dt:.0f}s] breaks={mu['breaks']} SURVIVED={miss} failedprops={props} first={decl[:4]}", flush=True)
            if log:
                rec = dict(id=mu["id"], definition=mu["definition"], edit=mu["what"], claim_broken=mu["breaks"],
                           theorems_failed=failed, first_failing_declarations=decl[:6],
                           claims_not_caught=miss, theorems_tightened=mu.get("tightened", []))
                with open(os.path.join(ROOT, "seeded", "LOG.jsonl"), "a") as f: f.write(json.dumps(rec) + "\n")
if __name__ == "__main__": main()
