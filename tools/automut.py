#!/usr/bin/env python3
"""Automatic mutation of the model: every numeral, operator, Boolean and string literal of a model file, one at a time.

Each mutant is checked like those of mutate.py, but the run ends at the first error, so it only says whether anything
at all fails (and what first); failing examples and the conformance tests do not count.  Mutants that do not elaborate themselves are not counted.

usage: automut.py FILE [-j N] [-s START] [-k STEP]     prints one line per mutant, survivors to /tmp/am/survivors.txt
"""
import os, re, subprocess, sys, time, random
from concurrent.futures import ThreadPoolExecutor
sys.argv, ARGS = [sys.argv[0]], sys.argv[1:]
sys.path.insert(0, os.path.dirname(os.path.abspath(__file__)))
import mutate as M
SCR = "/tmp/am"
os.makedirs(SCR, exist_ok=True)
def code_spans(t):
    """positions that are code: outside comments"""
    keep = [True] * len(t); i = 0; depth = 0
    while i < len(t):
        if t.startswith("/-", i): depth += 1; keep[i] = keep[i+1] = False; i += 2; continue
        if depth and t.startswith("-/", i): depth -= 1; keep[i] = keep[i+1] = False; i += 2; continue
        if depth: keep[i] = False; i += 1; continue
        if t.startswith("--", i):
            while i < len(t) and t[i] != "\n": keep[i] = False; i += 1
            continue
        i += 1
    return keep
RULES = [
 (r"(?<![\w.'])0x([0-9A-Fa-f]+)\b", lambda m: "0x%X" % (int(m.group(1), 16) + 1)),
 (r"(?<![\w.'xA-Fa-f])(\d+)(?![\w.])", lambda m: str(int(m.group(1)) + 1)),
 (r" < ", lambda m: " ≤ "), (r" ≤ ", lambda m: " < "), (r" > ", lambda m: " ≥ "), (r" ≥ ", lambda m: " > "),
 (r" && ", lambda m: " || "), (r" \|\| ", lambda m: " && "), (r" ∧ ", lambda m: " ∨ "), (r" ∨ ", lambda m: " ∧ "),
 (r" \+ ", lambda m: " - "), (r" - ", lambda m: " + "), (r" \* ", lambda m: " + "), (r" / ", lambda m: " * "), (r" % ", lambda m: " / "),
 (r"\btrue\b", lambda m: "false"), (r"\bfalse\b", lambda m: "true"),
 (r" == ", lambda m: " != "), (r" != ", lambda m: " == "), (r" ≠ ", lambda m: " = "), (r"(?<=if )([^\n]*?) = ", lambda m: m.group(1) + " ≠ "),
 (r"\bisSome\b", lambda m: "isNone"), (r"\.dropLast\b", lambda m: ".tail"), (r"\.take\b", lambda m: ".drop"), (r"\.drop\b", lambda m: ".take"),
 (r"(?<![\w])!(?=[\w(])", lambda m: ""), (r"\.head\?", lambda m: ".getLast?"), (r"\.getLast\?", lambda m: ".head?"),
 (r'b! "([^"\n]+)"', lambda m: 'b! "' + m.group(1)[:-1] + '"'), (r'b! "([^"\n]+)"', lambda m: 'b! "' + m.group(1) + 'z"'),
 (r"<<<", lambda m: ">>>"), (r">>>", lambda m: "<<<"), (r"&&&", lambda m: "|||"), (r"\|\|\|", lambda m: "&&&"),
 (r"\{ (\w+) with [^{}]* \}", lambda m: m.group(1)),
 (r"\bmin\b", lambda m: "max"), (r"\bmax\b", lambda m: "min"),
]
def mutants(f):
    mod = "Verif.Model." + f; t = M.MODS[mod][1]; keep = code_spans(t); out = []
    for rx, fn in RULES:
        for m in re.finditer(rx, t):
            if not all(keep[m.start():m.end()]): continue
            new = fn(m)
            if new == m.group(0): continue
            line = t.count("\n", 0, m.start())
            L = t.split("\n")[line].strip()
            if re.match(r"(theorem|example|namespace|open|set_option|import|decreasing_by|termination_by|end\b)", L): continue
            # enclosing definition
            d = re.findall(r"^(?:private |protected |@\[[^\]]*\] *)*(?:def|structure|inductive|abbrev|instance|theorem|class) *(\S*)", t[:m.end()], re.M)
            out.append((m.start(), m.end(), new, d[-1] if d else "?", L))
    out.sort(key=lambda x: (x[0], x[2]))
    return mod, t, out
def run(job):
    f, k, mod, t, mu = job
    a, b, new, d, L = mu
    body = t[:a] + new + t[b:]
    deps = [x for x in M.dependents(mod) if ".Tests." not in x]
    ext = []
    for x in deps:
        for i in M.MODS[x][0]:
            if i not in deps and i not in ext: ext.append(i)
    txt = "".join(f"import {i}\n" for i in ext); spans = []
    for x in deps:
        s = body if x == mod else M.MODS[x][1]
        spans.append((txt.count("\n") + 1, x)); txt += f"section\n{s}\nend\n"
    path = f"{SCR}/{f}{k}.lean"; open(path, "w").write(txt)
    t0 = time.time()
    ma, sl = os.openpty()  # a terminal, so that Lean does not buffer its messages
    pr = subprocess.Popen(["lake", "env", "lean", "-DmaxRecDepth=2000", path], cwd=M.LEAN, stdout=sl, stderr=sl, close_fds=True)
    os.close(sl); first = None; buf = b""; ex = 0
    def lines_of():
        nonlocal buf
        while True:
            try: d = os.read(ma, 65536)
            except OSError: return
            if not d: return
            buf += d
            while b"\n" in buf:
                l, buf = buf.split(b"\n", 1); yield l.decode(errors="replace")
    for line in lines_of():
        m = re.search(r"\.lean:(\d+):\d+: error", line)
        if m:
            ln = int(m.group(1)); x = [s for s in spans if s[0] <= ln][-1][1]
            lines = txt.split("\n"); nm = "?"
            for q in range(min(ln, len(lines)) - 1, -1, -1):
                mm = re.match(r"(?:@\[[^\]]*\] *)?(?:private |protected )*(theorem|def|example|instance|abbrev|inductive|structure)\b *(\S*)", lines[q])
                if mm: nm = mm.group(2) if mm.group(1) != "example" else "example"; break
            if nm == "example": ex += 1; continue
            first = (x, nm); break
    subprocess.run(["pkill", "-9", "-f", path]); pr.kill(); rc = pr.wait()
    os.close(ma); os.remove(path)
    kind = "SURVIVED" if first is None else ("invalid" if first[0] == mod else "killed")
    if first is None and rc not in (0, 1): kind = f"CRASH{rc}"
    dt = time.time() - t0
    msg = f"{f}{k} {kind} [{dt:.0f}s] {d}: {L[:110]!r} {t[a:b]!r}->{new!r} by {first}" + (f" ({ex} examples)" if ex else "")
    print(msg, flush=True)
    if kind not in ("killed", "invalid"):
        open(f"{SCR}/survivors.txt", "a").write(msg + "\n")
    return kind
if __name__ == "__main__":
    a = ARGS; j = 2; st = 0; step = 1
    if "-j" in a: i = a.index("-j"); j = int(a[i+1]); del a[i:i+2]
    if "-s" in a: i = a.index("-s"); st = int(a[i+1]); del a[i:i+2]
    if "-k" in a: i = a.index("-k"); step = int(a[i+1]); del a[i:i+2]
    for f in a:
        mod, t, ms = mutants(f)
        jobs = [(f, k, mod, t, mu) for k, mu in enumerate(ms)][st::step]
        print(f"# {f}: {len(ms)} mutants, running {len(jobs)}", flush=True)
        with ThreadPoolExecutor(j) as ex: rs = list(ex.map(run, jobs))
        print(f"# {f}: " + ", ".join(f"{k} {rs.count(k)}" for k in sorted(set(rs))), flush=True)
