#!/usr/bin/env python3
"""Mutation testing with generated wrong programs.

Usage: automutate.py SCRATCH LOG.jsonl [--list] [--from N] [--to N]

Applies small edits (negated conditions, other constants, dropped updates and statements, exchanged
operands) to single lines of the model and rebuilds SCRATCH/lean, a built copy of /verif/lean. One build
is enough to see that a theorem fails; examples that fail are dropped and the build is repeated, because an
example is no theorem. Edits that the model does not compile with are skipped. The order is random but
fixed, so that a prefix of the list is a sample of the whole model.
"""
import json, os, random, re, subprocess, sys, time, glob
scratch, log = sys.argv[1:3]
lean = os.path.join(scratch, "lean")
START = re.compile(r"^(?:@\[[^\]]*\] *)?(?:private |protected |noncomputable )*(theorem|lemma|def|abbrev|structure|inductive|instance|example)\b *([\w.'?!]*)")

def code_lines(src):
    """(line number, definition, text) of the lines of definitions, without comments"""
    depth, name, out, sig = 0, None, [], False
    for i, l in enumerate(src.split("\n")):
        if depth == 0 and l.lstrip().startswith("/-"): depth = 1
        if depth:
            if "-/" in l: depth = 0
            continue
        m = START.match(l)
        if m:
            name = m.group(2) if m.group(1) in ("def", "abbrev") else None
            sig = True
        elif re.match(r"^\S", l) and not l.startswith("|"): name = None
        if name is None: continue
        if l.strip().startswith("--"): continue
        if sig:
            if ":=" in l:
                sig = False
                k = l.index(":=") + 2
                if l[k:].strip(): out.append((i, name, k))
                continue
            if re.match(r"^  \| ", l): sig = False
            else: continue
        out.append((i, name, 0))
    return out

def edits(l, k):
    """edited versions of line l, nothing before column k is changed"""
    pre, b = l[:k], l[k:]
    arrow = b.find("=>") if re.match(r"^\s*\| ", b) else -1
    lo = arrow + 2 if arrow >= 0 else 0
    def at(m, s): return pre + b[:m.start()] + s + b[m.end():]
    for m in re.finditer(r"\bif (.+?) then\b", b):
        if m.start() >= lo and ":" not in m.group(1): yield "the condition is negated", at(m, f"if ¬ ({m.group(1)}) then")
    for x, y in (("∧", "∨"), ("∨", "∧"), ("&&", "||"), ("||", "&&"), ("≤", "<"), (" < ", " ≤ "), (" ≠ ", " = "), ("getLast?", "head?"), ("dropLast", "tail"), (".1", ".2"), (".2", ".1"), ("takeWhile", "dropWhile"), ("dropWhile", "takeWhile"), ("some ", "(fun _ => none) ")):
        for m in re.finditer(re.escape(x), b):
            if m.start() >= lo: yield f"{x.strip()} is {y.strip()}", at(m, y)
    for m in re.finditer(r"\b(true|false)\b", b):
        if m.start() >= lo: yield f"{m.group(1)} is the other", at(m, "false" if m.group(1) == "true" else "true")
    for m in re.finditer(r'b! "((?:[^"\\]|\\.)*)"', b):
        if m.start() >= lo:
            t = m.group(1)
            yield "the text is another", at(m, f'b! "{t}x"')
            if t: yield "the text is empty", at(m, 'b! ""')
    for m in re.finditer(r"(?<![\w.])(\d+)(?![\w.])", b):
        if m.start() >= lo and not (b[:m.start()].count('"') % 2): yield "the number is one greater", at(m, f"({m.group(1)} + 1)")
    for m in re.finditer(r" \+ 1\b", b):
        if m.start() >= lo: yield "one less", at(m, "")
    for m in re.finditer(r"([\w.]+|\([^()]*\)|b! \"[^\"]*\") \+\+ ([\w.]+|\([^()]*\)|b! \"[^\"]*\")", b):
        if m.start() >= lo:
            yield "exchanged", at(m, f"{m.group(2)} ++ {m.group(1)}")
            yield "the second part is left out", at(m, m.group(1))
            yield "the first part is left out", at(m, m.group(2))
    for m in re.finditer(r"\{ ([\w.]+) with [^{}]* \}", b):
        if m.start() >= lo: yield "nothing is stored", at(m, m.group(1))
    for m in re.finditer(r"\.ok \(?\w+\)?|pure \w+", b):
        if m.start() >= lo and not m.group(0).startswith("pure"): yield "panics", at(m, ".panic")
    for m in re.finditer(r"\.panic\b", b):
        if m.start() >= lo: yield "returns instead of panicking", at(m, ".ok default")
    for m in re.finditer(r"\bupd ([\w.()]+) ([\w.()]+) ", b): pass
    if re.match(r"^\s+(let _ ← |[a-zA-Z][\w.]* .*)", b) and not re.match(r"^\s+(let \w|if|else|match|do|by|where|pure|return|some|fun)", b) and "←" not in b and "=>" not in b and ":=" not in b and k == 0:
        yield "the statement is left out", None
    for m in re.finditer(r"\bl\.map \w+|\.reverse\b", b):
        if m.start() >= lo and m.group(0) == ".reverse": yield "not reversed", at(m, "")

def candidates():
    out = []
    for f in sorted(glob.glob(os.path.join(lean, "Verif/Model/*.lean"))):
        src = open(f).read()
        ls = src.split("\n")
        for i, d, k in code_lines(src):
            for e, n in edits(ls[i], k):
                if n == ls[i]: continue
                out.append((os.path.relpath(f, lean), i, d, e, ls[i], n))
    random.Random(20261117).shuffle(out)
    # at most one per definition in each round
    rounds, seen = [], {}
    for c in out:
        r = seen.get((c[0], c[2]), 0)
        seen[(c[0], c[2])] = r + 1
        rounds.append((r, c))
    rounds.sort(key=lambda x: x[0])
    return [c for _, c in rounds]

ERR = re.compile(r"^error: (Verif/[\w/]+\.lean):(\d+):\d+: (.*)$")

def build():
    """builds until the first error that is not in an example"""
    p = subprocess.Popen(["nice", "-n", "5", "lake", "build"], cwd=lean, stdout=subprocess.PIPE, stderr=subprocess.STDOUT, text=True, start_new_session=True)
    errs, out = [], []
    for l in p.stdout:
        out.append(l)
        m = ERR.match(l)
        if not m: continue
        errs.append((m.group(1), int(m.group(2)), m.group(3)))
        f, ln, _ = errs[-1]
        ls = open(os.path.join(lean, f)).read().split("\n")
        if "Verif/Model/" in f or START.match(ls[block(ls, ln)[0]]).group(1) != "example":
            os.killpg(p.pid, 9)
            p.wait()
            return 1, errs, "".join(out)
    return p.wait(), errs, "".join(out)

def block(lines, ln):
    st = [i for i, l in enumerate(lines[:ln]) if START.match(l)]
    if not st: return None
    s = st[-1]
    for e in range(s + 1, len(lines)):
        if re.match(r"^(@\[|private |protected |noncomputable |theorem|lemma|def|abbrev|structure|inductive|instance|example|mutual|end\b|namespace|open|section|/-|set_option|macro|attribute|variable)", lines[e]): return s, e
    return s, len(lines)

def run(c):
    path, i, d, e, old, new = c
    orig = {}
    def write(p, s):
        full = os.path.join(lean, p)
        if p not in orig: orig[p] = open(full).read()
        open(full, "w").write(s)
    lines = open(os.path.join(lean, path)).read().split("\n")
    assert lines[i] == old
    if new is None: del lines[i]
    else: lines[i] = new
    write(path, "\n".join(lines))
    failed, examples, state = [], 0, None
    t0 = time.time()
    try:
        while True:
            rc, errs, out = build()
            if rc == 0: state = "survived"; break
            if not errs: state = "broken"; failed = [out[-300:]]; break
            if any("Verif/Model/" in f for f, _, _ in errs): state = "invalid"; break
            drop = {}
            for f, ln, msg in errs:
                ls = open(os.path.join(lean, f)).read().split("\n")
                b = block(ls, ln)
                kind, name = START.match(ls[b[0]]).groups()
                if kind == "example": drop.setdefault(f, set()).add(b)
                elif kind in ("theorem", "lemma"): failed.append(name)
                else: failed.append(f"{f}: {name}")
            if failed: state = "killed"; break
            for f, bs in drop.items():
                ls = open(os.path.join(lean, f)).read().split("\n")
                for s, e2 in sorted(bs, reverse=True): ls[s:e2] = [""]
                examples += len(bs)
                write(f, "\n".join(ls))
    finally:
        for p, s in orig.items(): open(os.path.join(lean, p), "w").write(s)
    return dict(file=path, line=i + 1, definition=d, edit=e, old=old.strip(), new=(new or "").strip(), state=state, failed=sorted(set(failed)), failed_examples=examples, seconds=round(time.time() - t0))

C = candidates()
a = int(sys.argv[sys.argv.index("--from") + 1]) if "--from" in sys.argv else 0
z = int(sys.argv[sys.argv.index("--to") + 1]) if "--to" in sys.argv else len(C)
if "--list" in sys.argv:
    print(len(C))
    for n, c in enumerate(C[a:z], a): print(n, c[0], c[1] + 1, c[2], "|", c[3], "|", (c[5] or "-").strip()[:150])
    sys.exit()
for n in range(a, z):
    r = dict(id=f"A{n:04d}", **run(C[n]))
    with open(log, "a") as f: f.write(json.dumps(r, ensure_ascii=False) + "\n")
    print(r["id"], r["state"], r["definition"], r["edit"], r["failed"][:3], r["seconds"], flush=True)
