#!/usr/bin/env python3
"""Mutation testing of the theorems.

Usage: mutate.py SCRATCH MUTANTS.json LOG.jsonl [ID...]

SCRATCH/lean is a built copy of /verif/lean, SCRATCH/deps.txt lists for each property theorem the
constants it depends on (written by Deps.lean). Each mutant edits one definition of the model. The copy
is rebuilt; declarations that no longer check are replaced by `sorry` (examples are dropped), so
that the files after them are still checked. A property theorem counts as failed if its own proof
fails or one of the lemmas it depends on fails. Appends one JSON line per mutant to the log.
"""
import json, os, re, subprocess, sys, time

scratch, mutants, log = sys.argv[1:4]
only = set(sys.argv[4:])
lean = os.path.join(scratch, "lean")
DECL = re.compile(r"^(?:@\[[^\]]*\] *)?(?:private |protected |noncomputable )*(theorem|lemma|def|abbrev|structure|inductive|instance|example|mutual|end|namespace|open|section|/--|/-!|/-|set_option|macro|attribute)\b|^/-")

def deps():
    d = {}
    for l in open(os.path.join(scratch, "deps.txt")):
        n, r = l.rstrip("\n").split(": ", 1)
        d[n] = set(r.split())
    return d

def build():
    p = subprocess.run(["nice", "-n", "5", "lake", "build"], cwd=lean, stdout=subprocess.PIPE, stderr=subprocess.STDOUT, text=True, timeout=3000)
    errs = {}
    for m in re.finditer(r"^error: (Verif/[\w/]+\.lean):(\d+):\d+: (.*)$", p.stdout, re.M):
        errs.setdefault(m.group(1), []).append((int(m.group(2)), m.group(3)))
    return p.returncode, errs, p.stdout

def starts(lines):
    out = []
    for i, l in enumerate(lines):
        if re.match(r"^(@\[[^\]]*\] *)?(private |protected |noncomputable )*(theorem|lemma|def|abbrev|structure|inductive|instance|example)\b", l):
            out.append(i)
    return out

def block(lines, ln):
    """start and end (exclusive) of the declaration that contains line ln (1-based)"""
    st = starts(lines)
    cand = [i for i in st if i <= ln - 1]
    if not cand: return None
    s = cand[-1]
    e = len(lines)
    for i in range(s + 1, len(lines)):
        if re.match(r"^(@\[|private |protected |noncomputable |theorem|lemma|def|abbrev|structure|inductive|instance|example|mutual|end\b|namespace|open|section|/-|set_option|macro|attribute|termination_by|decreasing_by|variable)", lines[i]):
            e = i; break
    return s, e

def cut(text):
    """the statement of a theorem, without its proof"""
    depth = 0
    i = 0
    lines = text.split("\n")
    # pattern matching definitions
    pos = 0
    best = None
    while i < len(text):
        c = text[i]
        if c in "([{⟨": depth += 1
        elif c in ")]}⟩": depth -= 1
        elif depth == 0 and text.startswith(":=", i):
            # `let x := ..` in statements does not occur at depth 0 before the proof, `have` neither
            best = i; break
        elif depth == 0 and text.startswith("\n  | ", i):
            best = i; break
        i += 1
    return text[:best].rstrip() if best is not None else None

def run(m, D):
    orig = {}
    def write(path, s):
        full = os.path.join(lean, path)
        if path not in orig: orig[path] = open(full).read()
        open(full, "w").write(s)
    path = "Verif/" + m["file"]
    src = open(os.path.join(lean, path)).read()
    if src.count(m["old"]) != m.get("count", 1):
        return {"id": m["id"], "error": f"old text occurs {src.count(m['old'])} times"}
    write(path, src.replace(m["old"], m["new"]))
    failed, examples, broken = set(), 0, []
    t0 = time.time()
    try:
        for rnd in range(40):
            rc, errs, out = build()
            if rc == 0: break
            if not errs:
                broken.append(out[-800:]); break
            progress = False
            for f, es in errs.items():
                lines = open(os.path.join(lean, f)).read().split("\n")
                blocks = {}
                for ln, msg in es:
                    b = block(lines, ln)
                    if b: blocks[b] = msg
                for (s, e), msg in sorted(blocks.items(), reverse=True):
                    text = "\n".join(lines[s:e])
                    kind = re.match(r"^(?:@\[[^\]]*\] *)?(?:private |protected |noncomputable )*(\w+)", text).group(1)
                    if kind == "example":
                        examples += 1
                        lines[s:e] = [""]
                        progress = True
                    elif kind in ("theorem", "lemma"):
                        name = re.match(r"^(?:@\[[^\]]*\] *)?(?:private |protected )*\w+ +([\w.'₀-₉]+)", text).group(1)
                        full = name if name.startswith("Gopoet.") else name
                        st = cut(text)
                        if ("Gopoet." + name) in failed or st is None:
                            # the statement itself does not check any more
                            lines[s:e] = [""]
                        else:
                            lines[s:e] = (st + " := by sorry\n").split("\n")
                        failed.add("Gopoet." + name)
                        progress = True
                    else:
                        broken.append(f"{f}:{s+1}: {text[:80]!r}: {msg}")
                write(f, "\n".join(lines))
            if not progress: break
    finally:
        for p, s in orig.items():
            open(os.path.join(lean, p), "w").write(s)
    names = set(failed)
    def uses(deps):
        return any(d in names or any(d.startswith(n + ".") for n in names) for d in deps) or \
               any(n.split(".")[-1] in {x.split(".")[-1] for x in deps} and any(x.endswith(n[len("Gopoet"):]) for x in deps) for n in names)
    hit = sorted(n for n in D if uses(D[n] | {n}))
    direct = sorted(n for n in failed if re.match(r"Gopoet\.C\d\d", n))
    return {"id": m["id"], "definition": m["def"], "file": "lean/" + path, "edit": m["edit"],
            "old": m["old"], "new": m["new"],
            "breaks": m["claim"], "failed": hit, "failed_directly": direct,
            "failed_lemmas": sorted(n for n in failed if n not in D), "failed_examples": examples,
            "broken": broken, "tightened": [], "seconds": round(time.time() - t0)}

D = deps()
for m in json.load(open(mutants)):
    if only and m["id"] not in only: continue
    r = run(m, D)
    with open(log, "a") as f: f.write(json.dumps(r, ensure_ascii=False) + "\n")
    print(r["id"], r.get("error") or f"{len(r['failed'])} failed, {len(r['failed_directly'])} directly, {r['seconds']}s", r.get("broken"), flush=True)
