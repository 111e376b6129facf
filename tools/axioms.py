#!/usr/bin/env python3
"""Writes /verif/lean/Verif/Axioms.lean: the axioms that each theorem of MANIFEST.json depends on, checked when it is built.

Run after `lake build` of the other modules."""
import json, os, re, subprocess
ROOT = os.path.dirname(os.path.dirname(os.path.abspath(__file__)))
LEAN = os.path.join(ROOT, "lean")
names = []
for c in json.load(open(os.path.join(ROOT, "MANIFEST.json")))["claims"]:
    names += [t for t in c["theorems"] if t not in names]
imports = [l for l in open(os.path.join(LEAN, "Verif.lean")).read().split("\n") if l.startswith("import Verif.Props.")]
tmp = "/tmp/axioms_of.lean"
with open(tmp, "w") as f:
    f.write("\n".join(imports) + "\n" + "".join(f"#print axioms {n}\n" for n in names))
out = subprocess.run(["lake", "env", "lean", tmp], cwd=LEAN, capture_output=True, text=True).stdout
groups = {}
for m in re.finditer(r"'([^']+(?:'[^']*)*?)' (?:depends on axioms: \[([^\]]*)\]|does not depend on any axioms)", out):
    axs = tuple(sorted(a.strip() for a in (m.group(2) or "").split(",") if a.strip()))
    groups.setdefault(axs, []).append(m.group(1))
assert sum(map(len, groups.values())) == len(names), (len(names), sum(map(len, groups.values())))
with open(os.path.join(LEAN, "Verif", "Axioms.lean"), "w") as f:
    f.write("import Verif.AxiomsOf\n" + "\n".join(imports) + "\n/-\nThe axioms that the theorems of MANIFEST.json depend on; building this file checks it. Written by tools/axioms.py.\n-/\n")
    for axs, ts in sorted(groups.items()):
        f.write("\nonly_uses [" + ", ".join(axs) + "]" + "".join("\n  " + t for t in ts) + "\n")
print({k: len(v) for k, v in groups.items()})
