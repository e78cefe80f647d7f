#!/usr/bin/env python3
"""Regenerate AXIOMS.md: the axioms of every theorem of MANIFEST.json, as printed by Lean."""
import json, os, re, subprocess, tempfile
root = os.path.dirname(os.path.dirname(os.path.abspath(__file__)))
claims = json.load(open(root + "/MANIFEST.json"))["claims"]
names = [t for c in claims for t in c["theorems"]]
with tempfile.NamedTemporaryFile("w", suffix=".lean", delete=False) as f:
    f.write("import Verif\n" + "\n".join("#print axioms " + n for n in names) + "\n")
out = subprocess.run(["lake", "env", "lean", f.name], cwd=root + "/lean", capture_output=True, text=True).stdout
ax = {}
for m in re.finditer(r"'([^']+)' (?:depends on axioms: \[([^\]]*)\]|does not depend on any axioms)", out):
    ax[m.group(1)] = ", ".join(re.split(r",\s*", (m.group(2) or "none").strip()))
lines = ["# Axioms of each theorem", "", "Generated by `tools/axioms.py` with `#print axioms`.", ""]
groups = {}
for n in names:
    groups.setdefault(ax.get(n, "?"), []).append(n.replace("Nar.Props.", ""))
for k in sorted(groups, key=lambda k: len(k)):
    lines += ["## " + k, ""] + ["* `%s`" % n for n in groups[k]] + [""]
open(root + "/AXIOMS.md", "w").write("\n".join(lines))
print({k: len(v) for k, v in groups.items()})
