#!/usr/bin/env python3
"""Writes AXIOMS.md: the axioms each property theorem depends on (needs a finished `lake build`)."""
import json, re, subprocess, tempfile, os

root = os.path.dirname(os.path.dirname(os.path.abspath(__file__)))
claims = json.load(open(f"{root}/MANIFEST.json"))["claims"]
names = [t for c in claims for t in c["theorems"]]
with tempfile.NamedTemporaryFile("w", suffix=".lean", delete=False) as f:
    f.write("import Verif\n" + "".join(f"#print axioms {n}\n" for n in names))
out = subprocess.run(["lake", "env", "lean", f.name], cwd=f"{root}/lean", capture_output=True, text=True).stdout
os.unlink(f.name)
deps = {}
for m in re.finditer(r"'([^']+)' (does not depend on any axioms|depends on axioms: \[([^\]]*)\])", out):
    deps[m.group(1)] = ", ".join(sorted(x.strip() for x in (m.group(3) or "").replace("\n", " ").split(","))) or "none"
groups = {}
for n in names:
    groups.setdefault(deps.get(n, "?"), []).append(n)
with open(f"{root}/AXIOMS.md", "w") as f:
    f.write("# Axioms of the property theorems\n\nGenerated by `scripts/axioms.py` from `#print axioms`.\n")
    for g in sorted(groups, key=lambda g: (g.count(","), g)):
        f.write(f"\n## {g}\n\n" + "".join(f"* `{n}`\n" for n in groups[g]))
print({g: len(v) for g, v in groups.items()})
