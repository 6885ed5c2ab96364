#!/usr/bin/env python3
"""Write AXIOMS.md: the axioms every theorem of MANIFEST.json depends on, as `#print axioms` reports them.
Run after `lake build` in lean/."""
import json, os, re, subprocess, tempfile
root = os.path.dirname(os.path.dirname(os.path.abspath(__file__)))
claims = json.load(open(os.path.join(root, "MANIFEST.json")))["claims"]
names = [(c["property"], t) for c in claims for t in c["theorems"]]
with tempfile.NamedTemporaryFile("w", suffix=".lean", delete=False) as f:
    f.write("import Verif\n" + "".join(f"#print axioms {t}\n" for _, t in names))
out = subprocess.run(["lake", "env", "lean", f.name], cwd=os.path.join(root, "lean"), capture_output=True, text=True).stdout
os.unlink(f.name)
out = re.sub(r"\n\s+", " ", out)
ax = {}
for m in re.finditer(r"'([^']+)' (does not depend on any axioms|depends on axioms: \[([^\]]*)\])", out):
    ax[m.group(1)] = sorted(x.strip() for x in (m.group(3) or "").split(",") if x.strip())
missing = [t for _, t in names if t not in ax]
assert not missing, missing
groups = {}
for p, t in names:
    groups.setdefault(tuple(ax[t]), []).append(t)
with open(os.path.join(root, "AXIOMS.md"), "w") as f:
    f.write("# Axioms per theorem\n\nGenerated by `tools/axioms.py` from `#print axioms`. Every theorem of MANIFEST.json is listed once.\n")
    for g in sorted(groups, key=lambda g: (len(g), g)):
        f.write("\n## " + (", ".join(f"`{x}`" for x in g) if g else "no axioms") + f" ({len(groups[g])} theorems)\n\n")
        f.write(", ".join(f"`{t}`" for t in groups[g]) + "\n")
print({g: len(v) for g, v in groups.items()})
