#!/usr/bin/env python3
"""Write AXIOMS.md: the axioms every theorem of MANIFEST.json depends on (needs a built lean/ directory)."""
import json, os, re, subprocess, tempfile

ROOT = os.path.dirname(os.path.dirname(os.path.abspath(__file__)))
names = [t for c in json.load(open(f"{ROOT}/MANIFEST.json"))["claims"] for t in c["theorems"]]
with tempfile.NamedTemporaryFile("w", suffix=".lean", delete=False) as f:
    f.write("import Verif\n" + "".join(f"#print axioms {n}\n" for n in names))
out = subprocess.run(["lake", "env", "lean", f.name], cwd=f"{ROOT}/lean", capture_output=True, text=True).stdout
os.unlink(f.name)
found = {}
for m in re.finditer(r"'([^']+)' (does not depend on any axioms|depends on axioms: \[([^\]]*)\])", out, re.S):
    axs = tuple(sorted(a.strip() for a in (m.group(3) or "").split(",") if a.strip()))
    found[m.group(1)] = axs
missing = [n for n in names if n not in found]
assert not missing, missing
groups = {}
for n in names:
    groups.setdefault(found[n], []).append(n)
with open(f"{ROOT}/AXIOMS.md", "w") as f:
    f.write("# Axioms of the theorems in MANIFEST.json\n\nGenerated by `tools/axioms.py` from `#print axioms`.\n")
    for axs in sorted(groups, key=len):
        f.write(f"\n## {', '.join('`%s`' % a for a in axs) if axs else 'none'}\n\n")
        f.write(", ".join(f"`{n}`" for n in groups[axs]) + "\n")
print({k: len(v) for k, v in groups.items()})
