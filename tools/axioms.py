#!/usr/bin/env python3
"""Write AXIOMS.md: the axioms that each theorem of MANIFEST.json depends on, as reported by Lean."""
import collections, json, os, re, subprocess, tempfile
root = os.path.dirname(os.path.dirname(os.path.abspath(__file__)))
claims = json.load(open(os.path.join(root, "MANIFEST.json")))["claims"]
names = [t for c in claims for t in c["theorems"]]
with tempfile.NamedTemporaryFile("w", suffix=".lean", delete=False) as f:
    f.write("import Verif\n" + "".join(f"#print axioms {n}\n" for n in names))
out = subprocess.run(["lake", "env", "lean", f.name], cwd=os.path.join(root, "lean"), capture_output=True, text=True).stdout
out = re.sub(r"\s+", " ", out)
axioms = {}
for m in re.finditer(r"'(\S+)' (?:depends on axioms: \[(.*?)\]|does not depend on any axioms)", out):
    axioms[m.group(1)] = tuple(sorted(m.group(2).split(", "))) if m.group(2) else ()
missing = [n for n in names if n not in axioms]
assert not missing, missing
groups = collections.defaultdict(lambda: collections.defaultdict(list))
for c in claims:
    for t in c["theorems"]:
        groups[axioms[t]][c["property"]].append(t)
with open(os.path.join(root, "AXIOMS.md"), "w") as f:
    f.write("# Axioms of each theorem\n\nGenerated by `tools/axioms.py` from `#print axioms`.\n")
    for a in sorted(groups, key=lambda a: (len(a), a)):
        f.write("\n## " + (", ".join(f"`{x}`" for x in a) or "no axioms") + "\n\n")
        for p in sorted(groups[a]):
            f.write(f"* {p}: " + ", ".join(f"`{t}`" for t in groups[a][p]) + "\n")
print({a: sum(map(len, g.values())) for a, g in groups.items()})
