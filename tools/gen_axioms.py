"""Writes AXIOMS.md: the axioms of every theorem in MANIFEST.json.  Run after 'lake build' in lean/."""
import json, os, re, subprocess, tempfile

root = os.path.dirname(os.path.dirname(os.path.abspath(__file__)))
names = [t for c in json.load(open(os.path.join(root, "MANIFEST.json")))["claims"] for t in c["theorems"]]
with tempfile.NamedTemporaryFile("w", suffix=".lean", delete=False) as f:
    f.write("import Verif\n" + "\n".join("#print axioms " + n for n in names))
out = subprocess.run(["lake", "env", "lean", f.name], cwd=os.path.join(root, "lean"), capture_output=True, text=True).stdout
os.unlink(f.name)
found = {}
for m in re.finditer(r"'([^']+)' (?:depends on axioms: \[([^\]]*)\]|does not depend on any axioms)", out):
    found[m.group(1)] = ", ".join(re.split(r",\s*", m.group(2))) if m.group(2) else "none"
missing = [n for n in names if n not in found]
groups = {}
for n in names:
    groups.setdefault(found.get(n), []).append(n.replace("Normalize.", "", 1))
with open(os.path.join(root, "AXIOMS.md"), "w") as f:
    f.write("# Axioms of the theorems\n\nGenerated by `tools/gen_axioms.py` from `#print axioms`. Names are in the namespace `Normalize`.\n")
    for k in sorted(groups, key=lambda k: len(k)):
        f.write("\n## %s (%d theorems)\n\n%s\n" % (k, len(groups[k]), ", ".join("`%s`" % n for n in groups[k])))
print({k: len(v) for k, v in groups.items()}, "missing:", missing)
