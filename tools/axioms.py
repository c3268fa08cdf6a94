"""Writes the axioms of every theorem in MANIFEST.json into DESIGN.md, between the two marker lines. Needs a built project."""
import json, os, re, subprocess
root = os.path.join(os.path.dirname(os.path.abspath(__file__)), "..")
names = []
for c in json.load(open(os.path.join(root, "MANIFEST.json")))["claims"]:
    names += [t for t in c["theorems"] if t not in names]
src = "import Verif\n" + "\n".join("#print axioms " + n for n in names) + "\n"
open("/tmp/axioms.lean", "w").write(src)
r = subprocess.run(["lake", "env", "lean", "/tmp/axioms.lean"], cwd=os.path.join(root, "lean"), capture_output=True, text=True)
txt = re.sub(r"\n\s+", " ", r.stdout + r.stderr)
found = {}
for m in re.finditer(r"'([^']+)' depends on axioms: \[([^\]]*)\]", txt):
    found[m.group(1)] = tuple(sorted(a.strip() for a in m.group(2).split(",")))
for m in re.finditer(r"'([^']+)' does not depend on any axioms", txt):
    found[m.group(1)] = ()
assert set(found) == set(names), set(names) - set(found)
groups = {}
for n in names:
    groups.setdefault(found[n], []).append(n[len("Verif."):])
out = []
for g in sorted(groups, key=lambda g: (len(g), g)):
    assert set(g) <= {"propext", "Classical.choice", "Quot.sound"}, (g, groups[g])
    out.append("* %s: %s." % (", ".join("`%s`" % a for a in g) or "no axioms", ", ".join(groups[g])))
p = os.path.join(root, "DESIGN.md")
s = open(p).read()
a, b = "<!-- axioms: begin (tools/axioms.py) -->", "<!-- axioms: end -->"
i, j = s.index(a) + len(a), s.index(b)
open(p, "w").write(s[:i] + "\n" + "\n".join(out) + "\n" + s[j:])
print({", ".join(g): len(v) for g, v in groups.items()})
