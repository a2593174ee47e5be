#!/usr/bin/env python3
"""Rewrites the axiom table of DESIGN.md (between the AXIOMS markers) from `#print axioms` on every manifest theorem.
Needs a finished `lake build`."""
import json, re, subprocess, os, tempfile
R = os.path.join(os.path.dirname(os.path.abspath(__file__)), "..")
M = json.load(open(R + "/MANIFEST.json"))["claims"]
ts = list(dict.fromkeys(t for x in M for t in x["theorems"]))
with tempfile.NamedTemporaryFile("w", suffix=".lean", delete=False) as f:
    f.write("import Verif\n" + "\n".join("#print axioms " + t for t in ts))
out = subprocess.run(["lake", "env", "lean", f.name], cwd=R + "/lean", capture_output=True, text=True).stdout.replace("\n ", " ")
S = {"propext": "p", "Classical.choice": "c", "Quot.sound": "q"}
ax = {}
for l in out.split("\n"):
    m = re.match(r"'(\S+)' depends on axioms: \[(.*)\]", l)
    if m: ax[m.group(1)] = "".join(S[a.strip()] for a in m.group(2).split(","))
    m = re.match(r"'(\S+)' does not depend", l)
    if m: ax[m.group(1)] = "-"
rows = ["| property | theorems (axioms: p = propext, c = Classical.choice, q = Quot.sound, - = none) |", "|---|---|"]
for x in sorted(M, key=lambda x: x["property"]):
    g = {}
    for t in x["theorems"]: g.setdefault(ax[t], []).append(t.split(".", 1)[1])
    rows.append("| %s (%s) | %s |" % (x["property"], x["status"], "; ".join("**%s**: %s" % (k, ", ".join("`%s`" % n for n in v)) for k, v in g.items())))
d = open(R + "/DESIGN.md").read()
a, b = "<!-- AXIOMS -->", "<!-- /AXIOMS -->"
i, j = d.index(a) + len(a), d.index(b)
open(R + "/DESIGN.md", "w").write(d[:i] + "\n" + "\n".join(rows) + "\n" + d[j:])
print(len(ax), "theorems")
