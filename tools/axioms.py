#!/usr/bin/env python3
"""Lists the axioms of every theorem named in MANIFEST.json, grouped, and puts the list into DESIGN.md between its two markers.
Needs a finished `lake build`."""
import collections, json, os, re, subprocess, tempfile
ROOT = os.path.dirname(os.path.dirname(os.path.abspath(__file__)))
names = []
for c in json.load(open(ROOT + "/MANIFEST.json"))["claims"]:
    for t in c["theorems"]:
        if t not in names:
            names.append(t)
with tempfile.TemporaryDirectory() as d:
    f = d + "/ax.lean"
    open(f, "w").write("import Verif\n" + "".join("#print axioms %s\n" % n for n in names))
    out = subprocess.run(["lake", "env", "lean", f], cwd=ROOT + "/lean", capture_output=True, text=True).stdout
res = collections.OrderedDict()
for m in re.finditer(r"'([^']+(?:'+[^' ]*)?)' (does not depend on any axioms|depends on axioms: \[([^\]]*)\])", out):
    ax = ", ".join(sorted(x.strip() for x in (m.group(3) or "").split(","))) or "none"
    res.setdefault(ax, []).append(m.group(1).replace("Ics.Props.", ""))
n = sum(len(v) for v in res.values())
assert n == len(names), (n, len(names))
text = "%d theorems, all in namespace `Ics.Props`.\n\n" % n
for ax, ts in sorted(res.items(), key=lambda x: len(x[1])):
    text += "* axioms: **%s** (%d): %s\n" % (ax, len(ts), ", ".join("`%s`" % t for t in ts))
p = ROOT + "/DESIGN.md"
s = open(p).read()
a, b = "<!-- axioms -->\n", "<!-- end of axioms -->"
s = s[:s.index(a) + len(a)] + text + s[s.index(b):]
open(p, "w").write(s)
