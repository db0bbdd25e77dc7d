#!/usr/bin/env python3
"""Write AXIOMS.md: the axioms every property theorem depends on, as printed by Lean (`#print axioms`)."""
import json, re, subprocess, os
root = os.path.join(os.path.dirname(os.path.abspath(__file__)), "..")
man = json.load(open(root + "/MANIFEST.json"))
names = [t for c in man["claims"] for t in c["theorems"]]
src = "import Verif\n" + "".join(f"#print axioms {n}\n" for n in names)
open("/tmp/ax.lean", "w").write(src)
o = subprocess.run(["lake", "env", "lean", "/tmp/ax.lean"], cwd=root + "/lean", capture_output=True, text=True).stdout
o = o.replace("\n ", " ")
out = ["# Axioms used by each property theorem", "", "Generated by `tools/gen_axioms.py` from the output of `#print axioms`.", "",
       "| theorem | axioms |", "|---|---|"]
bad = []
for n in names:
    m = re.search(r"'(?:Verif\.)?%s' (depends on axioms: \[([^\]]*)\]|does not depend on any axioms)" % re.escape(n.replace("Verif.", "")), o)
    ax = "?" if not m else (m.group(2) or "none")
    ax = re.sub(r"\s+", " ", ax)
    if set(a.strip() for a in ax.split(",")) - {"propext", "Classical.choice", "Quot.sound", "none"}: bad.append((n, ax))
    out.append(f"| `{n}` | {ax} |")
open(root + "/AXIOMS.md", "w").write("\n".join(out) + "\n")
print(len(names), "theorems;", "unexpected:", bad)
