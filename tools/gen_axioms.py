#!/usr/bin/env python3
"""AXIOMS.txt: the axioms of every theorem named in MANIFEST.json (run after lake build)."""
import json, re, subprocess
R = "/verif"
names = []
for c in json.load(open(R + "/MANIFEST.json"))["claims"]:
    for t in c["theorems"]:
        if t not in names:
            names.append(t)
src = "import Verif\n" + "\n".join(f"#print axioms {n}" for n in names) + "\n"
open("/tmp/axioms.lean", "w").write(src)
out = subprocess.run(["lake", "env", "lean", "/tmp/axioms.lean"], cwd=R + "/lean", capture_output=True, text=True).stdout
out = re.sub(r"\n\s+", " ", out)
open(R + "/AXIOMS.txt", "w").write(out)
bad = [l for l in out.splitlines() if not re.search(r"depends on axioms: \[(propext|Classical\.choice|Quot\.sound|, )*\]$|does not depend on any axioms$", l)]
print(len(names), "theorems;", "unexpected:", bad)
