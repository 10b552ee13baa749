#!/usr/bin/env python3
"""Regenerate MANIFEST.json. Checks that every named theorem exists in lean/Verif/Props."""
import json, re, pathlib, sys
root = pathlib.Path(__file__).resolve().parent.parent
CLAIMS = []
def claim(p, status, thms, note=""):
    CLAIMS.append({"property": p, "status": status,
                   "theorems": ["Verif." + t for t in thms.split()], "note": note})
exec((root / "tools" / "claims.py").read_text())
ids = [c["property"] for c in CLAIMS]
if len(ids) != len(set(ids)): sys.exit("two claims for one property")
names = set()
for f in (root / "lean" / "Verif").rglob("*.lean"):
    names |= set(re.findall(r"^theorem\s+([\w.'₀-₉]+)", f.read_text(), re.M))
bad = [t for c in CLAIMS for t in c["theorems"] if t.removeprefix("Verif.") not in names]
if bad: sys.exit("unknown theorems: %s" % bad)
used = {t for c in CLAIMS for t in c["theorems"]}
miss = sorted(n for n in names if re.match(r"C\d\d+_", n) and "Verif." + n not in used)
if miss: print("not in manifest:", miss)
CLAIMS.sort(key=lambda c: c["property"])
props = [json.loads(l)["id"] for l in open(root / "properties.jsonl")]
print("properties without claim:", [p for p in props if p not in {c["property"] for c in CLAIMS}])
(root / "MANIFEST.json").write_text(json.dumps({"claims": CLAIMS}, indent=1) + "\n")
