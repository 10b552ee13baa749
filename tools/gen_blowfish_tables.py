#!/usr/bin/env python3
"""Write lean/Verif/Model/BlowfishTables.lean from the tables of /repo/src/blowfish.c."""
import re
src = open("/repo/src/blowfish.c").read()
out = ["import Verif.Model.Words", "/-", "The tables of src/blowfish.c, copied by tools/gen_blowfish_tables.py.", "-/",
       "namespace Verif.Blowfish", ""]
def rows(vals, last):
    for i in range(0, len(vals), 8):
        out.append("  " + ", ".join(v.lower() for v in vals[i:i+8]) + (last if i + 8 >= len(vals) else ","))
def line(p):
    return src[:p].count("\n") + 1
m = re.search(r"static const u32 ORIG_P\[16 \+ 2\] = \{(.*?)\};", src, re.S)
vals = re.findall(r"0x[0-9A-Fa-f]+", m.group(1))
assert len(vals) == 18
out.append("/-- `ORIG_P`, src/blowfish.c:%d-%d. -/" % (line(m.start()), line(m.end())))
out.append("def ORIG_P : List W32 := [")
rows(vals, "]")
out.append("")
m = re.search(r"static const u32 ORIG_S\[4\]\[256\] = \{(.*?)\n\};", src, re.S)
vals = re.findall(r"0x[0-9A-Fa-f]+", m.group(1))
assert len(vals) == 1024
names = []
for k in range(4):
    out.append("/-- `ORIG_S[%d]`, in src/blowfish.c:%d-%d. -/" % (k, line(m.start()), line(m.end())))
    out.append("def ORIG_S%d : List W32 := [" % k)
    rows(vals[256*k:256*k+256], "]")
    out.append("")
out.append("/-- `ORIG_S`, src/blowfish.c:%d-%d. -/" % (line(m.start()), line(m.end())))
out.append("def ORIG_S : List (List W32) := [ORIG_S0, ORIG_S1, ORIG_S2, ORIG_S3]")
out.append("")
out.append("end Verif.Blowfish")
open("/verif/lean/Verif/Model/BlowfishTables.lean", "w").write("\n".join(out) + "\n")
