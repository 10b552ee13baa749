#!/usr/bin/env python3
"""Write lean/Verif/Model/DesTables.lean from the tables of /repo/src/d3des.c."""
import re
src = open("/repo/src/d3des.c").read()
out = ["import Verif.Model.Words", "/-", "The tables of src/d3des.c, copied by tools/gen_des_tables.py.", "-/",
       "namespace Verif.Des", ""]
for name in ["bytebit", "bigbyte", "pc1", "totrot", "pc2"] + ["SP%d" % i for i in range(1, 9)]:
    m = re.search(r"static (unsigned short|u32|u8) %s\[(\d*)\]\s*= \{(.*?)\};" % name, src, re.S)
    first = src[:m.start()].count("\n") + 1
    last = src[:m.end()].count("\n") + 1
    vals = re.findall(r"0x[0-9a-fA-F]+|\d+", m.group(3))
    assert len(vals) == int(m.group(2)), name
    if name == "bytebit":
        vals = [str(int(v, 8)) for v in vals]
    ty = {"u32": "W32", "u8": "Nat", "unsigned short": "Byte"}[m.group(1)]
    out.append("/-- `%s`, src/d3des.c:%d-%d. -/" % (name, first, last))
    out.append("def %s : List %s := [" % (name, ty))
    for i in range(0, len(vals), 8):
        out.append("  " + ", ".join(v.lower() for v in vals[i:i+8]) + ("]" if i + 8 >= len(vals) else ","))
    out.append("")
out.append("end Verif.Des")
open("/verif/lean/Verif/Model/DesTables.lean", "w").write("\n".join(out) + "\n")
