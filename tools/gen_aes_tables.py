#!/usr/bin/env python3
"""Write lean/Verif/Model/AesTables.lean from the tables of /repo/src/rijndael-alg-fst.c."""
import re
src = open("/repo/src/rijndael-alg-fst.c").read()
lines = src.split("\n")
out = ["import Verif.Model.Words", "/-", "The tables of src/rijndael-alg-fst.c, copied by tools/gen_aes_tables.py.", "-/",
       "namespace Verif.Rijndael", ""]
for name in ["Te0", "Te1", "Te2", "Te3", "Te4", "Td0", "Td1", "Td2", "Td3", "Td4", "rcon"]:
    m = re.search(r"static const u32 %s\[(\d*)\] = \{(.*?)\};" % name, src, re.S)
    first = src[:m.start()].count("\n") + 1
    last = src[:m.end()].count("\n") + 1
    body = re.sub(r"/\*.*?\*/", "", m.group(2), flags=re.S)
    vals = re.findall(r"0x[0-9a-fA-F]+", body)
    assert m.group(1) == "" or len(vals) == int(m.group(1)), name
    out.append("/-- `%s`, src/rijndael-alg-fst.c:%d-%d. -/" % (name, first, last))
    out.append("def %s : List W32 := [" % name)
    for i in range(0, len(vals), 8):
        out.append("  " + ", ".join(v.lower() for v in vals[i:i+8]) + ("]" if i + 8 >= len(vals) else ","))
    out.append("")
out.append("end Verif.Rijndael")
open("/verif/lean/Verif/Model/AesTables.lean", "w").write("\n".join(out) + "\n")
