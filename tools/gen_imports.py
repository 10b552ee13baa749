#!/usr/bin/env python3
"""Regenerate lean/Verif.lean: import every module of lean/Verif/Props."""
import os
root = os.path.join(os.path.dirname(__file__), "..", "lean")
props = sorted(f[:-5] for f in os.listdir(os.path.join(root, "Verif", "Props")) if f.startswith("C"))
with open(os.path.join(root, "Verif.lean"), "w") as out:
    for p in props:
        out.write(f"import Verif.Props.{p}\n")
