#!/usr/bin/env python3
"""Regenerates lean/Verif.lean: imports every module under lean/Verif."""
import os
base = os.path.join(os.path.dirname(__file__), "..", "lean")
mods = []
for d, _, fs in os.walk(os.path.join(base, "Verif")):
    for f in fs:
        if f.endswith(".lean"):
            mods.append(os.path.relpath(os.path.join(d, f), base)[:-5].replace("/", "."))
open(os.path.join(base, "Verif.lean"), "w").write("".join(f"import {m}\n" for m in sorted(mods)))
print(len(mods), "modules")
