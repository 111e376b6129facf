#!/usr/bin/env python3
"""Writes /verif/MANIFEST.json and /verif/lean/Verif/Axioms.lean from the table below."""
import json, os
ROOT = os.path.dirname(os.path.dirname(os.path.abspath(__file__)))
claims = []
NS = {}
def c(prop, status, ns, theorems, note=""):
    claims.append({"property": prop, "status": status,
                   "theorems": [f"{ns}.{t}" if not t.startswith("Drip.") else t for t in theorems.split()],
                   "note": note})

exec(open(os.path.join(ROOT, "tools", "claims.py")).read())

json.dump({"claims": claims}, open(os.path.join(ROOT, "MANIFEST.json"), "w"), indent=1, ensure_ascii=False)
