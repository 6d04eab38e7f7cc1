#!/usr/bin/env python3
"""Generates MANIFEST.json from the table below."""
import json, os
C = []
def m(prop, status, theorems, note=""):
    C.append({"property": prop, "status": status, "theorems": theorems, "note": note})
exec(open(os.path.join(os.path.dirname(__file__), "manifest_table.py")).read())
C.sort(key=lambda c: c["property"])
json.dump({"claims": C}, open(os.path.join(os.path.dirname(__file__), "..", "MANIFEST.json"), "w"), indent=1)
print(len(C), "claims")
