#!/usr/bin/env python3
"""Regenerate MANIFEST.json from the theorem names in lean/Verif/Props and tools/notes.json."""
import glob, json, os, re
root = os.path.dirname(os.path.dirname(os.path.abspath(__file__)))
notes = json.load(open(os.path.join(root, "tools/notes.json")))
thms = {}
for f in sorted(glob.glob(os.path.join(root, "lean/Verif/Props/*.lean"))):
    for m in re.finditer(r"^theorem (C(\d\d+)_\w+'?)", open(f).read(), re.M):
        thms.setdefault("C" + m.group(2), []).append("CM.Props." + m.group(1))
claims = []
for line in open(os.path.join(root, "properties.jsonl")):
    p = json.loads(line)["id"]
    ts = thms.get(p, [])
    n = notes.get(p, {})
    if "status" in n:
        st = n["status"]
    elif not ts:
        continue
    elif any(t.endswith("_partial") for t in ts):
        st = "partial"
    else:
        st = "proved"
    claims.append({"property": p, "status": st, "theorems": ts, "note": n.get("note", "")})
json.dump({"claims": claims}, open(os.path.join(root, "MANIFEST.json"), "w"), indent=1)
from collections import Counter
print(len(claims), Counter(c["status"] for c in claims), "missing notes:", [c["property"] for c in claims if not c["note"]])
