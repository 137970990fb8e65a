#!/usr/bin/env python3
"""Write MANIFEST.json from the theorem names in lean/Verif/Props and the notes in tools/notes.json."""
import glob, json, os, re
root = os.path.dirname(os.path.dirname(os.path.abspath(__file__)))
props = [json.loads(l) for l in open(f"{root}/properties.jsonl")]
notes = json.load(open(f"{root}/tools/notes.json"))
thms = {}
for f in sorted(glob.glob(f"{root}/lean/Verif/Props/*.lean")):
    for m in re.finditer(r"^theorem (C(\d{2,3})_[\w']+)", open(f).read(), re.M):
        thms.setdefault("C" + m.group(2), []).append("Webparse." + m.group(1))
claims = []
for p in props:
    i = p["id"]
    t = thms.get(i, [])
    if not t:
        continue
    partial = any(x.endswith("_partial") or "_violated" in x for x in t)
    claims.append({"property": i, "status": "partial" if partial else "proved", "theorems": t,
                   "note": notes.get(i, "")})
json.dump({"claims": claims}, open(f"{root}/MANIFEST.json", "w"), indent=1)
print(len(claims), "claims; missing", [p["id"] for p in props if p["id"] not in thms])
