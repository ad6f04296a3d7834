#!/usr/bin/env python3
"""Generate MANIFEST.json: every theorem named Cnn_* in lean/Verif/Props is a theorem of property Cnn."""
import glob, json, os, re
ROOT = os.path.join(os.path.dirname(os.path.abspath(__file__)), "..")
th = {}
for f in sorted(glob.glob(ROOT + "/lean/Verif/Props/*.lean")):
    ns = None
    for line in open(f):
        m = re.match(r"namespace (\S+)", line)
        if m:
            ns = m.group(1)
        m = re.match(r"(?:open Classical in )?theorem ((C\d\d+)_\w+'?)", line)
        if m:
            th.setdefault(m.group(2), []).append(ns + "." + m.group(1))
props = [json.loads(l) for l in open(ROOT + "/properties.jsonl")]
notes = json.load(open(ROOT + "/scripts/manifest_notes.json"))
claims = []
for p in props:
    i = p["id"]
    t = th.get(i, [])
    st, note = notes.get(i, ["partial" if any(x.endswith("_partial") for x in t) else "proved", ""])
    if not t:
        continue
    claims.append({"property": i, "status": st, "theorems": t, "note": note})
json.dump({"claims": claims}, open(ROOT + "/MANIFEST.json", "w"), indent=1)
print(len(claims), sum(len(c["theorems"]) for c in claims), [p["id"] for p in props if p["id"] not in th])
