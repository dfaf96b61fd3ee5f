#!/usr/bin/env python3
"""Write MANIFEST.json from the table below; checks that every theorem exists in lean/Verif/Props."""
import json, re, glob, os
root = os.path.dirname(os.path.dirname(os.path.abspath(__file__)))
names = set()
for f in glob.glob(root + "/lean/Verif/Props/*.lean"):
    for m in re.finditer(r"^theorem (\S+)", open(f).read(), re.M):
        names.add(m.group(1))
exec(open(root + "/tools/notes.py").read())
props = [json.loads(l)["id"] for l in open(root + "/properties.jsonl")]
claims = []
used = set()
for p in props:
    mine = sorted(n for n in names if n.startswith(p + "_"))
    mine += [n for n in EXTRA.get(p, [])]
    for n in mine:
        assert n in names, n
    used |= set(mine)
    if not mine:
        print("no theorem yet:", p)
        continue
    status = "partial" if p in PARTIAL else "proved"
    claims.append({"property": p, "status": status,
                   "theorems": ["PyZeal.Props." + n for n in mine],
                   "note": (PARTIAL.get(p) or NOTES.get(p) or "")})
print("unused:", sorted(names - used))
json.dump({"claims": claims}, open(root + "/MANIFEST.json", "w"), indent=1, ensure_ascii=False)
