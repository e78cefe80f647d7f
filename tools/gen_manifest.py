#!/usr/bin/env python3
"""Regenerate MANIFEST.json from the theorem names in lean/Verif/Props and tools/status.json."""
import glob, json, os, re
root = os.path.dirname(os.path.dirname(os.path.abspath(__file__)))
thms = {}
for f in sorted(glob.glob(root + "/lean/Verif/Props/**/*.lean", recursive=True)):
    for m in re.finditer(r"^theorem (C\d+)_(\w+)", open(f).read(), re.M):
        thms.setdefault(m.group(1), []).append("Nar.Props.%s_%s" % m.groups())
status = json.load(open(root + "/tools/status.json"))
claims = []
for line in open(root + "/properties.jsonl"):
    pid = json.loads(line)["id"]
    if pid not in thms and pid not in status:
        continue
    st = status.get(pid, {})
    claims.append({"property": pid, "status": st.get("status", "proved"),
                   "theorems": thms.get(pid, []), "note": st.get("note", "")})
json.dump({"claims": claims}, open(root + "/MANIFEST.json", "w"), indent=1, ensure_ascii=False)
print(len(claims), "claims", sum(len(c["theorems"]) for c in claims), "theorems")
