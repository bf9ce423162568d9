#!/usr/bin/env python3
# Collects the property theorems (names Cnn_...) of lean/Verif/Props into MANIFEST.json.
# Status and note of each property come from tools/status.json.
import json, os, re, glob
root = os.path.join(os.path.dirname(os.path.abspath(__file__)), "..")
ths = {}
for f in sorted(glob.glob(os.path.join(root, "lean/Verif/Props/*.lean"))):
    ns = []
    for line in open(f):
        m = re.match(r"namespace (\S+)", line)
        if m: ns.append(m.group(1))
        m = re.match(r"end (\S+)", line)
        if m and ns and ns[-1] == m.group(1): ns.pop()
        m = re.match(r"theorem (C\d+)_(\S+)", line)
        if m:
            ths.setdefault(m.group(1), []).append(".".join(ns + [m.group(1) + "_" + m.group(2)]))
status = json.load(open(os.path.join(root, "tools/status.json")))
claims = []
for line in open(os.path.join(root, "properties.jsonl")):
    pid = json.loads(line)["id"]
    st = status.get(pid)
    if pid not in ths: 
        continue
    claims.append(dict(property=pid, status=st["status"], theorems=ths[pid], note=st["note"]))
json.dump({"claims": claims}, open(os.path.join(root, "MANIFEST.json"), "w"), indent=1, ensure_ascii=False)
print(len(claims), sum(len(c["theorems"]) for c in claims), [k for k in ths if k not in [c["property"] for c in claims]])
