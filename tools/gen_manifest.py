#!/usr/bin/env python3
"""Regenerates MANIFEST.json from the Cnn_ theorems in lean/Verif/**/Props*.lean and tools/notes.json.
Status: partial if any theorem of the property is named *_partial or *_refuted, else proved."""
import re, json, glob, os
root = os.path.dirname(os.path.dirname(os.path.abspath(__file__)))
notes = json.load(open(f"{root}/tools/notes.json"))
ths = {}
for f in sorted(glob.glob(f"{root}/lean/Verif/**/Props*.lean", recursive=True)):
    ns = []
    for line in open(f):
        m = re.match(r"namespace (\S+)", line)
        if m: ns.append(m.group(1)); continue
        m = re.match(r"end (\S+)", line)
        if m and ns and ns[-1] == m.group(1): ns.pop(); continue
        m = re.match(r"theorem ((C\d+)_\S+)", line)
        if m: ths.setdefault(m.group(2), []).append(".".join(ns + [m.group(1)]))
claims = []
for line in open(f"{root}/properties.jsonl"):
    if not line.strip(): continue
    pid = json.loads(line)["id"]
    t = ths.get(pid, [])
    if not t: 
        print("no theorem for", pid); continue
    st = "partial" if any(x.endswith("_partial") or x.endswith("_refuted") for x in t) else "proved"
    claims.append({"property": pid, "status": st, "theorems": t, "note": notes.get(pid, "")})
    if pid not in notes: print("no note for", pid)
json.dump({"claims": claims}, open(f"{root}/MANIFEST.json", "w"), indent=1)
