#!/usr/bin/env python3
"""Regenerate MANIFEST.json: collects theorems named Cxx_* in lean/Verif/Props/*.lean.
Status: partial if any theorem of the property is _refuted/_partial, else proved.
Notes come from tools/notes.json."""
import re, json, glob, os
root = os.path.dirname(os.path.dirname(os.path.abspath(__file__)))
props = [json.loads(l)["id"] for l in open(f"{root}/properties.jsonl") if l.strip()]
notes = json.load(open(f"{root}/tools/notes.json"))
th = {p: [] for p in props}
for f in sorted(glob.glob(f"{root}/lean/Verif/Props/*.lean")):
    ns = []
    for line in open(f):
        m = re.match(r"namespace\s+(\S+)", line)
        if m: ns.append(m.group(1)); continue
        m = re.match(r"end\s+(\S+)\s*$", line)
        if m and ns and ns[-1] == m.group(1): ns.pop(); continue
        m = re.match(r"(?:private )?theorem\s+((C\d+)_\w+)", line)
        if m: th[m.group(2)].append(".".join(ns + [m.group(1)]))
claims = []
for p in props:
    n = notes.get(p, {})
    ts = th[p]
    st = n.get("status")
    if st is None:
        if not ts: st = "not_applicable" if n.get("na") else "partial"
        elif any(t.endswith("_partial") or t.endswith("_refuted") for t in ts): st = "partial"
        else: st = "proved"
    if not ts and st != "not_applicable": 
        continue
    claims.append({"property": p, "status": st, "theorems": ts, "note": n.get("note", "")})
json.dump({"claims": claims}, open(f"{root}/MANIFEST.json", "w"), indent=1, ensure_ascii=False)
print(len(claims), "claims;", [p for p in props if p not in {c["property"] for c in claims}])
