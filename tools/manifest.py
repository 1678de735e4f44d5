#!/usr/bin/env python3
"""Writes MANIFEST.json: collects the theorems named C<nn>_... and the statuses and notes in tools/status.json."""
import json, os, re
root = os.path.join(os.path.dirname(os.path.abspath(__file__)), "..")
thms = {}
for d, _, fs in os.walk(os.path.join(root, "lean", "Verif")):
    for f in sorted(fs):
        if not f.endswith(".lean"):
            continue
        ns = []
        for line in open(os.path.join(d, f)):
            m = re.match(r"namespace\s+(\S+)", line)
            if m:
                ns.append(m.group(1))
            m = re.match(r"end\s+(\S+)", line)
            if m and ns and ns[-1] == m.group(1):
                ns.pop()
            m = re.match(r"theorem\s+(C(\d{2,3})_\S+)", line)
            if m:
                thms.setdefault("C" + m.group(2), []).append(".".join(ns + [m.group(1)]))
status = json.load(open(os.path.join(root, "tools", "status.json")))
props = [json.loads(l)["id"] for l in open(os.path.join(root, "properties.jsonl")) if l.strip()]
claims = []
for p in props:
    if p not in status:
        if p in thms:
            print("no status for", p)
        continue
    st, note = status[p]
    claims.append({"property": p, "status": st, "theorems": thms.get(p, []), "note": note})
json.dump({"claims": claims}, open(os.path.join(root, "MANIFEST.json"), "w"), indent=1, ensure_ascii=False)
print(len(claims), "claims", {s: sum(c["status"] == s for c in claims) for s in ("proved", "partial", "not_applicable")})
print("no theorem:", [c["property"] for c in claims if not c["theorems"]], "open:", [p for p in props if p not in status])
