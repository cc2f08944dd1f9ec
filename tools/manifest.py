#!/usr/bin/env python3
"""Regenerate MANIFEST.json from the theorem names in lean/Verif and tools/notes.json.

A property is "proved" when it has full-strength theorems and none of its theorems is
_partial or _refuted, otherwise "partial".  notes.json may override the status.
"""
import glob, json, os, re
root = os.path.dirname(os.path.dirname(os.path.abspath(__file__)))
props = [json.loads(l) for l in open(os.path.join(root, "properties.jsonl"))]
notes = json.load(open(os.path.join(root, "tools", "notes.json")))
thms = {}
for f in sorted(glob.glob(os.path.join(root, "lean", "Verif", "**", "*.lean"), recursive=True)):
    ns = []
    for line in open(f):
        m = re.match(r"namespace (\S+)", line)
        if m: ns.append(m.group(1))
        m = re.match(r"end (\S+)", line)
        if m and ns and ns[-1] == m.group(1): ns.pop()
        m = re.match(r"theorem (C\d\d\d?)_(\S+)", line)
        if m:
            thms.setdefault(m.group(1), []).append(".".join(ns + [m.group(1) + "_" + m.group(2)]))
claims = []
for p in props:
    i = p["id"]
    t = thms.get(i, [])
    n = notes.get(i, {})
    if isinstance(n, str): n = {"note": n}
    status = n.get("status")
    if not status:
        status = "partial" if not t or any(x.endswith(("_partial", "_refuted")) for x in t) else "proved"
    claims.append({"property": i, "status": status, "theorems": t,
                   "note": n.get("note", "" if t else "not modelled yet")})
json.dump({"claims": claims}, open(os.path.join(root, "MANIFEST.json"), "w"), indent=1)
unknown = set(thms) - {p["id"] for p in props}
print("claims", len(claims), "with theorems", sum(1 for c in claims if c["theorems"]),
      "theorems", sum(len(c["theorems"]) for c in claims),
      "proved", sum(c["status"] == "proved" for c in claims), "unknown", unknown)
