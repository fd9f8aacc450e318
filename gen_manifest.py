#!/usr/bin/env python3
"""Regenerate MANIFEST.json from the theorems named Cnn_* under lean/Verif/Props and the notes below."""
import json, re, glob, os
here = os.path.dirname(os.path.abspath(__file__))
notes = json.load(open(os.path.join(here, "manifest_notes.json")))
th = {}
for f in sorted(glob.glob(os.path.join(here, "lean/Verif/Props/*.lean"))):
    ns = []
    for line in open(f):
        m = re.match(r"namespace\s+(\S+)", line)
        if m: ns.append(m.group(1))
        m = re.match(r"end\s+(\S+)", line)
        if m and ns and ns[-1] == m.group(1): ns.pop()
        m = re.match(r"theorem\s+((C\d+)_\S+)", line)
        if m: th.setdefault(m.group(2), []).append(".".join(ns + [m.group(1)]))
claims = []
for line in open(os.path.join(here, "properties.jsonl")):
    pid = json.loads(line)["id"]
    n = notes.get(pid, {})
    if pid in th:
        status = n.get("status", "partial" if any(re.search(r"(_partial|_fails)$", t) for t in th[pid]) else "proved")
        claims.append({"property": pid, "status": status, "theorems": th[pid], "note": n.get("note", "")})
    elif n.get("status") == "not_applicable":
        claims.append({"property": pid, "status": "not_applicable", "theorems": [], "note": n.get("note", "")})
json.dump({"claims": claims}, open(os.path.join(here, "MANIFEST.json"), "w"), indent=1)
print(len(claims), {s: sum(c["status"] == s for c in claims) for s in ("proved", "partial", "not_applicable")})
