#!/usr/bin/env python3
"""Regenerate MANIFEST.json from the theorem names in lean/Verif/Props (C.. prefix) and tools/notes.json."""
import re, glob, json, os
os.chdir(os.path.dirname(os.path.abspath(__file__)) + '/..')
props = [json.loads(l)['id'] for l in open('properties.jsonl')]
th = {}
for f in sorted(glob.glob('lean/Verif/Props/*.lean')):
    src = open(f).read()
    ns = re.search(r'^namespace (\S+)', src, re.M).group(1)
    for m in re.finditer(r'^theorem ((C\d\d+)_\w+)', src, re.M):
        th.setdefault(m.group(2), []).append(ns + '.' + m.group(1))
notes = json.load(open('tools/notes.json')) if os.path.exists('tools/notes.json') else {}
claims = []
for p in props:
    if p not in th:
        if p in notes: claims.append({"property": p, "status": "not_applicable", "theorems": [], "note": notes[p]})
        continue
    part = any(t.endswith('_partial') for t in th[p])
    claims.append({"property": p, "status": "partial" if part else "proved", "theorems": th[p], "note": notes.get(p, "")})
json.dump({"claims": claims}, open('MANIFEST.json', 'w'), indent=1, ensure_ascii=False)
print(len(claims), 'claims;', 'missing:', [p for p in props if p not in th and p not in notes])
