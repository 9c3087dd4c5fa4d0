#!/usr/bin/env python3
"""Apply statement edits given as JSON {id: {field: text}} on stdin to properties.jsonl."""
import json, sys
ed = json.load(sys.stdin)
out = []
for l in open('/verif/properties.jsonl'):
    d = json.loads(l)
    d.update(ed.get(d['id'], {}))
    out.append(json.dumps(d, ensure_ascii=False))
have = {json.loads(x)['id'] for x in out}
for k in sorted(ed):
    if k not in have:
        out.append(json.dumps({"id": k, **ed[k]}, ensure_ascii=False))
open('/verif/properties.jsonl', 'w').write('\n'.join(out) + '\n')
