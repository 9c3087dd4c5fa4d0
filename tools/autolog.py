#!/usr/bin/env python3
"""Turn the output of automutate.py into log lines (seeded/auto.jsonl).  Usage: autolog.py SRC AM.jsonl SEED"""
import json, os, re, sys
SRC, AM, SEED = sys.argv[1:4]
deps = {}
for l in open('/tmp/mt/deps.tsv'):
    k, v = l.rstrip('\n').split('\t'); deps[k] = {x.split('.')[-1] for x in v.split(',')}
notes = json.load(open('/verif/seeded/auto_survivors.json'))
def enclosing(loc):
    m = re.match(r'(\S+\.lean):(\d+)', loc or '')
    if not m: return None
    ls = open(f'{SRC}/{m.group(1)}').read().split('\n')
    for i in range(min(int(m.group(2)), len(ls)) - 1, -1, -1):
        t = re.match(r'^(?:@\[[^\]]*\] )?(?:private |protected |noncomputable )*(theorem|lemma|def|abbrev|instance|example)\s*(\S*)', ls[i])
        if t: return (m.group(1).replace('Verif/', '').replace('.lean', ''), t.group(2) if t.group(1) != 'example' else f'example@{i+1}')
    return None
for l in open(AM):
    r = json.loads(l)
    if r['status'] == 'invalid': continue   # the edit does not typecheck as a model, so it says nothing
    e = enclosing(r.get('err'))
    aff = sorted(k for k, v in deps.items() if e and (e[1].split('.')[-1] in v or k == e[1]))
    claims = sorted({k.split('_')[0] for k in aff})
    key = f"{r['file']}:{r['defn']}:{r['old'].strip()}>{r['new']}:{r['ctx']}"
    n = notes.get(key, {})
    print(json.dumps({'id': f"auto{SEED}-{r['n']}", 'definition': f"{os.environ.get('PART', 'Model')}/{r['file']}: {r['defn']}",
      'edit': f"in `{r['ctx']}`: `{r['old'].strip()}` -> `{r['new'].strip()}`",
      'claim_broken': n.get('claim', ', '.join(claims)), 'build': 'failed' if r['status'] == 'killed' else 'SUCCEEDED',
      'theorems_failed': ['%s:%s' % e] if e else [], 'property_theorems_resting_on_them': aff[:12],
      'theorems_tightened': n.get('tightened', [])}, ensure_ascii=False))
