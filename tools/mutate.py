#!/usr/bin/env python3
"""Seeded bugs: apply each mutant of seeded/mutants.py to a scratch copy of the Lake project, rebuild, and
record which declarations fail and which property theorems rest on them. Usage: mutate.py [id...]"""
import re, sys, os, json, subprocess, shutil
sys.path.insert(0, '/verif/seeded')
from mutants import M
SRC, DST = os.environ.get('MUT_SRC', '/verif/lean'), '/tmp/mut'
deps = {}
for l in open('/tmp/mt/deps.tsv'):
    k, v = l.rstrip('\n').split('\t'); deps[k] = {x for x in v.split(',')}
def decl(path, line):
    ls = open(path).read().split('\n')[:line]
    for i in range(len(ls) - 1, -1, -1):
        m = re.match(r'^(?:@\[[^\]]*\] )?(?:private |protected |noncomputable )*(?:theorem|lemma|def|structure|instance|abbrev) (\S+)', ls[i])
        if m: return m.group(1)
        if ls[i].startswith('example'): return 'example@%d' % (i + 1)
    return '?'
def sync():
    shutil.rmtree(DST, ignore_errors=True)
    subprocess.run(['cp', '-a', SRC, DST], check=True)
want = sys.argv[1:]
for (mid, f, d, old, new, words, claim) in M:
    if want and mid not in want: continue
    sync()
    p = f'{DST}/Verif/Model/{f}.lean'
    where = 'Model'
    if not os.path.exists(p): p, where = f'{DST}/Verif/Spec/{f}.lean', 'Spec'
    s = open(p).read()
    # edit inside the definition
    m = re.search(r'^(?:def|structure|abbrev) ' + re.escape(d.split('.go')[0]) + r'\b', s, re.M)
    i = s.find(old, m.start()) if m else -1
    if i < 0:
        print(mid, 'PATTERN NOT FOUND'); continue
    s = s[:i] + new + s[i + len(old):]
    open(p, 'w').write(s)
    r = subprocess.run(['lake', 'build'], cwd=DST, capture_output=True, text=True)
    out = r.stdout + r.stderr
    fails = []
    for mm in re.finditer(r'^error: (Verif/\S+\.lean):(\d+):\d+', out, re.M):
        n = f'{os.path.basename(mm.group(1))[:-5] if "Model" in mm.group(1) else mm.group(1)[6:-5]}:{decl(DST + "/" + mm.group(1), int(mm.group(2)))}'
        if n not in fails: fails.append(n)
    names = {x.split(':')[1].split('.')[-1] for x in fails}
    aff = sorted(k for k, v in deps.items() if k in names or any(y.split('.')[-1] in names for y in v))
    inv = any(x.startswith(('Model', f + ':')) for x in fails)
    res = dict(id=mid, definition=f'{where}/{f}.lean: {d}', edit=words, old=old, new=new, claim_broken=claim,
               build='failed' if r.returncode else 'SUCCEEDED', theorems_failed=fails, property_theorems_resting_on_them=aff,
               theorems_tightened=[])
    if inv: res['note'] = 'model itself does not compile'
    with open('/tmp/mt/results.jsonl', 'a') as o: o.write(json.dumps(res, ensure_ascii=False) + '\n')
    print(mid, res['build'], 'INVALID' if inv else '', fails[:6], len(aff), flush=True)
