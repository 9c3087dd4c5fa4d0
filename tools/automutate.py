#!/usr/bin/env python3
"""Systematic mutation of the model: token-level edits of every definition under lean/Verif/Model, each
applied to a scratch copy of the (built) Lake project and rebuilt until the first error. Prints survivors.
Usage: automutate.py SRC OUT [seed] [maxPerDef]"""
import re, sys, os, json, subprocess, shutil, random, time, signal
SRC, OUT = sys.argv[1], sys.argv[2]
PART = os.environ.get('PART', 'Model')  # or Spec
random.seed(int(sys.argv[3]) if len(sys.argv) > 3 else 0)
MAXPER = int(sys.argv[4]) if len(sys.argv) > 4 else 8
DST = '/tmp/automut'
RULES = [(r'<(?!-)', '≤'), (r'≤', '<'), (r'(?<![:=≠<>])\s=\s', ' ≠ '), (r'≠', '='), (r'∧', '∨'), (r'∨', '∧'),
  (r' \+ ', ' - '), (r' - ', ' + '), (r' \* ', ' + '), (r'\+ 1\b', '+ 2'), (r'\btrue\b', 'false'), (r'\bfalse\b', 'true'),
  (r'\.1\b', '.2'), (r'\.2\b', '.1'), (r'\.inputs\b', '.outputs'), (r'\.outputs\b', '.inputs'), (r'&&', '||'), (r'\|\|', '&&'),
  (r'!(?=[a-z(])', ''), (r'\bh2 l r\b', 'h2 r l'), (r'\.reverse\b', ''), (r'\btake\b', 'drop'), (r'\bdrop\b', 'take'),
  (r'\.debug\b', '.release'), (r'\.release\b', '.debug'), (r'\b(\d+)\b', lambda m: str(int(m.group(1)) + 1)),
  (r'\b([1-9]\d*)\b', lambda m: str(int(m.group(1)) - 1)), (r'\.all\b', '.any'), (r'\.any\b', '.all'),
  (r'∀', '∃'), (r'¬ ?', ''), (r'\.ok \(\)', '.err ()'), (r'\.panic\b', '.ok default'), (r'\.err\b', '.ok'),
  (r'\bisDummy\b', 'isDummy.not'), (r' % ', ' / '), (r' / ', ' % '), (r'\bnone\b', 'default'),
  (r'\.utxoRoot\b', '.txRoot'), (r'\.txRoot\b', '.signerRoot'), (r'\.signerRoot\b', '.utxoRoot'), (r'\.depositAcc\b', '.withdrawalAcc'),
  (r'\.withdrawalAcc\b', '.depositAcc'), (r'\.senderPk\b', '.tx.getSigner'), (r'\.deposits\b', '.withdrawals'), (r'\.withdrawals\b', '.deposits'),
  (r'\.balance\b', '.nonce'), (r'\.nonce\b', '.balance'), (r'\.prevTxIndex\b', '.prevBlockNumber'), (r'\.txRootFinal\b', '.txRoot'),
  (r'\bsigned\b', 'deposit'), (r'\.length\b', '.length.succ'), (r'\.idx\b', '.new')]
DEF = re.compile(r'^(?:@\[[^\]]*\] )?(?:private |protected |noncomputable )*(def|abbrev|instance) (\S+)', re.M)
muts = []
for f in sorted(os.listdir(f'{SRC}/Verif/{PART}')):
    s = open(f'{SRC}/Verif/{PART}/{f}').read()
    ds = list(DEF.finditer(s))
    for n, m in enumerate(ds):
        end = len(s)
        for t in re.finditer(r'^(?:/--|/-!|theorem|lemma|end |namespace |variable|section|open |structure|inductive|instance|def|abbrev|@\[|set_option|deriving)', s[m.end():], re.M):
            end = m.end() + t.start(); break
        body0 = s.find(':=', m.end(), end)
        b2 = s.find('\n  |', m.end(), end); bw = s.find(' where', m.end(), end)
        body0 = min([x for x in (body0, b2, bw) if x >= 0], default=-1)
        if body0 < 0: continue
        cand = []
        for pat, rep in RULES:
            for x in re.finditer(pat, s[body0 + 2:end]):
                i = body0 + 2 + x.start()
                ls = s.rfind('\n', 0, i) + 1
                if '--' in s[ls:i]: continue
                new = rep(x) if callable(rep) else rep
                cand.append((i, x.group(0), new))
        # line deletions
        pos = s.find('\n', body0, end) + 1
        while 0 < pos < end:
            e = s.find('\n', pos)
            if e < 0 or e > end: break
            line = s[pos:e + 1]
            if line.strip() and not line.strip().startswith('--'): cand.append((pos, line, ''))
            pos = e + 1
        # one identifier of the body replaced by another one of the same definition
        IDS = re.compile(r"(?<![.\w'])[a-z]\w*'?(?![\w'])")
        KW = {'fun','let','if','then','else','match','with','do','by','at','in','have','show','from','def','true','false','pure','some','none','decide'}
        ids = [x for x in IDS.finditer(s[body0 + 2:end]) if x.group(0) not in KW]
        names = sorted({x.group(0) for x in ids})
        for x in ids:
            i = body0 + 2 + x.start()
            if '--' in s[s.rfind('\n', 0, i) + 1:i]: continue
            for y in random.sample(names, min(2, len(names))):
                if y != x.group(0): cand.append((i, x.group(0), y))
        random.shuffle(cand)
        for c in cand[:MAXPER]: muts.append((f, m.group(2)) + c)
random.shuffle(muts)
seen = {tuple(x) for x in json.load(open(sys.argv[5]))} if len(sys.argv) > 5 else set()
def ctxof(f, i):
    s = open(f'{SRC}/Verif/{PART}/{f}').read(); a = s.rfind('\n', 0, i) + 1
    return s[a:s.find('\n', i)].strip()
muts = [m for m in muts if (m[0], ctxof(m[0], m[2]), m[3], m[4]) not in seen]
print(len(muts), 'mutants', flush=True)
for k, (f, d, i, old, new) in enumerate(muts):
    shutil.rmtree(DST, ignore_errors=True)
    subprocess.run(['cp', '-a', SRC, DST], check=True)
    p = f'{DST}/Verif/{PART}/{f}'
    s = open(p).read()
    open(p, 'w').write(s[:i] + new + s[i + len(old):])
    t0 = time.time()
    pr = subprocess.Popen(['nice', 'lake', 'build'], cwd=DST, stdout=subprocess.PIPE, stderr=subprocess.STDOUT, text=True, start_new_session=True)
    err = None
    for l in pr.stdout:
        mm = re.match(r'^error: (Verif/\S+\.lean):(\d+)', l)
        if mm: err = mm.group(1) + ':' + mm.group(2); break
    if err:
        os.killpg(pr.pid, signal.SIGKILL)
    pr.wait()
    st = 'SURVIVED' if (err is None and pr.returncode == 0) else ('invalid' if err and f'{PART}/' in err else 'killed')
    line = s.count('\n', 0, i) + 1
    ctx = s[s.rfind('\n', 0, i) + 1: s.find('\n', i)]
    rec = dict(n=k, file=f, defn=d, line=line, ctx=ctx.strip(), old=old, new=new, status=st, err=err, sec=round(time.time() - t0))
    with open(OUT, 'a') as o: o.write(json.dumps(rec, ensure_ascii=False) + '\n')
    if st == 'SURVIVED': print('SURVIVED', f, line, d, repr(old), '->', repr(new), '|', ctx.strip(), flush=True)
