#!/usr/bin/env python3
"""Write AXIOMS.txt: axioms of every theorem named in MANIFEST.json (needs a built lean/)."""
import json, os, subprocess, re
os.chdir(os.path.dirname(os.path.abspath(__file__)) + '/..')
names = [t for c in json.load(open('MANIFEST.json'))['claims'] for t in c['theorems']]
open('/tmp/ax.lean', 'w').write("import Verif\n" + "".join(f"#print axioms {n}\n" for n in names))
out = subprocess.run(['lake', 'env', 'lean', '/tmp/ax.lean'], cwd='lean', capture_output=True, text=True).stdout
out = re.sub(r'\n\s+', ' ', out)
assert out.count('axioms') == len(names), out[-500:]
open('AXIOMS.txt', 'w').write(out)
print(len(names), set(re.findall(r'\[(.*?)\]', out)))
