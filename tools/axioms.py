"""Rewrites the list of axioms per theorem in DESIGN.md (between the markers) from `#print axioms`."""
import json, re, subprocess, tempfile, os, collections
root = os.path.dirname(os.path.dirname(os.path.abspath(__file__)))
man = json.load(open(root + '/MANIFEST.json'))
th = []
for c in man['claims']:
    for t in c['theorems']:
        if t not in th: th.append(t)
with tempfile.TemporaryDirectory() as d:
    f = d + '/chk.txt'
    open(f, 'w').write('import Verif\n' + '\n'.join('#print axioms ' + t for t in th))
    out = subprocess.run(['lake', 'env', 'lean', f], cwd=root + '/lean', capture_output=True, text=True).stdout
out = re.sub(r',\s*\n\s*', ', ', out)
ax = {}
for m in re.finditer(r"'(\S+)' depends on axioms: \[([^\]]*)\]", out): ax[m.group(1)] = ', '.join(sorted(m.group(2).split(', ')))
for m in re.finditer(r"'(\S+)' does not depend on any axioms", out): ax[m.group(1)] = 'none'
missing = [t for t in th if t not in ax]
assert not missing, missing[:5]
by = collections.OrderedDict()
for t in th: by.setdefault(ax[t], []).append(t)
txt = '\n'.join(f'* **{k}** ({len(v)} theorems): ' + ', '.join(f'`{t}`' for t in sorted(v)) for k, v in sorted(by.items(), key=lambda x: len(x[1])))
p = root + '/DESIGN.md'
s = open(p).read()
a, b = '<!-- axioms:begin -->', '<!-- axioms:end -->'
i, j = s.index(a) + len(a), s.index(b)
open(p, 'w').write(s[:i] + '\n' + txt + '\n' + s[j:])
print({k: len(v) for k, v in by.items()})
