#!/usr/bin/env python3
"""Regenerate the generated sections of DESIGN.md: the disagreements found (docstrings of
the *_violated theorems) and the axioms of every property theorem (needs a built tree)."""
import re, glob, subprocess, os, json
root = os.path.dirname(os.path.dirname(os.path.abspath(__file__)))
lean = os.path.join(root, 'lean')
mods, thms, docs = [], [], {}
order = [l.split()[1] for l in open(os.path.join(lean, 'Verif.lean')) if l.startswith('import')]
for mod in order:
    f = os.path.join(lean, mod.replace('.', '/') + '.lean')
    s = open(f).read()
    ns = []
    for m in re.finditer(r'(?:/--(?P<doc>(?:(?!-/).)*)-/\s*)?^(?P<kw>namespace|end|theorem) (?P<n>\S+)', s, re.S | re.M):
        kw, n = m['kw'], m['n']
        if kw == 'namespace': ns.append(n)
        elif kw == 'end':
            if ns and ns[-1] == n: ns.pop()
        elif re.match(r'C\d+_', n) or re.match(r'C\d+$', n):
            full = '.'.join(ns + [n])
            thms.append(full)
            docs[full] = ' '.join(re.sub(r'```.*?```', '', m['doc'] or '', flags=re.S).split())
    mods.append(mod)
src = ''.join(f'import {m}\n' for m in mods) + ''.join(f'#print axioms {t}\n' for t in thms)
open('/tmp/axioms.lean', 'w').write(src)
out = subprocess.run(['lake', 'env', 'lean', '/tmp/axioms.lean'], cwd=lean, capture_output=True, text=True).stdout
ax = {}
for m in re.finditer(r"'(\S+)' (does not depend on any axioms|depends on axioms: \[([^\]]*)\])", out):
    ax[m[1]] = 'none' if m[3] is None else ', '.join(x.strip() for x in m[3].split(','))
missing = [t for t in thms if t not in ax]
assert not missing, (missing, out[-2000:])
viol = ['<!-- BEGIN GENERATED violations -->']
for t in thms:
    if 'violated' in t or 'counterexample' in t:
        viol.append(f'* `{t}` — {docs[t]}')
viol.append('<!-- END GENERATED violations -->')
axs = ['<!-- BEGIN GENERATED axioms -->']
groups = {}
for t in thms: groups.setdefault(ax[t], []).append(t)
for g in sorted(groups):
    axs.append(f'* **{g}**: ' + ', '.join(f'`{t.replace("Verif.", "", 1)}`' for t in groups[g]))
axs.append('<!-- END GENERATED axioms -->')
p = os.path.join(root, 'DESIGN.md')
d = open(p).read()
for name, lines in (('violations', viol), ('axioms', axs)):
    d = re.sub(rf'<!-- BEGIN GENERATED {name} -->.*?<!-- END GENERATED {name} -->', lambda _: '\n'.join(lines), d, flags=re.S)
open(p, 'w').write(d)
bad = {a for t in thms for a in ax[t].split(', ')} - {'none', 'propext', 'Classical.choice', 'Quot.sound'}
assert not bad, bad
