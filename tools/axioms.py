#!/usr/bin/env python3
"""Print the axioms of every theorem of MANIFEST.json and put the table into DESIGN.md, between the markers
<!-- axioms --> and <!-- /axioms -->. Needs a finished build."""
import collections, json, re, subprocess
thms = [t for c in json.load(open('/verif/MANIFEST.json'))['claims'] for t in c['theorems']]
open('/tmp/axioms.lean', 'w').write('import Verif\n' + ''.join(f'#print axioms {t}\n' for t in thms))
out = subprocess.run('lake env lean /tmp/axioms.lean', shell=True, cwd='/verif/lean', capture_output=True,
                     text=True).stdout
by = collections.OrderedDict((k, []) for k in ['none', 'propext', 'propext, Quot.sound',
                                              'propext, Classical.choice, Quot.sound'])
seen = set()
for m in re.finditer(r"'([^']+)' (?:does not depend on any axioms|depends on axioms: \[([^\]]*)\])", out):
    k = re.sub(r'\s+', ' ', m.group(2) or 'none')
    by.setdefault(k, []).append(m.group(1).split('.')[-1])
    seen.add(m.group(1))
missing = [t for t in thms if t not in seen]
assert not missing, missing
assert len(by) == 4, list(by)
text = '| Axioms | Theorems |\n|---|---|\n' + ''.join(
    f'| {k} | {len(v)}: {", ".join(sorted(v))} |\n' for k, v in by.items())
d = open('/verif/DESIGN.md').read()
d = re.sub(r'<!-- axioms -->.*<!-- /axioms -->', lambda _: '<!-- axioms -->\n' + text + '<!-- /axioms -->', d,
           flags=re.S)
open('/verif/DESIGN.md', 'w').write(d)
print({k: len(v) for k, v in by.items()})
