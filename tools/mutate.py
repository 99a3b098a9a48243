#!/usr/bin/env python3
"""Try wrong programs: apply one edit to a scratch copy of the model, rebuild, and report which
theorems no longer prove.

usage: mutate.py MUTANTS.json [id ...]

MUTANTS.json is a list of {"id", "file", "definition", "edit", "old", "new", "claim"}.
A proof that fails is replaced by `sorry` in the scratch copy and the build goes on, so that at the end
`#print axioms` tells, for each theorem of the manifest, whether it rests on a failed proof.
One line per mutant is appended to /verif/seeded/LOG.jsonl.
"""
import json, os, re, shutil, subprocess, sys, time

BASE = '/tmp/mut/base'
WORK = '/tmp/mut/work'
LOG = '/verif/seeded/LOG.jsonl'
START = re.compile(r'^(?:set_option [^\n]* in\s*)?(?:@\[[^\]]*\]\s*)?(?:private |protected |noncomputable )*'
                   r'(theorem|lemma|def|example|instance|structure|inductive|abbrev|mutual|end|namespace|'
                   r'section|open|set_option|variable|deriving|macro)\b')

def sh(cmd, timeout=1800):
    try:
        r = subprocess.run(cmd, shell=True, capture_output=True, text=True, timeout=timeout)
        return r.stdout + r.stderr
    except subprocess.TimeoutExpired as e:
        subprocess.run('pkill -f /tmp/mut/work', shell=True)
        return ((e.stdout or b'').decode() if isinstance(e.stdout, bytes) else (e.stdout or '')) + '\nTIMEOUT'

def blocks(lines):
    starts = [i for i, l in enumerate(lines) if START.match(l) or l.startswith('/-')]
    return starts

def cut(block):
    """Index in `block` where the proof starts, or None."""
    m = re.search(r'\n  \| ', block)
    depth = 0
    i = 0
    while i < (m.start() if m else len(block)):
        c = block[i]
        if c in '([{⟨':
            depth += 1
        elif c in ')]}⟩':
            depth -= 1
        elif depth == 0 and block.startswith(':=', i):
            line = block[block.rfind('\n', 0, i) + 1:i]
            if not re.search(r'\b(let|have)\b[^\n]*$', line):
                return i
        i += 1
    return m.start() if m else None

def break_proof(path, line, done):
    lines = open(path).read().split('\n')
    starts = blocks(lines)
    cand = [i for i in starts if i <= line - 1]
    if not cand:
        return None
    s = cand[-1]
    later = [i for i in starts if i > s]
    # the comment of a declaration belongs to it: Lean reports some errors at the comment
    while lines[s].startswith('/--') and later:
        s = later.pop(0)
    e = later[0] if later else len(lines)
    if lines[s].startswith('set_option') and not re.search(r'(theorem|lemma|example)', lines[s]):
        s2 = s + 1
    else:
        s2 = s
    block = '\n'.join(lines[s2:e])
    kind = re.search(r'\b(theorem|lemma|def|example|instance)\b', block.split('\n')[0])
    kind = kind.group(1) if kind else '?'
    if kind == 'example':
        new = '\n' * (block.count('\n'))
        name = 'example'
        # keep `set_option .. in` from dangling
        # and drop its comment, which may not stand alone
        before = [i for i in starts if i < s]
        if before and lines[before[-1]].startswith('/--'):
            s = before[-1]
        lines[s:e] = [''] * (e - s)
        open(path, 'w').write('\n'.join(lines))
        return name
    if kind not in ('theorem', 'lemma'):
        return None
    name = re.search(r'(?:theorem|lemma)\s+(\S+)', block).group(1)
    key = (path, name)
    if key in done:
        return None
    done.add(key)
    p = cut(block)
    if p is None:
        return None
    new = block[:p] + ':= by sorry'
    pad = block.count('\n') - new.count('\n')
    new += '\n' * pad
    lines[s2:e] = new.split('\n')
    open(path, 'w').write('\n'.join(lines))
    return name

def run(m):
    sh(f'rm -rf {WORK}; cp -r {BASE} {WORK}')
    path = f"{WORK}/lean/{m['file']}"
    text = open(path).read()
    if text.count(m['old']) != 1:
        return {'error': f"pattern occurs {text.count(m['old'])} times"}
    open(path, 'w').write(text.replace(m['old'], m['new']))
    failed, blocked, done = [], set(), set()
    defs = []
    t0 = time.time()
    for it in range(25):
        out = sh(f'cd {WORK}/lean && lake build 2>&1', 2400)
        errs = sorted(set((f, int(l)) for f, l in re.findall(r'error: (Verif/\S+?\.lean):(\d+):\d+', out)))
        if 'TIMEOUT' in out:
            return {'error': 'timeout', 'failed': failed}
        if not errs:
            break
        if it == 0:
            first = errs
        progress = False
        names = set()
        for f, l in errs:
            if f in blocked:
                continue
            n = break_proof(f'{WORK}/lean/{f}', l, done)
            if n is None:
                msg = re.search(re.escape(f) + rf':{l}:\d+: ([^\n]*)', out)
                # several errors in one declaration: already replaced
                continue
            progress = True
            if n not in failed and n != 'example':
                failed.append(n)
            names.add((f, n))
        if not progress:
            for f, l in errs:
                if f not in blocked:
                    blocked.add(f)
                    defs.append(f'{f}:{l}')
            break
    if m['file'] in blocked:
        return {'error': 'the edited file does not compile: not a program', 'failed': failed, 'definitions_rejected': defs}
    manifest = json.load(open(f'{WORK}/MANIFEST.json'))
    thms = [(c['property'], t) for c in manifest['claims'] for t in c['theorems']]
    broken = []
    mods = re.findall(r'import (\S+)', open(f'{WORK}/lean/Verif.lean').read())
    built = [x for x in mods if 'error' not in sh(f'cd {WORK}/lean && lake build {x} 2>&1 | grep "error"', 1200)] if blocked else mods
    src = ''.join(f'import {x}\n' for x in built) + ''.join(f'#print axioms {t}\n' for _, t in thms)
    open(f'{WORK}/lean/Ax.lean', 'w').write(src)
    out = sh(f'cd {WORK}/lean && lake env lean Ax.lean 2>&1')
    out = re.sub(r'\n\s+', ' ', out)
    ok = set(n for n, ax in re.findall(r"'(\S+)' depends on axioms: \[([^\]]*)\]", out) if 'sorryAx' not in ax)
    ok |= set(re.findall(r"'(\S+)' does not depend on any axioms", out))
    # a theorem Lean does not know is one whose module was not rebuilt: nothing is known about it
    said = ok | set(re.findall(r"'(\S+)' depends on axioms", out))
    broken = [t.split('.')[-1] for _, t in thms if t in said and t not in ok]
    broken += [t.split('.')[-1] for _, t in thms if t not in said and t.split('.')[-1] in failed]
    unknown = [t.split('.')[-1] for _, t in thms if t not in said and t.split('.')[-1] not in failed]
    return {'failed': failed, 'broken': broken, 'theorems_not_rebuilt': unknown, 'definitions_rejected': defs, 'minutes': round((time.time() - t0) / 60, 1)}

def main():
    ms = json.load(open(sys.argv[1]))
    only = set(sys.argv[2:])
    seen = set()
    if os.path.exists(LOG):
        seen = {json.loads(l).get('id') for l in open(LOG) if l.strip()}
    if not os.path.exists(BASE):
        os.makedirs('/tmp/mut', exist_ok=True)
        sh(f'git clone -q /verif {BASE}')
        sh(f'cp -r /verif/lean/.lake {BASE}/lean/.lake')
        print(sh(f'cd {BASE}/lean && lake build 2>&1 | tail -3', 3600))
    for m in ms:
        if (only and m['id'] not in only) or (not only and m['id'] in seen):
            continue
        r = run(m)
        rec = {'id': m['id'], 'definition': m['definition'], 'file': m['file'], 'edit': m['edit'],
               'claim_broken': m['claim'], **r}
        if 'broken' in r:
            rec['theorems_failed'] = rec.pop('broken')
            rec['lemmas_failed'] = rec.pop('failed')
            rec['caught'] = bool(rec['theorems_failed'])
            rec['expected'] = m.get('expect', [])
            rec['missed'] = [e for e in m.get('expect', []) if not any(t.startswith(e + '_') for t in rec['theorems_failed'])]
            rec['theorems_tightened'] = []
        print(json.dumps(rec, ensure_ascii=False), flush=True)
        if 'error' not in r:
            with open(LOG, 'a') as f:
                f.write(json.dumps(rec, ensure_ascii=False) + '\n')

main()
