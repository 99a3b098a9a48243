#!/usr/bin/env python3
"""Small edits of every definition of the model, made by rule.

usage: automut.py list SEED PER_DEF > edits.json
       automut.py run edits.json RESULTS.jsonl

Each edit changes one token of one definition: a number, a comparison, a connective, a constant, a
branch. `run` applies one at a time to a scratch copy and rebuilds until the first error. Edits that no
proof notices are the ones to look at: either the edit does not change the behaviour, or a theorem is
missing.
"""
import json, os, random, re, signal, subprocess, sys, time, glob

BASE = '/tmp/mut/abase'
WORK = '/tmp/mut/awork'
START = re.compile(r'^(?:@\[[^\]]*\]\s*)?(?:private |protected |noncomputable )*'
                   r'(theorem|lemma|def|example|instance|structure|inductive|abbrev|mutual|end|namespace|'
                   r'section|open|set_option|variable|deriving|macro|import)\b')

def mask(text):
    """Blank out comments, keeping positions."""
    out = list(text)
    i = 0
    while i < len(text):
        if text.startswith('/-', i):
            j = text.index('-/', i) + 2
        elif text.startswith('--', i):
            j = text.find('\n', i)
            j = len(text) if j < 0 else j
        elif text[i] == '"':
            j = i + 1
            while text[j] != '"':
                j += 2 if text[j] == '\\' else 1
            i = j + 1
            continue
        else:
            i += 1
            continue
        for k in range(i, j):
            if out[k] != '\n':
                out[k] = ' '
        i = j
    return ''.join(out)

OPS = [
    (r'(?<![\w.])\d+(?![\w.])', lambda m: str(int(m.group()) + 1)),
    (r'(?<![\w.])[1-9]\d*(?![\w.])', lambda m: str(int(m.group()) - 1)),
    (r' < ', lambda m: ' ≤ '), (r' ≤ ', lambda m: ' < '), (r' > ', lambda m: ' ≥ '), (r' ≥ ', lambda m: ' > '),
    (r' == ', lambda m: ' != '), (r' != ', lambda m: ' == '), (r' = (?=[^>]* then)', lambda m: ' ≠ '),
    (r' ≠ ', lambda m: ' = '),
    (r' && ', lambda m: ' || '), (r' \|\| ', lambda m: ' && '), (r' ∧ ', lambda m: ' ∨ '), (r' ∨ ', lambda m: ' ∧ '),
    (r'\btrue\b', lambda m: 'false'), (r'\bfalse\b', lambda m: 'true'),
    (r'(?<=[ (])!(?=[\w(])', lambda m: ''),
    (r'\.isSome\b', lambda m: '.isNone'), (r'\.isNone\b', lambda m: '.isSome'),
    (r'\btake\b', lambda m: 'drop'), (r'\bdrop\b', lambda m: 'take'),
    (r' \+ ', lambda m: ' - '), (r' - ', lambda m: ' + '), (r' % ', lambda m: ' / '), (r' / ', lambda m: ' % '),
    (r'\.any\b', lambda m: '.all'), (r'\.all\b', lambda m: '.any'),
    (r'\bif (?!let)([^\n]*?) then', lambda m: f'if ¬ ({m.group(1)}) then'),
    (r'c!"([^"]*)"', lambda m: f'c!"{m.group(1)}x"'),
    (r'\.u32\b', lambda m: '.u64'), (r'\.u64\b', lambda m: '.u32'), (r'\.i32\b', lambda m: '.i64'),
    (r' ++ ', lambda m: None),
    (r'\.reverse\b', lambda m: ''),
    (r'\.head\b', lambda m: '.getLast'),
    (r'\bmax\b', lambda m: 'min'), (r'\bmin\b', lambda m: 'max'),
    (r'\.fst\b|\.1\b', lambda m: '.2'), (r'\.snd\b|\.2\b', lambda m: '.1'),
    (r'\bfilter\b', lambda m: 'takeWhile'), (r'\btakeWhile\b', lambda m: 'filter'),
    (r'\.tail\b', lambda m: ''),
    (r'\.err\b', lambda m: None),
]

def edits():
    res = []
    for path in sorted(glob.glob('/verif/lean/Verif/Model/*.lean') + glob.glob('/verif/lean/Verif/Rpcgen/*.lean')):
        text = open(path).read()
        m = mask(text)
        lines = m.split('\n')
        starts = [i for i, l in enumerate(lines) if START.match(l)] + [len(lines)]
        offs = [0]
        for l in lines:
            offs.append(offs[-1] + len(l) + 1)
        for a, b in zip(starts, starts[1:]):
            k = START.match(lines[a]).group(1)
            if k not in ('def', 'abbrev'):
                continue
            name = re.search(r'(?:def|abbrev)\s+(\S+)', lines[a]).group(1)
            lo, hi = offs[a], min(offs[b], len(m))
            body = m[lo:hi]
            p = body.find(':=')
            q = body.find('\n  | ')
            st = min(x for x in (p, q, len(body)) if x >= 0)
            for rx, f in OPS:
                for mm in re.finditer(rx, body):
                    if mm.start() < st:
                        continue
                    new = f(mm)
                    if new is None or new == mm.group():
                        continue
                    pos = lo + mm.start()
                    res.append({'file': os.path.relpath(path, '/verif/lean'), 'definition': name,
                                'line': text.count('\n', 0, pos) + 1, 'pos': pos, 'old': mm.group(), 'new': new})
    return res

def pick(seed, per):
    rnd = random.Random(seed)
    by = {}
    for e in edits():
        by.setdefault((e['file'], e['definition']), []).append(e)
    out = []
    for k in sorted(by):
        l = by[k]
        rnd.shuffle(l)
        out += l[:per]
    rnd.shuffle(out)
    return out

def run(e):
    while os.path.exists(WORK):
        subprocess.run(f'rm -rf {WORK}', shell=True, stderr=subprocess.DEVNULL)
        time.sleep(0.2)
    subprocess.run(f'cp -r {BASE} {WORK}', shell=True)
    path = f"{WORK}/lean/{e['file']}"
    text = open(path).read()
    assert text.startswith(e['old'], e['pos']), e
    open(path, 'w').write(text[:e['pos']] + e['new'] + text[e['pos'] + len(e['old']):])
    t0 = time.time()
    p = subprocess.Popen('lake build 2>&1', shell=True, cwd=f'{WORK}/lean', stdout=subprocess.PIPE, text=True,
                         start_new_session=True)
    first, where, examples = None, '', []
    for line in p.stdout:
        m = re.match(r'error: (Verif/\S+?\.lean):(\d+):', line)
        if m:
            at, kind = f'{m.group(1)}:{m.group(2)}', ''
            ls = open(f'{WORK}/lean/{m.group(1)}').read().split('\n')
            for i in range(int(m.group(2)) - 1, -1, -1):
                k = re.match(r'(?:@\[[^\]]*\]\s*)?(?:private )?(theorem|lemma|def|example|instance)\b\s*(\S*)', ls[i])
                if k:
                    kind = f'{k.group(1)} {k.group(2)}'
                    break
            if kind.startswith('example'):
                examples.append(at)
                continue
            first, where = at, kind
            os.killpg(p.pid, signal.SIGKILL)
            break
        if time.time() - t0 > 2400:
            first = 'timeout'
            os.killpg(p.pid, signal.SIGKILL)
            break
    p.wait()
    if first is None and p.returncode != 0:
        first = 'examples only' if examples else 'failed'
    return {'first': first, 'where': where, 'examples': examples, 'minutes': round((time.time() - t0) / 60, 1)}

if sys.argv[1] == 'list':
    print(json.dumps(pick(int(sys.argv[2]), int(sys.argv[3])), ensure_ascii=False, indent=0))
else:
    es = json.load(open(sys.argv[2]))
    done = set()
    if os.path.exists(sys.argv[3]):
        done = {(r['file'], r['pos'], r['old'], r['new']) for r in map(json.loads, open(sys.argv[3]))}
    if not os.path.exists(BASE):
        subprocess.run(f'mkdir -p /tmp/mut; git clone -q /verif {BASE}; cp -r /verif/lean/.lake {BASE}/lean/.lake; '
                       f'cd {BASE}/lean && lake build > /dev/null 2>&1', shell=True)
    for e in es:
        if (e['file'], e['pos'], e['old'], e['new']) in done:
            continue
        r = {**e, **run(e)}
        with open(sys.argv[3], 'a') as f:
            f.write(json.dumps(r, ensure_ascii=False) + '\n')
