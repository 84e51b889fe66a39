"""Try wrong programs against the theorems.

usage: seed.py MUTANTS.py [-j N]

MUTANTS.py defines M, a list of (definition, file under lean/Verif, old text, new text, claim). For each one, the mutated
module and every module that depends on it are concatenated into scratch files (outside /verif, one for each module of
properties), so that Lean goes on behind an error; a property theorem counts as failed if it reports an error, no longer elaborates or depends on anything but the three usual axioms.
Prints one JSON object per mutant; nothing under /verif is written.
"""
import json, os, re, subprocess, sys, concurrent.futures as cf

LEAN = os.path.join(os.path.dirname(os.path.abspath(__file__)), '..', 'lean')
WORK = os.environ.get('SEED_WORK', '/tmp/seed')
SKIP = []   # modules of cases that a round leaves out (a false `decide` may exhaust the memory of the kernel)


def modules():
    mods = {}
    for d, _, fs in os.walk(os.path.join(LEAN, 'Verif')):
        for f in fs:
            if f.endswith('.lean'):
                p = os.path.join(d, f)
                text = open(p).read()
                mods[os.path.relpath(p, LEAN)[:-5].replace('/', '.')] = (re.findall(r'^import (\S+)', text, re.M), text)
    return mods


def affected(mods, m):
    hit = {m}
    while True:
        more = {x for x, (imps, _) in mods.items() if x not in hit and hit & set(imps)}
        if not more:
            break
        hit |= more
    order, seen = [], set()

    def go(x):
        if x in seen or x not in hit:
            return
        seen.add(x)
        for i in mods[x][0]:
            go(i)
        order.append(x)
    for x in sorted(hit):
        go(x)
    return order


def ancestors(mods, x):
    a = {x}
    for k in mods[x][0]:
        if k in mods:
            a |= ancestors(mods, k)
    return a


def run(i, mods, mutant, baseline=False):
    name, path, old, new, claim = mutant
    m = 'Verif.' + path[:-5].replace('/', '.')
    if mods[m][1].count(old) != 1:
        return {'definition': name, 'error': 'old text occurs %d times' % mods[m][1].count(old)}
    tops = [(x, ancestors(mods, x)) for x in affected(mods, m) if '.Props.' in x and x not in SKIP]
    res = {'definition': name, 'file': path, 'old': old, 'new': new, 'claim': claim, 'failed': [], 'lemmas': [], 'examples': 0}
    for n, (x, a) in enumerate(tops):
        if any(x in b and x != y for y, b in tops):
            continue
        one = run1('%d_%d' % (i, n), mods, mutant, a, baseline)
        if 'error' in one:
            res['error'] = one['error']
            continue
        res['failed'] += [k for k in one['failed'] if k not in res['failed']]
        res['lemmas'] += [k for k in one['lemmas'] if k not in res['lemmas']]
        res['examples'] += one['examples']
    return res


def run1(i, mods, mutant, within, baseline):
    name, path, old, new, claim = mutant
    m = 'Verif.' + path[:-5].replace('/', '.')
    text = mods[m][1]
    order = [x for x in affected(mods, m) if x in within]
    imports, body, props = [], [], []
    for x in order:
        t = text.replace(old, new) if x == m and not baseline else mods[x][1]
        imports += [k for k in mods[x][0] if k not in order and k not in imports]
        t = re.sub(r'^import \S+\n', '', t, flags=re.M)
        body.append('section\n' + t + '\nend\n')
        if '.Props.' in x:
            here = re.findall(r'^theorem (C\d\d\d?_\w+)', t, re.M)
            props += here
            body.append(''.join('#print axioms Verif.%s\n' % p for p in here))
    src = ''.join('import %s\n' % k for k in imports) + '\n'.join(body)
    f = os.path.join(WORK, 'm%s.lean' % i)
    open(f, 'w').write(src)
    try:
        out = subprocess.run(['lake', 'env', 'lean', '-M', '5000', f], cwd=LEAN, capture_output=True, text=True, timeout=2400).stdout
    except subprocess.TimeoutExpired:
        return {'definition': name, 'error': 'timeout'}
    open(f + '.out', 'w').write(out)
    lines = src.split('\n')
    decls = set()
    for l in re.findall(r'm%s\.lean:(\d+):\d+: error' % i, out):
        k = int(l) - 1
        while k >= 0:
            d = re.match(r'^(?:@\[[^\]]*\] )?(?:private )?(theorem|def|example|structure|inductive|instance|abbrev)\s*(\S*)', lines[k])
            if d:
                decls.add(d.group(2) if d.group(1) != 'example' else 'example at %d' % (k + 1))
                break
            k -= 1
    ok = set()
    for p, ax in re.findall(r"'Verif\.(\w+)' depends on axioms: \[([^\]]*)\]", out, re.S):
        if {a.strip() for a in ax.split(',')} <= {'propext', 'Classical.choice', 'Quot.sound'}:
            ok.add(p)
    for p in re.findall(r"'Verif\.(\w+)' does not depend on any axioms", out):
        ok.add(p)
    ok -= decls
    return {'definition': name, 'file': path, 'old': old, 'new': new, 'claim': claim,
            'failed': [p for p in props if p not in ok],
            'lemmas': sorted(d for d in decls if not re.match(r'C\d\d', d) and 'example' not in d)[:12],
            'examples': sum('example' in d for d in decls)}


def main():
    ns = {}
    exec(open(sys.argv[1]).read(), ns)
    SKIP.extend(ns.get('SKIP', []))
    j = int(sys.argv[sys.argv.index('-j') + 1]) if '-j' in sys.argv else 3
    os.makedirs(WORK, exist_ok=True)
    mods = modules()
    with cf.ThreadPoolExecutor(j) as ex:
        for r in ex.map(lambda a: run(a[0], mods, a[1], '--baseline' in sys.argv), enumerate(ns['M'])):
            print(json.dumps(r), flush=True)


main()
