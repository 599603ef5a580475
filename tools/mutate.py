"""Test the theorems against wrong programs.

usage: python3 tools/mutate.py MUTANTS.json OUT.jsonl

MUTANTS.json is a list of {file, definition, old, new, breaks}.  Each edit is
applied to a scratch copy of lean/.  Declarations whose proof then fails get
`sorry`, until the copy builds; a property theorem counts as failed if it then
depends on sorryAx (or its statement no longer makes sense).
"""
import json, os, re, shutil, subprocess, sys

ROOT = os.path.dirname(os.path.dirname(os.path.abspath(__file__)))
SCRATCH = os.environ.get('MUT_DIR', '/tmp/mutants')
DECL = re.compile(r'^(?:@\[[^\]]*\]\s*)?(?:private |protected |noncomputable )*'
                  r'(theorem|lemma|def|instance|example|structure|inductive|abbrev)\b\s*([^\s:({\[]*)')


def decls(lines):
    """(first line, last line exclusive, kind, name) of the declarations"""
    starts = [(i, m.group(1), m.group(2)) for i, l in enumerate(lines) for m in [DECL.match(l)] if m]
    res = []
    for k, (i, kind, name) in enumerate(starts):
        j = i + 1
        while j < len(lines) and (lines[j].strip() == '' or lines[j][0] in ' \t' or lines[j].startswith('|')):
            j += 1
        while lines[j - 1].strip() == '':
            j -= 1
        res.append((i, j, kind, name))
    return res


def sorried(text):
    """the declaration with its proof replaced by sorry"""
    depth = 0
    i = 0
    while i < len(text):
        c = text[i]
        if c in '([{⟨':
            depth += 1
        elif c in ')]}⟩':
            depth -= 1
        elif depth == 0 and text.startswith(':=', i):
            return text[:i] + ':= by sorry'
        elif depth == 0 and re.match(r'\bwhere\b', text[i:]) and text[i-1].isspace():
            return text[:i] + ':= by sorry'
        elif depth == 0 and text.startswith('\n  | ', i):
            return text[:i] + ' := by sorry'
        i += 1
    return None


def build(d):
    p = subprocess.run(['lake', 'build'], cwd=d, capture_output=True, text=True)
    errs = re.findall(r'^error: (Verif/[\w/]+\.lean):(\d+):\d+: (.*)$', p.stdout + p.stderr, re.M)
    return p.returncode, errs, p.stdout + p.stderr


def theorems():
    res = []
    for f in sorted(os.listdir(ROOT + '/lean/Verif/Props')):
        src = open(ROOT + '/lean/Verif/Props/' + f).read()
        res += re.findall(r'^theorem (C\d+_\S+)', src, re.M)
    return res


def run(m):
    d = SCRATCH + '/lean'
    if os.path.exists(d):
        subprocess.run(['rsync', '-a', '--delete', '--exclude=.lake/config', ROOT + '/lean/', d + '/']) \
            if shutil.which('rsync') else (shutil.rmtree(d), shutil.copytree(ROOT + '/lean', d))
    else:
        shutil.copytree(ROOT + '/lean', d)
    edits = m.get('edits') or [m]
    for e in edits:
        path = d + '/Verif/' + e['file']
        s = open(path).read()
        if s.count(e['old']) != 1:
            return {'error': 'old text occurs %d times' % s.count(e['old'])}
        open(path, 'w').write(s.replace(e['old'], e['new']))
    gone, hit, rounds = [], {}, 0
    while True:
        rounds += 1
        code, errs, out = build(d)
        if code == 0:
            break
        if not errs or rounds > 25:
            return {'error': 'build failed', 'out': out[-1500:]}
        todo = {}
        for f, ln, msg in errs:
            todo.setdefault(f, []).append((int(ln) - 1, msg))
        for f, locs in todo.items():
            path = d + '/' + f
            lines = open(path).read().split('\n')
            ds = decls(lines)
            bad = set()
            for ln, msg in locs:
                c = [x for x in ds if x[0] <= ln < x[1]]
                if not c:
                    c = [x for x in ds if x[0] <= ln][-1:]
                if not c:
                    return {'error': 'no declaration at %s:%d %s' % (f, ln, msg)}
                bad.add(c[0])
            for (i, j, kind, name) in sorted(bad, reverse=True):
                text = '\n'.join(lines[i:j])
                key = (f, name or text)
                hit[key] = hit.get(key, 0) + 1
                if kind in ('def', 'structure', 'inductive', 'abbrev', 'instance') and not \
                        (kind == 'instance' and hit[key] == 1) and 'Props' not in f and 'Proof' not in f:
                    return {'error': 'model does not elaborate: %s %s: %s' % (f, name, locs)}
                new = sorried(text) if kind in ('theorem', 'lemma', 'instance') and hit[key] == 1 else None
                if kind == 'def' and hit[key] == 1:
                    new = sorried(text)
                if new is None:
                    if kind in ('theorem', 'lemma'):
                        gone.append(name)
                    if kind == 'example':
                        gone.append('example in ' + f)
                    # the doc comment goes too
                    a = i
                    if a > 0 and lines[a-1].rstrip().endswith('-/'):
                        a -= 1
                        while '/--' not in lines[a] and '/-!' not in lines[a]:
                            a -= 1
                    lines[a:j] = [''] * (j - a)
                else:
                    n = new.split('\n')
                    lines[i:j] = n + [''] * (j - i - len(n))
            open(path, 'w').write('\n'.join(lines))
    thms = [t for t in theorems() if t not in gone]
    check = d + '/Ax.lean'
    open(check, 'w').write('import Verif\nopen Sb.Props\n' + ''.join('#print axioms %s\n' % t for t in thms))
    p = subprocess.run(['lake', 'env', 'lean', 'Ax.lean'], cwd=d, capture_output=True, text=True)
    out = p.stdout.replace('\n ', ' ')
    failed, ok = [g for g in gone], []
    for l in out.split('\n'):
        mm = re.match(r"'Sb\.Props\.(\S+)' (.*)", l)
        if mm:
            (failed if 'sorryAx' in mm.group(2) else ok).append(mm.group(1))
    missing = [t for t in thms if t not in failed and t not in ok]
    return {'failed': failed, 'ok': len(ok), 'missing': missing, 'rounds': rounds,
            'sorried': sorted({k[1][:60] for k in hit})}


if __name__ == '__main__':
    ms = json.load(open(sys.argv[1]))
    os.makedirs(SCRATCH, exist_ok=True)
    for m in ms:
        r = run(m)
        with open(sys.argv[2], 'a') as f:
            f.write(json.dumps({**m, 'result': r}) + '\n')
        print(m.get('definition'), '|', m.get('breaks'), '->',
              r.get('error') or [x for x in r['failed'] if x.startswith('C')], r.get('missing'), flush=True)
