#!/usr/bin/env python3
"""Seed a wrong program into a scratch copy of the model and report which theorems no longer hold.

usage: mutate.py mutants.json [scratch dir]

mutants.json: [{"file": "Verif/…", "definition": …, "old": …, "new": …, "edit": …, "breaks": "C01: …", "expect": ["C01"]}, …]

Every declaration whose proof fails is replaced by `sorry` and the build repeated, until it goes through; the property
theorems (Cxx_…) that then depend on `sorryAx` are the ones that failed. One JSON line per mutant is written to stdout.
"""
import json, os, re, shutil, subprocess, sys

SRC = os.environ.get('MUT_SRC', '/verif/lean')
START = re.compile(r'^(?:@\[[^\]]*\]\s*)?(?:private |protected |noncomputable )*(theorem|example|def|structure|inductive|instance|abbrev|class|namespace|end|section|open|variable|set_option|/--|/-!|deriving|mutual|@\[)')

def decl_ranges(lines):
    starts = [i for i, l in enumerate(lines) if START.match(l)]
    return starts

def proof_start(text):
    depth = 0
    i = 0
    while i < len(text):
        c = text[i]
        if c in '([{⟨': depth += 1
        elif c in ')]}⟩': depth -= 1
        elif text.startswith(':=', i) and depth == 0:
            line = text[:i].rsplit('\n', 1)[-1]
            seg = re.split(r';', line)[-1]
            if not re.search(r'\b(let|have)\b[^:=]*(:[^=]*)?$', seg):
                return i
        elif depth == 0 and text.startswith('\n  | ', i):
            return -1
        i += 1
    return -1

def patch(path, errlines):
    lines = open(path).read().split('\n')
    starts = decl_ranges(lines)
    todo = {}
    for e in errlines:
        s = max((x for x in starts if x <= e - 1), default=None)
        if s is None: raise Exception('no decl for line %d of %s' % (e, path))
        # a doc comment directly before: move on to the declaration
        while lines[s].startswith('/--') or lines[s].startswith('@['):
            s = min(x for x in starts if x > s)
        nxt = min((x for x in starts if x > s), default=len(lines))
        todo[s] = nxt
    names = []
    for s, nxt in sorted(todo.items(), reverse=True):
        text = '\n'.join(lines[s:nxt])
        m = re.match(r'(?:@\[[^\]]*\]\s*)?(?:private |protected )*(theorem|example|def|instance)\s*(\S*)', text)
        if not m: raise Exception('cannot patch %s:%d' % (path, s + 1))
        kind, name = m.group(1), m.group(2)
        if kind == 'example':
            # drop the example together with its doc comment
            names.append('example@%s' % os.path.basename(path))
            j = s
            if j > 0 and lines[j-1].rstrip().endswith('-/'):
                while not lines[j-1].startswith('/--') and j > 1: j -= 1
                j -= 1
            lines[j:nxt] = []
            continue
        if kind == 'def' and (name.endswith(('Kind', 'Loose')) or name.startswith('Loose.')) and '\n' in text:
            # a structure whose fields are proofs
            k = re.search(r'\s(where|:=)\s*\n', text)
            if not k or ':= sorry' in text: raise Exception('definition fails: %s %s' % (name, path))
            names.append(name)
            lines[s:nxt] = (text[:k.start()] + ' := sorry\n').split('\n')
            continue
        if kind != 'theorem': raise Exception('definition fails: %s %s' % (name, path))
        k = proof_start(text)
        if k < 0:
            k2 = text.find('\n  | ')
            if k2 < 0: raise Exception('no proof start: ' + name)
            k = k2
        if ':= sorry' in text: raise Exception('already sorry: ' + name)
        names.append(name)
        lines[s:nxt] = (text[:k] + ' := sorry\n').split('\n')
    open(path, 'w').write('\n'.join(lines))
    return names

def build(d):
    p = subprocess.run(['lake', 'build'], cwd=d, capture_output=True, text=True, timeout=3000)
    return p.returncode, p.stdout + p.stderr

def main():
    muts = json.load(open(sys.argv[1]))
    d = sys.argv[2] if len(sys.argv) > 2 else '/root/mut/lean'
    subprocess.run(['mkdir', '-p', os.path.dirname(d)])
    subprocess.run(['rsync', '-a', '--delete', SRC + '/', d + '/']) if shutil.which('rsync') else (shutil.rmtree(d, ignore_errors=True), subprocess.run(['cp', '-a', SRC, d]))
    build(d)
    theorems = []
    for root, _, fs in os.walk(os.path.join(SRC, 'Verif')):
        for f in fs:
            if f.endswith('.lean'):
                ns = ''
                for l in open(os.path.join(root, f)):
                    m = re.match(r'namespace (\S+)', l)
                    if m: ns = m.group(1)
                    m = re.match(r'theorem (C\d\d\S*)', l)
                    if m: theorems.append((ns + '.' + m.group(1)))
    for mu in muts:
        orig = {}
        def keep(p):
            if p not in orig: orig[p] = open(p).read()
        out = dict(definition=mu['definition'], file=mu['file'], edit=mu['edit'], breaks=mu['breaks'])
        try:
            p = os.path.join(d, mu['file'])
            keep(p)
            t = open(p).read()
            if t.count(mu['old']) < 1: raise Exception('old text not found')
            t = t.replace(mu['old'], mu['new'], mu.get('count', 1))
            open(p, 'w').write(t)
            broken = []
            for _ in range(60):
                rc, log = build(d)
                errs = {}
                for m in re.finditer(r'^error: (\S+\.lean):(\d+):', log, re.M):
                    errs.setdefault(m.group(1), set()).add(int(m.group(2)))
                if rc == 0: break
                if not errs: raise Exception(log[-600:])
                for f, ls in errs.items():
                    q = os.path.join(d, f)
                    keep(q)
                    broken += patch(q, ls)
            f = os.path.join(d, 'Check.lean')
            open(f, 'w').write('import Verif\n' + '\n'.join('#print axioms ' + t for t in theorems) + '\n')
            r = subprocess.run(['lake', 'env', 'lean', 'Check.lean'], cwd=d, capture_output=True, text=True)
            os.remove(f)
            failed = []
            for m in re.finditer(r"'([^']+)' (does not depend|depends on axioms: \[([^\]]*)\])", r.stdout):
                if m.group(3) and 'sorryAx' in m.group(3): failed.append(m.group(1).split('.')[-1])
            out['proofs_broken'] = broken
            out['failed'] = sorted(set(failed))
            out['missed'] = [x for x in mu.get('expect', []) if not any(n.startswith(x) for n in failed)]
        except Exception as e:
            out['error'] = str(e)
        finally:
            for q, t in orig.items(): open(q, 'w').write(t)
        print(json.dumps(out), flush=True)
main()
