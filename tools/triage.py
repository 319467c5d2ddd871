"""Tries wrong programs quickly: applies one edit at a time to a scratch copy of the model, builds it until
the first error which is not in an example, and finds the property theorems that depend on the declarations that failed.

usage: triage.py MUTANTS.json RESULTS.jsonl EDGES.txt [SCRATCH]

EDGES.txt has a line "constant TAB module TAB used constants" for each constant of the unmodified project.
A result without failure is that of an edit that the theorems do not see. See seed.py for the complete (slow)
version.
"""
import json, os, re, shutil, signal, subprocess, sys, threading, time
sys.path.insert(0, os.path.dirname(__file__))
from collections import defaultdict

SRC = os.environ.get('SEED_SRC', '/verif/lean')
START = re.compile(r'^(?:@\[[^\]]*\]\s*)?(?:private |protected |noncomputable |nonrec )*'
                   r'(theorem|lemma|def|abbrev|instance|example|structure|inductive|class)\b\s*(\S*)')

def decl(path, ln):
    lines = open(path).read().split('\n')
    i = min(ln, len(lines)) - 1
    while i > 0 and not START.match(lines[i]): i -= 1
    m = START.match(lines[i])
    if not m: return '?'
    return 'example in ' + os.path.basename(path) if m.group(1) == 'example' else m.group(2)

def build(scratch):
    p = subprocess.Popen(['lake', 'build'], cwd=scratch, stdout=subprocess.PIPE, stderr=subprocess.STDOUT, text=True,
                         start_new_session=True)
    errs = []
    for l in p.stdout:
        m = re.match(r'^error: (Verif/\S+\.lean):(\d+):(\d+): (.*)', l)
        if m: errs.append((m.group(1), int(m.group(2)), l[:200]))
        elif re.match(r'^(✔|✖|⚠|Some required)', l) and any(
                not decl(os.path.join(scratch, f), ln).startswith('example') for f, ln, _ in errs):
            break
    try: os.killpg(p.pid, signal.SIGKILL)
    except ProcessLookupError: pass
    p.wait()
    return p.returncode, errs

def main():
    mutants = json.load(open(sys.argv[1]))
    out, edges = sys.argv[2], sys.argv[3]
    scratch = sys.argv[4] if len(sys.argv) > 4 else '/tmp/seed/lean'
    manifest = json.load(open('/verif/MANIFEST.json'))
    names = {t if t.startswith('Unc.') else 'Unc.' + t for c in manifest['claims'] for t in c['theorems']}
    users = defaultdict(set)
    known = set()
    for l in open(edges):
        n, mod, us = (l.rstrip('\n').split('\t') + ['', ''])[:3]
        known.add(n)
        for u in us.split(): users[u].add(n)
    def closure(n):
        todo, seen = [n], {n}
        while todo:
            for u in users[todo.pop()]:
                if u not in seen: seen.add(u); todo.append(u)
        return seen
    done = {json.loads(l)['id'] for l in open(out)} if os.path.exists(out) else set()
    for mu in mutants:
        if mu['id'] in done: continue
        shutil.rmtree(scratch, ignore_errors=True)
        subprocess.run(['cp', '-a', SRC, scratch], check=True)
        p = os.path.join(scratch, mu['file'])
        s = open(p).read()
        bad = False
        for old, new in mu['edits']:
            if s.count(old) != 1:
                print(mu['id'], 'edit matches', s.count(old), 'times', flush=True); bad = True
            s = s.replace(old, new)
        if bad: continue
        open(p, 'w').write(s)
        t0 = time.time()
        rc, errs = build(scratch)
        failed = []
        for f, ln, _ in errs:
            d = decl(os.path.join(scratch, f), ln)
            if d not in failed: failed.append(d)
        note = None
        if errs and errs[0][0] == mu['file'] and not any(f.startswith('example') for f in failed):
            note = errs[0][2]
        broken = set()
        for d in failed:
            for n in known:
                if n == 'Unc.' + d or n.endswith('.' + d): broken |= closure(n)
        broken = sorted(n[4:] for n in broken & names)
        with open(out, 'a') as fo:
            fo.write(json.dumps({'id': mu['id'], 'failed': failed, 'broken': broken, 'ok': [], 'note': note}) + '\n')
        print(mu['id'], int(time.time() - t0), 'failed', failed[:4], 'broken', len(broken), broken[:3], note, flush=True)

main()
