"""Tries wrong programs: applies one edit at a time to a scratch copy of the model and finds the property
theorems that can still be proved.

usage: seed.py MUTANTS.json RESULTS.jsonl [SCRATCH]

Each mutant is {"def", "file", "old", "new", "edit", "claim"}. In the scratch copy, proofs that fail are
replaced by sorry, so that the modules that follow can be checked; the theorems of the manifest that then
depend on sorry are those that do not survive the edit.
"""
import json, os, re, shutil, subprocess, sys

SRC = os.environ.get('SEED_SRC', '/verif/lean')
TOP = re.compile(r'^(?:@\[[^\]]*\]\s*)?(?:private |protected |noncomputable |nonrec |open .* in\s*$)*'
                 r'(theorem|lemma|def|abbrev|instance|example|structure|inductive|class|macro|variable|section|end|namespace|open|set_option|omit|/--|/-)')

def decl_bounds(lines, ln):
    """[start, end) of the declaration around line number ln (0-based)."""
    i = ln
    while i > 0 and not re.match(r'^(?:@\[[^\]]*\]\s*)?(?:private |protected |noncomputable |nonrec )*(theorem|lemma|def|abbrev|instance|example|structure|inductive|class)\b', lines[i]):
        i -= 1
    j = i + 1
    while j < len(lines) and not (lines[j][:1] not in ('', ' ', '\n', '\t') and not lines[j].startswith('|')
                                  and not lines[j].startswith(')')):
        j += 1
    return i, j

def sig_end(text):
    depth = 0
    k = 0
    while k < len(text):
        c = text[k]
        if c == "'" and text[k+2:k+3] == "'":  # character literal
            k += 3
            continue
        if c in '([{⟨': depth += 1
        elif c in ')]}⟩': depth -= 1
        elif depth == 0 and text.startswith(':=', k):
            line = text[text.rfind('\n', 0, k) + 1:k]
            if not re.search(r'\blet\b', line):
                return k
        elif depth == 0 and re.match(r'\bwhere\b', text[k:]) and k > 0 and text[k-1] in ' \n':
            return k
        elif depth == 0 and text.startswith('\n  | ', k):
            return k
        k += 1
    return None

def patch(path, linenos):
    lines = open(path).read().split('\n')
    lines = [l + '\n' for l in lines]
    done = []
    spans = {}
    for ln in linenos:
        spans.setdefault(decl_bounds(lines, min(ln, len(lines)) - 1), ln)
    for (i, j), ln in sorted(spans.items(), reverse=True):
        text = ''.join(lines[i:j])
        m = re.match(r'^(?:@\[[^\]]*\]\s*)?(?:private |protected |noncomputable |nonrec )*(\w+)\s*(\S*)', text)
        kind, name = m.group(1), m.group(2)
        if kind == 'example':
            # remove it (and keep the documentation as a comment)
            while i > 0 and re.match(r'^(set_option|open) .* in\s*$', lines[i-1]): i -= 1
            k = i
            while k > 0 and not lines[k].startswith('/--') : k -= 1
            if i > 0 and lines[i-1].rstrip().endswith('-/'):
                lines[k] = lines[k].replace('/--', '/-', 1)
            lines[i:j] = ['\n']
            done.append((i, kind, name))
            continue
        k = sig_end(text)
        if k is None or kind in ('def', 'abbrev', 'structure', 'inductive', 'class'):
            return None, (kind, name, ln)
        body = text[k:]
        if body.strip() == ':= sorry':
            return None, ('already', name, ln)
        lines[i:j] = [text[:k].rstrip() + ' := sorry\n', '\n']
        done.append((i, kind, name))
    s = ''.join(lines)
    open(path, 'w').write(s[:-1] if s.endswith('\n') else s)
    return [(k, n) for _, k, n in done], None

def build(scratch):
    r = subprocess.run(['lake', 'build'], cwd=scratch, capture_output=True, text=True)
    errs = {}
    msgs = []
    for l in (r.stdout + r.stderr).split('\n'):
        m = re.match(r'^error: (Verif/\S+\.lean):(\d+):(\d+): (.*)', l)
        if m:
            errs.setdefault(m.group(1), []).append(int(m.group(2)))
            msgs.append(l[:160])
    return r.returncode, errs, msgs

def main():
    mutants = json.load(open(sys.argv[1]))
    out = sys.argv[2]
    scratch = sys.argv[3] if len(sys.argv) > 3 else '/tmp/seed/lean'
    manifest = json.load(open('/verif/MANIFEST.json'))
    names = [t for c in manifest['claims'] for t in c['theorems']]
    done = set()
    if os.path.exists(out):
        done = {json.loads(l)['id'] for l in open(out)}
    for mu in mutants:
        if mu['id'] in done: continue
        shutil.rmtree(scratch, ignore_errors=True); shutil.copytree(SRC, scratch, symlinks=True)
        p = os.path.join(scratch, mu['file'])
        s = open(p).read()
        edits = mu.get('edits') or [[mu['old'], mu['new']]]
        bad = False
        for old, new in edits:
            if s.count(old) != 1:
                print(mu['id'], 'edit matches', s.count(old), 'times'); bad = True
            s = s.replace(old, new)
        if bad: continue
        open(p, 'w').write(s)
        failed, note = [], None
        for rnd in range(40):
            rc, errs, msgs = build(scratch)
            if rc == 0: break
            if not errs:
                note = 'build failed without located errors'; break
            for f, lns in errs.items():
                d, why = patch(os.path.join(scratch, f), lns)
                if d is None:
                    note = f'cannot patch {f}: {why}; {msgs[:2]}'; break
                failed += [n for k, n in d if k != 'example'] + ['example in ' + f for k, n in d if k == 'example']
            if note: break
        broken, ok = [], []
        if note is None:
            chk = os.path.join(scratch, 'Chk.lean')
            with open(chk, 'w') as fo:
                fo.write('import Verif\n' + ''.join(f'#print axioms {n}\n' for n in names))
            r = subprocess.run(['lake', 'env', 'lean', 'Chk.lean'], cwd=scratch, capture_output=True, text=True)
            os.remove(chk)
            txt = re.sub(r'\n\s+', ' ', r.stdout)
            for n in names:
                m = re.search(r"'" + re.escape(n) + r"' (.*)", txt)
                if m and 'sorryAx' in m.group(1): broken.append(n)
                elif m: ok.append(n)
        with open(out, 'a') as fo:
            fo.write(json.dumps({'id': mu['id'], 'failed': failed, 'broken': broken, 'ok': ok, 'note': note}) + '\n')
        print(mu['id'], 'failed', failed[:6], 'broken', len(broken), 'ok', len(ok), note, flush=True)

main()
