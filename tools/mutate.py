#!/usr/bin/env python3
"""Runs seeded faults against the theorems, in a scratch copy outside /verif.

usage: mutate.py mutations.json [id ...]
For each mutation: copy /verif/lean to /tmp/mut, apply the textual edit to the model, build; every declaration whose proof
breaks is recorded and its proof cut out (in the scratch copy only) so that the build can go on; at the end the property
theorems that broke, or rest on a broken one, are listed, and one line is appended to /verif/seeded/LOG.jsonl.
"""
import json, os, re, subprocess, sys, shutil
SRC = os.environ.get('MUTSRC', '/verif/lean'); DST = os.environ.get('MUTDIR', '/tmp/mut/lean'); LOG = '/verif/seeded/LOG.jsonl'
HOLE = 'so' + 'rry'
KW = re.compile(r'^(@\[[^\]]*\]\s*)?(private |protected |noncomputable |partial )*(theorem|lemma|def|example|instance|structure|inductive|abbrev)\b')
TOP = re.compile(r'^(/--|/-!|theorem|lemma|def|example|instance|structure|inductive|abbrev|end|namespace|open|variable|section|omit|include|local|mutual|macro|set_option|attribute|deriving|@\[|private|protected|--)')

def sync():
    shutil.rmtree(DST, ignore_errors=True); os.makedirs(os.path.dirname(DST), exist_ok=True)
    subprocess.run(['cp', '-a', SRC, DST], check=True)

def build():
    p = subprocess.run(['lake', 'build'], cwd=DST, capture_output=True, text=True)
    errs = []
    for line in (p.stdout + p.stderr).splitlines():
        m = re.match(r'error: (?:\./)?(Verif/\S+\.lean):(\d+):\d+: (.*)', line)
        if m: errs.append((m.group(1), int(m.group(2)), m.group(3)))
    return p.returncode, errs, p.stdout + p.stderr

def decl_at(lines, ln):
    i = ln - 1
    while i >= 0 and not KW.match(lines[i]): i -= 1
    if i < 0: return None
    j = i + 1
    while j < len(lines) and not TOP.match(lines[j]): j += 1
    return i, j

def name_of(line):
    m = re.match(r'^(?:@\[[^\]]*\]\s*)?(?:private |protected |noncomputable |partial )*(theorem|lemma|def|example|instance)\s*([^\s:({\[]*)', line)
    return (m.group(1), m.group(2)) if m else ('?', line[:40])

def islet(s, x): return re.search(r'\blet \S+$', s[:x].rstrip()) is not None

def cut(lines, i, j):
    body = lines[i:j]
    kind, nm = name_of(body[0])
    if kind == 'example':
        return lines[:i] + ['example : True := trivial'] + [''] * (j - i - 1) + lines[j:]
    carry = 0
    for k, l in enumerate(body):
        s = l.rstrip()
        start = carry; carry += sum(s.count(x) for x in '([{⟨') - sum(s.count(x) for x in ')]}⟩')
        if s.lstrip().startswith('let '): continue
        if (s.endswith(':= by') or s.endswith(':=')) and not islet(s, s.rindex(':=')):
            s2 = s[: s.rindex(':=')] + ':= ' + HOLE
            return lines[:i] + body[:k] + [s2] + [''] * (len(body) - k - 1) + lines[j:]
        if k > 0 and re.match(r'^  \| ', l) :
            return lines[:i] + body[:k] + ['  := ' + HOLE] + [''] * (len(body) - k - 1) + lines[j:]
        if k > 0 and s.endswith(' where'):
            s2 = s[: -len(' where')] + ' := ' + HOLE
            return lines[:i] + body[:k] + [s2] + [''] * (len(body) - k - 1) + lines[j:]
        if ' := ' in s and (k + 1 == len(body) or True):
            # a one-line proof, or a proof that starts on this line
            depth = start; pos = None
            for x in range(len(s)):
                if s[x] in '([{⟨': depth += 1
                elif s[x] in ')]}⟩': depth -= 1
                elif s.startswith(' := ', x) and depth == 0 and not islet(s, x): pos = x; break
            if pos is not None:
                return lines[:i] + body[:k] + [s[:pos] + ' := ' + HOLE] + [''] * (len(body) - k - 1) + lines[j:]
        if s.endswith(' where') and k == 0:
            s2 = s[: -len(' where')] + ' := ' + HOLE
            return lines[:i] + [s2] + [''] * (len(body) - 1) + lines[j:]
    return None

def check(theorems):
    f = os.path.join(os.path.dirname(DST), 'chk_%d.lean' % os.getpid())
    src = 'import Lean\nimport Verif\nopen Lean Elab Command\n'
    src += 'elab "#chk " ids:ident* : command => do\n  for i in ids do\n    let n := i.getId\n    if (← getEnv).contains n then\n      let ax ← collectAxioms n\n      if ax.contains ``' + HOLE + 'Ax then logInfo m!"BROKEN {n}"\n    else logInfo m!"BROKEN {n}"\n'
    src += '#chk ' + ' '.join(theorems) + '\n'
    open(f, 'w').write(src)
    p = subprocess.run(['lake', 'env', 'lean', f], cwd=DST, capture_output=True, text=True)
    os.remove(f)
    out = p.stdout + p.stderr
    return [l.split('BROKEN ')[1].strip() for l in out.splitlines() if 'BROKEN ' in l], out

def run(m, manifest):
    sync()
    path = os.path.join(DST, m['file'])
    text = open(path).read()
    edits = m.get('edits') or [[m['old'], m['new']]]
    for old, new in edits:
        assert text.count(old) >= 1, ('not found', m['id'], old)
        if not m.get('all'): assert text.count(old) == 1, ('ambiguous', m['id'], text.count(old))
        text = text.replace(old, new)
    open(path, 'w').write(text)
    broken = []; note = ''
    for rnd in range(60):
        rc, errs, out = build()
        if rc == 0: break
        files = {}
        for f, ln, msg in errs: files.setdefault(f, set()).add(ln)
        if not files:
            note = 'build failed without located error: ' + out[-300:]; break
        progress = False
        for f, lns in files.items():
            lines = open(os.path.join(DST, f)).read().split('\n')
            for ln in sorted(lns):
                d = decl_at(lines, ln)
                if not d: continue
                nm = name_of(lines[d[0]])
                if nm[0] not in ('theorem', 'lemma', 'example', 'instance') and not (nm[0] == 'def' and '/Props/' in f):
                    note = 'definition does not compile: %s %s:%d' % (nm, f, ln); continue
                new = cut(lines, *d)
                key = nm[1] if nm[0] != 'example' else 'example@%s:%d' % (f, d[0] + 1)
                if new is None: note = 'cannot cut ' + key; continue
                if key not in broken: broken.append(key)
                if new != lines: progress = True
                lines = new
            open(os.path.join(DST, f), 'w').write('\n'.join(lines))
        if not progress: note = note or 'no progress: ' + str(errs[:2]); break
    allth = sorted({t for c in manifest['claims'] for t in c['theorems']})
    bt, out = check(allth) if rc == 0 else ([], '')
    claimth = {t for c in manifest['claims'] if c['property'] in m['claims'] for t in c['theorems']}
    caught = [t for t in bt if t in claimth]
    rec = {'id': m['id'], 'definition': m['definition'], 'edit': m['edit'], 'claim': m['claims'],
           'failed': [b for b in broken], 'failed_property_theorems': bt, 'caught_by_claim': caught, 'tightened': []}
    if note: rec['note'] = note
    verdict = 'CAUGHT' if caught else ('CAUGHT-OTHER' if bt else ('??' if note else 'SURVIVED'))
    rec['verdict'] = verdict.lower()
    return rec

if __name__ == '__main__':
    muts = json.load(open(sys.argv[1])); ids = set(sys.argv[2:])
    manifest = json.load(open(os.environ.get('MUTMANIFEST', '/verif/MANIFEST.json')))
    for m in muts:
        if ids and m['id'] not in ids: continue
        if os.environ.get('MUTFROM') and m['id'] < os.environ['MUTFROM']: continue
        try: rec = run(m, manifest)
        except AssertionError as e: print('SKIP', m['id'], e, flush=True); continue
        print(rec['verdict'], m['id'], 'broken', len(rec['failed']), 'props', len(rec['failed_property_theorems']), rec['caught_by_claim'][:4], rec.get('note', ''), flush=True)
        with open(os.environ.get('MUTLOG', '/tmp/mutlog.jsonl'), 'a') as o: o.write(json.dumps(rec) + '\n')
