#!/usr/bin/env python3
"""Automatic seeded faults: changes one operator, constant, condition or field update of the model at a time and looks whether every proof still goes through.

usage: automut.py list > mutants.json          all mutants
       automut.py run mutants.json part parts log [file ...]   runs those of one part, in a scratch copy (MUTDIR, from MUTSRC), one line per mutant in log
A mutant is `invalid` if the model itself no longer builds, `killed` if some proof fails, `survived` if everything builds."""
import json, os, re, subprocess, sys, shutil, signal, random
SRC = os.environ.get('MUTSRC', '/verif/lean')

def code_mask(t):
    m = [True] * len(t); i = 0; depth = 0
    while i < len(t):
        if t.startswith('/-', i): depth += 1; m[i] = m[i+1] = False; i += 2; continue
        if depth and t.startswith('-/', i): depth -= 1; m[i] = m[i+1] = False; i += 2; continue
        if depth: m[i] = False; i += 1; continue
        if t.startswith('--', i):
            while i < len(t) and t[i] != '\n': m[i] = False; i += 1
            continue
        i += 1
    return m

OPS = [(r' ≤ ', [' < ']), (r' < ', [' ≤ ']), (r' ≥ ', [' > ']), (r' > ', [' ≥ ']), (r' == ', [' != ']), (r' != ', [' == ']), (r' ≠ ', [' = ']),
       (r' && ', [' || ']), (r' \|\| ', [' && ']), (r' ∧ ', [' ∨ ']), (r' ∨ ', [' ∧ ']), (r' \+ 1\b', ['', ' + 2']), (r' - 1\b', ['']),
       (r'\btrue\b', ['false']), (r'\bfalse\b', ['true']), (r'\.take\b', ['.drop']), (r'\.drop\b', ['.take']), (r'!(?=[a-z(])', ['']), (r' \+ (?=[a-z(])', [' - ']), (r' - (?=[a-z(])', [' + ']),
       (r'\bif (?!let\b)(?=[^\n]*\bthen\b)', ['@neg']), (r'\b\d+\b', ['@inc']), (r'b!"(?=[^"\n]*")', ['b!"x']), (r'\+\+ ', ['@dropcat']), (r'\bnone\b', []), (r'(?<=[,{] )[a-zA-Z_]+ := ', ['@dropfield']),
       (r'\bmin\b', ['max']), (r'\bmax\b', ['min']), (r'\.head\?', ['.getLast?']), (r'\.getLast\?', ['.head?']), (r'\.find\? ', []), (r'\.any ', ['.all ']), (r'\.all ', ['.any ']), (r'\.isSome\b', ['.isNone']), (r'\.isNone\b', ['.isSome'])]

def mutants():
    out = []
    for f in sorted(os.listdir(SRC + '/Verif/Model')):
        t = open(SRC + '/Verif/Model/' + f).read(); m = code_mask(t)
        decls = [(x.start(), x.group(2)) for x in re.finditer(r'^(?:@\[[^\]]*\]\s*)?(def|structure|inductive|abbrev|theorem|instance|class)\s+([^\s:({\[]+)', t, re.M) if m[x.start()]]
        kinds = [(x.start(), x.group(1)) for x in re.finditer(r'^(?:@\[[^\]]*\]\s*)?(def|structure|inductive|abbrev|theorem|instance|class|deriving|macro)\b', t, re.M) if m[x.start()]]
        for pat, reps in OPS:
            for x in re.finditer(pat, t):
                a, b = x.span()
                if not m[a] or not m[b-1]: continue
                k = [kk for p, kk in kinds if p <= a]
                if not k or k[-1] not in ('def', 'abbrev', 'structure'): continue
                line = t[t.rfind('\n', 0, a)+1: (t.find('\n', b) + 1 or len(t)) - 1]
                if re.match(r'\s*(termination_by|decreasing_by|deriving|namespace|import|open|set_option)', line): continue
                # inside a string literal?
                pre = t[t.rfind('\n', 0, a)+1:a]
                if pre.replace('\\"', '').count('"') % 2 == 1: continue
                for r in reps:
                    new = None; aa, bb = a, b
                    if r == '@neg':
                        th = t.index(' then', b); new = 'if ¬ (' + t[b:th] + ')'; bb = th
                        if ' : ' in t[b:th].split('=')[0]: continue
                    elif r == '@inc':
                        if re.search(r'[\w.\]]$', t[max(0,a-1):a]): continue
                        new = str(int(x.group()) + 1)
                    elif r == '@dropcat':
                        # drop the operand after ++
                        j = b; d = 0
                        while j < len(t):
                            c = t[j]
                            if c in '([{⟨': d += 1
                            elif c in ')]}⟩':
                                if d == 0: break
                                d -= 1
                            elif c == '"':
                                j += 1
                                while t[j] != '"':
                                    if t[j] == '\\': j += 1
                                    j += 1
                            elif d == 0 and (c in ',\n' or t.startswith(' ++', j) or t.startswith(' then', j) or t.startswith(' else', j) or t.startswith(' =', j) or t.startswith(' }', j) or t.startswith(' :', j)): break
                            j += 1
                        aa = a; bb = j; new = ''
                        aa = a - 1 if t[a-1] == ' ' else a
                    elif r == '@dropfield':
                        if ' with ' not in pre: continue
                        j = b; d = 0
                        while j < len(t):
                            c = t[j]
                            if c in '([{⟨': d += 1
                            elif c in ')]}⟩':
                                if d == 0: break
                                d -= 1
                            elif c == '"':
                                j += 1
                                while t[j] != '"':
                                    if t[j] == '\\': j += 1
                                    j += 1
                            elif d == 0 and (c in ',\n'): break
                            j += 1
                        if t[j] == ',': bb = j + 2; new = ''
                        else:
                            if t[a-2] == ',': aa = a - 2; bb = j - (1 if t[j-1] == ' ' else 0); new = ''
                            else: continue
                    else: new = r
                    d = [n for p, n in decls if p <= a]
                    ln = t.count('\n', 0, a) + 1
                    out.append(dict(id='%s:%d:%d:%s' % (f[:-5], ln, a - t.rfind('\n', 0, a), new[:12]), file=f, a=aa, b=bb, old=t[aa:bb], new=new, definition=d[-1] if d else '?', line=line.strip()[:200]))
        # `with` followed by the first field: { s with f := v, ... }
        for x in re.finditer(r' with ([a-zA-Z_]+ := )', t):
            a, b = x.span(1)
            if not m[a]: continue
            j = b; d = 0
            while j < len(t):
                c = t[j]
                if c in '([{⟨': d += 1
                elif c in ')]}⟩':
                    if d == 0: break
                    d -= 1
                elif c == '"':
                    j += 1
                    while t[j] != '"':
                        if t[j] == '\\': j += 1
                        j += 1
                elif d == 0 and c in ',\n': break
                j += 1
            if t[j] != ',': continue
            dd = [n for p, n in decls if p <= a]; ln = t.count('\n', 0, a) + 1
            line = t[t.rfind('\n', 0, a)+1: t.find('\n', b)]
            out.append(dict(id='%s:%d:%d:dropfirst' % (f[:-5], ln, a - t.rfind('\n', 0, a)), file=f, a=a, b=j+2, old=t[a:j+2], new='', definition=dd[-1] if dd else '?', line=line.strip()[:200]))
    return out

def restore(dst):
    for root, dirs, files in os.walk(SRC):
        for f in files:
            a = os.path.join(root, f); b = dst + a[len(SRC):]
            try:
                x = os.stat(a); y = os.stat(b)
                if x.st_size == y.st_size and x.st_mtime_ns == y.st_mtime_ns: continue
            except FileNotFoundError: pass
            os.makedirs(os.path.dirname(b), exist_ok=True); shutil.copy2(a, b)

def run(muts, log):
    DST = os.environ['MUTDIR']
    if not os.path.exists(DST): os.makedirs(os.path.dirname(DST), exist_ok=True); subprocess.run(['cp', '-a', SRC, DST], check=True)
    for mu in muts:
        p = DST + '/Verif/Model/' + mu['file']; orig = open(SRC + '/Verif/Model/' + mu['file']).read()
        assert orig[mu['a']:mu['b']] == mu['old'], mu['id']
        open(p, 'w').write(orig[:mu['a']] + mu['new'] + orig[mu['b']:])
        pr = subprocess.Popen(['lake', 'build'], cwd=DST, stdout=subprocess.PIPE, stderr=subprocess.STDOUT, text=True, preexec_fn=os.setsid)
        verdict = 'survived'; err = ''
        for l in pr.stdout:
            mm = re.match(r'error: (?:\./)?(Verif/\S+\.lean):(\d+):\d+: (.*)', l)
            if mm:
                verdict = 'invalid' if '/Model/' in mm.group(1) else 'killed'; err = mm.group(1) + ':' + mm.group(2)
                try: os.killpg(pr.pid, signal.SIGKILL)
                except ProcessLookupError: pass
                break
        pr.wait()
        restore(DST)
        with open(log, 'a') as o: o.write(json.dumps(dict(mu, verdict=verdict, err=err)) + '\n')

if __name__ == '__main__':
    if sys.argv[1] == 'list':
        ms = mutants(); random.Random(1).shuffle(ms); json.dump(ms, sys.stdout)
    else:
        ms = json.load(open(sys.argv[2])); k, n = int(sys.argv[3]), int(sys.argv[4]); log = sys.argv[5]; files = sys.argv[6:]
        done = set()
        for lf in [log] + ([os.environ['MUTDONE']] if 'MUTDONE' in os.environ else []):
            if os.path.exists(lf): done |= {json.loads(l)['id'] for l in open(lf)}
        run([x for i, x in enumerate(ms) if i % n == k and x['id'] not in done and (not files or x['file'][:-5] in files)], log)
