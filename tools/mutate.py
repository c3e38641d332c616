#!/usr/bin/env python3
"""Mutation runner: applies each mutant of a list (python file defining MUTS) to a scratch copy of
/verif/lean, rebuilds the given modules, and appends one JSON line per mutant to seeded/LOG.jsonl.
usage: mutate.py scratch_copy mutants.py [start]"""
import sys, re, json, subprocess, pathlib
scr = pathlib.Path(sys.argv[1]); ns = {}
exec(open(sys.argv[2]).read(), ns)
start = int(sys.argv[3]) if len(sys.argv) > 3 else 0
log = pathlib.Path('/verif/seeded/LOG.jsonl')
def thm_at(f, line):
    ls = f.read_text().splitlines()
    for i in range(min(line, len(ls)) - 1, -1, -1):
        m = re.match(r'\s*(?:@\[[^\]]*\]\s*)?(?:private |protected |noncomputable )*(theorem|lemma|def|example|instance|structure)\b\s*([^\s:({\[]*)', ls[i])
        if m: return (m.group(2) or 'example@%s:%d' % (f.stem, i + 1)) if m.group(1) != 'example' else 'example@%s:%d' % (f.stem, i + 1)
    return '?'
for n, (fn, d, old, new, claim, targets) in enumerate(ns['MUTS']):
    if n < start: continue
    f = scr / 'Verif' / fn
    src = f.read_text()
    m = re.search(r'^(?:noncomputable )?(?:def|structure|abbrev) ' + re.escape(d) + r'\b', src, re.M)
    if not m: print('NODEF', n, fn, d, flush=True); continue
    i = src.find(old, m.start())
    if i < 0: print('NOSTR', n, fn, d, old, flush=True); continue
    f.write_text(src[:i] + new + src[i + len(old):])
    try:
        p = subprocess.run(['lake', 'build'] + targets, cwd=scr, capture_output=True, text=True, timeout=400)
        out = p.stdout + p.stderr
        fails = []
        for mm in re.finditer(r'^error: (Verif/\w+\.lean):(\d+):', out, re.M):
            t = thm_at(scr / mm.group(1), int(mm.group(2)))
            if t not in fails: fails.append(t)
        if p.returncode and not fails: fails = ['?? ' + out[-300:]]
    except subprocess.TimeoutExpired:
        fails = ['(timeout)']
    f.write_text(src)
    rec = dict(definition=f'{fn}:{d}', edit=f'{old}  ==>  {new}', claim=claim, failed=fails, tightened=[])
    with log.open('a') as h: h.write(json.dumps(rec, ensure_ascii=False) + '\n')
    print('SURVIVED' if not fails else 'killed', n, fn, d, claim, len(fails), flush=True)
