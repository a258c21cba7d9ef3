#!/usr/bin/env python3
"""Seeded-bug runs. usage: mutate.py FILE.json [index...]

FILE.json is a list of {"file": "Clock/Model.lean", "def", "old", "new", "edit", "claim",
"tightened": [...]}.  Every edit is applied to a scratch copy of the Lean project outside
/verif, the property modules of the area are rebuilt there, and one line is appended to
/verif/seeded/LOG.jsonl with the declarations whose proof fails and the property theorems
(C..) that depend on them.
"""
import json, re, shutil, subprocess, sys, os, pathlib
SRC = pathlib.Path('/verif/lean'); DST = pathlib.Path('/tmp/scratch/lean')
LOG = pathlib.Path('/verif/seeded/LOG.jsonl')
DECL = re.compile(r'^(?:@\[[^\]]*\]\s*)?(?:private\s+|noncomputable\s+)?(?:theorem|lemma|def|abbrev|instance|structure|inductive|example)\s+([^\s:({\[]+)?', re.M)

def sync():
    DST.mkdir(parents=True, exist_ok=True)
    subprocess.run(['rsync', '-a', '--delete', '--exclude', '.lake', f'{SRC}/', f'{DST}/'], check=True) \
        if shutil.which('rsync') else copy()

def copy():
    if (DST/'Verif').exists(): shutil.rmtree(DST/'Verif')
    shutil.copytree(SRC/'Verif', DST/'Verif', copy_function=shutil.copy2)
    for f in SRC.iterdir():
        if f.is_file(): shutil.copy2(f, DST/f.name)
    if not (DST/'.lake').exists():
        subprocess.run(['cp', '-a', str(SRC/'.lake'), str(DST/'.lake')], check=True)

def decls(area):
    out = []
    for f in sorted((DST/'Verif'/area).glob('*.lean')):
        t = f.read_text(); ms = list(DECL.finditer(t))
        for i, m in enumerate(ms):
            end = ms[i+1].start() if i+1 < len(ms) else len(t)
            name = m.group(1) or 'example'
            out.append((f, t.count('\n', 0, m.start())+1, name, t[m.start():end]))
    return out

def run(mu):
    sync()
    area = mu['file'].split('/')[0]
    p = DST/'Verif'/mu['file']; t = p.read_text()
    if t.count(mu['old']) != 1:
        print('SKIP: old text occurs', t.count(mu['old']), 'times:', mu['old']); return None
    p.write_text(t.replace(mu['old'], mu['new']))
    mods = [f'Verif.{area}.{f.stem}' for f in (DST/'Verif'/area).glob('*.lean')]
    r = subprocess.run(['lake', 'build'] + mods, cwd=DST, capture_output=True, text=True)
    errs = re.findall(r'^error: (?:\./)?Verif/(\S+\.lean):(\d+):\d+: (.*)$', r.stdout + r.stderr, re.M)
    ds = decls(area); failed = []
    for fn, ln, msg in errs:
        cand = [d for d in ds if str(d[0]).endswith('Verif/'+fn) and d[1] <= int(ln)]
        if cand:
            n = cand[-1][2]
            if n not in failed: failed.append(n)
    bad = set(failed) - {'example'}
    grow = True
    while grow:
        grow = False
        for f, l, n, body in ds:
            if n in bad or n == 'example': continue
            words = set(re.findall(r"[A-Za-z_][\w'.₀₁₂]*", body))
            words |= {w.split('.')[-1] for w in words}
            if any(b in words or b.split('.')[-1] in words for b in bad):
                bad.add(n); grow = True
    props = sorted(n for n in bad if re.match(r'C\d\d+_', n))
    rec = {'definition': mu['def'], 'file': 'lean/Verif/'+mu['file'], 'edit': mu['edit'], 'claim': mu['claim'],
           'failed_directly': failed, 'theorems_failed': props, 'theorems_tightened': mu.get('tightened', [])}
    if r.returncode == 0: rec['result'] = 'survived: ' + mu.get('survived', 'TODO')
    return rec

if __name__ == '__main__':
    ms = json.load(open(sys.argv[1])); idx = [int(a) for a in sys.argv[2:]] or range(len(ms))
    for i in idx:
        rec = run(ms[i])
        if rec is None: continue
        print(i, json.dumps(rec, ensure_ascii=False))
        if 'result' in rec and rec['result'].endswith('TODO'):
            print('   *** SURVIVED, not logged'); continue
        with open(LOG, 'a') as f: f.write(json.dumps(rec, ensure_ascii=False)+'\n')
