#!/usr/bin/env python3
"""Apply wrong edits to a scratch copy of the model, rebuild, and log which theorems fail.
usage: mutate.py SPEC.json [LOG]   SPEC: list of [file, old, new, definition, claim]"""
import json, os, re, shutil, subprocess, sys
SPEC = json.load(open(sys.argv[1]))
LOG = sys.argv[2] if len(sys.argv) > 2 else '/verif/seeded/LOG.jsonl'
SRC, DST = os.environ.get('MUTSRC', '/verif/lean'), os.environ.get('MUTDIR', '/tmp/mut')
os.makedirs(os.path.dirname(LOG), exist_ok=True)
subprocess.run(['rsync', '-a', '--delete', SRC + '/', DST + '/'], check=True) if shutil.which('rsync') else \
    subprocess.run(f'rm -rf {DST}; cp -a {SRC} {DST}', shell=True, check=True)
DECL = re.compile(r'^\s*(?:@\[[^\]]*\]\s*)?(?:private |protected )?(theorem|lemma|def|example|instance|abbrev)\s*([^\s:({\[]*)')
def enclosing(path, line):
    ls = open(os.path.join(DST, path)).read().split('\n')
    for i in range(min(line, len(ls)) - 1, -1, -1):
        m = DECL.match(ls[i])
        if m: return (m.group(2) or 'example') + ('' if m.group(2) else f' ({os.path.basename(path)}:{i+1})')
    return path
for file, old, new, definition, claim in SPEC:
    p = os.path.join(DST, file)
    src = open(p).read()
    if src.count(old) < 1:
        print('NOT FOUND', definition, repr(old)); continue
    open(p, 'w').write(src.replace(old, new, 1))
    try:
        r = subprocess.run(['timeout', '900', 'lake', 'build'], cwd=DST, capture_output=True, text=True)
        out = r.stdout + r.stderr
        failed = []
        for m in re.finditer(r'^error: (\S+\.lean):(\d+):\d+', out, re.M):
            n = enclosing(m.group(1), int(m.group(2)))
            if n not in failed: failed.append(n)
        rec = {'definition': definition, 'edit': f'{old.strip()}  ->  {new.strip()}', 'claim': claim, 'failed': failed[:12], 'tightened': []}
        if r.returncode == 0: rec['note'] = 'SURVIVED'
        print(definition, '|', 'SURVIVED' if r.returncode == 0 else ', '.join(failed[:6]), flush=True)
        open(LOG, 'a').write(json.dumps(rec) + '\n')
    finally:
        open(p, 'w').write(src)
