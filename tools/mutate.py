#!/usr/bin/env python3
"""Run wrong programs against the theorems, in a scratch copy.

usage: mutate.py muts.json   (list of {file, old, new, def, edit, claim, tightened?})
Appends one line per attempt to seeded/LOG.jsonl.  When only examples fail they are taken out and the build is
repeated, so that the theorems of modules that import theirs are tried too.
"""
import json, os, re, shutil, subprocess, sys
SRC = '/verif/lean'; DST = '/tmp/mut/lean'
muts = json.load(open(sys.argv[1]))
dry = '--dry' in sys.argv
if os.path.exists('/tmp/mut'): shutil.rmtree('/tmp/mut')
os.makedirs('/tmp/mut'); subprocess.run(['cp', '-a', SRC, DST], check=True)
DECL = re.compile(r'^\s*(?:private |protected )*(?:theorem|def|example|instance|lemma|abbrev|inductive|structure)\b\s*(\S*)')
def encl(path, line):
    ls = open(path).read().split('\n')
    for i in range(line - 1, -1, -1):
        m = DECL.match(ls[i])
        if m: n = m.group(1).rstrip(":"); return "example" if ls[i].strip().startswith("example") else n
    return '?'
START = re.compile(r'^(?:/--|/-!|theorem|example|def|end|namespace|open|variable|instance|structure|inductive|abbrev|private|mutual|section|@)')
def drop_example(path, line):
    ls = open(path).read().split('\n')
    i = line - 1
    while not ls[i].startswith('example'): i -= 1
    j = i + 1
    while j < len(ls) and not START.match(ls[j]): j += 1
    ls[i:j] = ['example : True := trivial'] + [''] * (j - i - 1)
    open(path, 'w').write('\n'.join(ls))
for m in muts:
    p = os.path.join(DST, m['file']); orig = open(p).read()
    if orig.count(m['old']) != 1:
        print('BAD', m['def'], orig.count(m['old'])); continue
    open(p, 'w').write(orig.replace(m['old'], m['new']))
    failed = []; saved = {}
    for _ in range(8):
        r = subprocess.run(['lake', 'build'], cwd=DST, capture_output=True, text=True)
        out = r.stdout + r.stderr
        hits = [(f, int(l), encl(os.path.join(DST, f), int(l))) for f, l in re.findall(r'error: (Verif/\S+?\.lean):(\d+):', out)]
        for f, l, e in hits:
            n = f.replace('Verif/', '').replace('.lean', '') + ':' + e
            if n not in failed: failed.append(n)
        if not hits or any(e != 'example' for _, _, e in hits): break
        for f, l, e in hits:
            q = os.path.join(DST, f); saved.setdefault(q, open(q).read()); drop_example(q, l)
    for q, t in saved.items(): open(q, 'w').write(t)
    # when only lemmas failed, also say which property modules could no longer be built
    blocked = sorted(set(re.findall(r'^- (Verif\.Props\S*)', out, re.M)))
    print(m['def'], '|', m['edit'], '->', failed or 'SURVIVED', flush=True)
    if not dry:
        rec = {'definition': m['def'], 'edit': m['edit'], 'claim_broken': m['claim'],
               'theorems_failed': failed, 'theorems_tightened': m.get('tightened', [])}
        if m.get('note'): rec['note'] = m['note']
        open('/verif/seeded/LOG.jsonl', 'a').write(json.dumps(rec) + '\n')
    open(p, 'w').write(orig)
