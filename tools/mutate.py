#!/usr/bin/env python3
"""Seed bugs into a scratch copy of the model and record which theorems notice.

usage: mutate.py mutants.json
mutants.json: list of {"file", "def", "old", "new", "claim"} (file relative to lean/Verif).
An optional "also" lists further edits {"file", "old", "new", "why"} of the scratch copy that let the edited model elaborate,
e.g. a termination proof; they are made together with the seeded bug and undone with it.
Appends one line per mutant to /verif/seeded/LOG.jsonl. "survived" is true if everything builds, false if a
declaration of Proofs/ or Props/ fails, and null if the build fails in Model/, Py/ or Spec/ only: then the edited
model did not elaborate (or only an example beside it failed), no theorem was tested, and the attempt is no evidence.
"""
import json, os, re, subprocess, sys
SRC = '/verif/lean'
DST = '/tmp/mut/lean'
LOG = '/verif/seeded/LOG.jsonl'

def enclosing(path, line):
    name = None
    with open(path) as f:
        for i, l in enumerate(f, 1):
            m = re.match(r'\s*(?:@\[[^\]]*\]\s*)?(?:private |protected |noncomputable |partial )*(theorem|lemma|def|example|instance|abbrev)\b\s*([^\s:({\[]*)', l)
            if m:
                name = m.group(2) or m.group(1)
            if i == line:
                return name
    return name

def build():
    p = subprocess.run(['lake', 'build'], cwd=DST, stdout=subprocess.PIPE, stderr=subprocess.STDOUT, text=True)
    failed, mods = [], []
    for l in p.stdout.splitlines():
        m = re.match(r'error: (Verif/\S+\.lean):(\d+):\d+', l)
        if m:
            n = enclosing(os.path.join(DST, m.group(1)), int(m.group(2)))
            e = m.group(1)[6:-5].replace('/', '.') + ':' + str(n)
            if e not in failed:
                failed.append(e)
    return p.returncode, failed, p.stdout

def main():
    muts = json.load(open(sys.argv[1]))
    subprocess.check_call('rm -rf %s; mkdir -p /tmp/mut; cp -a %s %s' % (DST, SRC, DST), shell=True)
    for m in muts:
        path = os.path.join(DST, 'Verif', m['file'])
        orig = open(path).read()
        if orig.count(m['old']) != 1:
            print('!!', m['def'], 'old text occurs', orig.count(m['old']), 'times'); continue
        saved = {path: orig}
        open(path, 'w').write(orig.replace(m['old'], m['new']))
        for a in m.get('also', []):
            q = os.path.join(DST, 'Verif', a['file'])
            t = open(q).read()
            assert t.count(a['old']) == 1, (m['def'], a['old'])
            saved.setdefault(q, t)
            open(q, 'w').write(t.replace(a['old'], a['new']))
        rc, failed, out = build()
        for q, t in saved.items():
            open(q, 'w').write(t)
        tested = any(e.startswith(('Proofs.', 'Props.')) for e in failed)
        survived = True if rc == 0 else False if tested else None
        rec = {"definition": m['file'] + ': ' + m['def'], "edit": m['old'].strip() + '  ==>  ' + m['new'].strip(),
               "breaks": m['claim'], "failed": failed, "survived": survived, "tightened": m.get('tightened', [])}
        if survived is None:
            rec["note"] = "not evidence for a theorem: no declaration of Proofs/ or Props/ was reached"
        if m.get('also'):
            rec["also"] = [a['file'] + ': ' + a['why'] for a in m['also']]
        print({True: 'SURVIVED ', False: 'killed   ', None: 'INVALID  '}[survived] + m['def'], '|', m['new'].strip()[:60], '|', ', '.join(failed[:6]))
        with open(LOG, 'a') as f:
            f.write(json.dumps(rec, ensure_ascii=False) + '\n')
main()
