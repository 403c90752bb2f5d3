#!/usr/bin/env python3
"""Check that every definition in lean/Verif/Model has a doc comment that cites lines of a file in /repo, and that the lines exist."""
import glob, os, re, sys

repo = '/repo'
names = {}
for root, _, fs in os.walk(repo):
    for f in fs:
        if f.endswith(('.c', '.h')):
            p = os.path.join(root, f)
            names.setdefault(f, []).append((p, sum(1 for _ in open(p, errors='replace'))))

bad = 0
total = 0
for p in sorted(glob.glob('/verif/lean/Verif/Model/*.lean')):
    s = open(p).read()
    for m in re.finditer(r'^(?:@\[[^\]]*\]\s*)?(?:noncomputable )?(?:def|structure|inductive|abbrev)\s+(\S+)', s, re.M):
        total += 1
        pre = s[:m.start()].rstrip()
        doc = ''
        if pre.endswith('-/'):
            doc = pre[pre.rfind('/--'):]
        c = re.findall(r'([A-Za-z_0-9]+\.[ch]):(\d+)(?:-(\d+))?', doc)
        if not c:
            print('no citation:', os.path.basename(p), m.group(1))
            bad += 1
        for f, a, b in c:
            last = int(b or a)
            if f not in names:
                print('no such file:', os.path.basename(p), m.group(1), f)
                bad += 1
            elif all(n < last for _, n in names[f]):
                print('beyond the end:', os.path.basename(p), m.group(1), f, last)
                bad += 1
        # a citation followed by the name of a function has to contain that name
        for f, a, b, fn in re.findall(r'([A-Za-z_0-9]+\.[ch]):(\d+)(?:-(\d+))? `(zsl_\w+)`', doc):
            lo, hi = int(a), int(b or a)
            if not any(re.search(r'\b%s\b' % fn, ''.join(open(q, errors='replace').readlines()[lo - 1:hi])) for q, _ in names.get(f, [])):
                print('other lines:', os.path.basename(p), m.group(1), f, a, b, fn)
                bad += 1
print(total, 'definitions,', bad, 'problems')
sys.exit(bad > 0)
