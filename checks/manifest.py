#!/usr/bin/env python3
"""Regenerate MANIFEST.json from the doc comments of the property theorems.

A theorem under lean/Verif/Props belongs to property Cnn when its doc comment
starts with "Cnn." (several ids may be listed, "C02, C03.").  Status and notes
come from checks/status.json; a property without any theorem is left out.
"""
import json, os, re, sys
root = os.path.dirname(os.path.dirname(os.path.abspath(__file__)))
status = json.load(open(os.path.join(root, 'checks', 'status.json')))
thms = {}
pat = re.compile(r"/--\s*((?:C\d{2,3}(?:,\s*(?=C))?)+)\b(?:(?!-/).)*-/\s*(?:@\[[^\]]*\]\s*)?theorem\s+(\S+)", re.S)
for d, _, fs in os.walk(os.path.join(root, 'lean', 'Verif', 'Props')):
    for f in sorted(fs):
        src = open(os.path.join(d, f)).read()
        for m in pat.finditer(src):
            for pid in re.findall(r'C\d{2,3}', m.group(1)):
                thms.setdefault(pid, []).append('Verif.' + m.group(2))
ids = [json.loads(l)['id'] for l in open(os.path.join(root, 'properties.jsonl')) if l.strip()]
claims = []
for pid in ids:
    st = status.get(pid, {})
    if pid not in thms and st.get('status') != 'not_applicable':
        print('no theorems yet:', pid, file=sys.stderr)
        continue
    claims.append({'property': pid, 'status': st.get('status', 'proved'),
                   'theorems': thms.get(pid, []), 'note': st.get('note', '')})
json.dump({'claims': claims}, open(os.path.join(root, 'MANIFEST.json'), 'w'), indent=1)
print(len(claims), 'claims', sum(len(c['theorems']) for c in claims), 'theorems')
