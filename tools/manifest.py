#!/usr/bin/env python3
"""Write MANIFEST.json: collects the theorems `Cnn_...` of lean/Verif/Props and adds the status and notes
kept in tools/status.json."""
import json, re, glob, os
root = os.path.dirname(os.path.dirname(os.path.abspath(__file__)))
thms = {}
for f in sorted(glob.glob(root + '/lean/Verif/Props/*.lean')):
    for m in re.finditer(r'^theorem (C(\d\d)_\w+)', open(f).read(), re.M):
        thms.setdefault('C' + m.group(2), []).append('PL.Props.' + m.group(1))
status = json.load(open(root + '/tools/status.json'))
claims = []
for line in open(root + '/properties.jsonl'):
    p = json.loads(line)
    i = p['id']
    s = status.get(i)
    if s and thms.get(i):
        claims.append({'property': i, 'status': s[0], 'theorems': thms[i], 'note': s[1]})
    elif thms.get(i):
        print('no status for', i)
    else:
        print('no theorem for', i)
json.dump({'claims': claims}, open(root + '/MANIFEST.json', 'w'), indent=1, ensure_ascii=False)
