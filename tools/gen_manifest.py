#!/usr/bin/env python3
"""Regenerates MANIFEST.json: collects the theorems named C<nn>_* from lean/Verif/Props and the
status/notes kept in tools/status.json."""
import json, re, glob, os
root = os.path.dirname(os.path.dirname(os.path.abspath(__file__)))
thms = {}
for f in sorted(glob.glob(root + '/lean/Verif/Props/*.lean')):
    ns = 'SFK'
    for line in open(f):
        m = re.match(r'(?:private |protected |noncomputable )*theorem (C\d\d+_\w+)', line)
        if m:
            thms.setdefault(m.group(1).split('_')[0], []).append('SFK.' + m.group(1))
st = json.load(open(root + '/tools/status.json'))
props = [json.loads(l)['id'] for l in open(root + '/properties.jsonl') if l.strip()]
claims = []
for p in props:
    s = st.get(p, {})
    t = thms.get(p, [])
    if not t and s.get('status') != 'not_applicable':
        continue
    partial = any(x.endswith('_partial') for x in t)
    claims.append({'property': p, 'status': s.get('status', 'partial' if partial else 'proved'),
                   'theorems': t, 'note': s.get('note', '')})
json.dump({'claims': claims}, open(root + '/MANIFEST.json', 'w'), indent=1)
print(len(claims), 'claims;', sum(len(c['theorems']) for c in claims), 'theorems; missing:',
      [p for p in props if p not in [c['property'] for c in claims]])
