#!/usr/bin/env python3
"""Write MANIFEST.json.  Theorem names are found by their claim prefix (C01_, C02_, ...) in
the Lean sources; a name with suffix _partial makes the claim partial unless overridden."""
import json, re, glob, os
root = os.path.dirname(os.path.dirname(os.path.abspath(__file__)))
ids = [json.loads(l)['id'] for l in open(root + '/properties.jsonl')]
notes = json.load(open(root + '/tools/manifest_notes.json'))
names = {}
for f in sorted(glob.glob(root + '/lean/Verif/*.lean')):
    ns = []
    for line in open(f):
        m = re.match(r'namespace\s+(\S+)', line)
        if m: ns.append(m.group(1))
        m = re.match(r'end\s+(\S+)', line)
        if m and ns and ns[-1] == m.group(1): ns.pop()
        m = re.match(r'(?:private\s+|protected\s+)?theorem\s+(\S+)', line)
        if m:
            full = '.'.join(ns + [m.group(1)])
            c = re.match(r'(C\d\d+)_', m.group(1))
            if c: names.setdefault(c.group(1), []).append(full)
claims = []
for i in ids:
    th = names.get(i, [])
    n = notes.get(i, {})
    th = th + [x for x in n.get('extra', []) if x not in th]
    if n.get('status'): st = n['status']
    elif not th: continue
    else: st = 'partial' if any(x.endswith('_partial') for x in th) else 'proved'
    claims.append({'property': i, 'status': st, 'theorems': th, 'note': n.get('note', '')})
json.dump({'claims': claims}, open(root + '/MANIFEST.json', 'w'), indent=1, ensure_ascii=False)
print(len(claims), 'claims;', [i for i in ids if i not in {c['property'] for c in claims}], 'missing')
