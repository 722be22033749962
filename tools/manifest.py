#!/usr/bin/env python3
"""Regenerates MANIFEST.json from the property theorems in lean/Verif/Props and tools/status.json.

status.json maps property ids to {"status": ..., "note": ...}; properties without theorems are listed as
"partial" with the note "not yet proved" unless status.json says otherwise."""
import glob, json, os, re
root = os.path.dirname(os.path.dirname(os.path.abspath(__file__)))
thms = {}
for f in sorted(glob.glob(root + '/lean/Verif/Props/*.lean')):
    ns = []
    for line in open(f):
        m = re.match(r'namespace (\S+)', line)
        if m: ns.append(m.group(1))
        m = re.match(r'end (\S+)', line)
        if m and ns and ns[-1] == m.group(1): ns.pop()
        m = re.match(r'(?:@\[.*?\] )?theorem ((C\d+)_\S+)', line)
        if m: thms.setdefault(m.group(2), []).append('.'.join(ns + [m.group(1)]))
status = json.load(open(root + '/tools/status.json'))
claims = []
for line in open(root + '/properties.jsonl'):
    pid = json.loads(line)['id']
    st = status.get(pid, {})
    t = thms.get(pid, [])
    s = st.get('status', 'proved' if t else 'partial')
    n = st.get('note', '' if t else 'not yet proved')
    claims.append(dict(property=pid, status=s, theorems=t, note=n))
json.dump({'claims': claims}, open(root + '/MANIFEST.json', 'w'), indent=1)
print({s: sum(c['status'] == s for c in claims) for s in ('proved', 'partial', 'not_applicable')},
      'without theorems:', [c['property'] for c in claims if not c['theorems']])
