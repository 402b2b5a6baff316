#!/usr/bin/env python3
"""Regenerates MANIFEST.json and lean/Verif.lean from lean/Verif/Props/*.lean and tools/notes.json."""
import json, re, os, glob
root = os.path.dirname(os.path.dirname(os.path.abspath(__file__)))
notes = json.load(open(root + '/tools/notes.json'))
ids = [json.loads(l)['id'] for l in open(root + '/properties.jsonl') if l.strip()]
thms = {}
mods = []
for f in sorted(glob.glob(root + '/lean/Verif/Props/*.lean')):
    mods.append('Verif.Props.' + os.path.basename(f)[:-5])
    ns = []
    for line in open(f):
        m = re.match(r'namespace (\S+)', line)
        if m: ns.append(m.group(1))
        m = re.match(r'end (\S+)', line)
        if m and ns and ns[-1] == m.group(1): ns.pop()
        m = re.match(r'theorem ((C\d\d)_\S+)', line)
        if m:
            thms.setdefault(m.group(2), []).append('.'.join(ns + [m.group(1)]))
claims = []
for i in ids:
    n = notes.get(i, {})
    if i in thms:
        claims.append({"property": i, "status": n.get("status", "proved"), "theorems": thms[i], "note": n.get("note", "")})
    elif n.get("status") == "not_applicable":
        claims.append({"property": i, "status": "not_applicable", "theorems": [], "note": n["note"]})
open(root + '/MANIFEST.json', 'w').write('{"claims": [\n' + ',\n'.join(json.dumps(c) for c in claims) + '\n]}\n')
open(root + '/lean/Verif.lean', 'w').write(''.join('import %s\n' % m for m in mods))
print(len(claims), 'claims;', [i for i in ids if i not in thms], 'open')
