"""Regenerates MANIFEST.json from the theorem names in lean/Verif/Props (prefix Cnn_)."""
import json, re, glob, collections, os
root = os.path.dirname(os.path.dirname(os.path.abspath(__file__)))
thms = collections.defaultdict(list)
for f in sorted(glob.glob(root + '/lean/Verif/Props/*.lean')):
    for m in re.finditer(r'^theorem ((C\d\d\d?)_\w+)', open(f).read(), re.M):
        thms[m.group(2)].append('Flo.' + m.group(1))
NOTES = json.load(open(root + '/tools/notes.json'))
NA = NOTES.get('not_applicable', {})
claims = []
for l in open(root + '/properties.jsonl'):
    i = json.loads(l)['id']
    ts = thms.get(i, [])
    if i in NA:
        claims.append({"property": i, "status": "not_applicable", "theorems": ts, "note": NA[i]}); continue
    if not ts: continue
    part = any('_partial' in t or '_violated' in t for t in ts)
    claims.append({"property": i, "status": "partial" if part else "proved", "theorems": ts,
                   "note": NOTES['notes'].get(i, "")})
json.dump({"claims": claims}, open(root + '/MANIFEST.json', 'w'), indent=1)
print(len(claims), 'claims;', [c['property'] for c in claims if not c['note']], 'without note')
