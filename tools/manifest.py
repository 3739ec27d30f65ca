"""Regenerate MANIFEST.json from the theorem names in lean/Verif/Props and tools/status.json.

status.json: {"C01": {"status": "proved", "note": "..."}, ...}; every theorem named Cxx_* in Props is
listed under its property.
"""
import json, re, pathlib
root = pathlib.Path(__file__).resolve().parent.parent
names = {}
for f in sorted((root / 'lean/Verif/Props').glob('*.lean')):
    ns = []
    for line in f.read_text().splitlines():
        m = re.match(r'namespace (\S+)', line)
        if m:
            ns.append(m.group(1))
        m = re.match(r'end (\S+)', line)
        if m and ns and ns[-1] == m.group(1):
            ns.pop()
        m = re.match(r'theorem ((C\d{2,3})_\S+)', line)
        if m:
            names.setdefault(m.group(2), []).append('.'.join(ns + [m.group(1)]))
status = json.loads((root / 'tools/status.json').read_text())
claims = []
for line in (root / 'properties.jsonl').read_text().splitlines():
    i = json.loads(line)['id']
    if i in status:
        s = status[i]
        assert names.get(i), i
        claims.append({'property': i, 'status': s['status'], 'theorems': names[i], 'note': s.get('note', '')})
(root / 'MANIFEST.json').write_text(json.dumps({'claims': claims}, indent=1, ensure_ascii=False) + '\n')
print(len(claims), 'claims;', 'unlisted:', sorted(set(names) - set(status)))
