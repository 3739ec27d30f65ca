"""Usage: setstatus.py Cxx status note -- record a claim's status in status.json and regenerate MANIFEST.json."""
import json, sys, pathlib, subprocess
root = pathlib.Path(__file__).resolve().parent
p = root / 'status.json'
d = json.loads(p.read_text())
d[sys.argv[1]] = {'status': sys.argv[2], 'note': sys.argv[3] if len(sys.argv) > 3 else ''}
p.write_text(json.dumps(dict(sorted(d.items())), indent=0, ensure_ascii=False) + '\n')
subprocess.check_call([sys.executable, str(root / 'manifest.py')])
