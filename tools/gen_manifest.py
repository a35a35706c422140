"""Write MANIFEST.json: theorem names are collected from lean/Verif/Props, status and note are kept here."""
import glob, json, os, re

ROOT = os.path.dirname(os.path.dirname(os.path.abspath(__file__)))

NOTES = {}


def note(pid, status, text):
    NOTES[pid] = (status, text)


exec(open(os.path.join(ROOT, 'tools', 'notes.py')).read())

thms = {}
for f in sorted(glob.glob(os.path.join(ROOT, 'lean', 'Verif', 'Props', '*.lean'))):
    for m in re.finditer(r'^theorem ((C\d\d)_\w+)', open(f).read(), re.M):
        thms.setdefault(m.group(2), []).append('CM.' + m.group(1))
claims = []
for line in open(os.path.join(ROOT, 'properties.jsonl')):
    pid = json.loads(line)['id']
    status, text = NOTES.get(pid, ('partial', 'no theorem yet'))
    claims.append({'property': pid, 'status': status, 'theorems': thms.get(pid, []), 'note': text})
json.dump({'claims': claims}, open(os.path.join(ROOT, 'MANIFEST.json'), 'w'), indent=1, ensure_ascii=False)
if True:
    print(sum(1 for c in claims if c["status"] == "proved"), "proved of", len(claims), "; without theorem:", " ".join(c["property"] for c in claims if not c["theorems"]))
