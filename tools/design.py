"""Write DESIGN.md: head, per-property plan (model, proof, status), findings."""
import json, re, pathlib
R = pathlib.Path(__file__).resolve().parent.parent
props = [json.loads(l) for l in (R/'properties.jsonl').read_text().splitlines() if l.strip()]
man = {c['property']: c for c in json.loads((R/'MANIFEST.json').read_text())['claims']}
plan = json.loads((R/'tools'/'plan.json').read_text())
where = {}
for f in sorted((R/'lean'/'Verif').rglob('*.lean')):
    for m in re.finditer(r'^theorem (C\d\d+_\w+)', f.read_text(), re.M):
        where.setdefault(m.group(1), str(f.relative_to(R/'lean'/'Verif'))[:-5])
def method(i):
    n = int(i[1:])
    for lo, hi, txt in plan:
        if lo <= n <= hi: return txt
    return ''
out = [(R/'tools'/'design_head.md').read_text(), '## Plan per property (how modelled, how proved, where)\n',
       '| id | property | modelled and proved by | theorems in | status |', '|---|---|---|---|---|']
for p in props:
    c = man.get(p['id'], {'theorems': [], 'status': 'not_applicable', 'note': ''})
    fs = sorted({where[t.split('.')[-1]] for t in c['theorems'] if t.split('.')[-1] in where})
    st = c['status'] + (': ' + c['note'] if c['note'] else '')
    out.append(f"| {p['id']} | {p['title']} | {method(p['id'])} | {', '.join(fs)} | {st.replace('|', '/')} |")
out.append('\n' + (R/'tools'/'findings.md').read_text())
(R/'DESIGN.md').write_text('\n'.join(out))
