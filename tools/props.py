#!/usr/bin/env python3
"""Single source of properties.jsonl, MANIFEST.json and the per-property table in DESIGN.md.
P(id, title, statement, quantifier, why, anchors, design, status, theorems, note)"""
import json, os, re
ROOT = os.path.dirname(os.path.dirname(os.path.abspath(__file__)))
PROPS = []
def P(id, title, statement, quantifier, why, anchors, design, status='not_applicable', theorems=(), note=''):
    PROPS.append(dict(id=id, title=title, statement=statement, quantifier=quantifier, why_tests_cant=why,
                      anchors=list(anchors), design=design, status=status, theorems=list(theorems), note=note))

here = os.path.dirname(os.path.abspath(__file__))
for f in sorted(os.listdir(here)):
    if re.fullmatch(r'p_\w+\.py', f):
        exec(compile(open(os.path.join(here, f)).read(), f, 'exec'))
def T(id, status, theorems, note=''):
    q = [p for p in PROPS if p['id'] == id][0]
    q['status'] = status; q['theorems'] = ['Verif.' + t for t in theorems]; q['note'] = note
for f in sorted(os.listdir(here)):
    if re.fullmatch(r't_\w+\.py', f):
        exec(compile(open(os.path.join(here, f)).read(), f, 'exec'))
PROPS.sort(key=lambda p: int(p['id'][1:]))
assert len({p['id'] for p in PROPS}) == len(PROPS)
with open(os.path.join(ROOT, 'properties.jsonl'), 'w') as o:
    for p in PROPS:
        o.write(json.dumps({k: p[k] for k in ('id','title','statement','quantifier','why_tests_cant','anchors')}) + '\n')
# a property is claimed in the manifest once it has theorems
claims = [dict(property=p['id'], status=p['status'], theorems=p['theorems'], note=p['note'])
          for p in PROPS if p['theorems'] or p['note']]
with open(os.path.join(ROOT, 'MANIFEST.json'), 'w') as o:
    json.dump(dict(claims=claims), o, indent=1); o.write('\n')
d = os.path.join(ROOT, 'DESIGN.md')
s = open(d).read()
a, b = '<!-- BEGIN PROPERTY TABLE -->', '<!-- END PROPERTY TABLE -->'
i, j = s.index(a) + len(a), s.index(b)
tab = '\n'.join(f"- **{p['id']} {p['title']}** — {p['design']}" +
                (f" *Status: {p['status']}* ({', '.join('`%s`' % t for t in p['theorems'])})." if p['theorems'] else ' *Planned.*')
                for p in PROPS)
open(d, 'w').write(s[:i] + '\n' + tab + '\n' + s[j:])
print(len(PROPS), 'properties,', len(claims), 'claims')
