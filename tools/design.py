import json,re,collections,subprocess,os
HEAD=open('/verif/tools/design_head.md').read()
TAIL=open('/verif/tools/design_tail.md').read()
how={}
exec(open('/verif/tools/design_how.py').read())
props=[json.loads(l) for l in open('/verif/properties.jsonl')]
man={c['property']:c for c in json.load(open('/verif/MANIFEST.json'))['claims']}
out=[HEAD,'\n## Properties: what is modelled, how it is proved\n']
for p in props:
    c=man.get(p['id'])
    st=c['status'] if c else 'open'
    out.append(f"### {p['id']} {p['title']} ({st})\n")
    out.append(how[p['id']]+'\n')
    if c:
        if c['note']: out.append(c['note']+'\n')
        out.append('Theorems: '+', '.join('`'+t.replace('Aftermath.','')+'`' for t in c['theorems'])+'.\n')
out.append('\n## Axioms per theorem\n')
out.append('Output of `#print axioms` for every theorem in MANIFEST.json, grouped.\n')
ns=[t for c in man.values() for t in c['theorems']]
open('/tmp/ax.lean','w').write('import Verif\n'+''.join(f'#print axioms {n}\n' for n in ns))
s=subprocess.run(['lake','env','lean','/tmp/ax.lean'],cwd='/verif/lean',capture_output=True,text=True).stdout
s=s.replace('\n ',' ')
d=collections.OrderedDict()
for l in s.split('\n'):
    m=re.match(r"'(.*)' depends on axioms: \[(.*)\]",l)
    if m: d.setdefault(', '.join(m[2].split(', ')),[]).append(m[1])
    elif l: d.setdefault('no axioms',[]).append(re.match("'(.*)'",l)[1])
assert sum(map(len,d.values()))==len(ns),(s[-2000:])
for k in d:
    assert set(k.split(', '))<={'propext','Classical.choice','Quot.sound','no axioms'},k
    out.append(f'* {k}: '+', '.join('`'+x.replace('Aftermath.','')+'`' for x in d[k])+'\n')
out.append(TAIL)
open('/verif/DESIGN.md','w').write('\n'.join(out))
