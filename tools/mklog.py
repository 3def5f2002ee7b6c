"""Write /verif/seeded/LOG.jsonl from the results of the mutation runs."""
import json,re,os
B='/tmp/mut'
deps={}
for l in open('/tmp/dep/deps.txt'):
    n,d=l.rstrip('\n').split(':',1); deps[n]=d.split()
def defn(m):
    base=m.get('base_text')
    p=f"/tmp/mut/base/{m['file']}"
    if not os.path.exists(p): p=f"/verif/lean/{m['file']}"
    s=open(p).read()
    i=s.find(m['old'])
    if i<0:
        s=open(f"/verif/lean/{m['file']}").read(); i=s.find(m['old'])
    d='?'; 
    for x in re.finditer(r'^(?:private |protected )?(?:def|structure|inductive|abbrev)\s+(\S+)',s,re.M):
        if x.start()<=i+len(m['old']): 
            if x.start()<=i or s[i:x.start()].strip()=='' or m['old'].startswith('def'): d=x.group(1)
    return d
tight=json.load(open('/tmp/mut/tightened.json')) if os.path.exists('/tmp/mut/tightened.json') else {}
out=[]
seen=set()
for l in list(open('/tmp/mut/results.jsonl'))+list(open('/tmp/mut2/results.jsonl'))+list(open('/tmp/mut3/results.jsonl')):
    m=json.loads(l)
    if m['id'] in seen or (not m['ok'] and not m['fails']): continue
    seen.add(m['id'])
    fl=[d for ds in m['fails'].values() for d in ds]
    hit=[]
    for n,d in deps.items():
        for f in fl:
            if f.startswith('example@'): continue
            if any(x=='Aftermath.'+f or x.endswith('.'+f) for x in d): hit.append(n); break
    out.append({"attempt":m['id'],"definition":defn(m),"file":'lean/'+m['file'],"edit":{"from":m['old'],"to":m['new']},
      "claim_broken":m['claim'],"survived":m['ok'],
      "failed":[f"{k}: {d}" for k,ds in m['fails'].items() for d in ds],
      "claim_theorems_lost":hit,
      "tightened":tight.get(m['id'],[])})
open('/verif/seeded/LOG.jsonl','w').write(''.join(json.dumps(o,ensure_ascii=False)+'\n' for o in out))
print(len(out),sum(o['survived'] for o in out),[o['attempt'] for o in out if o['definition']=='?' or (not o['claim_theorems_lost'])])
