import json,sys
C={}
def claim(p,status,ths,note): C[p]={"property":p,"status":status,"theorems":ths.split(),"note":note}
exec(open('/tmp/claims.py').read())
json.dump({"claims":[C[k] for k in sorted(C)]},open('/verif/MANIFEST.json','w'),indent=1,ensure_ascii=False)
