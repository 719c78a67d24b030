import json, os
d=os.path.dirname(os.path.abspath(__file__))
exec(open(d+'/design_table.py').read())
C=[]
def c(p,s,t,n): C.append((p,s,t,n))
exec(open(d+'/manifest_table.py').read())
st={p:s for p,s,_,_ in C}
title={}
for l in open(d+'/../properties.jsonl'):
    r=json.loads(l); title[r['id']]=r['title']
out=open(d+'/design_head.md').read()
out+="## Properties\n\n| id | property | model (Verif/Model) | proof | status |\n|---|---|---|---|---|\n"
for k in sorted(title):
    m,p=ROWS[k]
    out+=f"| {k} | {title[k]} | {m} | {p} | {st[k]} |\n"
out+=open(d+'/design_findings.md').read()
open(d+'/../DESIGN.md','w').write(out)
