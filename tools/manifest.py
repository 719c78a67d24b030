import json, os
C=[]
def c(p,s,t,n): C.append(dict(property=p,status=s,theorems=t.split(),note=n))
d=os.path.dirname(os.path.abspath(__file__))
exec(open(d+'/manifest_table.py').read())
json.dump({"claims":C},open(d+'/../MANIFEST.json','w'),indent=1)
