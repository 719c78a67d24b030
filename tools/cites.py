#!/usr/bin/env python3
"""List definitions of lean/Verif/Model without a doc comment citing file lines of /repo."""
import re,glob,sys
tot=bad=0
for f in sorted(glob.glob('/verif/lean/Verif/Model/*.lean')):
    L=open(f).read().split('\n'); miss=[]
    i=0
    for i,s in enumerate(L):
        m=re.match(r'\s*(?:@\[[^\]]*\]\s*)?(?:private |noncomputable |protected )*(def|structure|inductive|abbrev|instance)\s+([^\s:({\[]+)',s)
        if not m: continue
        tot+=1
        j=i-1
        while j>=0 and re.match(r'\s*@\[',L[j]): j-=1
        doc=''
        if j>=0 and L[j].rstrip().endswith('-/'):
            k=j
            while k>=0 and '/-' not in L[k]: k-=1
            doc=' '.join(L[k:j+1])
        if not re.search(r'\d',doc) or not re.search(r'\.(cpp|h|hpp|py|c)\b|\d+-\d+|lines? \d+|:\d+|\d{2,}',doc):
            miss.append((i+1,m.group(2),doc[:60])); bad+=1
    if miss:
        print(f.split('/')[-1],len(miss))
        if len(sys.argv)>1:
            for x in miss: print('   ',x)
print(bad,'of',tot)
