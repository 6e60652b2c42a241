import re
src=open('/repo/pkg/locale/localedef.y').read()
body=src.split('%%')[1]
body=re.sub(r'/\*.*?\*/','',body,flags=re.S)
body=re.sub(r'\{[^}]*\}','',body)
y=open('/repo/pkg/locale/y.go').read()
names=re.search(r'var yyToknames = \[\.\.\.\]string\{(.*?)\n\}',y,re.S).group(1)
tn=[eval(x) for x in re.findall(r'\t(".*"),',names)]
tok={n:i+1 for i,n in enumerate(tn)}
rules=[]
# tokenise
toks=re.findall(r"'.'|\w+|[:|;]",body)
i=0; nts=['$accept']; prods=[('$accept',['locale_definition'])]
cur=None
out=[]
j=0
while j<len(toks):
    lhs=toks[j]; assert toks[j+1]==':',(lhs,toks[j+1]); j+=2
    if lhs not in nts: nts.append(lhs)
    rhs=[]
    while True:
        t=toks[j]; j+=1
        if t in('|',';'):
            out.append((lhs,rhs)); rhs=[]
            if t==';': break
        else: rhs.append(t)
prods+=out
lhss={l for l,_ in out}
nts=['$accept']
for l,r in out:
    for x in [l]+r:
        if x in lhss and x not in nts: nts.append(x)
nt={n:i for i,n in enumerate(nts)}
def sym(s):
    if s in tok: return tok[s]
    if s in nt: return -nt[s]
    raise Exception(s)
P=[(nt[l],[sym(x) for x in r]) for l,r in prods]
if __name__=='__main__':
    from tabs import T
    print(len(P),len(nts))
    for i,(l,r) in enumerate(P):
        if i: assert T['yyR1'][i]==l and T['yyR2'][i]==len(r),(i,prods[i],T['yyR1'][i],T['yyR2'][i])
    print(P[:5])
