from lr import shift,goto,Def,R1,R2,Chk,N,Pact
from gram import P,nts,prods,nt
import sys
# G': symbols: ints, new nonterminals -74 (WE) -75 (W0)
WL=-nt['weight_list'];W1=-nt['weight_symbol'];WE=-74;W0=-75
SYMB=-nt['symb_list']
phi=lambda x: {WE:WL,W0:W1}.get(x,x)
G=[]  # (lhs, rhs, real)
for i in range(1,len(P)):
    l,r=P[i]; l=-l
    if l==SYMB or SYMB in r: continue
    if l==W1 and r==[]: G.append((W0,[],i)); continue
    if l==WL and r==[WL,95,W1]:
        G.append((WL,[WL,95,W1],i)); G.append((WL,[WE,95,W1],i)); continue
    if l==WL and r==[WL,95]:
        G.append((WL,[WL,95],i)); G.append((WL,[WE,95],i)); continue
    if l==WL and r==[W1]:
        G.append((WL,[W1],i)); G.append((WE,[W0],i)); continue
    G.append((l,r,i))
byl={}
for k,(l,r,i) in enumerate(G): byl.setdefault(l,[]).append(k)
# nullable/first
nullable=set(); 
ch=True
first={l:set() for l in byl}
while ch:
    ch=False
    for l,r,i in G:
        f=set(); nul=True
        for x in r:
            if x>0: f.add(x); nul=False; break
            f|=first[x]
            if x not in nullable: nul=False;break
        if nul and l not in nullable: nullable.add(l); ch=True
        if not f<=first[l]: first[l]|=f; ch=True
def firsts(b,la):
    f=set()
    for x in b:
        if x>0: f.add(x); return f
        f|=first[x]
        if x not in nullable: return f
    return f|la
items=[{} for _ in range(N)]
work=[]
def add(s,k,d,la):
    cur=items[s].setdefault((k,d),set())
    if not la<=cur or (not la and not cur and (k,d) not in seen[s]):
        cur|=la; seen[s].add((k,d)); work.append((s,k,d))
seen=[set() for _ in range(N)]
for k in byl[-1]: add(0,k,0,{1})
err=[]
while work:
    s,k,d=work.pop()
    la=set(items[s][(k,d)])
    l,r,i=G[k]
    if d<len(r):
        x=r[d]
        if x>0:
            t=shift(s,x)
            if t is None: err.append(('noshift',s,k,d)); continue
            add(t,k,d+1,la)
        else:
            t=goto(s,-phi(x))
            add(t,k,d+1,la)
            f=firsts(r[d+1:],la)
            for q in byl[x]: add(s,q,0,f)
bad=[]
for s in range(N):
    for (k,d),la in items[s].items():
        l,r,i=G[k]
        if d==len(r):
            for t in la:
                if shift(s,t) is not None: bad.append(('shift',s,k,t))
            if Def[s]!=i: bad.append(('def',s,Def[s],k,i))
if __name__=='__main__':
    print(set(err)); print(bad)
    print(len(G),sum(len(x) for x in items),nullable)
    print(max(len(x) for x in items), sum(1 for s in range(N) for (k,d) in items[s] if d>0))
    # states where two items complete
