from tabs import T
from gram import P,nts,tn
Act,Pact,Pgo,R1,R2,Chk,Def=[T['yy'+x] for x in ['Act','Pact','Pgo','R1','R2','Chk','Def']]
L=468;N=316
def shift(s,t):
    n=Pact[s]
    if n<=-1000: return None
    n+=t
    if n<0 or n>=L: return None
    n=Act[n]
    return n if Chk[n]==t else None
def goto(s,A):
    g=Pgo[A]; j=g+s+1
    if j>=L: return Act[g]
    n=Act[j]
    return n if Chk[n]==-A else Act[g]
sh=[[ (t,shift(s,t)) for t in range(1,99) if shift(s,t) is not None] for s in range(N)]
pred=[set() for _ in range(N)]
reach=set(range(N))
changed=True
def red(s): return Def[s] if Def[s]>0 else None
while changed:
    changed=False
    for s in list(reach):
        for t,x in sh[s]:
            if s not in pred[x]: pred[x].add(s); changed=True
            if x not in reach: reach.add(x); changed=True
        p=red(s)
        if p:
            lev={s}
            for _ in range(R2[p]):
                lev={q for a in lev for q in pred[a]}
            for q in lev:
                x=goto(q,R1[p])
                if q not in pred[x]: pred[x].add(q); changed=True
                if x not in reach: reach.add(x); changed=True
print(len(reach),sum(map(len,pred)),max(map(len,pred)))
bad=0
for s in range(N):
    p=red(s)
    if p:
        lev={s}
        rhs=P[p][1]
        for i in range(R2[p]):
            for a in lev:
                if Chk[a]!=rhs[len(rhs)-1-i]: bad+=1; print('sym',s,p,a)
            lev={q for a in lev for q in pred[a]}
        for q in lev:
            x=goto(q,R1[p])
            if Chk[x]!=-R1[p]: bad+=1; print('goto',s,p,q,x)
print('bad',bad)
# reductions when shift possible in the same state
for s in range(N):
    if red(s) and sh[s]: print('state',s,'reduce',red(s),nts[R1[red(s)]],'shifts',sh[s])
# ranks
W=20
import functools
edges={}
for s in range(N):
    p=red(s)
    if p and R2[p]<=1:
        lev={s}
        for _ in range(R2[p]): lev={q for a in lev for q in pred[a]}
        edges[s]={(goto(q,R1[p]), 1 if R2[p]==1 else W+1) for q in lev}
@functools.lru_cache(None)
def r(s): return max([r(x)+w for x,w in edges.get(s,())],default=0)
print(max(r(s) for s in range(N)), [ (s,r(s)) for s in range(N) if r(s)>=W])
b=0
for s in range(N):
    p=red(s)
    if p and R2[p]>=2:
        lev={s}
        for _ in range(R2[p]): lev={q for a in lev for q in pred[a]}
        for q in lev:
            x=goto(q,R1[p])
            if not (W*R2[p]+r(s) > W+r(x)): b+=1; print('rank',s,p,q,x)
print('rankbad',b)
