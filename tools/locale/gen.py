import re
from tabs import T
from gram import P,prods,nts,tn,tok
from lr import pred,r,N
print(tn[:5],tn[88:],len(tn))
y=open('/repo/pkg/locale/y.go').read()
consts=dict(re.findall(r'const (\w+) = (\d+)',y))
names=tn[3:]
lits={"'\"'":'DQUOTE',"';'":'SEMI',"'('":'LPAREN',"','":'COMMA',"')'":'RPAREN'}
tms=[lits.get(n,n) for n in names]
for k,n in enumerate(names):
    if n in consts: assert int(consts[n])==57346+k,(n,consts[n],k)
    else: print(n,k,k+4)
lines=y.split('\n')
def where(name):
    a=next(i for i,l in enumerate(lines) if l.startswith('var '+name+' '))
    b=next(i for i in range(a,len(lines)) if lines[i]=='}')
    return a+1,b+1
def fmt(xs,w=24,ind='  '):
    out=[]
    for i in range(0,len(xs),w): out.append(', '.join(map(str,xs[i:i+w])))
    return '['+(',\n'+ind+' ').join(out)+']'
o=[]
o.append('''/-!
# pkg/locale/y.go: the tables of the generated parser

Copied from the source text; see `gen.py` in `/verif/tools/locale`.
-/

namespace Locale

''')
for n in ['yyExca','yyAct','yyPact','yyPgo','yyR1','yyR2','yyChk','yyDef','yyTok1','yyTok2','yyTok3']:
    a,b=where(n)
    o.append(f'/-- y.go:{a}-{b}. -/\n@[irreducible] def {n} : List Int :=\n  {fmt(T[n])}\n\n')
for n,v,l in [('yyLast',468,266),('yyFlag',-1000,545),('yyPrivate',57344,264),('yyEofCode',1,253),('yyErrCode',2,254)]:
    assert f'const {n} = {v}' in lines[l-1],(n,lines[l-1])
    o.append(f'/-- y.go:{l}. -/\nabbrev {n} : Int := {v}\n\n')
o.append('end Locale\n')
open('/verif/lean/Verif/Locale/Tables.lean','w').write(''.join(o))

o=[]
o.append('''import Verif.Go.Strconv
import Verif.Go.Strings

/-!
# The locale definition grammar (specification)

The grammar of `pkg/locale/localedef.y`, written with names, together with the meaning of the productions. This is
a specification: it does not mention the generated tables, the states or the stack of the parser.
-/

namespace Locale
open Go

/-- The terminals: localedef.y:50-153 in the order of their first declaration, then the literal characters in the
order of their first use. -/
inductive Tm where
''')
def wrap(ws,w=110,ind='  '):
    out=[];cur=ind
    for x in ws:
        if len(cur)+len(x)+1>w: out.append(cur.rstrip()); cur=ind
        cur+=x+' '
    out.append(cur.rstrip()); return '\n'.join(out)
o.append(wrap(['| '+t for t in tms])+'\n  deriving DecidableEq, Repr\n\n')
o.append('/-- The nonterminals of localedef.y:156-548 in the order of their first appearance. -/\ninductive Nt where\n')
o.append(wrap(['| '+t for t in nts[1:]])+'\n  deriving DecidableEq, Repr\n\n')
o.append('''/-- A grammar symbol. -/
inductive Sym where
  | t (x : Tm)
  | n (x : Nt)
  deriving DecidableEq, Repr

/-- A production. -/
structure Prod where
  lhs : Nt
  rhs : List Sym
  deriving DecidableEq, Repr

open Tm Nt Sym in
/-- localedef.y:156-548, the productions in order. -/
def grammar : List Prod := [
''')
def sy(x):
    if x in tok: return 't '+lits.get(x,x)
    return 'n '+x
o.append(',\n'.join(f'  ⟨{l}, [{", ".join(map(sy,rr))}]⟩' for l,rr in prods[1:])+']\n\n')
ln=[k for k in range(len(names)) if names[k] in consts]
assert ln==list(range(90)),ln
o.append(f'''/-- The number the lexer returns for a terminal: y.go:60-149 (`const` declarations, from 57346 on) and the codes
of the literal characters. -/
def Tm.code : Tm → Int
''')
lc={'DQUOTE':34,'SEMI':59,'LPAREN':40,'COMMA':44,'RPAREN':41}
for k in range(90,len(names)): o.append(f'  | .{tms[k]} => {lc[tms[k]]}\n')
o.append('  | x => 57346 + x.ctorIdx\n\n')
open('/root/work/grammar_head.lean','w').write(''.join(o))
# packed tables
def pack(xs,off): 
    v=0
    for i,x in enumerate(xs): assert 0<=x+off<65536; v|=(x+off)<<(16*i)
    return v
import json
json.dump({'pred':[sorted(p) for p in pred],'rank':[r(s) for s in range(N)]},open('aux.json','w'))
