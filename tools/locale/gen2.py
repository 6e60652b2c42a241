import json
from tabs import T
from gram import P
A=json.load(open('aux.json'))
def pack(xs,off): 
    v=0
    for i,x in enumerate(xs): assert 0<=x+off<65536; v|=(x+off)<<(16*i)
    return hex(v)
o=['''import Verif.Locale.Parser

/-!
# The tables of the generated parser in a form the kernel can look up quickly, and the finite checks
-/

namespace Locale
open Go

/-- Entry `i` of a table packed into one number, 16 bits per entry, with `off` added. -/
def unpack (n : Nat) (off : Int) (i : Nat) : Int := (((n >>> (16 * i)) % 65536 : Nat) : Int) - off

''']
for n in ['Act','Pact','Pgo','R1','R2','Chk','Def']:
    xs=T['yy'+n]
    o.append(f'/-- `yy{n}`, packed. -/\ndef {n.lower()}P (i : Nat) : Int :=\n  unpack {pack(xs,2000)}\n    2000 i\n\n')
    o.append(f'theorem yy{n}_eq : yy{n} = (List.range {len(xs)}).map {n.lower()}P := by\n  unfold yy{n}\n  decide +kernel\n\n')
o.append(f'/-- Ranks of the states. -/\ndef rankP (i : Nat) : Nat :=\n  (unpack {pack(A["rank"],0)}\n    0 i).toNat\n\n')
def fmt(xs,w=110):
    out=[];cur=''
    for x in xs:
        s='['+', '.join(map(str,x))+'], '
        if len(cur)+len(s)>w: out.append(cur.rstrip()); cur=''
        cur+=s
    out.append(cur.rstrip().rstrip(','))
    return '['+('\n   '.join(out))+']'
o.append(f'/-- The states that can be directly below a state on the stack. -/\ndef predL : List (List Nat) :=\n  {fmt(A["pred"])}\n\n/-- The states that can be directly below state `s`. -/\ndef preds (s : Nat) : List Nat := (predL[s]?).getD []\n\nend Locale\n')
open('/verif/lean/Verif/Locale/Packed.lean','w').write(''.join(o))
