from compl import *
def mask(st): 
    v=0
    for t in st: v|=1<<t
    return v
o=['''import Verif.Locale.ParserChecks

/-!
# Items of the states of the generated parser

`grammar2` is the grammar without its ambiguities: an empty weight only occurs at the start of a list of weights
that goes on (symbols -74, the list, and -75, the weight), and quoted lists of collating symbols are element lists.
`itemsL` lists, for every state, productions of `grammar2`, positions in them, and sets of tokens (bit masks) that may
follow. These are witnesses for the proofs in `ParserComplete`, checked there.
-/

namespace Locale

/-- The unambiguous grammar: left hand side, right hand side, number of the production. -/
def grammar2 : List (Int × List Int × Nat) := [
''']
o.append(',\n'.join(f'  ({l}, [{", ".join(map(str,r))}], {i})' for l,r,i in G)+']\n\n')
o.append('/-- Items. -/\ndef itemsL : List (List (Nat × Nat × Nat)) := [\n')
rows=[]
for s in range(N):
    its=[f'({k}, {d}, {hex(mask(la))})' for (k,d),la in sorted(items[s].items())]
    out=[];cur='  ['
    for j,x in enumerate(its):
        y=x+(', ' if j<len(its)-1 else '')
        if len(cur)+len(y)>112: out.append(cur.rstrip()); cur='   '
        cur+=y
    out.append(cur+']'); rows.append('\n'.join(out))
o.append(',\n'.join(rows)+']\n\n')
o.append('/-- The tokens a nonterminal of `grammar2` can start with; entry `i` is for symbol `-i`. -/\ndef firstL : List Nat := [\n  '+',\n  '.join(hex(mask(first.get(-i,set()))) for i in range(76))+']\n\n')
o.append('end Locale\n')
open('/verif/lean/Verif/Locale/Items.lean','w').write(''.join(o))
