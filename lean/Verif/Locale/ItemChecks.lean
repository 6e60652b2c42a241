import Verif.Locale.Items

/-!
# Finite checks of the items
-/

namespace Locale
open Go

/-- The items of state `s`. -/
def items (s : Nat) : List (Nat × Nat × Nat) := (itemsL[s]?).getD []

/-- The symbol of the tables for a symbol of `grammar2`. -/
def phi (x : Int) : Int := if x = -74 then -42 else if x = -75 then -43 else x

/-- The symbols whose text the model of the derivations leaves open. -/
def loose (x : Int) : Bool := x == -42 || x == -74 || x == -75

/-- The tokens nonterminal `x` can start with. -/
def firstOf (x : Int) : Nat := (firstL[(-x).toNat]?).getD 0

/-- The nonterminals that can be empty. -/
def nullable (x : Int) : Bool := x == -74 || x == -75

/-- The tokens the symbols followed by a token in `m` can start with. -/
def firstMask : List Int → Nat → Nat
  | [], m => m
  | x :: xs, m => if x > 0 then 1 <<< x.toNat else if nullable x then firstOf x ||| firstMask xs m else firstOf x

/-- All of `m` may follow production `k` at position `dot` in state `s`. -/
def subsetIn (s k dot m : Nat) : Bool :=
  (items s).any fun it => it.1 == k && it.2.1 == dot && m &&& it.2.2 == m

/-- The state after shifting token `t` in state `s`. -/
def shiftP (s : Nat) (t : Int) : Option Nat :=
  if pactP s ≤ -1000 then none
  else
    let n := pactP s + t
    if n < 0 || n ≥ 468 then none
    else
      let x := actP n.toNat
      if chkP x.toNat == t then some x.toNat else none

/-- A token in `m` may follow production `k` at position `dot` in state `s`: the tables act accordingly. -/
def itemOK (s : Nat) (it : Nat × Nat × Nat) : Bool :=
  match grammar2[it.1]? with
  | none => false
  | some (_, r, i) =>
    match r[it.2.1]? with
    | none => it.2.1 == r.length && defP s == i && (List.range 99).all fun t => !(it.2.2.testBit t) || (shiftP s t).isNone
    | some x =>
      if x > 0 then
        match shiftP s x with
        | none => false
        | some s' => subsetIn s' it.1 (it.2.1 + 1) it.2.2
      else
        let s' := gotoP (-(phi x)).toNat s
        0 ≤ s' && s' < 316 && subsetIn s'.toNat it.1 (it.2.1 + 1) it.2.2 &&
          let f := firstMask (r.drop (it.2.1 + 1)) it.2.2
          (List.range 190).all fun q =>
            match grammar2[q]? with
            | none => true
            | some (l, _, _) => l != x || subsetIn s q 0 f

theorem items_ok : ((List.range 316).all fun s => (items s).all (itemOK s)) = true := by decide +kernel

/-- The productions starting the grammar are in state 0. -/
theorem items_start : ((List.range 190).all fun q =>
    match grammar2[q]? with
    | none => true
    | some (l, _, _) => l != -1 || subsetIn 0 q 0 2) = true := by decide +kernel

/-- `firstOf` and `nullable` are closed under the productions. -/
theorem first_ok : (grammar2.all fun p =>
    p.1 < 0 && -76 < p.1 &&
    firstMask p.2.1 0 &&& firstOf p.1 == firstMask p.2.1 0 && (!(p.2.1.all nullable) || nullable p.1) &&
    p.2.1.all fun x => x != 0) = true := by
  decide +kernel

/-- The productions of `grammar2` are productions of the tables. -/
theorem grammar2_ok : (grammar2.all fun p =>
    1 ≤ p.2.2 && p.2.2 < 191 && r1P p.2.2 == -(phi p.1) && r2P p.2.2 == p.2.1.length) = true := by decide +kernel

/-- Texts left open have no effect. -/
theorem loose_ok : (grammar2.all fun p =>
    if actionOf p.2.2 = .first then
      loose p.1 || (match p.2.1 with
        | [] => false
        | x :: _ => !loose x)
    else p.2.1.all fun x => !loose x) = true := by decide +kernel

theorem grammar2_length : grammar2.length = 190 := by decide +kernel

end Locale
