import Verif.Flag.Props

/-! # C90: registering options -/

namespace Flag
open Go

variable {parseInt : Bytes → Option Int}

/-! ## Specification -/

/-- The three ways to register an option. -/
inductive RegKind where
  | bool
  | int
  | string
  deriving DecidableEq, Repr

/-- A registration: the kind, the variable, the letter. -/
structure Reg where
  kind : RegKind
  addr : Nat
  letter : Nat
  deriving DecidableEq, Repr

/-- The parser after a registration. -/
def Reg.on (p : Parser) (r : Reg) : Parser :=
  match r.kind with
  | .bool => p.boolVar r.addr r.letter
  | .int => p.intVar r.addr r.letter
  | .string => p.stringVar r.addr r.letter

/-- A new parser with the given registrations, made in this order. -/
def registered (rs : List Reg) : Parser := rs.foldl Reg.on {}

/-- The variable the last registration of this kind and letter names. -/
def lastReg (k : RegKind) (c : Nat) (rs : List Reg) : Option Nat :=
  (rs.reverse.find? fun r => r.kind = k ∧ r.letter = c).map Reg.addr

/-! ## Proofs -/

theorem registered_lookup (rs : List Reg) (c : Nat) :
    (registered rs).bools c = lastReg .bool c rs ∧ (registered rs).ints c = lastReg .int c rs ∧
    (registered rs).strings c = lastReg .string c rs := by
  have gen : ∀ rs : List Reg, (rs.foldr (fun r p => Reg.on p r) ({} : Parser)).bools c = (rs.find? fun r => r.kind = .bool ∧ r.letter = c).map Reg.addr ∧
      (rs.foldr (fun r p => Reg.on p r) ({} : Parser)).ints c = (rs.find? fun r => r.kind = .int ∧ r.letter = c).map Reg.addr ∧
      (rs.foldr (fun r p => Reg.on p r) ({} : Parser)).strings c = (rs.find? fun r => r.kind = .string ∧ r.letter = c).map Reg.addr := by
    intro rs
    induction rs with
    | nil => exact ⟨rfl, rfl, rfl⟩
    | cons r rs ih =>
      obtain ⟨k, a, x⟩ := r
      obtain ⟨i1, i2, i3⟩ := ih
      simp only [List.foldr_cons]
      generalize rs.foldr (fun r p => Reg.on p r) ({} : Parser) = q at i1 i2 i3 ⊢
      by_cases hx : x = c
      · subst hx
        cases k <;> simp [Reg.on, Parser.boolVar, Parser.intVar, Parser.stringVar, i1, i2, i3]
      · have hx' : c ≠ x := fun e => hx e.symm
        cases k <;> simp [Reg.on, Parser.boolVar, Parser.intVar, Parser.stringVar, i1, i2, i3, hx, hx']
  have := gen rs.reverse
  rwa [List.foldr_reverse] at this

theorem ascii_valid {c : Nat} (h : c < 128) : ValidRune c := .inl (by omega)

theorem bundle_letter (p : Parser) (c : Nat) (h : c < 128) (rest : List Bytes) (st : Store) :
    bundle p parseInt (letters (ofRunes [c])) rest st = bundle p parseInt [(c, [])] rest st := by
  have := letters_encode c (ascii_valid h) []
  rw [List.append_nil, after_ascii c h] at this
  have e : ofRunes [c] = encodeRune c := by simp [ofRunes]
  rw [e, this]
  rfl

/-- **C90** What a letter means after any sequence of registrations. If it was ever registered as a boolean option, `-c` sets
the variable given last for that; otherwise, if ever as a string option, `-c value` assigns the value to the
variable given last for that; otherwise, if ever as an integer option, `-c value` assigns the number to the variable
given last for that; otherwise it is an error. Nothing else changes, and the following arguments are read as if they came
first. -/
theorem C90_meaning (rs : List Reg) (c : Nat) (h : c < 128) (hd : c ≠ 45) (v : Bytes) (rest : List Bytes) (st : Store) :
    (∀ a, lastReg .bool c rs = some a →
      parse (registered rs) parseInt (dash [c] :: rest) st =
        parse (registered rs) parseInt rest ⟨fun b => if b = a then true else st.bool b, st.int, st.str⟩) ∧
    (lastReg .bool c rs = none → ∀ a, lastReg .string c rs = some a →
      parse (registered rs) parseInt (dash [c] :: v :: rest) st =
        parse (registered rs) parseInt rest ⟨st.bool, st.int, fun b => if b = a then v else st.str b⟩) ∧
    (lastReg .bool c rs = none → lastReg .string c rs = none → ∀ a, lastReg .int c rs = some a →
      (∀ n, parseInt v = some n → parse (registered rs) parseInt (dash [c] :: v :: rest) st =
        parse (registered rs) parseInt rest ⟨st.bool, fun b => if b = a then n else st.int b, st.str⟩) ∧
      (parseInt v = none → parse (registered rs) parseInt (dash [c] :: v :: rest) st = ⟨.error .nonInt, st⟩)) ∧
    (lastReg .bool c rs = none → lastReg .string c rs = none → lastReg .int c rs = none →
      parse (registered rs) parseInt (dash [c] :: v :: rest) st = ⟨.error .unknown, st⟩) := by
  obtain ⟨e1, e2, e3⟩ := registered_lookup rs c
  have hv : ∀ x ∈ [c], ValidRune x := by simpa using ascii_valid h
  have step : ∀ rest', parse (registered rs) parseInt (dash [c] :: rest') st = _ :=
    fun rest' => parse_dash [c] rest' st (by simp) (by simpa using hd) hv
  refine ⟨?_, ?_, ?_, ?_⟩
  · intro a ha
    rw [step, bundle_letter _ c h]
    simp only [bundle, e1, ha]
    rfl
  · intro hb a ha
    rw [step, bundle_letter _ c h]
    simp only [bundle, e1, hb, valueOf, List.length_nil, if_true, assign, e3, ha]
    rfl
  · intro hb hs a ha
    constructor
    · intro n hn
      rw [step, bundle_letter _ c h]
      simp only [bundle, e1, hb, valueOf, List.length_nil, if_true, assign, e3, hs, e2, ha, hn]
      rfl
    · intro hn
      rw [step, bundle_letter _ c h]
      simp only [bundle, e1, hb, valueOf, List.length_nil, if_true, assign, e3, hs, e2, ha, hn]
  · intro hb hs hi
    rw [step, bundle_letter _ c h]
    simp only [bundle, e1, hb, valueOf, List.length_nil, if_true, assign, e3, hs, e2, hi]

/-- `-n` registered as an integer option, then `-f` and `-g`, then `-f` again with another variable. -/
def demoRegs : List Reg := [⟨.int, 0, 110⟩, ⟨.bool, 1, 102⟩, ⟨.string, 2, 103⟩, ⟨.bool, 3, 102⟩]

example (st : Store) : parse (registered demoRegs) (fun _ => some 7) [b!"-n", b!"7", b!"-f", b!"x"] st =
    ⟨.ok [b!"x"], ⟨fun b => if b = 3 then true else st.bool b, fun b => if b = 0 then 7 else st.int b, st.str⟩⟩ := by
  have h1 := ((C90_meaning (parseInt := fun _ => some 7) demoRegs 110 (by decide) (by decide) b!"7" [b!"-f", b!"x"] st).2.2.1
    (by decide) (by decide) 0 (by decide)).1 7 rfl
  have h2 := (C90_meaning (parseInt := fun _ => some 7) demoRegs 102 (by decide) (by decide) [] [b!"x"]
    ⟨st.bool, fun b => if b = 0 then 7 else st.int b, st.str⟩).1 3 (by decide)
  exact h1.trans (h2.trans (parse_operand _ _ _ (.inl (by decide))))

end Flag
