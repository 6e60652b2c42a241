import Verif.Locale.EndToEnd

/-!
# Escapes in strings (C120)

POSIX gives the characters of a string as themselves or as escapes: octal, decimal, hexadecimal, or a character after the
escape character. localelex.go:286-315 recognises them all, but the parser (localedef.y:186-194, 415, 428) puts together
the texts of the tokens, and nothing turns an escape into its character.
-/

namespace Locale
open Go

/-! ## Specification -/

/-- The value of a digit in a base up to 16. -/
def digitOf (base : Nat) (c : Nat) : Option Nat :=
  let v := if 48 ≤ c ∧ c ≤ 57 then some (c - 48) else if 97 ≤ c ∧ c ≤ 102 then some (c - 87) else if 65 ≤ c ∧ c ≤ 70 then some (c - 55) else none
  v.filter (· < base)

/-- The value of digits. -/
def valueOf (base : Nat) (cs : List Nat) : Option Nat := cs.foldl (fun a c => a.bind fun n => (digitOf base c).map fun d => n * base + d) (some 0)

/-- What a string with escapes stands for. -/
inductive Meaning : List Nat → Bytes → Prop
  | nil : Meaning [] []
  | char {c s m} : strChar c → Meaning s m → Meaning (c :: s) (encodeRune c ++ m)
  | quoted {c s m} : c ∈ [44, 59, 60, 62, 92] → Meaning s m → Meaning (92 :: c :: s) (encodeRune c ++ m)
  | octal {a b c n s m} : valueOf 8 [a, b, c] = some n → n < 256 → Meaning s m → Meaning (92 :: a :: b :: c :: s) (UInt8.ofNat n :: m)
  | decimal {a b c n s m} : valueOf 10 [a, b, c] = some n → n < 256 → Meaning s m → Meaning (92 :: 100 :: a :: b :: c :: s) (UInt8.ofNat n :: m)
  | hex {a b n s m} : valueOf 16 [a, b] = some n → Meaning s m → Meaning (92 :: 120 :: a :: b :: s) (UInt8.ofNat n :: m)

/-- The last `int_curr_symbol` of a file. -/
def LastSymbol (f : List Section) (s : List Nat) : Prop :=
  ∃ f1 c f2 a st b, f = f1 ++ c :: f2 ∧ c.stmts = a ++ st :: b ∧ st.word = b!"int_curr_symbol" ∧ st.val = .str s ∧
    (∀ x ∈ b, x.word ≠ b!"int_curr_symbol") ∧ ∀ y ∈ f2, ∀ x ∈ y.stmts, x.word ≠ b!"int_curr_symbol"

/-! ## Proofs -/

theorem defines_other {d : Def} {s : Stmt} (h : s.word ≠ b!"int_curr_symbol") : (s.defines d).intCurrSymbol = d.intCurrSymbol := by
  unfold Stmt.defines
  by_cases hw : s.word = b!"mon_grouping"
  · rw [if_pos hw]
    split <;> rfl
  · rw [if_neg hw, if_neg h]

theorem stmts_other {ss : List Stmt} (h : ∀ x ∈ ss, x.word ≠ b!"int_curr_symbol") (d : Def) : (ss.foldl Stmt.defines d).intCurrSymbol = d.intCurrSymbol := by
  induction ss generalizing d with
  | nil => rfl
  | cons s ss ih => rw [List.foldl_cons, ih (fun x hx => h x (by simp [hx])), defines_other (h s (by simp))]

theorem sections_other {f : List Section} (h : ∀ y ∈ f, ∀ x ∈ y.stmts, x.word ≠ b!"int_curr_symbol") (d : Def) :
    (f.foldl Section.defines d).intCurrSymbol = d.intCurrSymbol := by
  induction f generalizing d with
  | nil => rfl
  | cons s f ih =>
    rw [List.foldl_cons, ih (fun x hx => h x (by simp [hx]))]
    exact stmts_other (h s (by simp)) d

theorem last_symbol {f : List Section} {s : List Nat} (h : LastSymbol f s) (hs : s ≠ []) (d : Def) :
    (f.foldl Section.defines d).intCurrSymbol = ofRunes s := by
  obtain ⟨f1, c, f2, a, st, b, rfl, h2, h3, h4, h5, h6⟩ := h
  rw [List.foldl_append, List.foldl_cons, sections_other h6]
  simp only [Section.defines, h2, List.foldl_append, List.foldl_cons]
  rw [stmts_other h5]
  simp [Stmt.defines, h3, h4, hs]

theorem Meaning.plain {s : List Nat} {m : Bytes} (h : Meaning s m) (h92 : 92 ∉ s) : m = ofRunes s := by
  induction h with
  | nil => rfl
  | char _ _ ih => rw [ofRunes_cons, ih (fun h => h92 (by simp [h]))]
  | _ => exact absurd (List.mem_cons_self ..) h92

theorem Meaning.shorter {s : List Nat} {m : Bytes} (h : Meaning s m) : m.length ≤ (ofRunes s).length ∧ (92 ∈ s → m.length < (ofRunes s).length) := by
  have e : ∀ c : Nat, 1 ≤ (encodeRune c).length := fun c => List.length_pos_iff.mpr (encode_ne_nil c)
  induction h with
  | nil => simp
  | @char c s m hc _ ih =>
    simp only [ofRunes_cons, List.length_append, List.mem_cons]
    refine ⟨by omega, ?_⟩
    rintro (h | h)
    · exact absurd h.symm hc.2.2.2
    · have := ih.2 h; omega
  | @quoted c s m _ _ ih =>
    simp only [ofRunes_cons, List.length_append]
    have := e 92
    exact ⟨by omega, fun _ => by omega⟩
  | @octal a b c n s m _ _ _ ih =>
    simp only [ofRunes_cons, List.length_append, List.length_cons]
    have h1 := e 92; have h2 := e a
    exact ⟨by omega, fun _ => by omega⟩
  | @decimal a b c n s m _ _ _ ih =>
    simp only [ofRunes_cons, List.length_append, List.length_cons]
    have h1 := e 92; have h2 := e a
    exact ⟨by omega, fun _ => by omega⟩
  | @hex a b n s m _ _ ih =>
    simp only [ofRunes_cons, List.length_append, List.length_cons]
    have h1 := e 92; have h2 := e a
    exact ⟨by omega, fun _ => by omega⟩

/-- **C120** (partial: the property is false for every string with an escape) The `int_curr_symbol` of a locale is the text
of the last statement as it is written; this is what the string stands for exactly if it has no escape. -/
theorem C120_as_written_partial (f : List Section) (hf : ∀ s ∈ f, s.WF) (ha : ∀ s ∈ f, s.Accepted)
    (lines : List Bytes) (hc : ∀ l ∈ lines, isComment l = true → PlainLine l)
    (hl : lines.filter (fun l => !isComment l) = fileLines f) (handler : Bool) (d : Def) (s : List Nat) (hs : s ≠ []) (hlast : LastSymbol f s) :
    ∃ d', (∃ N, ∀ n, N ≤ n → ∃ toks l, newLexer n (unlines lines) = .ok toks l ∧ parse handler toks d = .ok (0, d')) ∧
      d'.intCurrSymbol = ofRunes s ∧ ∀ m, Meaning s m → (d'.intCurrSymbol = m ↔ 92 ∉ s) := by
  have hne : f ≠ [] := by
    obtain ⟨f1, c, f2, a, st, b, rfl, -⟩ := hlast
    simp
  refine ⟨_, C78_file f hne hf ha lines hc hl handler d, last_symbol hlast hs d, fun m hm => ?_⟩
  rw [last_symbol hlast hs d]
  constructor
  · intro e h
    have := hm.shorter.2 h
    rw [e] at this
    omega
  · intro h
    exact (hm.plain h).symm

/-- **C120** (counterexample) `int_curr_symbol "\x41"` is stored as four characters and not as `A`. -/
theorem C120_counterexample (handler : Bool) (d : Def) : ∃ d',
    (∃ N, ∀ n, N ≤ n → ∃ toks l, newLexer n b!"LC_MONETARY\nint_curr_symbol \"\\x41\"\nEND LC_MONETARY\n" = .ok toks l ∧ parse handler toks d = .ok (0, d')) ∧
      Meaning [92, 120, 52, 49] b!"A" ∧ d'.intCurrSymbol = b!"\\x41" := by
  have h := C120_as_written_partial [{ cat := .monetary, stmts := [{ word := b!"int_curr_symbol", val := .str [92, 120, 52, 49] }] }] ?_ ?_
    [b!"LC_MONETARY", b!"int_curr_symbol \"\\x41\"", b!"END LC_MONETARY"] ?_ (by decide +kernel) handler d [92, 120, 52, 49] (by simp)
    ⟨[], _, [], [], _, [], rfl, rfl, rfl, rfl, by simp, by simp⟩
  · obtain ⟨d', h1, h2, -⟩ := h
    exact ⟨d', h1, .hex (n := 65) (by decide) .nil, h2⟩
  · intro s hs
    simp only [List.mem_cons, List.not_mem_nil, or_false] at hs
    subst hs
    refine ⟨?_, by decide, by decide, by decide, by decide⟩
    intro x hx
    simp only [List.mem_cons, List.not_mem_nil, or_false] at hx
    subst hx
    exact ⟨by decide, by decide, by decide, by decide, (by decide : strOk [92, 120, 52, 49] = true)⟩
  · intro s hs
    simp only [List.mem_cons, List.not_mem_nil, or_false] at hs
    subst hs
    refine ⟨by simp, ?_⟩
    intro x hx
    simp only [List.mem_cons, List.not_mem_nil, or_false] at hx
    subst hx
    exact ⟨by decide, by intro h; cases h⟩
  · intro l hl hc
    simp only [List.mem_cons, List.not_mem_nil, or_false] at hl
    rcases hl with rfl | rfl | rfl <;> cases hc

end Locale
