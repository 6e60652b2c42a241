import Verif.Go.Strconv

/-!
# Basic regular expressions: syntax and meaning, written independently of the code

The notation is the subset of POSIX basic regular expressions that pkg/regexes reads, with its
peculiarities: parentheses are ignored, a bracket is a set of characters without ranges or negation, a
backslash inside a bracket keeps the next character from ending it, and counts are written `{m}`,
`{m,}`, `{m,n}`.
-/

namespace Regex
open Go

/-- A one-character expression. -/
inductive Sym where
  | char (c : Nat)
  | any
  | set (cs : List Nat)

/-- The characters it stands for. -/
def Sym.accepts : Sym → Nat → Prop
  | .char c, r => r = c
  | .any, _ => True
  | .set cs, r => r ∈ cs

/-- A repetition. -/
inductive Rep where
  | once
  | star
  | exactly (n : Nat)
  | atLeast (n : Nat)
  | between (m n : Nat)

/-- The numbers of copies it allows. -/
def Rep.allows : Rep → Nat → Prop
  | .once, k => k = 1
  | .star, _ => True
  | .exactly n, k => k = n
  | .atLeast n, k => n ≤ k
  | .between m n, k => m ≤ k ∧ k ≤ n

/-- The strings an expression stands for: a concatenation of repeated characters. -/
inductive Lang : List (Sym × Rep) → List Nat → Prop
  | nil : Lang [] []
  | cons {s r es} (xs ys : List Nat) : (∀ x ∈ xs, s.accepts x) → r.allows xs.length → Lang es ys →
      Lang ((s, r) :: es) (xs ++ ys)

/-- A string contains a match: anywhere, or at the start if anchored there, or up to the end if anchored
there. -/
def Contains (left right : Bool) (es : List (Sym × Rep)) (s : List Nat) : Prop :=
  ∃ pre mid post, s = pre ++ mid ++ post ∧ Lang es mid ∧ (left = true → pre = []) ∧ (right = true → post = [])

/-! ## Notation -/

/-- The inside of a bracket. -/
inductive Inside : List Nat → Prop
  | nil : Inside []
  | char {c t} : c ≠ 92 → c ≠ 93 → Inside t → Inside (c :: t)
  | escape {c t} : Inside t → Inside (92 :: c :: t)

/-- How a one-character expression is written. -/
inductive SymText : List Nat → Sym → Prop
  | char {c} : c ∉ [91, 46, 40, 41] → SymText [c] (.char c)
  | any : SymText [46] .any
  | set {cs} : Inside cs → SymText (91 :: cs ++ [93]) (.set cs)

/-- How a number is written: digits whose value is below 2^63. -/
inductive NumText : List Nat → Nat → Prop
  | mk (ds : Bytes) : ds ≠ [] → (∀ c ∈ ds, isDigit c = true) → digitsVal ds < 2 ^ 63 →
      NumText (ds.map UInt8.toNat) (digitsVal ds)

/-- How a repetition is written. -/
inductive RepText : List Nat → Rep → Prop
  | once : RepText [] .once
  | star : RepText [42] .star
  | exactly {t n} : NumText t n → RepText (123 :: t ++ [125]) (.exactly n)
  | atLeast {t n} : NumText t n → RepText (123 :: t ++ [44, 125]) (.atLeast n)
  | between {t m u n} : NumText t m → NumText u n → RepText (123 :: t ++ 44 :: u ++ [125]) (.between m n)

/-- The text does not start with a repetition. -/
def NoRepAhead (t : List Nat) : Prop := t.head? ≠ some 123 ∧ t.head? ≠ some 42

/-- How a sequence of expressions is written. -/
inductive SeqText : List Nat → List (Sym × Rep) → Prop
  | nil : SeqText [] []
  | paren {c t es} : c = 40 ∨ c = 41 → SeqText t es → SeqText (c :: t) es
  | cons {a s b r t es} : SymText a s → RepText b r → (b = [] → NoRepAhead t) → SeqText t es →
      SeqText (a ++ b ++ t) ((s, r) :: es)

/-- How a pattern is written: `^` first anchors left, `$` last anchors right. -/
inductive PatText : List Nat → Bool → List (Sym × Rep) → Bool → Prop
  | plain {t es} : t.head? ≠ some 94 → t.getLast? ≠ some 36 → SeqText t es → PatText t false es false
  | left {t es} : t.getLast? ≠ some 36 → SeqText t es → PatText (94 :: t) true es false
  | right {t es} : t.head? ≠ some 94 → SeqText t es → PatText (t ++ [36]) false es true
  | both {t es} : SeqText t es → PatText (94 :: t ++ [36]) true es true

end Regex
