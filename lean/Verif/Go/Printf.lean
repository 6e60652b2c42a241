import Verif.Go.Utf8

/-!
# `fmt.Printf(format)` without operands

Go's `fmt.(*pp).doPrintf` (print.go) for an empty list of operands. It is what `cmd/locale` prints with.
The suffixes of the format stand for the positions in it.
-/

namespace Go
namespace Printf0

/-- The flag characters (`simpleFormat` loop). They change nothing when there is no operand. -/
def isFlag (c : UInt8) : Bool := c == 35 || c == 48 || c == 43 || c == 45 || c == 32

/-- Decimal digits. -/
def isDigit (c : UInt8) : Bool := 48 ≤ c && c ≤ 57

/-- `parsenum`: whether there is a number, and the rest; a number with more than seven or so digits
(`tooLarge`) consumes everything. -/
def parsenum (num : Nat) (isnum : Bool) : Bytes → Bool × Bytes
  | [] => (isnum, [])
  | c :: cs =>
    if isDigit c then
      if num > 1000000 then (false, []) else parsenum (num * 10 + (c.toNat - 48)) true cs
    else (isnum, c :: cs)

/-- `argNumber` with `parseArgNumber`: whether an index like `[3]` was found, whether a bracket was seen (no
index is good, there being no operand), and the rest. -/
def argNumber : Bytes → Bool × Bool × Bytes
  | 91 :: s =>
    if s.length < 2 then (false, true, s)
    else if 93 ∈ s then
      let inside := parsenum 0 false (s.takeWhile (· ≠ 93))
      (inside.1 && inside.2.isEmpty, true, (s.dropWhile (· ≠ 93)).drop 1)
    else (false, true, s)
  | s => (false, false, s)

/-- The width: what is written, whether the item before the precision was an index, whether the index stays good,
and the rest. -/
def width (afterIndex : Bool) : Bytes → Bytes × Bool × Bool × Bytes
  | 42 :: s => (b!"%!(BADWIDTH)", false, true, s)
  | s => ([], afterIndex, !(afterIndex && (parsenum 0 false s).1), (parsenum 0 false s).2)

/-- The precision. -/
def precision (afterIndex : Bool) : Bytes → Bytes × Bool × Bool × Bytes
  | 46 :: s =>
    let a := argNumber s
    match a.2.2 with
    | 42 :: s' => (b!"%!(BADPREC)", false, !afterIndex && !a.2.1, s')
    | s' => ([], a.1, !afterIndex && !a.2.1, (parsenum 0 false s').2)
  | s => ([], afterIndex, true, s)

/-- The verb: what is written, and the rest. -/
def verb (good : Bool) : Bytes → Bytes × Bytes
  | [] => (b!"%!(NOVERB)", [])
  | c :: cs =>
    let r := decodeRune c cs
    let rest := (c :: cs).drop r.2
    if c = 37 then ([37], rest)
    else if good then (b!"%!" ++ encodeRune r.1 ++ b!"(MISSING)", rest)
    else (b!"%!" ++ encodeRune r.1 ++ b!"(BADINDEX)", rest)

/-- What follows a percent sign: what is written for it, and the rest of the format. -/
def directive (s : Bytes) : Bytes × Bytes :=
  let a1 := argNumber (s.dropWhile isFlag)
  let w := width a1.1 a1.2.2
  let p := precision w.2.1 w.2.2.2
  let a2 := if p.2.1 then (true, false, p.2.2.2) else argNumber p.2.2.2
  let v := verb (!a1.2.1 && w.2.2.1 && p.2.2.1 && !a2.2.1) a2.2.2
  (w.1 ++ p.1 ++ v.1, v.2)

/-- `formatLoop`, with a bound on the number of rounds. -/
def loop : Nat → Bytes → Bytes
  | 0, _ => []
  | _ + 1, [] => []
  | n + 1, c :: cs => if c = 37 then (directive cs).1 ++ loop n (directive cs).2 else c :: loop n cs

/-- `fmt.Printf(format)`: each round consumes a byte, so there are at most as many as there are bytes. -/
def printf0 (s : Bytes) : Bytes := loop s.length s


/-! ## Laws -/

theorem parsenum_le (num : Nat) (isnum : Bool) (s : Bytes) : (parsenum num isnum s).2.length ≤ s.length := by
  induction s generalizing num isnum with
  | nil => simp [parsenum]
  | cons c cs ih =>
    simp only [parsenum]
    split
    · split
      · simp
      · have := ih (num * 10 + (c.toNat - 48)) true; simp only [List.length_cons]; omega
    · exact Nat.le_refl _

theorem argNumber_le (s : Bytes) : (argNumber s).2.2.length ≤ s.length := by
  unfold argNumber
  split
  · next s =>
    split
    · simp
    · split
      · have := (List.dropWhile_sublist (· ≠ (93 : UInt8)) (l := s)).length_le
        simp only [List.length_drop, List.length_cons]; omega
      · simp
  · exact Nat.le_refl _

theorem width_le (a : Bool) (s : Bytes) : (width a s).2.2.2.length ≤ s.length := by
  unfold width
  split
  · simp
  · exact parsenum_le _ _ _

theorem precision_le (a : Bool) (s : Bytes) : (precision a s).2.2.2.length ≤ s.length := by
  unfold precision
  split
  · next s =>
    have h := argNumber_le s
    simp only
    split
    · next s' e => rw [e] at h; simp only [List.length_cons] at h ⊢; omega
    · have := parsenum_le 0 false (argNumber s).2.2; simp only [List.length_cons]; omega
  · exact Nat.le_refl _

theorem verb_le (good : Bool) (s : Bytes) : (verb good s).2.length ≤ s.length := by
  unfold verb
  split
  · simp
  · simp only
    split
    · simp
    · split <;> simp

theorem directive_le (s : Bytes) : (directive s).2.length ≤ s.length := by
  have h1 := (List.dropWhile_sublist isFlag (l := s)).length_le
  have h2 := argNumber_le (s.dropWhile isFlag)
  have h3 := width_le (argNumber (s.dropWhile isFlag)).1 (argNumber (s.dropWhile isFlag)).2.2
  simp only [directive]
  generalize width (argNumber (s.dropWhile isFlag)).1 (argNumber (s.dropWhile isFlag)).2.2 = w at h3 ⊢
  have h4 := precision_le w.2.1 w.2.2.2
  generalize precision w.2.1 w.2.2.2 = p at h4 ⊢
  refine Nat.le_trans (verb_le _ _) ?_
  have h5 := argNumber_le p.2.2.2
  split
  · show p.2.2.2.length ≤ _; omega
  · omega

/-- More rounds than bytes change nothing. -/
theorem loop_fuel (n m : Nat) (s : Bytes) (hn : s.length ≤ n) (hm : s.length ≤ m) : loop n s = loop m s := by
  induction n generalizing m s with
  | zero =>
    have : s = [] := List.length_eq_zero_iff.1 (by omega)
    subst this
    cases m <;> rfl
  | succ n ih =>
    cases s with
    | nil => cases m <;> rfl
    | cons c cs =>
      cases m with
      | zero => simp at hm
      | succ m =>
        simp only [List.length_cons] at hn hm
        have := directive_le cs
        simp only [loop]
        rw [ih m (directive cs).2 (by omega) (by omega), ih m cs (by omega) (by omega)]

theorem printf0_percent (s : Bytes) : printf0 (37 :: s) = (directive s).1 ++ printf0 (directive s).2 := by
  have := directive_le s
  simp only [printf0, List.length_cons, loop, if_true]
  rw [loop_fuel s.length (directive s).2.length _ this (Nat.le_refl _)]

theorem printf0_cons (c : UInt8) (s : Bytes) (h : c ≠ 37) : printf0 (c :: s) = c :: printf0 s := by
  simp only [printf0, List.length_cons, loop, if_neg h]

/-- What comes before the first percent sign is copied. -/
theorem printf0_append (pre s : Bytes) (h : 37 ∉ pre) : printf0 (pre ++ s) = pre ++ printf0 s := by
  induction pre with
  | nil => rfl
  | cons c cs ih =>
    simp only [List.mem_cons, not_or] at h
    rw [List.cons_append, printf0_cons _ _ (Ne.symm h.1), ih h.2, List.cons_append]

/-- A text without percent sign is printed as it is. -/
theorem plain (s : Bytes) (h : 37 ∉ s) : printf0 s = s := by
  have := printf0_append s [] h
  simpa [printf0, loop] using this

theorem directive_percent (s : Bytes) : directive (37 :: s) = ([37], s) := by
  simp [directive, List.dropWhile, isFlag, argNumber, width, parsenum, isDigit, precision, verb, decodeRune]

/-- Doubled percent signs are printed once. -/
theorem printf0_doubled (s : Bytes) : printf0 (s.flatMap (fun c => if c = 37 then [37, 37] else [c])) = s := by
  induction s with
  | nil => rfl
  | cons c cs ih =>
    by_cases h : c = 37
    · subst h
      simp only [List.flatMap_cons, if_true, List.cons_append, List.nil_append]
      rw [printf0_percent, directive_percent, ih]
      rfl
    · simp only [List.flatMap_cons, if_neg h, List.cons_append, List.nil_append]
      rw [printf0_cons _ _ h, ih]

theorem argNumber_other (c : UInt8) (s : Bytes) (h : c ≠ 91) : argNumber (c :: s) = (false, false, c :: s) := by
  unfold argNumber
  split
  · next heq => injection heq with e _; exact absurd e h
  · rfl

theorem width_other (a : Bool) (c : UInt8) (s : Bytes) (h : c ≠ 42) :
    width a (c :: s) = ([], a, !(a && (parsenum 0 false (c :: s)).1), (parsenum 0 false (c :: s)).2) := by
  unfold width
  split
  · next heq => injection heq with e _; exact absurd e h
  · rfl

theorem precision_other (a : Bool) (c : UInt8) (s : Bytes) (h : c ≠ 46) : precision a (c :: s) = ([], a, true, c :: s) := by
  unfold precision
  split
  · next heq => injection heq with e _; exact absurd e h
  · rfl

/-- What is neither a flag, nor part of a number, width, precision or index, is a verb. -/
theorem directive_verb (c : UInt8) (s : Bytes) (h1 : isFlag c = false) (h2 : isDigit c = false) (h3 : c ≠ 91) (h4 : c ≠ 42) (h5 : c ≠ 46) :
    directive (c :: s) = verb true (c :: s) := by
  have hp : parsenum 0 false (c :: s) = (false, c :: s) := by simp [parsenum, h2]
  simp only [directive, List.dropWhile_cons, h1, Bool.false_eq_true, if_false, argNumber_other c s h3, width_other _ c s h4, hp,
    precision_other _ c s h5]
  simp

theorem printf0_letter (c : UInt8) (s : Bytes) (hc : 65 ≤ c ∧ c ≤ 90 ∨ 97 ≤ c ∧ c ≤ 122) :
    printf0 (37 :: c :: s) = b!"%!" ++ [c] ++ b!"(MISSING)" ++ printf0 s := by
  have hc' : 65 ≤ c.toNat ∧ c.toNat ≤ 90 ∨ 97 ≤ c.toNat ∧ c.toNat ≤ 122 := by simpa [UInt8.le_iff_toNat_le] using hc
  have ne : ∀ d : UInt8, ¬ (65 ≤ d.toNat ∧ d.toNat ≤ 90 ∨ 97 ≤ d.toNat ∧ d.toNat ≤ 122) → c ≠ d := by
    intro d hd e; rw [e] at hc'; exact hd hc'
  have lt : c < 0x80 := by rw [UInt8.lt_iff_toNat_lt]; show c.toNat < 128; omega
  rw [printf0_percent, directive_verb c s]
  · have h37 := ne 37 (by decide)
    have henc : encodeRune c.toNat = [c] := by
      have : c.toNat < 128 := by omega
      simp [encodeRune, this]
    simp only [verb, decodeRune_ascii c s lt, if_neg h37, if_true, henc, List.drop_succ_cons, List.drop_zero]
  · simp [isFlag, ne 35 (by decide), ne 48 (by decide), ne 43 (by decide), ne 45 (by decide), ne 32 (by decide)]
  · simp only [isDigit, Bool.and_eq_false_iff, decide_eq_false_iff_not, UInt8.le_iff_toNat_le]
    right; show ¬ c.toNat ≤ 57; omega
  · exact ne 91 (by decide)
  · exact ne 42 (by decide)
  · exact ne 46 (by decide)

theorem parsenum_huge (ds : Bytes) (rest : Bytes) (num : Nat) (b : Bool) (h : ∀ x ∈ ds, isDigit x = true)
    (hl : 1000000 < num * 10 ^ (ds.length - 1)) (hd : ds ≠ []) : parsenum num b (ds ++ rest) = (false, []) := by
  induction ds generalizing num b with
  | nil => exact absurd rfl hd
  | cons c cs ih =>
    have hc := h c List.mem_cons_self
    simp only [List.cons_append, parsenum, hc, if_true]
    by_cases hn : num > 1000000
    · rw [if_pos hn]
    · rw [if_neg hn]
      cases cs with
      | nil => simp at hl; omega
      | cons e es =>
        refine ih _ _ (fun x hx => h x (List.mem_cons_of_mem _ hx)) ?_ (by simp)
        simp only [List.length_cons, Nat.add_sub_cancel] at hl ⊢
        have : num * 10 ^ (es.length + 1) = (num * 10) * 10 ^ es.length := by rw [Nat.pow_succ, Nat.mul_comm (10 ^ es.length), Nat.mul_assoc]
        rw [this] at hl
        exact Nat.lt_of_lt_of_le hl (Nat.mul_le_mul_right _ (Nat.le_add_right _ _))

/-- A number of nine digits or more swallows the rest of the format. -/
theorem printf0_huge (d : UInt8) (ds rest : Bytes) (hd : 49 ≤ d ∧ d ≤ 57) (hds : ∀ x ∈ ds, isDigit x = true) (hl : 8 ≤ ds.length) :
    printf0 (37 :: d :: (ds ++ rest)) = b!"%!(NOVERB)" := by
  have hd' : 49 ≤ d.toNat ∧ d.toNat ≤ 57 := by simpa [UInt8.le_iff_toNat_le] using hd
  have ne : ∀ e : UInt8, ¬ (49 ≤ e.toNat ∧ e.toNat ≤ 57) → d ≠ e := by intro e he h; rw [h] at hd'; exact he hd'
  have hdig : isDigit d = true := by
    simp only [isDigit, Bool.and_eq_true, decide_eq_true_eq, UInt8.le_iff_toNat_le]
    exact ⟨by show 48 ≤ d.toNat; omega, by show d.toNat ≤ 57; omega⟩
  have hp : parsenum 0 false (d :: (ds ++ rest)) = (false, []) := by
    simp only [parsenum, hdig, if_true]
    rw [if_neg (by decide)]
    refine parsenum_huge ds rest _ _ hds ?_ (by intro e; rw [e] at hl; simp at hl)
    have h7 : 10 ^ 7 ≤ 10 ^ (ds.length - 1) := Nat.pow_le_pow_right (by decide) (by omega)
    have : 1 * 10 ^ (ds.length - 1) ≤ (0 * 10 + (d.toNat - 48)) * 10 ^ (ds.length - 1) := Nat.mul_le_mul_right _ (by omega)
    have h6 : 1000000 < 10 ^ 7 := by decide
    omega
  have hflag : isFlag d = false := by
    simp [isFlag, ne 35 (by decide), ne 48 (by decide), ne 43 (by decide), ne 45 (by decide), ne 32 (by decide)]
  rw [printf0_percent]
  simp only [directive, List.dropWhile_cons, hflag, Bool.false_eq_true, if_false, argNumber_other _ _ (ne 91 (by decide)),
    width_other _ _ _ (ne 42 (by decide)), hp]
  rfl

end Printf0
end Go
