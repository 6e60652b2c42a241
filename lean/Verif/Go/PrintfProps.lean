import Verif.Go.Printf

/-! # Formats printed without operands: when nothing changes, and what the directives come out as (C98) -/

namespace Go
namespace Printf0

/-! ## Directives -/

/-- A width or precision: absent, `*`, or a number. -/
inductive Num where
  | none
  | star
  | digits (ds : Bytes)

def Num.bytes : Num → Bytes
  | .none => []
  | .star => b!"*"
  | .digits ds => ds

/-- A precision as written. -/
def precBytes : Option Num → Bytes
  | Option.none => []
  | some n => b!"." ++ n.bytes

/-- The complaint about a width. -/
def widthOut : Num → Bytes
  | .star => b!"%!(BADWIDTH)"
  | _ => []

/-- The complaint about a precision. -/
def precOut : Option Num → Bytes
  | some .star => b!"%!(BADPREC)"
  | _ => []

/-- At most seven digits; a width starts with a digit other than 0 (a zero is a flag). -/
def Num.OK (lead : Bool) : Num → Prop
  | .digits ds => ds.length ≤ 7 ∧ (∀ c ∈ ds, 48 ≤ c ∧ c ≤ 57) ∧ (lead = true → ds.head? ≠ some 48) ∧ ds ≠ []
  | _ => True

theorem parsenum_small : ∀ (ds rest : Bytes) (num : Nat) (b : Bool), (∀ c ∈ ds, isDigit c = true) → (∀ c r, rest = c :: r → isDigit c = false) →
    (ds ≠ [] → num * 10 ^ (ds.length - 1) + 10 ^ (ds.length - 1) ≤ 1000001) → (parsenum num b (ds ++ rest)) = (b || !ds.isEmpty, rest) := by
  intro ds
  induction ds with
  | nil =>
    intro rest num b _ hr _
    cases rest with
    | nil => simp [parsenum]
    | cons c r => simp [parsenum, hr c r rfl]
  | cons c cs ih =>
    intro rest num b hd hr hn
    have hc := hd c List.mem_cons_self
    have hcn : c.toNat - 48 ≤ 9 := by
      simp only [isDigit, Bool.and_eq_true, decide_eq_true_eq, UInt8.le_iff_toNat_le] at hc
      have : c.toNat ≤ 57 := hc.2
      omega
    have h0 := hn (by simp)
    have hp : 0 < 10 ^ cs.length := Nat.pow_pos (by decide)
    have hnum : num ≤ 1000000 := by
      simp only [List.length_cons, Nat.add_sub_cancel] at h0
      have : num * 1 ≤ num * 10 ^ cs.length := Nat.mul_le_mul_left _ hp
      omega
    simp only [List.cons_append, parsenum, hc, if_true, if_neg (show ¬ num > 1000000 by omega)]
    rw [ih rest _ true (fun x hx => hd x (List.mem_cons_of_mem _ hx)) hr]
    · simp
    · intro hne
      obtain ⟨k, hk⟩ : ∃ k, cs.length = k + 1 := ⟨cs.length - 1, by have := List.length_pos_iff.2 hne; omega⟩
      simp only [List.length_cons, Nat.add_sub_cancel, hk] at h0 ⊢
      have e1 : num * 10 ^ (k + 1) + 10 ^ (k + 1) = (num * 10 + 10) * 10 ^ k := by
        rw [Nat.pow_succ, Nat.add_mul, Nat.mul_assoc, Nat.mul_comm (10 ^ k) 10]
      have e2 : (num * 10 + (c.toNat - 48)) * 10 ^ k + 10 ^ k = (num * 10 + (c.toNat - 48) + 1) * 10 ^ k := by rw [Nat.add_mul, Nat.add_mul, Nat.add_mul]; omega
      rw [e1] at h0
      rw [e2]
      exact Nat.le_trans (Nat.mul_le_mul_right _ (by omega)) h0

theorem parsenum_seven (ds rest : Bytes) (hl : ds.length ≤ 7) (hd : ∀ c ∈ ds, isDigit c = true) (hr : ∀ c r, rest = c :: r → isDigit c = false) :
    parsenum 0 false (ds ++ rest) = (!ds.isEmpty, rest) := by
  have := parsenum_small ds rest 0 false hd hr (by
    intro _
    simp only [Nat.zero_mul, Nat.zero_add]
    exact Nat.le_trans (Nat.pow_le_pow_right (by decide) (show ds.length - 1 ≤ 6 by omega)) (by decide))
  simpa using this

theorem digit_of {c : UInt8} (h : 48 ≤ c ∧ c ≤ 57) : isDigit c = true := by simp [isDigit, h.1, h.2]

/-- A character at which flags, a width and a precision end. -/
def Ends (x : UInt8) : Prop := isFlag x = false ∧ isDigit x = false ∧ x ≠ 42

theorem precision_written (p : Option Num) (hp : ∀ n, p = some n → n.OK false) (y : UInt8) (ys : Bytes) (hy : Ends y) (h46 : y ≠ 46)
    (h91 : p = some Num.none → y ≠ 91) : precision false (precBytes p ++ y :: ys) = (precOut p, false, true, y :: ys) := by
  cases p with
  | none => exact precision_other _ _ _ h46
  | some n =>
    cases n with
    | none =>
      simp only [precBytes, precOut, Num.bytes, List.append_nil, List.cons_append, List.nil_append, precision, argNumber_other _ _ (h91 rfl)]
      split
      · next e => injection e with e _; exact absurd e hy.2.2
      · simp [parsenum, hy.2.1]
    | star => simp [precBytes, precOut, Num.bytes, precision, argNumber]
    | digits ds =>
      obtain ⟨h1, h2, h3, h4⟩ := hp _ rfl
      have hpn := parsenum_seven ds (y :: ys) h1 (fun x hx => digit_of (h2 x hx)) (by intro x r e; cases e; exact hy.2.1)
      cases ds with
      | nil => exact absurd rfl h4
      | cons d ds =>
        have hd := h2 d List.mem_cons_self
        have nd : ∀ e : UInt8, ¬ (48 ≤ e ∧ e ≤ 57) → d ≠ e := by intro e he h; exact he (h ▸ hd)
        simp only [precBytes, precOut, Num.bytes, List.cons_append, List.nil_append, precision, argNumber_other _ _ (nd 91 (by decide))] at hpn ⊢
        split
        · next e => injection e with e _; exact absurd e (nd 42 (by decide))
        · simp [hpn]

theorem flags_width (flags : Bytes) (hf : ∀ c ∈ flags, c ∈ b!"#0+- ") (w : Num) (hw : w.OK true) (x : UInt8) (xs : Bytes) (hx : Ends x) :
    (flags ++ (w.bytes ++ x :: xs)).dropWhile isFlag = w.bytes ++ x :: xs ∧
    ((w = Num.none → x ≠ 91) → argNumber (w.bytes ++ x :: xs) = (false, false, w.bytes ++ x :: xs)) ∧
    width false (w.bytes ++ x :: xs) = (widthOut w, false, true, x :: xs) := by
  have hwf : ∀ y ys, w.bytes ++ x :: xs = y :: ys → isFlag y = false := by
    intro y ys e
    cases w with
    | none => cases e; exact hx.1
    | star => cases e; decide
    | digits ds =>
      obtain ⟨h1, h2, h3, h4⟩ := hw
      cases ds with
      | nil => exact absurd rfl h4
      | cons d ds =>
        have hd := h2 d List.mem_cons_self
        have nd : ∀ e : UInt8, ¬ (48 ≤ e ∧ e ≤ 57) → d ≠ e := by intro e he h; exact he (h ▸ hd)
        cases e
        have h48 : y ≠ 48 := by intro h; subst h; exact h3 rfl rfl
        simp [isFlag, nd 35 (by decide), h48, nd 43 (by decide), nd 45 (by decide), nd 32 (by decide)]
  refine ⟨?_, ?_, ?_⟩
  · induction flags with
    | nil =>
      simp only [List.nil_append]
      cases hy : w.bytes ++ x :: xs with
      | nil => rfl
      | cons y ys => rw [List.dropWhile_cons_of_neg (by rw [hwf y ys hy]; decide)]
    | cons f fl ih =>
      have hf1 : isFlag f = true := by
        have := hf f List.mem_cons_self
        simp only [List.mem_cons, List.not_mem_nil, or_false] at this
        rcases this with rfl | rfl | rfl | rfl | rfl <;> decide
      rw [List.cons_append, List.dropWhile_cons_of_pos hf1]
      exact ih fun c hc => hf c (List.mem_cons_of_mem _ hc)
  · intro h91
    cases w with
    | none => exact argNumber_other _ _ (h91 rfl)
    | star => exact argNumber_other _ _ (by decide)
    | digits ds =>
      obtain ⟨h1, h2, h3, h4⟩ := hw
      cases ds with
      | nil => exact absurd rfl h4
      | cons d ds =>
        refine argNumber_other _ _ ?_
        rintro rfl
        exact absurd (h2 91 List.mem_cons_self) (by decide)
  · cases w with
    | none =>
      simp only [Num.bytes, List.nil_append, width_other _ _ _ hx.2.2]
      simp [parsenum, hx.2.1, widthOut]
    | star => rfl
    | digits ds =>
      obtain ⟨h1, h2, h3, h4⟩ := hw
      have hpn := parsenum_seven ds (x :: xs) h1 (fun x hx => digit_of (h2 x hx)) (by intro y r e; cases e; exact hx.2.1)
      cases ds with
      | nil => exact absurd rfl h4
      | cons d ds =>
        have nd : d ≠ 42 := by rintro rfl; exact absurd (h2 42 List.mem_cons_self) (by decide)
        simp only [Num.bytes, List.cons_append] at hpn ⊢
        rw [width_other _ _ _ nd, hpn]
        rfl

/-- The letters. -/
theorem letter_facts (c : UInt8) (hc : 65 ≤ c ∧ c ≤ 90 ∨ 97 ≤ c ∧ c ≤ 122) : Ends c ∧ c ≠ 46 ∧ c ≠ 91 ∧
    (∀ rest, verb true (c :: rest) = (b!"%!" ++ [c] ++ b!"(MISSING)", rest)) ∧ ∀ rest, verb false (c :: rest) = (b!"%!" ++ [c] ++ b!"(BADINDEX)", rest) := by
  have hc' : 65 ≤ c.toNat ∧ c.toNat ≤ 90 ∨ 97 ≤ c.toNat ∧ c.toNat ≤ 122 := by simpa [UInt8.le_iff_toNat_le] using hc
  have ne : ∀ d : UInt8, ¬ (65 ≤ d.toNat ∧ d.toNat ≤ 90 ∨ 97 ≤ d.toNat ∧ d.toNat ≤ 122) → c ≠ d := by
    intro d hd e; rw [e] at hc'; exact hd hc'
  have lt : c < 0x80 := by rw [UInt8.lt_iff_toNat_lt]; show c.toNat < 128; omega
  have henc : encodeRune c.toNat = [c] := by
    have : c.toNat < 128 := by omega
    simp [encodeRune, this]
  refine ⟨⟨?_, ?_, ne 42 (by decide)⟩, ne 46 (by decide), ne 91 (by decide), fun rest => ?_, fun rest => ?_⟩
  · simp [isFlag, ne 35 (by decide), ne 48 (by decide), ne 43 (by decide), ne 45 (by decide), ne 32 (by decide)]
  · simp only [isDigit, Bool.and_eq_false_iff, decide_eq_false_iff_not, UInt8.le_iff_toNat_le]
    right; show ¬ c.toNat ≤ 57; omega
  · simp only [verb, decodeRune_ascii c rest lt, if_neg (ne 37 (by decide)), if_true, henc, List.drop_succ_cons, List.drop_zero]
  · simp only [verb, decodeRune_ascii c rest lt, if_neg (ne 37 (by decide)), henc, List.drop_succ_cons, List.drop_zero]
    rfl

theorem precBytes_head (p : Option Num) (y : UInt8) (ys : Bytes) (hy : Ends y) : ∃ x xs, precBytes p ++ y :: ys = x :: xs ∧ Ends x ∧ (x = 91 → p = none ∧ y = 91) := by
  cases p with
  | none => exact ⟨y, ys, rfl, hy, fun h => ⟨rfl, h⟩⟩
  | some n => exact ⟨46, n.bytes ++ y :: ys, rfl, ⟨by decide, by decide, by decide⟩, fun h => absurd h (by decide)⟩

/-- **C98** A directive with flags, width, precision and a letter, without operand: each `*` is a complaint, and then comes the letter
with the complaint about the missing operand. -/
theorem printf0_directive (flags : Bytes) (hf : ∀ c ∈ flags, c ∈ b!"#0+- ") (w : Num) (hw : w.OK true) (p : Option Num) (hp : ∀ n, p = some n → n.OK false)
    (c : UInt8) (hc : 65 ≤ c ∧ c ≤ 90 ∨ 97 ≤ c ∧ c ≤ 122) (rest : Bytes) :
    printf0 (b!"%" ++ flags ++ w.bytes ++ precBytes p ++ [c] ++ rest) = widthOut w ++ precOut p ++ b!"%!" ++ [c] ++ b!"(MISSING)" ++ printf0 rest := by
  obtain ⟨c1, c2, c3, c4, _⟩ := letter_facts c hc
  have hprec := precision_written p hp c rest c1 c2 (fun _ => c3)
  obtain ⟨x, xs, hx, hx1, hx2⟩ := precBytes_head p c rest c1
  obtain ⟨h1, h2, h3⟩ := flags_width flags hf w hw x xs hx1
  have h2 := h2 fun _ h => c3 (hx2 h).2
  rw [← hx] at h1 h2 h3
  have e0 : b!"%" ++ flags ++ w.bytes ++ precBytes p ++ [c] ++ rest = 37 :: (flags ++ (w.bytes ++ (precBytes p ++ c :: rest))) := by simp
  rw [e0, printf0_percent]
  have : directive (flags ++ (w.bytes ++ (precBytes p ++ c :: rest))) = (widthOut w ++ precOut p ++ (b!"%!" ++ [c] ++ b!"(MISSING)"), rest) := by
    simp only [directive, h1, h2, h3, hprec, argNumber_other c rest c3]
    simp [c4]
  rw [this]
  simp

theorem argNumber_index (inside rest : Bytes) (hi : 93 ∉ inside) (hr : rest ≠ []) : ∃ ok, argNumber (91 :: (inside ++ 93 :: rest)) = (ok, true, rest) := by
  have hl : ¬ (inside ++ 93 :: rest).length < 2 := by
    have := List.length_pos_iff.2 hr
    simp
    omega
  have hd : (inside ++ 93 :: rest).dropWhile (fun x => !decide (x = 93)) = 93 :: rest := by
    rw [List.dropWhile_append_of_pos (by intro x hx; have : x ≠ 93 := by rintro rfl; exact hi hx
                                         simp [this])]
    rfl
  simp only [argNumber, if_neg hl, if_pos (show (93 : UInt8) ∈ inside ++ 93 :: rest by simp)]
  exact ⟨_, by simp [hd]; rfl⟩

/-- **C98** With an index in brackets before the letter, whatever is in the brackets: the complaint is about the index. -/
theorem printf0_index (flags : Bytes) (hf : ∀ c ∈ flags, c ∈ b!"#0+- ") (w : Num) (hw : w.OK true) (p : Option Num) (hp : ∀ n, p = some n → n.OK false)
    (inside : Bytes) (hi : 93 ∉ inside) (c : UInt8) (hc : 65 ≤ c ∧ c ≤ 90 ∨ 97 ≤ c ∧ c ≤ 122) (rest : Bytes) :
    printf0 (b!"%" ++ flags ++ w.bytes ++ precBytes p ++ b!"[" ++ inside ++ b!"]" ++ [c] ++ rest) =
      widthOut w ++ precOut p ++ b!"%!" ++ [c] ++ b!"(BADINDEX)" ++ printf0 rest := by
  obtain ⟨c1, c2, c3, _, c5⟩ := letter_facts c hc
  obtain ⟨ok, hok⟩ := argNumber_index inside (c :: rest) hi (by simp)
  have e0 : b!"%" ++ flags ++ w.bytes ++ precBytes p ++ b!"[" ++ inside ++ b!"]" ++ [c] ++ rest =
      37 :: (flags ++ (w.bytes ++ (precBytes p ++ 91 :: (inside ++ 93 :: (c :: rest))))) := by simp
  rw [e0, printf0_percent]
  have hE : Ends 91 := ⟨by decide, by decide, by decide⟩
  have : directive (flags ++ (w.bytes ++ (precBytes p ++ 91 :: (inside ++ 93 :: (c :: rest))))) =
      (widthOut w ++ precOut p ++ (b!"%!" ++ [c] ++ b!"(BADINDEX)"), rest) := by
    obtain ⟨x, xs, hx, hx1, hx2⟩ := precBytes_head p 91 (inside ++ 93 :: (c :: rest)) hE
    obtain ⟨h1, h2, h3⟩ := flags_width flags hf w hw x xs hx1
    rw [← hx] at h1 h2 h3
    by_cases hfirst : w = Num.none ∧ p = none
    · -- the index comes first
      obtain ⟨rfl, rfl⟩ := hfirst
      simp only [Num.bytes, precBytes, List.nil_append] at h1
      simp only [Num.bytes, precBytes, List.nil_append, directive, h1, hok, width_other _ _ _ c1.2.2, parsenum, c1.2.1, precision_other _ _ _ c2,
        argNumber_other c rest c3]
      cases ok <;> simp [c5, widthOut, precOut, precision_other _ _ _ c2, argNumber_other c rest c3]
    · have h2 := h2 (by rintro rfl rfl; exact hfirst ⟨rfl, (hx2 rfl).1⟩)
      by_cases hdot : p = some Num.none
      · -- the index comes after the point
        subst hdot
        have hprec : precision false (precBytes (some Num.none) ++ 91 :: (inside ++ 93 :: (c :: rest))) = ([], ok, false, c :: rest) := by
          simp only [precBytes, Num.bytes, List.append_nil, List.cons_append, List.nil_append, precision, hok]
          split
          · next e => injection e with e _; exact absurd e c1.2.2
          · simp [parsenum, c1.2.1]
        simp only [directive, h1, h2, h3, hprec]
        cases ok <;> simp [argNumber_other c rest c3, c5, precOut]
      · have hprec := precision_written p hp 91 (inside ++ 93 :: (c :: rest)) hE (by decide) (fun h => absurd h hdot)
        simp only [directive, h1, h2, h3, hprec, hok]
        simp [hok, c5]
  rw [this]
  simp

example : printf0 b!"a%-08.3d%*.*fz" = b!"a%!d(MISSING)%!(BADWIDTH)%!(BADPREC)%!f(MISSING)z" := by decide +kernel

example : printf0 (b!"%" ++ b!"-0" ++ (Num.digits b!"8").bytes ++ (b!"." ++ (Num.digits b!"3").bytes) ++ [100] ++ b!"z") =
    b!"%!" ++ [100] ++ b!"(MISSING)" ++ printf0 b!"z" :=
  printf0_directive b!"-0" (by decide) (.digits b!"8") ⟨by decide, by decide, by decide, by decide⟩ (some (.digits b!"3"))
    (by intro n h; cases h; exact ⟨by decide, by decide, by decide, by decide⟩) 100 (by decide) b!"z"

example : printf0 b!"%[1]dx%-5.[!]d" = b!"%!d(BADINDEX)x%!d(BADINDEX)" := by decide +kernel

example : printf0 (b!"%" ++ [] ++ (Num.star).bytes ++ precBytes none ++ b!"[" ++ b!"3" ++ b!"]" ++ [100] ++ b!"z") =
    b!"%!(BADWIDTH)" ++ [] ++ b!"%!" ++ [100] ++ b!"(BADINDEX)" ++ printf0 b!"z" :=
  printf0_index [] (by simp) .star trivial none (by intro n h; cases h) b!"3" (by decide) 100 (by decide) b!"z"

/-! ## When nothing changes -/

/-- What is left is what stands after something without percent sign, or nothing is left. -/
def Skips (s r : Bytes) : Prop := r = [] ∨ ∃ f, s = f ++ r ∧ 37 ∉ f ∧ 91 ∉ f

theorem Skips.refl (s : Bytes) : Skips s s := Or.inr ⟨[], rfl, by simp, by simp⟩

theorem Skips.trans {s r t : Bytes} (h1 : Skips s r) (h2 : Skips r t) : Skips s t := by
  rcases h2 with rfl | ⟨g, rfl, hg, hg'⟩
  · exact Or.inl rfl
  · rcases h1 with h | ⟨f, rfl, hf, hf'⟩
    · simp only [List.append_eq_nil_iff] at h
      exact Or.inl h.2
    · exact Or.inr ⟨f ++ g, by simp, by simp [hf, hg], by simp [hf', hg']⟩

theorem skips_parsenum (num : Nat) (b : Bool) (s : Bytes) : Skips s (parsenum num b s).2 := by
  induction s generalizing num b with
  | nil => exact Or.inl rfl
  | cons c cs ih =>
    simp only [parsenum]
    split
    · next hd =>
      split
      · exact Or.inl rfl
      · have h : Skips (c :: cs) cs := Or.inr ⟨[c], rfl, by
          simp only [List.mem_cons, List.not_mem_nil, or_false]; rintro rfl; exact absurd hd (by decide), by
          simp only [List.mem_cons, List.not_mem_nil, or_false]; rintro rfl; exact absurd hd (by decide)⟩
        exact h.trans (ih _ _)
    · exact Skips.refl _

theorem skips_flags (s : Bytes) : Skips s (s.dropWhile isFlag) := by
  induction s with
  | nil => exact Or.inl rfl
  | cons c cs ih =>
    simp only [List.dropWhile_cons]
    split
    · next hd =>
      have h : Skips (c :: cs) cs := Or.inr ⟨[c], rfl, by
          simp only [List.mem_cons, List.not_mem_nil, or_false]; rintro rfl; exact absurd hd (by decide), by
          simp only [List.mem_cons, List.not_mem_nil, or_false]; rintro rfl; exact absurd hd (by decide)⟩
      exact h.trans ih
    · exact Skips.refl _

theorem argNumber_none (s : Bytes) (h : 91 ∉ s) : argNumber s = (false, false, s) := by
  cases s with
  | nil => rfl
  | cons c cs => exact argNumber_other c cs (by rintro rfl; simp at h)

theorem Skips.mem {s r : Bytes} (h : Skips s r) (hs : 91 ∉ s) : 91 ∉ r := by
  rcases h with rfl | ⟨f, rfl, _⟩
  · simp
  · simp at hs; exact hs.2

theorem skips_width (a : Bool) (s : Bytes) : Skips s (width a s).2.2.2 ∧ ((width a s).1 = [] ∨ ∃ o, (width a s).1 = 37 :: 33 :: o) := by
  unfold width
  split
  · exact ⟨Or.inr ⟨[42], rfl, by decide, by decide⟩, Or.inr ⟨_, rfl⟩⟩
  · exact ⟨skips_parsenum _ _ _, Or.inl rfl⟩

theorem skips_precision (a : Bool) (s : Bytes) (hs : 91 ∉ s) : Skips s (precision a s).2.2.2 ∧ ((precision a s).1 = [] ∨ ∃ o, (precision a s).1 = 37 :: 33 :: o) := by
  unfold precision
  split
  · next s =>
    have h91 : 91 ∉ s := by simp at hs; exact hs
    have h1 : Skips (46 :: s) s := Or.inr ⟨[46], rfl, by decide, by decide⟩
    simp only [argNumber_none s h91]
    split
    · exact ⟨h1.trans (Or.inr ⟨[42], rfl, by decide, by decide⟩), Or.inr ⟨_, rfl⟩⟩
    · exact ⟨h1.trans (skips_parsenum _ _ _), Or.inl rfl⟩
  · exact ⟨Skips.refl _, Or.inl rfl⟩

/-- A directive comes out as one percent sign or starts with `%!`. -/
theorem directive_cases (u : Bytes) (hu : 91 ∉ u) : (∃ o, (directive u).1 = 37 :: 33 :: o) ∨
    ((directive u).1 = [37] ∧ ∃ f v, u = f ++ 37 :: v ∧ 37 ∉ f ∧ (directive u).2 = v) := by
  have h1 := skips_flags u
  have h2 := h1.mem hu
  have e0 := argNumber_none _ h2
  obtain ⟨h3, g3⟩ := skips_width false (u.dropWhile isFlag)
  have h4 := h3.mem h2
  simp only [directive, e0]
  generalize width false (u.dropWhile isFlag) = w at h3 g3 h4 ⊢
  obtain ⟨h5, g5⟩ := skips_precision w.2.1 w.2.2.2 h4
  have h6 := h5.mem h4
  generalize precision w.2.1 w.2.2.2 = p at h5 g5 h6 ⊢
  rcases g3 with g3 | ⟨o, g3⟩
  case inr => rw [g3]; exact Or.inl ⟨_, rfl⟩
  rcases g5 with g5 | ⟨o, g5⟩
  case inr => rw [g3, g5]; exact Or.inl ⟨_, rfl⟩
  rw [g3, g5]
  simp only [List.nil_append]
  have e7 : (if p.2.1 then (true, false, p.2.2.2) else argNumber p.2.2.2).2.2 = p.2.2.2 := by
    split
    · rfl
    · rw [argNumber_none _ h6]
  rw [e7]
  generalize (!(false, false, u.dropWhile isFlag).2.1 && w.2.2.1 && p.2.2.1 && !(if p.2.1 then (true, false, p.2.2.2) else argNumber p.2.2.2).2.1) = good
  have hsk : Skips u p.2.2.2 := (h1.trans h3).trans h5
  generalize p.2.2.2 = r at hsk
  cases r with
  | nil => exact Or.inl ⟨_, rfl⟩
  | cons c cs =>
    simp only [verb]
    by_cases hc : c = 37
    · subst hc
      refine Or.inr ⟨by simp, ?_⟩
      rcases hsk with h | ⟨f, h, hf, _⟩
      · cases h
      · exact ⟨f, cs, h, hf, by simp [decodeRune]⟩
    · rw [if_neg hc]
      split <;> exact Or.inl ⟨_, rfl⟩

/-- `%!` stands in the text at `a`. -/
def Bang (s : Bytes) (a : Nat) : Prop := ∃ x y, s = x ++ 37 :: 33 :: y ∧ x.length = a

theorem directive_bang (u : Bytes) : directive (33 :: u) = (b!"%!!(MISSING)", u) := by
  rw [directive_verb 33 u (by decide) (by decide) (by decide) (by decide) (by decide)]
  simp only [verb, decodeRune_ascii 33 u (by decide)]
  rfl

/-- A `%!` in the format has one in what is printed, not later. -/
theorem bang_printf0 : ∀ (n : Nat) (s : Bytes), s.length ≤ n → 91 ∉ s → ∀ a, Bang s a → ∃ b ≤ a, Bang (printf0 s) b := by
  intro n
  induction n with
  | zero =>
    rintro s hs _ a ⟨x, y, rfl, _⟩
    simp at hs
  | succ n ih =>
    intro s hs h91 a hb
    cases s with
    | nil => obtain ⟨x, y, e, _⟩ := hb; simp at e
    | cons c cs =>
      have h91' : 91 ∉ cs := fun h => h91 (List.mem_cons_of_mem _ h)
      by_cases hc : c = 37
      · subst hc
        rw [printf0_percent]
        rcases directive_cases cs h91' with ⟨o, ho⟩ | ⟨ho, f, v, rfl, hf, hv⟩
        · exact ⟨0, Nat.zero_le _, [], _, by rw [ho]; rfl, rfl⟩
        · rw [ho, hv]
          obtain ⟨x, y, e, hx⟩ := hb
          cases x with
          | nil =>
            simp only [List.nil_append, List.cons.injEq, true_and] at e
            rw [e, directive_bang] at ho
            simp at ho
          | cons x0 x =>
            simp only [List.cons_append, List.cons.injEq] at e
            -- the percent sign of `%!` is not in `f`
            have hpos : ∃ z, x = f ++ z ∧ 37 :: v = z ++ 37 :: 33 :: y := by
              rcases List.append_eq_append_iff.1 e.2 with ⟨z, h1, h2⟩ | ⟨z, h1, h2⟩
              · exact ⟨z, h1, h2⟩
              · cases z with
                | nil => exact ⟨[], by simpa using h1.symm, by simpa using h2.symm⟩
                | cons z0 z =>
                  simp only [List.cons_append, List.cons.injEq] at h2
                  exact absurd (by rw [h1, ← h2.1]; simp) hf
            obtain ⟨z, rfl, hz⟩ := hpos
            cases z with
            | nil =>
              simp only [List.nil_append, List.cons.injEq, true_and] at hz
              refine ⟨0, Nat.zero_le _, [], printf0 y, ?_, rfl⟩
              rw [hz, printf0_cons _ _ (by decide)]
              rfl
            | cons z0 z =>
              simp only [List.cons_append, List.cons.injEq] at hz
              obtain ⟨b, hb1, x', y', hb2, hb3⟩ := ih v (by simp at hs; omega) (by simp at h91'; exact h91'.2) z.length ⟨z, y, hz.2, rfl⟩
              refine ⟨b + 1, ?_, 37 :: x', y', ?_, by simp [hb3]⟩
              · simp at hx; omega
              · rw [hb2]; rfl
      · rw [printf0_cons _ _ hc]
        obtain ⟨x, y, e, hx⟩ := hb
        cases x with
        | nil => simp only [List.nil_append, List.cons.injEq] at e; exact absurd e.1 hc
        | cons x0 x =>
          simp only [List.cons_append, List.cons.injEq] at e
          obtain ⟨b, hb1, x', y', hb2, hb3⟩ := ih cs (by simp at hs; omega) h91' x.length ⟨x, y, e.2, rfl⟩
          refine ⟨b + 1, ?_, c :: x', y', ?_, by simp [hb3]⟩
          · simp at hx; omega
          · rw [hb2]; rfl

/-- If no `%!` is printed, no more is printed than the format has. -/
theorem length_printf0 : ∀ (n : Nat) (s : Bytes), s.length ≤ n → 91 ∉ s → (∀ a, ¬ Bang (printf0 s) a) → (printf0 s).length ≤ s.length := by
  intro n
  induction n with
  | zero =>
    intro s hs _ _
    obtain rfl : s = [] := List.length_eq_zero_iff.1 (by omega)
    exact Nat.le_refl _
  | succ n ih =>
    intro s hs h91 hno
    cases s with
    | nil => exact Nat.le_refl _
    | cons c cs =>
      have h91' : 91 ∉ cs := fun h => h91 (List.mem_cons_of_mem _ h)
      by_cases hc : c = 37
      · subst hc
        rw [printf0_percent] at hno ⊢
        rcases directive_cases cs h91' with ⟨o, ho⟩ | ⟨ho, f, v, rfl, hf, hv⟩
        · exact absurd ⟨[], _, by rw [ho]; rfl, rfl⟩ (hno 0)
        · rw [ho, hv] at hno ⊢
          have := ih v (by simp at hs; omega) (by simp at h91'; exact h91'.2) (by
            rintro a ⟨x, y, e, hx⟩
            exact hno (a + 1) ⟨37 :: x, y, by rw [e]; rfl, by simp [hx]⟩)
          simp
          omega
      · rw [printf0_cons _ _ hc] at hno ⊢
        have := ih cs (by simp at hs; omega) h91' (by
          rintro a ⟨x, y, e, hx⟩
          exact hno (a + 1) ⟨c :: x, y, by rw [e]; rfl, by simp [hx]⟩)
        simp
        omega

theorem no_descent : ∀ (n : Nat) (r : Bytes), r.length ≤ n → r ≠ b!"!(MISSING)" ++ printf0 r := by
  intro n
  induction n with
  | zero =>
    intro r hr e
    have := congrArg List.length e
    simp at this
    omega
  | succ n ih =>
    intro r hr e
    refine ih (printf0 r) ?_ ?_
    · have := congrArg List.length e
      simp at this
      omega
    · have h := printf0_append b!"!(MISSING)" (printf0 r) (by decide)
      rw [← e] at h
      exact h

theorem first_percent (s : Bytes) (h : 37 ∈ s) : ∃ pre u, s = pre ++ 37 :: u ∧ 37 ∉ pre := by
  induction s with
  | nil => simp at h
  | cons c cs ih =>
    by_cases hc : c = 37
    · exact ⟨[], cs, by simp [hc], by simp⟩
    · obtain ⟨p, u, rfl, hp⟩ := ih (by rcases List.mem_cons.1 h with h | h; exact absurd h.symm hc; exact h)
      exact ⟨c :: p, u, rfl, by simp [hp, Ne.symm hc]⟩

/-- **C98** Without brackets in the format: it is printed unchanged exactly if it has no percent sign. -/
theorem printf0_unchanged (s : Bytes) (h91 : 91 ∉ s) : printf0 s = s ↔ 37 ∉ s := by
  constructor
  · intro h hm
    obtain ⟨pre, u, rfl, hpre⟩ := first_percent s hm
    have h91u : 91 ∉ u := by simp at h91; exact h91.2
    have h' := h
    rw [printf0_append _ _ hpre, printf0_percent] at h
    have h := List.append_cancel_left h
    rcases directive_cases u h91u with ⟨o, ho⟩ | ⟨ho, f, v, rfl, hf, hv⟩
    · rw [ho] at h
      simp only [List.cons_append, List.cons.injEq, true_and] at h
      obtain ⟨u', rfl⟩ : ∃ u', u = 33 :: u' := ⟨_, h.symm⟩
      rw [directive_bang] at ho h
      have ho' : o = b!"!(MISSING)" := by simpa using ho.symm
      subst ho'
      simp only [List.cons.injEq, true_and] at h
      exact no_descent _ u' (Nat.le_refl _) h.symm
    · rw [ho, hv] at h
      simp only [List.cons_append, List.nil_append, List.cons.injEq, true_and] at h
      have h91v : 91 ∉ v := by simp at h91u; exact h91u.2
      by_cases hb : ∃ a, Bang (pre ++ 37 :: (f ++ 37 :: v)) a
      · -- the first `%!`
        obtain ⟨a, ha, hmin⟩ : ∃ a, Bang (pre ++ 37 :: (f ++ 37 :: v)) a ∧ ∀ b < a, ¬ Bang (pre ++ 37 :: (f ++ 37 :: v)) b := by
          obtain ⟨a, ha⟩ := hb
          induction a using Nat.strongRecOn with
          | ind a ih =>
            by_cases hx : ∃ b < a, Bang (pre ++ 37 :: (f ++ 37 :: v)) b
            · obtain ⟨b, hb1, hb2⟩ := hx
              exact ih b hb1 hb2
            · exact ⟨a, ha, fun b hb hb2 => hx ⟨b, hb, hb2⟩⟩
        obtain ⟨x, y, e, hx⟩ := ha
        -- it is at or after the verb
        have hpos : ∃ z, x = pre ++ 37 :: (f ++ z) ∧ 37 :: v = z ++ 37 :: 33 :: y := by
          have c1 : ∀ (p q x : Bytes), 37 ∉ p → p ++ 37 :: q = x ++ 37 :: 33 :: y → ∃ z, x = p ++ z ∧ 37 :: q = z ++ 37 :: 33 :: y := by
            intro p q x hp e
            rcases List.append_eq_append_iff.1 e with ⟨z, h1, h2⟩ | ⟨z, h1, h2⟩
            · exact ⟨z, h1, h2⟩
            · cases z with
              | nil => exact ⟨[], by simpa using h1.symm, by simpa using h2.symm⟩
              | cons z0 z =>
                simp only [List.cons_append, List.cons.injEq] at h2
                exact absurd (by rw [h1, ← h2.1]; simp) hp
          obtain ⟨z, rfl, h1⟩ := c1 pre (f ++ 37 :: v) x hpre e
          cases z with
          | nil =>
            simp only [List.nil_append, List.cons.injEq, true_and] at h1
            rw [h1, directive_bang] at ho
            simp at ho
          | cons z0 z =>
            simp only [List.cons_append, List.cons.injEq] at h1
            obtain ⟨z', rfl, h2⟩ := c1 f v z hf h1.2
            exact ⟨z', by rw [← h1.1], h2⟩
        obtain ⟨z, rfl, hz⟩ := hpos
        have key : ∃ b, b < a ∧ Bang (printf0 (pre ++ 37 :: (f ++ 37 :: v))) b := by
          rw [printf0_append _ _ hpre, printf0_percent, ho, hv]
          cases z with
          | nil =>
            simp only [List.nil_append, List.cons.injEq, true_and] at hz
            refine ⟨pre.length, by simp at hx; omega, pre, printf0 y, ?_, rfl⟩
            rw [hz, printf0_cons _ _ (by decide)]
            simp
          | cons z0 z =>
            simp only [List.cons_append, List.cons.injEq] at hz
            obtain ⟨b, hb1, x', y', hb2, hb3⟩ := bang_printf0 _ v (Nat.le_refl _) h91v z.length ⟨z, y, hz.2, rfl⟩
            refine ⟨pre.length + 1 + b, by simp at hx; omega, pre ++ 37 :: x', y', ?_, by simp [hb3]; omega⟩
            rw [hb2]
            simp
        obtain ⟨b, hb1, hb2⟩ := key
        rw [h'] at hb2
        exact hmin b hb1 hb2
      · have hl := length_printf0 _ v (Nat.le_refl _) h91v (by
          rintro a ⟨x, y, e, hx⟩
          refine hb ⟨pre.length + 1 + a, ?_⟩
          rw [← h, e]
          exact ⟨pre ++ 37 :: x, y, by simp, by simp [hx]; omega⟩)
        have := congrArg List.length h
        simp at this
        omega
  · exact plain s

end Printf0
end Go
