import Verif.Go.ParseInt
import Verif.Flag.Props

/-! # C82: the values of integer options -/

namespace Go.ParseInt
open Go

/-! ## Specification -/

/-- The value of one digit: `0`-`9`, and `a`-`z` or `A`-`Z` for 10 to 35. -/
def digitValue (c : UInt8) : Option Nat :=
  if 48 ≤ c.toNat ∧ c.toNat ≤ 57 then some (c.toNat - 48)
  else if 97 ≤ c.toNat ∧ c.toNat ≤ 122 then some (c.toNat - 87)
  else if 65 ≤ c.toNat ∧ c.toNat ≤ 90 then some (c.toNat - 55)
  else none

/-- The texts that are numbers of a base, with their values. -/
inductive IsNat (base : Nat) : Bytes → Nat → Prop where
  | nil : IsNat base [] 0
  | snoc {ds n c d} : IsNat base ds n → digitValue c = some d → d < base → IsNat base (ds ++ [c]) (n * base + d)

/-- The unsigned numbers of base argument 0: decimal, octal after `0`, hexadecimal after `0x`, and for
recent versions binary after `0b` and octal after `0o`. -/
inductive Magnitude (modern : Bool) : Bytes → Nat → Prop where
  | dec {c ds n} : c ≠ 48 → IsNat 10 (c :: ds) n → Magnitude modern (c :: ds) n
  | oct {ds n} : IsNat 8 ds n → Magnitude modern (48 :: ds) n
  | hex {x ds n} : (x = 120 ∨ x = 88) → ds ≠ [] → IsNat 16 ds n → Magnitude modern (48 :: x :: ds) n
  | bin {x ds n} : modern = true → (x = 98 ∨ x = 66) → ds ≠ [] → IsNat 2 ds n → Magnitude modern (48 :: x :: ds) n
  | oct' {x ds n} : modern = true → (x = 111 ∨ x = 79) → ds ≠ [] → IsNat 8 ds n → Magnitude modern (48 :: x :: ds) n

/-- Digits that may follow an underscore: letters only in numbers that begin with `0x`. -/
def MayFollow (t : Bytes) (c : UInt8) : Prop :=
  (48 ≤ c.toNat ∧ c.toNat ≤ 57) ∨
    (t.head? = some 48 ∧ (t.tail.head? = some 120 ∨ t.tail.head? = some 88) ∧
      ((97 ≤ c.toNat ∧ c.toNat ≤ 102) ∨ (65 ≤ c.toNat ∧ c.toNat ≤ 70)))

/-- Every underscore has a digit after it and, before it, something that is no underscore: a digit or the prefix. -/
def Placed (t : Bytes) : Prop :=
  ∀ a b, t = a ++ 95 :: b → (∃ x, a.getLast? = some x ∧ x ≠ 95) ∧ ∃ c, b.head? = some c ∧ MayFollow t c

/-- The unsigned numbers with underscores, which only recent versions know: they do not count. -/
def Written (modern : Bool) (t : Bytes) (n : Nat) : Prop :=
  Magnitude modern (t.filter (· ≠ 95)) n ∧ (95 ∈ t → modern = true ∧ Placed t)

/-- The signed numbers. -/
inductive Signed (modern : Bool) : Bytes → Int → Prop where
  | none {t n} : Written modern t n → Signed modern t n
  | plus {t n} : Written modern t n → Signed modern (43 :: t) n
  | minus {t n} : Written modern t n → Signed modern (45 :: t) (-(n : Int))

/-! ## Proofs -/

theorem all_bytes {P : UInt8 → Prop} (h : ∀ n < 256, P (UInt8.ofNat n)) (c : UInt8) : P c := by
  have := h c.toNat c.toNat_lt
  rwa [UInt8.ofNat_toNat] at this

theorem digitOf_eq (c : UInt8) : digitOf c = digitValue c := by
  revert c
  refine all_bytes ?_
  decide +kernel

theorem lower_iff (c : UInt8) : (lower c = 98 ↔ c = 98 ∨ c = 66) ∧ (lower c = 111 ↔ c = 111 ∨ c = 79) ∧ (lower c = 120 ↔ c = 120 ∨ c = 88) := by
  revert c
  refine all_bytes ?_
  decide +kernel

/-- Going on with a number. -/
inductive Extends (base : Nat) : Nat → Bytes → Nat → Prop where
  | nil {n} : Extends base n [] n
  | cons {n c d ds m} : digitValue c = some d → d < base → Extends base (n * base + d) ds m → Extends base n (c :: ds) m

theorem Extends.snoc {base n ds m c d} (h : Extends base n ds m) (hc : digitValue c = some d) (hd : d < base) :
    Extends base n (ds ++ [c]) (m * base + d) := by
  induction h with
  | nil => exact .cons hc hd .nil
  | cons h1 h2 _ ih => exact .cons h1 h2 ih

theorem IsNat.extends {base ds n m w} (h : IsNat base ds n) (h2 : Extends base n w m) : IsNat base (ds ++ w) m := by
  induction h2 generalizing ds with
  | nil => simpa using h
  | cons h1 h2 _ ih => have := ih (.snoc h h1 h2); simpa using this

theorem isNat_iff_extends {base ds n} : IsNat base ds n ↔ Extends base 0 ds n := by
  constructor
  · intro h
    induction h with
    | nil => exact .nil
    | snoc _ h1 h2 ih => exact ih.snoc h1 h2
  · intro h
    simpa using IsNat.nil.extends h

theorem extends_le {base n ds m} (hb : 0 < base) (h : Extends base n ds m) : n ≤ m := by
  induction h with
  | nil => exact Nat.le_refl _
  | @cons n c d ds m _ _ _ ih =>
    have : n ≤ n * base := Nat.le_mul_of_pos_right _ hb
    omega

theorem loop_iff (modern : Bool) (base : Nat) (hb : 0 < base) : ∀ (ds : Bytes) (n m : Nat), 95 ∉ ds →
    (n < 2 ^ 64) → (loop modern base n ds = some m ↔ Extends base n ds m ∧ m < 2 ^ 64) := by
  intro ds
  induction ds with
  | nil =>
    intro n m _ hn
    simp only [loop]
    constructor
    · intro h; cases h; exact ⟨.nil, hn⟩
    · rintro ⟨h, _⟩; cases h; rfl
  | cons c cs ih =>
    intro n m hu hn
    have hc : ¬ (modern = true ∧ c = 95) := by rintro ⟨_, e⟩; exact hu (by simp [e])
    have hcs : 95 ∉ cs := fun h => hu (by simp [h])
    simp only [loop]
    rw [if_neg hc, digitOf_eq]
    cases hd : digitValue c with
    | none =>
      simp only []
      constructor
      · intro h; cases h
      · rintro ⟨h, _⟩
        cases h with
        | cons h1 _ _ => rw [hd] at h1; cases h1
    | some d =>
      simp only []
      by_cases h1 : d ≥ base
      · rw [if_pos h1]
        constructor
        · intro h; cases h
        · rintro ⟨h, _⟩
          cases h with
          | cons h2 h3 _ => rw [hd] at h2; cases h2; omega
      · rw [if_neg h1]
        by_cases h2 : n * base + d ≥ 2 ^ 64
        · rw [if_pos h2]
          constructor
          · intro h; cases h
          · rintro ⟨h, hm⟩
            cases h with
            | cons h3 _ h4 => rw [hd] at h3; cases h3; have := extends_le hb h4; omega
        · rw [if_neg h2, ih _ _ hcs (by omega)]
          constructor
          · rintro ⟨h, hm⟩; exact ⟨.cons hd (by omega) h, hm⟩
          · rintro ⟨h, hm⟩
            cases h with
            | cons h3 _ h4 => rw [hd] at h3; cases h3; exact ⟨h4, hm⟩

theorem loop_nat (modern : Bool) {base : Nat} (hb : 0 < base) {ds : Bytes} {m : Nat} (hu : 95 ∉ ds) :
    loop modern base 0 ds = some m ↔ IsNat base ds m ∧ m < 2 ^ 64 := by
  rw [loop_iff modern base hb ds 0 m hu (by omega), isNat_iff_extends]

theorem octal_head {x : UInt8} {ds : Bytes} {n : Nat} (h : IsNat 8 (x :: ds) n) : ∃ d, digitValue x = some d ∧ d < 8 := by
  rw [isNat_iff_extends] at h
  cases h with
  | cons h1 h2 _ => exact ⟨_, h1, h2⟩

theorem parseUint0_iff (modern : Bool) (s : Bytes) (m : Nat) (hu : 95 ∉ s) :
    parseUint0 modern s = some m ↔ Magnitude modern s m ∧ m < 2 ^ 64 := by
  have body : ∀ base ds, split modern s = some (base, ds) → 0 < base → 95 ∉ ds →
      (parseUint0 modern s = some m ↔ IsNat base ds m ∧ m < 2 ^ 64) := by
    intro base ds hs hb hd
    simp only [parseUint0, hs]
    rw [← loop_nat modern hb hd]
    cases loop modern base 0 ds with
    | none => simp
    | some n => simp [hd]
  cases s with
  | nil =>
    simp only [parseUint0, split]
    constructor
    · intro h; cases h
    · rintro ⟨h, _⟩; cases h
  | cons c0 rest =>
    by_cases h0 : c0 = 48
    · subst h0
      cases rest with
      | nil =>
        rw [body 8 [] rfl (by omega) (by simp)]
        constructor
        · rintro ⟨h, hm⟩; exact ⟨.oct h, hm⟩
        · rintro ⟨h, hm⟩
          cases h with
          | dec h1 _ => exact absurd rfl h1
          | oct h1 => exact ⟨h1, hm⟩
      | cons c cs =>
        have hcs : 95 ∉ cs := fun h => hu (by simp [h])
        have hccs : 95 ∉ c :: cs := fun h => hu (List.mem_cons_of_mem _ h)
        obtain ⟨l1, l2, l3⟩ := lower_iff c
        have noOct : (c = 98 ∨ c = 66) ∨ (c = 111 ∨ c = 79) ∨ (c = 120 ∨ c = 88) → ∀ n, ¬ IsNat 8 (c :: cs) n := by
          intro hc n h
          obtain ⟨d, h1, h2⟩ := octal_head h
          have key : ∀ x ∈ [98, 66, 111, 79, 120, 88], digitValue x = some d → ¬ d < 8 := by
            intro x hx he
            simp only [List.mem_cons, List.not_mem_nil, or_false] at hx
            rcases hx with rfl | rfl | rfl | rfl | rfl | rfl <;> (simp [digitValue] at he; omega)
          exact key c (by simp; grind) h1 h2
        by_cases hb : modern = true ∧ cs ≠ [] ∧ (c = 98 ∨ c = 66)
        · obtain ⟨hm1, hne, hc⟩ := hb
          rw [body 2 cs (by simp [split, hm1, hne, l1.2 hc]) (by omega) hcs]
          constructor
          · rintro ⟨h, hm⟩; exact ⟨.bin hm1 hc hne h, hm⟩
          · rintro ⟨h, hm⟩
            cases h with
            | dec h1 _ => exact absurd rfl h1
            | oct h1 => exact absurd h1 (noOct (.inl hc) _)
            | hex h1 _ _ => exfalso; rcases hc with rfl | rfl <;> simp at h1
            | bin _ _ _ h1 => exact ⟨h1, hm⟩
            | oct' _ h1 _ _ => exfalso; rcases hc with rfl | rfl <;> simp at h1
        · by_cases ho : modern = true ∧ cs ≠ [] ∧ (c = 111 ∨ c = 79)
          · obtain ⟨hm1, hne, hc⟩ := ho
            have nb : ¬ lower c = 98 := by rw [l1]; rcases hc with rfl | rfl <;> decide
            rw [body 8 cs (by simp [split, hm1, hne, l2.2 hc]) (by omega) hcs]
            constructor
            · rintro ⟨h, hm⟩; exact ⟨.oct' hm1 hc hne h, hm⟩
            · rintro ⟨h, hm⟩
              cases h with
              | dec h1 _ => exact absurd rfl h1
              | oct h1 => exact absurd h1 (noOct (.inr (.inl hc)) _)
              | hex h1 _ _ => exfalso; rcases hc with rfl | rfl <;> simp at h1
              | bin _ h1 _ _ => exfalso; rcases hc with rfl | rfl <;> simp at h1
              | oct' _ _ _ h1 => exact ⟨h1, hm⟩
          · by_cases hx : c = 120 ∨ c = 88
            · by_cases hne : cs = []
              · subst hne
                constructor
                · intro h
                  exfalso
                  cases hmod : modern with
                  | false => subst hmod; simp [parseUint0, split, hx] at h
                  | true =>
                    have := (body 8 [c] (by simp [split, hmod]) (by omega) hccs).1 h
                    exact noOct (.inr (.inr hx)) _ this.1
                · rintro ⟨h, hm⟩
                  exfalso
                  cases h with
                  | dec h1 _ => exact absurd rfl h1
                  | oct h1 => exact noOct (.inr (.inr hx)) _ h1
                  | hex _ h1 _ => exact h1 rfl
                  | bin _ _ h1 _ => exact h1 rfl
                  | oct' _ _ h1 _ => exact h1 rfl
              · have nb : ¬ lower c = 98 := by rw [l1]; rcases hx with rfl | rfl <;> decide
                have no : ¬ lower c = 111 := by rw [l2]; rcases hx with rfl | rfl <;> decide
                have hs : split modern (48 :: c :: cs) = some (16, cs) := by
                  cases hmod : modern <;> simp [split, hne, nb, no, l3.2 hx, hx]
                rw [body 16 cs hs (by omega) hcs]
                constructor
                · rintro ⟨h, hm⟩; exact ⟨.hex hx hne h, hm⟩
                · rintro ⟨h, hm⟩
                  cases h with
                  | dec h1 _ => exact absurd rfl h1
                  | oct h1 => exact absurd h1 (noOct (.inr (.inr hx)) _)
                  | hex _ _ h1 => exact ⟨h1, hm⟩
                  | bin _ h1 _ _ => exfalso; rcases hx with rfl | rfl <;> simp at h1
                  | oct' _ h1 _ _ => exfalso; rcases hx with rfl | rfl <;> simp at h1
            · have hs : split modern (48 :: c :: cs) = some (8, c :: cs) := by
                cases hmod : modern with
                | false => simp [split, hx]
                | true =>
                  have e1 : ¬ (cs ≠ [] ∧ lower c = 98) := fun h => hb ⟨hmod, h.1, l1.1 h.2⟩
                  have e2 : ¬ (cs ≠ [] ∧ lower c = 111) := fun h => ho ⟨hmod, h.1, l2.1 h.2⟩
                  have e3 : ¬ (cs ≠ [] ∧ lower c = 120) := fun h => hx (l3.1 h.2)
                  simp only [split, if_neg e1, if_neg e2, if_neg e3]
                  simp
              rw [body 8 _ hs (by omega) hccs]
              constructor
              · rintro ⟨h, hm⟩; exact ⟨.oct h, hm⟩
              · rintro ⟨h, hm⟩
                cases h with
                | dec h1 _ => exact absurd rfl h1
                | oct h1 => exact ⟨h1, hm⟩
                | hex h1 _ _ => exact absurd h1 hx
                | bin h1 h2 h3 _ => exact absurd ⟨h1, h3, h2⟩ hb
                | oct' h1 h2 h3 _ => exact absurd ⟨h1, h3, h2⟩ ho
    · rw [body 10 (c0 :: rest) (by simp [split, h0]) (by omega) hu]
      constructor
      · rintro ⟨h, hm⟩; exact ⟨.dec h0 h, hm⟩
      · rintro ⟨h, hm⟩
        cases h with
        | dec _ h1 => exact ⟨h1, hm⟩
        | oct _ => exact absurd rfl h0
        | hex _ _ _ => exact absurd rfl h0
        | bin _ _ _ _ => exact absurd rfl h0
        | oct' _ _ _ _ => exact absurd rfl h0

theorem magnitude_head {modern : Bool} {t : Bytes} {n : Nat} (h : Magnitude modern t n) : t.head? ≠ some 43 ∧ t.head? ≠ some 45 ∧ t ≠ [] := by
  cases h with
  | dec h1 h2 =>
    rw [isNat_iff_extends] at h2
    cases h2 with
    | cons h3 _ _ => refine ⟨?_, ?_, by simp⟩ <;> (intro e; simp at e; subst e; simp [digitValue] at h3)
  | _ => simp

/-! ### Underscores -/

/-- The text without its underscores. -/
def strip (t : Bytes) : Bytes := t.filter (· ≠ 95)

theorem strip_cons_ne {c : UInt8} (h : c ≠ 95) (t : Bytes) : strip (c :: t) = c :: strip t := by simp [strip, h]

theorem strip_cons_us (t : Bytes) : strip (95 :: t) = strip t := by simp [strip]

theorem strip_id {t : Bytes} (h : 95 ∉ t) : strip t = t := by
  unfold strip
  rw [List.filter_eq_self]
  intro a ha
  simp only [ne_eq, decide_not, Bool.not_eq_true', decide_eq_false_iff_not]
  rintro rfl
  exact h ha

theorem us_notMem_strip (t : Bytes) : 95 ∉ strip t := by simp [strip]

theorem mem_strip {t : Bytes} {x : UInt8} (h : x ∈ t) (hx : x ≠ 95) : x ∈ strip t := by simp [strip, h, hx]

theorem loop_strip (base : Nat) : ∀ (ds : Bytes) (n : Nat), loop true base n ds = loop true base n (strip ds) := by
  intro ds
  induction ds with
  | nil => intro n; rfl
  | cons c cs ih =>
    intro n
    by_cases hc : c = 95
    · subst hc
      rw [strip_cons_us, ← ih]
      simp [loop]
    · rw [strip_cons_ne hc]
      simp only [loop, hc, and_false, if_false, ih]

theorem loop_digits {modern : Bool} {base : Nat} : ∀ {ds : Bytes} {n m : Nat}, loop modern base n ds = some m →
    ∀ c ∈ ds, (modern = true ∧ c = 95) ∨ ∃ d, digitValue c = some d ∧ d < base := by
  intro ds
  induction ds with
  | nil => intro n m _ c hc; cases hc
  | cons x xs ih =>
    intro n m h c hc
    simp only [loop] at h
    by_cases hu : modern = true ∧ x = 95
    · rw [if_pos hu] at h
      rcases List.mem_cons.1 hc with rfl | hc
      · exact .inl hu
      · exact ih h c hc
    · rw [if_neg hu, digitOf_eq] at h
      cases hd : digitValue x with
      | none => rw [hd] at h; cases h
      | some d =>
        rw [hd] at h
        dsimp only at h
        by_cases h1 : d ≥ base
        · rw [if_pos h1] at h; cases h
        · rw [if_neg h1] at h
          by_cases h2 : n * base + d ≥ 2 ^ 64
          · rw [if_pos h2] at h; cases h
          · rw [if_neg h2] at h
            rcases List.mem_cons.1 hc with rfl | hc
            · exact .inr ⟨d, hd, by omega⟩
            · exact ih h c hc

/-- The digits of `underscoreOK`. -/
def Dig (hex : Bool) (c : UInt8) : Prop := (48 ≤ c ∧ c ≤ 57) ∨ (hex = true ∧ 97 ≤ lower c ∧ lower c ≤ 102)

theorem dig_us (hex : Bool) : ¬ Dig hex 95 := by cases hex <;> unfold Dig <;> decide

theorem underscoreLoop_iff (hex : Bool) : ∀ (cs : Bytes) (i : Nat), underscoreLoop hex i cs = true ↔
    (i = 1 → ∃ c, cs.head? = some c ∧ Dig hex c) ∧
    ∀ a b, cs = a ++ 95 :: b → (a = [] → i = 0) ∧ (∀ x, a.getLast? = some x → Dig hex x) ∧ ∃ c, b.head? = some c ∧ Dig hex c := by
  intro cs
  induction cs with
  | nil =>
    intro i
    simp [underscoreLoop]
  | cons c cs ih =>
    intro i
    have last : ∀ (a : Bytes) (x : UInt8), (c :: a).getLast? = some x ↔ (a = [] ∧ x = c) ∨ a.getLast? = some x := by
      intro a x
      cases a with
      | nil => simp [eq_comm]
      | cons y a => simp [List.getLast?_cons_cons]
    simp only [underscoreLoop]
    by_cases hd : Dig hex c
    · rw [if_pos (show (48 ≤ c ∧ c ≤ 57) ∨ (hex = true ∧ 97 ≤ lower c ∧ lower c ≤ 102) from hd), ih]
      constructor
      · rintro ⟨_, h2⟩
        refine ⟨fun _ => ⟨c, rfl, hd⟩, ?_⟩
        intro a b e
        cases a with
        | nil =>
          simp only [List.nil_append, List.cons.injEq] at e
          exact absurd (e.1 ▸ hd) (dig_us hex)
        | cons y a =>
          simp only [List.cons_append, List.cons.injEq] at e
          obtain ⟨rfl, e⟩ := e
          obtain ⟨_, q2, q3⟩ := h2 a b e
          refine ⟨by simp, ?_, q3⟩
          intro x hx
          rcases (last a x).1 hx with ⟨_, rfl⟩ | hx
          · exact hd
          · exact q2 x hx
      · rintro ⟨_, h2⟩
        refine ⟨by simp, ?_⟩
        intro a b e
        obtain ⟨_, q2, q3⟩ := h2 (c :: a) b (by rw [e]; rfl)
        exact ⟨fun _ => rfl, fun x hx => q2 x ((last a x).2 (.inr hx)), q3⟩
    · rw [if_neg (show ¬ ((48 ≤ c ∧ c ≤ 57) ∨ (hex = true ∧ 97 ≤ lower c ∧ lower c ≤ 102)) from hd)]
      by_cases hu : c = 95
      · subst hu
        rw [if_pos rfl]
        by_cases hi : i = 0
        · subst hi
          rw [if_pos rfl, ih]
          constructor
          · rintro ⟨h1, h2⟩
            refine ⟨by simp, ?_⟩
            intro a b e
            cases a with
            | nil =>
              simp only [List.nil_append, List.cons.injEq, true_and] at e
              subst e
              exact ⟨fun _ => rfl, by simp, h1 rfl⟩
            | cons y a =>
              simp only [List.cons_append, List.cons.injEq] at e
              obtain ⟨rfl, e⟩ := e
              obtain ⟨q1, q2, q3⟩ := h2 a b e
              refine ⟨by simp, ?_, q3⟩
              intro x hx
              rcases (last a x).1 hx with ⟨ha, rfl⟩ | hx
              · have := q1 ha; omega
              · exact q2 x hx
          · rintro ⟨_, h2⟩
            refine ⟨fun _ => (h2 [] cs rfl).2.2, ?_⟩
            intro a b e
            obtain ⟨_, q2, q3⟩ := h2 (95 :: a) b (by rw [e]; rfl)
            refine ⟨fun ha => absurd (q2 95 ((last a 95).2 (.inl ⟨ha, rfl⟩))) (dig_us hex), fun x hx => q2 x ((last a x).2 (.inr hx)), q3⟩
        · rw [if_neg hi]
          constructor
          · intro h; cases h
          · rintro ⟨_, h2⟩
            exact absurd ((h2 [] cs rfl).1 rfl) hi
      · rw [if_neg hu]
        by_cases hi : i = 1
        · subst hi
          rw [if_pos rfl]
          constructor
          · intro h; cases h
          · rintro ⟨h1, _⟩
            obtain ⟨x, e, hx⟩ := h1 rfl
            cases e
            exact absurd hx hd
        · rw [if_neg hi, ih]
          constructor
          · rintro ⟨_, h2⟩
            refine ⟨fun h => absurd h hi, ?_⟩
            intro a b e
            cases a with
            | nil =>
              simp only [List.nil_append, List.cons.injEq] at e
              exact absurd e.1 hu
            | cons y a =>
              simp only [List.cons_append, List.cons.injEq] at e
              obtain ⟨rfl, e⟩ := e
              obtain ⟨q1, q2, q3⟩ := h2 a b e
              refine ⟨by simp, ?_, q3⟩
              intro x hx
              rcases (last a x).1 hx with ⟨ha, rfl⟩ | hx
              · have := q1 ha; omega
              · exact q2 x hx
          · rintro ⟨_, h2⟩
            refine ⟨by simp, ?_⟩
            intro a b e
            obtain ⟨_, q2, q3⟩ := h2 (c :: a) b (by rw [e]; rfl)
            exact ⟨fun ha => absurd (q2 c ((last a c).2 (.inl ⟨ha, rfl⟩))) hd, fun x hx => q2 x ((last a x).2 (.inr hx)), q3⟩

theorem dig_iff (hex : Bool) (c : UInt8) : Dig hex c ↔ (48 ≤ c.toNat ∧ c.toNat ≤ 57) ∨
    (hex = true ∧ ((97 ≤ c.toNat ∧ c.toNat ≤ 102) ∨ (65 ≤ c.toNat ∧ c.toNat ≤ 70))) := by
  have h : ∀ c : UInt8, ((48 ≤ c ∧ c ≤ 57) ↔ (48 ≤ c.toNat ∧ c.toNat ≤ 57)) ∧
      ((97 ≤ lower c ∧ lower c ≤ 102) ↔ ((97 ≤ c.toNat ∧ c.toNat ≤ 102) ∨ (65 ≤ c.toNat ∧ c.toNat ≤ 70))) := by
    refine all_bytes ?_
    decide +kernel
  unfold Dig
  rw [(h c).1, (h c).2]

/-- The prefixes after which an underscore may follow at once. -/
def HasPrefix (c : UInt8) : Prop := lower c = 98 ∨ lower c = 111 ∨ lower c = 120

instance (c : UInt8) : Decidable (HasPrefix c) := inferInstanceAs (Decidable (_ ∨ _ ∨ _))

theorem underscoreOK_prefix {c : UInt8} (cs : Bytes) (h : HasPrefix c) :
    underscoreOK (48 :: c :: cs) = underscoreLoop (lower c == 120) 0 cs := by
  simp only [underscoreOK]
  exact if_pos h

theorem underscoreOK_plain {s : Bytes} (h : ∀ c cs, s = 48 :: c :: cs → ¬ HasPrefix c) : underscoreOK s = underscoreLoop false 2 s := by
  unfold underscoreOK
  split
  · next c cs => exact if_neg (h c cs rfl)
  · rfl

theorem mayFollow_prefix {c : UInt8} (cs : Bytes) (x : UInt8) : MayFollow (48 :: c :: cs) x ↔ Dig (lower c == 120) x := by
  rw [dig_iff]
  simp only [MayFollow, List.head?_cons, List.tail_cons, Option.some.injEq, true_and, beq_iff_eq, (lower_iff c).2.2]

theorem mayFollow_plain {s : Bytes} (h : ∀ c cs, s = 48 :: c :: cs → ¬ HasPrefix c) (x : UInt8) : MayFollow s x ↔ Dig false x := by
  rw [dig_iff]
  simp only [MayFollow]
  constructor
  · rintro (h1 | ⟨h1, h2, _⟩)
    · exact .inl h1
    · exfalso
      match s, h1, h2, h with
      | [], h1, _, _ => cases h1
      | [_], _, h2, _ => simp at h2
      | y :: c :: cs, h1, h2, h =>
        simp only [List.head?_cons, Option.some.injEq, List.tail_cons] at h1 h2
        subst h1
        exact h c cs rfl (.inr (.inr ((lower_iff c).2.2.2 h2)))
  · rintro (h1 | ⟨h1, _⟩)
    · exact .inl h1
    · cases h1

/-- What `underscoreOK` checks, for a text whose other characters are digits. -/
theorem underscoreOK_iff {s : Bytes} {base : Nat} {ds : Bytes} (hs : split true s = some (base, ds)) :
    (underscoreOK s = true → Placed s) ∧
    (Placed s → (∀ c ∈ ds, c = 95 ∨ ∃ d, digitValue c = some d ∧ d < base) → underscoreOK s = true) := by
  have val : ∀ (c : UInt8) d, digitValue c = some d → (d < 10 → 48 ≤ c.toNat ∧ c.toNat ≤ 57) ∧
      (d < 16 → (48 ≤ c.toNat ∧ c.toNat ≤ 57) ∨ (97 ≤ c.toNat ∧ c.toNat ≤ 102) ∨ (65 ≤ c.toNat ∧ c.toNat ≤ 70)) := by
    intro c d h
    unfold digitValue at h
    split at h
    · cases h; omega
    · split at h
      · cases h; omega
      · split at h
        · cases h; omega
        · cases h
  by_cases hp : ∃ c cs, s = 48 :: c :: cs ∧ HasPrefix c
  · obtain ⟨c, cs, rfl, hc⟩ := hp
    rw [underscoreOK_prefix cs hc, underscoreLoop_iff]
    have hc95 : c ≠ 95 := by rintro rfl; revert hc; decide
    constructor
    · rintro ⟨_, h⟩ a b e
      match a, e with
      | [], e => simp at e
      | [y], e => simp only [List.cons_append, List.nil_append, List.cons.injEq] at e; exact absurd e.2.1 hc95
      | y :: z :: a, e =>
        simp only [List.cons_append, List.cons.injEq] at e
        obtain ⟨rfl, rfl, e⟩ := e
        obtain ⟨_, q2, x, q3, q4⟩ := h a b e
        refine ⟨?_, x, q3, (mayFollow_prefix cs x).2 q4⟩
        cases hl : a.getLast? with
        | none =>
          obtain rfl := List.getLast?_eq_none_iff.1 hl
          exact ⟨c, rfl, hc95⟩
        | some w =>
          refine ⟨w, ?_, ?_⟩
          · cases a with
            | nil => cases hl
            | cons v a => simpa [List.getLast?_cons_cons] using hl
          · rintro rfl; exact dig_us _ (q2 95 hl)
    · intro h hd
      refine ⟨by simp, ?_⟩
      intro a b e
      obtain ⟨⟨w, h1, h2⟩, x, h3, h4⟩ := h (48 :: c :: a) b (by rw [e]; rfl)
      refine ⟨fun _ => rfl, ?_, x, h3, (mayFollow_prefix cs x).1 h4⟩
      intro y hy
      have hyw : y = w := by
        cases a with
        | nil => cases hy
        | cons v a =>
          simp only [List.getLast?_cons_cons] at h1
          rw [hy] at h1
          exact Option.some.inj h1
      subst hyw
      have hne : cs ≠ [] := by rw [e]; simp
      have hmem : y ∈ cs := by rw [e]; exact List.mem_append.2 (.inl (List.mem_of_getLast? hy))
      -- the base
      have hb : ds = cs ∧ (base = 16 ∧ lower c = 120 ∨ base ≤ 10) := by
        simp only [split, ne_eq, not_true_eq_false, if_false, if_true, hne, not_false_eq_true, true_and] at hs
        rcases hc with hc | hc | hc <;> simp [hc] at hs <;> obtain ⟨rfl, rfl⟩ := hs <;> simp [hc]
      obtain ⟨rfl, hb⟩ := hb
      rcases hd y hmem with rfl | ⟨d, hv, hlt⟩
      · exact absurd rfl h2
      · rw [dig_iff]
        rcases hb with ⟨rfl, hx⟩ | hb
        · rcases (val y d hv).2 hlt with h | h
          · exact .inl h
          · exact .inr ⟨by simp [hx], h⟩
        · exact .inl ((val y d hv).1 (by omega))
  · have hp' : ∀ c cs, s = 48 :: c :: cs → ¬ HasPrefix c := fun c cs e h => hp ⟨c, cs, e, h⟩
    rw [underscoreOK_plain hp', underscoreLoop_iff]
    constructor
    · rintro ⟨_, h⟩ a b e
      obtain ⟨q1, q2, x, q3, q4⟩ := h a b e
      refine ⟨?_, x, q3, (mayFollow_plain hp' x).2 q4⟩
      cases hl : a.getLast? with
      | none => have := q1 (List.getLast?_eq_none_iff.1 hl); omega
      | some w => exact ⟨w, rfl, by rintro rfl; exact dig_us _ (q2 95 hl)⟩
    · intro h hd
      refine ⟨by simp, ?_⟩
      intro a b e
      obtain ⟨⟨w, h1, h2⟩, x, h3, h4⟩ := h a b e
      refine ⟨?_, ?_, x, h3, (mayFollow_plain hp' x).1 h4⟩
      · rintro rfl; cases h1
      intro y hy
      rw [h1] at hy
      cases hy
      have hmem : w ∈ s := by rw [e]; exact List.mem_append.2 (.inl (List.mem_of_getLast? h1))
      have hb : (w ∈ ds ∨ w = 48) ∧ base ≤ 10 := by
        match s, hs, hmem, hp' with
        | [], hs, _, _ => cases hs
        | c0 :: rest, hs, hmem, hp' =>
          by_cases h0 : c0 = 48
          · subst h0
            cases rest with
            | nil => cases hs; simp at hmem; exact ⟨.inr hmem, by omega⟩
            | cons c cs =>
              have hn := hp' c cs rfl
              have n1 : lower c ≠ 98 := fun h => hn (.inl h)
              have n2 : lower c ≠ 111 := fun h => hn (.inr (.inl h))
              have n3 : lower c ≠ 120 := fun h => hn (.inr (.inr h))
              simp [split, n1, n2, n3] at hs
              obtain ⟨rfl, rfl⟩ := hs
              rcases List.mem_cons.1 hmem with h | h
              · exact ⟨.inr h, by omega⟩
              · exact ⟨.inl h, by omega⟩
          · simp [split, h0] at hs
            obtain ⟨rfl, rfl⟩ := hs
            exact ⟨.inl hmem, by omega⟩
      rw [dig_iff]
      rcases hb with ⟨hw | rfl, hb⟩
      · rcases hd w hw with rfl | ⟨d, hv, hlt⟩
        · exact absurd rfl h2
        · exact .inl ((val w d hv).1 (by omega))
      · exact .inl (by decide)

/-- Base and digits are those of the text without underscores. -/
theorem split_strip {s : Bytes} {base : Nat} {ds : Bytes} (h : Placed s) (hs : split true s = some (base, ds)) :
    split true (strip s) = some (base, strip ds) := by
  match s, hs, h with
  | [], hs, _ => cases hs
  | c0 :: rest, hs, h =>
    have h0 : c0 ≠ 95 := by
      rintro rfl
      obtain ⟨⟨x, hx, _⟩, _⟩ := h [] rest rfl
      cases hx
    rw [strip_cons_ne h0]
    by_cases hz : c0 = 48
    · subst hz
      match rest, hs, h with
      | [], hs, _ => cases hs; rfl
      | c :: cs, hs, h =>
        by_cases hc : c = 95
        · subst hc
          have e1 : ¬ lower 95 = 98 := by decide
          have e2 : ¬ lower 95 = 111 := by decide
          have e3 : ¬ lower 95 = 120 := by decide
          simp [split, e1, e2, e3] at hs
          obtain ⟨rfl, rfl⟩ := hs
          obtain ⟨_, x, hx, hf⟩ := h [48] cs rfl
          match cs, hx, h, hf with
          | y :: cs, hx, h, hf =>
            cases hx
            have hy : 48 ≤ x.toNat ∧ x.toNat ≤ 57 := by
              rcases hf with hf | ⟨_, hf, _⟩
              · exact hf
              · simp at hf
            have hx95 : x ≠ 95 := by rintro rfl; revert hy; decide
            have hl : ∀ x : UInt8, 48 ≤ x.toNat ∧ x.toNat ≤ 57 → lower x ≠ 98 ∧ lower x ≠ 111 ∧ lower x ≠ 120 := by
              refine all_bytes ?_
              decide +kernel
            obtain ⟨l1, l2, l3⟩ := hl x hy
            rw [strip_cons_us, strip_cons_ne hx95]
            simp [split, l1, l2, l3]
        · rw [strip_cons_ne hc]
          have hne : cs ≠ [] → strip cs ≠ [] := by
            intro hne he
            match cs, hne with
            | y :: cs, _ =>
              by_cases hy : y = 95
              · subst hy
                obtain ⟨_, x, hx, hf⟩ := h [48, c] cs rfl
                match cs, hx with
                | z :: cs, hx =>
                  cases hx
                  have : x ≠ 95 := by
                    rintro rfl
                    unfold MayFollow at hf
                    revert hf
                    simp
                  rw [strip_cons_us, strip_cons_ne this] at he
                  cases he
              · rw [strip_cons_ne hy] at he; cases he
          have hnil : (strip cs ≠ []) ↔ cs ≠ [] := ⟨fun h e => h (by rw [e]; rfl), hne⟩
          simp only [split, ne_eq, not_true_eq_false, if_false, if_true] at hs ⊢
          have hnil' : ¬ strip cs = [] ↔ ¬ cs = [] := hnil
          simp only [hnil']
          by_cases q1 : ¬ cs = [] ∧ lower c = 98
          · rw [if_pos q1] at hs ⊢; cases hs; rfl
          · rw [if_neg q1] at hs ⊢
            by_cases q2 : ¬ cs = [] ∧ lower c = 111
            · rw [if_pos q2] at hs ⊢; cases hs; rfl
            · rw [if_neg q2] at hs ⊢
              by_cases q3 : ¬ cs = [] ∧ lower c = 120
              · rw [if_pos q3] at hs ⊢; cases hs; rfl
              · rw [if_neg q3] at hs ⊢
                cases hs
                rw [strip_cons_ne hc]
    · simp only [split] at hs ⊢
      rw [if_pos hz] at hs ⊢
      cases hs
      rw [strip_cons_ne h0]

theorem split_mem {s : Bytes} {base : Nat} {ds : Bytes} (hs : split true s = some (base, ds)) : 95 ∈ s ↔ 95 ∈ ds := by
  match s, hs with
  | [], hs => cases hs
  | [c], hs =>
    by_cases hz : c = 48
    · subst hz; cases hs; decide
    · simp [split, hz] at hs; obtain ⟨rfl, rfl⟩ := hs; rfl
  | c0 :: c :: cs, hs =>
    by_cases hz : c0 = 48
    · subst hz
      have h95 : lower 95 ≠ 98 ∧ lower 95 ≠ 111 ∧ lower 95 ≠ 120 := by decide
      simp only [split, ne_eq, not_true_eq_false, if_false, if_true] at hs
      by_cases q1 : ¬ cs = [] ∧ lower c = 98
      · rw [if_pos q1] at hs; cases hs
        have : c ≠ 95 := by rintro rfl; exact h95.1 q1.2
        simp [this.symm]
      · rw [if_neg q1] at hs
        by_cases q2 : ¬ cs = [] ∧ lower c = 111
        · rw [if_pos q2] at hs; cases hs
          have : c ≠ 95 := by rintro rfl; exact h95.2.1 q2.2
          simp [this.symm]
        · rw [if_neg q2] at hs
          by_cases q3 : ¬ cs = [] ∧ lower c = 120
          · rw [if_pos q3] at hs; cases hs
            have : c ≠ 95 := by rintro rfl; exact h95.2.2 q3.2
            simp [this.symm]
          · rw [if_neg q3] at hs; cases hs
            simp
    · simp [split, hz] at hs; obtain ⟨rfl, rfl⟩ := hs; rfl

theorem split_some (s : Bytes) (h : s ≠ []) : ∃ base ds, split true s = some (base, ds) := by
  match s, h with
  | c0 :: rest, _ =>
    by_cases hz : c0 = 48
    · subst hz
      match rest with
      | [] => exact ⟨_, _, rfl⟩
      | c :: cs =>
        simp only [split, ne_eq, not_true_eq_false, if_false, if_true]
        by_cases q1 : ¬ cs = [] ∧ lower c = 98
        · rw [if_pos q1]; exact ⟨_, _, rfl⟩
        · rw [if_neg q1]
          by_cases q2 : ¬ cs = [] ∧ lower c = 111
          · rw [if_pos q2]; exact ⟨_, _, rfl⟩
          · rw [if_neg q2]
            by_cases q3 : ¬ cs = [] ∧ lower c = 120
            · rw [if_pos q3]; exact ⟨_, _, rfl⟩
            · rw [if_neg q3]; exact ⟨_, _, rfl⟩
    · exact ⟨_, _, by simp only [split]; rw [if_pos hz]⟩

/-- An old version refuses underscores. -/
theorem old_refuses {s : Bytes} (h : 95 ∈ s) : parseUint0 false s = none := by
  have hd : digitValue 95 = none := by decide
  have bad : ∀ base ds, 95 ∈ ds → loop false base 0 ds = none := by
    intro base ds h
    cases hl : loop false base 0 ds with
    | none => rfl
    | some m =>
      rcases loop_digits hl 95 h with ⟨h1, _⟩ | ⟨d, h1, _⟩
      · cases h1
      · rw [hd] at h1; cases h1
  match s, h with
  | c0 :: rest, h =>
    by_cases hz : c0 = 48
    · subst hz
      match rest, h with
      | [], h => simp at h
      | c :: cs, h =>
        by_cases hx : c = 120 ∨ c = 88
        · by_cases hc : cs = []
          · simp [parseUint0, split, hx, hc]
          · have : 95 ∈ cs := by
              rcases List.mem_cons.1 h with h | h
              · cases h
              · rcases List.mem_cons.1 h with h | h
                · subst h; simp at hx
                · exact h
            simp [parseUint0, split, hx, hc, bad 16 cs this]
        · have : 95 ∈ c :: cs := by
            rcases List.mem_cons.1 h with h | h
            · cases h
            · exact h
          simp [parseUint0, split, hx, bad 8 _ this]
    · simp [parseUint0, split, hz, bad 10 _ h]

theorem parseUint0_written (modern : Bool) (s : Bytes) (m : Nat) :
    parseUint0 modern s = some m ↔ Written modern s m ∧ m < 2 ^ 64 := by
  by_cases hu : 95 ∈ s
  · cases modern with
    | false =>
      rw [old_refuses hu]
      constructor
      · intro h; cases h
      · rintro ⟨⟨_, h⟩, _⟩
        cases (h hu).1
    | true =>
      have hs0 : s ≠ [] := by rintro rfl; cases hu
      obtain ⟨base, ds, hs⟩ := split_some s hs0
      have hds : 95 ∈ ds := (split_mem hs).1 hu
      obtain ⟨u1, u2⟩ := underscoreOK_iff hs
      have e : parseUint0 true s = some m ↔ loop true base 0 ds = some m ∧ underscoreOK s = true := by
        simp only [parseUint0, hs]
        cases loop true base 0 ds with
        | none => simp
        | some n =>
          cases hok : underscoreOK s <;> simp [hds]
      have e2 : Placed s → (parseUint0 true (strip s) = some m ↔ loop true base 0 ds = some m) := by
        intro hp
        simp only [parseUint0, split_strip hp hs]
        rw [← loop_strip]
        cases loop true base 0 ds with
        | none => simp
        | some n => simp [us_notMem_strip]
      rw [e]
      constructor
      · rintro ⟨h1, h2⟩
        have hp := u1 h2
        have := (parseUint0_iff true (strip s) m (us_notMem_strip s)).1 ((e2 hp).2 h1)
        exact ⟨⟨this.1, fun _ => ⟨rfl, hp⟩⟩, this.2⟩
      · rintro ⟨⟨h1, h2⟩, h3⟩
        obtain ⟨_, hp⟩ := h2 hu
        have hl := (e2 hp).1 ((parseUint0_iff true (strip s) m (us_notMem_strip s)).2 ⟨h1, h3⟩)
        refine ⟨hl, u2 hp ?_⟩
        intro c hc
        rcases loop_digits hl c hc with h | h
        · exact .inl h.2
        · exact .inr h
  · rw [parseUint0_iff modern s m hu]
    have : s.filter (· ≠ 95) = s := strip_id hu
    unfold Written
    rw [this]
    simp [hu]

theorem written_head {modern : Bool} {t : Bytes} {n : Nat} (h : Written modern t n) : t.head? ≠ some 43 ∧ t.head? ≠ some 45 ∧ t ≠ [] := by
  have hm := magnitude_head h.1
  cases t with
  | nil => exact absurd rfl hm.2.2
  | cons c cs =>
    refine ⟨?_, ?_, by simp⟩
    · intro e
      cases e
      exact hm.1 (by simp)
    · intro e
      cases e
      exact hm.2.1 (by simp)

/-- **C82** Exactly which texts are accepted for an integer, and with which value: a sign, then a decimal
number, or an octal one after `0`, or a hexadecimal one after `0x` (and for recent versions of Go also `0b`
and `0o`), inside the 64-bit range. Recent versions allow single underscores between digits and after the prefix. -/
theorem C82_accepted_exactly (modern : Bool) (s : Bytes) (n : Int) :
    parseInt0 modern s = some n ↔ Signed modern s n ∧ -2 ^ 63 ≤ n ∧ n < 2 ^ 63 := by
  have pos : ∀ t : Bytes, (finish false (parseUint0 modern t) = some n ↔ (∃ m : Nat, Written modern t m ∧ n = m) ∧ n < 2 ^ 63) := by
    intro t
    cases h : parseUint0 modern t with
    | none =>
      simp only [finish]
      constructor
      · intro h; cases h
      · rintro ⟨⟨m, h1, h2⟩, h3⟩
        rw [(parseUint0_written modern t m).2 ⟨h1, by omega⟩] at h
        cases h
    | some k =>
      have hk := (parseUint0_written modern t k).1 h
      simp only [finish]
      constructor
      · intro hf
        by_cases hr : k ≥ 2 ^ 63
        · simp [hr] at hf
        · simp [hr] at hf
          exact ⟨⟨k, hk.1, hf.symm⟩, by omega⟩
      · rintro ⟨⟨m, h1, h2⟩, h3⟩
        have := (parseUint0_written modern t m).2 ⟨h1, by omega⟩
        rw [h] at this
        cases this
        have hr : ¬ k ≥ 2 ^ 63 := by omega
        simp [hr, h2]
  have neg : ∀ t : Bytes, (finish true (parseUint0 modern t) = some n ↔ (∃ m : Nat, Written modern t m ∧ n = -(m : Int)) ∧ -2 ^ 63 ≤ n) := by
    intro t
    cases h : parseUint0 modern t with
    | none =>
      simp only [finish]
      constructor
      · intro h; cases h
      · rintro ⟨⟨m, h1, h2⟩, h3⟩
        rw [(parseUint0_written modern t m).2 ⟨h1, by omega⟩] at h
        cases h
    | some k =>
      have hk := (parseUint0_written modern t k).1 h
      simp only [finish]
      constructor
      · intro hf
        by_cases hr : k > 2 ^ 63
        · simp [hr] at hf
        · simp [hr] at hf
          exact ⟨⟨k, hk.1, hf.symm⟩, by omega⟩
      · rintro ⟨⟨m, h1, h2⟩, h3⟩
        have := (parseUint0_written modern t m).2 ⟨h1, by omega⟩
        rw [h] at this
        cases this
        have hr : ¬ k > 2 ^ 63 := by omega
        simp [hr, h2]
  cases s with
  | nil =>
    simp only [parseInt0]
    constructor
    · intro h; cases h
    · rintro ⟨h, _⟩
      cases h with
      | none h => exact absurd rfl (written_head h).2.2
  | cons c cs =>
    simp only [parseInt0]
    by_cases h1 : c = 43
    · subst h1
      rw [if_pos rfl, pos cs]
      constructor
      · rintro ⟨⟨m, h2, h3⟩, h4⟩; exact ⟨h3 ▸ .plus h2, by omega, h4⟩
      · rintro ⟨h, h2, h3⟩
        cases h with
        | none h => exact absurd rfl (written_head h).1
        | plus h => exact ⟨⟨_, h, rfl⟩, h3⟩
    · rw [if_neg h1]
      by_cases h2 : c = 45
      · subst h2
        rw [if_pos rfl, neg cs]
        constructor
        · rintro ⟨⟨m, h2, h3⟩, h4⟩; exact ⟨h3 ▸ .minus h2, h4, by omega⟩
        · rintro ⟨h, h2, h3⟩
          cases h with
          | none h => exact absurd rfl (written_head h).2.1
          | minus h => exact ⟨⟨_, h, rfl⟩, h2⟩
      · rw [if_neg h2, pos _]
        constructor
        · rintro ⟨⟨m, h2, h3⟩, h4⟩; exact ⟨h3 ▸ .none h2, by omega, h4⟩
        · rintro ⟨h, h4, h3⟩
          cases h with
          | none h => exact ⟨⟨_, h, rfl⟩, h3⟩
          | plus h => exact absurd rfl h1
          | minus h => exact absurd rfl h2

example : parseInt0 true b!"-0x1F" = some (-31) ∧ parseInt0 false b!"010" = some 8 ∧ parseInt0 true b!"08" = none := by decide

example : parseInt0 true b!"-0x_F_F" = some (-255) ∧ parseInt0 true b!"1_000" = some 1000 ∧ parseInt0 false b!"1_000" = none ∧
    parseInt0 true b!"1__0" = none ∧ parseInt0 true b!"_1" = none ∧ parseInt0 true b!"1_" = none ∧ parseInt0 true b!"0_b1" = none := by
  decide

/-- Decimal digits in the two specifications. -/
theorem isNat_digits (ds : Bytes) : (∀ c ∈ ds, isDigit c = true) → ∀ n, Extends 10 n ds (n * 10 ^ ds.length + digitsVal ds) := by
  induction ds with
  | nil => intro _ n; simp [digitsVal]; exact .nil
  | cons c cs ih =>
    intro h n
    have hc := (isDigit_iff c).1 (h c (by simp))
    have := ih (fun d hd => h d (by simp [hd])) (n * 10 + (c.toNat - 48))
    simp only [digitsVal, List.length_cons, Nat.pow_succ]
    have e : n * (10 ^ cs.length * 10) + ((c.toNat - 48) * 10 ^ cs.length + digitsVal cs) =
        (n * 10 + (c.toNat - 48)) * 10 ^ cs.length + digitsVal cs := by
      rw [Nat.add_mul, Nat.mul_assoc n 10, Nat.mul_comm 10, Nat.add_assoc]
    rw [e]
    exact .cons (by simp [digitValue, hc]) (by omega) this

theorem natToDec_magnitude (modern : Bool) (n : Nat) : Magnitude modern (natToDec n) n := by
  obtain ⟨h1, h2, h3, h4, h5⟩ := natToDec_spec n
  by_cases h0 : n = 0
  · rw [h5 h0, h0]; exact .oct .nil
  · have h := isNat_digits (natToDec n) h2 0
    rw [h3] at h
    simp only [Nat.zero_mul, Nat.zero_add] at h
    have h4 := h4 h0
    cases e : natToDec n with
    | nil => exact absurd e h1
    | cons c cs =>
      rw [e] at h h4
      exact .dec (by intro hc; subst hc; simp at h4) (isNat_iff_extends.2 h)

theorem natToDec_no_underscore (n : Nat) : 95 ∉ natToDec n := by
  intro h
  have := (natToDec_spec n).2.1 _ h
  simp [isDigit] at this

theorem natToDec_written (modern : Bool) (n : Nat) : Written modern (natToDec n) n := by
  refine ⟨?_, fun h => absurd h (natToDec_no_underscore n)⟩
  have : (natToDec n).filter (· ≠ 95) = natToDec n := strip_id (natToDec_no_underscore n)
  rw [this]
  exact natToDec_magnitude modern n

/-- **C82** Every 64-bit integer written in decimal is read as itself. -/
theorem C82_decimal (modern : Bool) (n : Int) (h1 : -2 ^ 63 ≤ n) (h2 : n < 2 ^ 63) : parseInt0 modern (itoa n) = some n := by
  by_cases hn : n < 0
  · have e : itoa n = 45 :: natToDec n.natAbs := by simp [itoa, hn]
    rw [e, C82_accepted_exactly modern]
    have := Signed.minus (natToDec_written modern n.natAbs)
    have e2 : -(n.natAbs : Int) = n := by omega
    rw [e2] at this
    exact ⟨this, h1, h2⟩
  · have e : itoa n = natToDec n.toNat := by simp [itoa, hn]
    rw [e, C82_accepted_exactly modern]
    have := Signed.none (natToDec_written modern n.toNat)
    have e2 : (n.toNat : Int) = n := by omega
    rw [e2] at this
    exact ⟨this, h1, h2⟩

end Go.ParseInt

namespace Flag
open Go Go.ParseInt

variable {p : Parser}

/-- **C82** An integer option given any 64-bit integer in decimal, after any other options, stores exactly that
integer; the other options and the operands are as without it. -/
theorem C82_stores (modern : Bool) (os : List ValueOpt) (h : ∀ o ∈ os, o.OK p) (hp : ∀ o ∈ os, o.Parses p (parseInt0 modern))
    (letter a : Nat) (n : Int) (h1 : -2 ^ 63 ≤ n) (h2 : n < 2 ^ 63) (ho : (⟨[], letter, itoa n⟩ : ValueOpt).OK p)
    (hs : p.strings letter = none) (ha : p.ints letter = some a) {t pos} (ht : Tail t pos) (st : Store) :
    (parse p (parseInt0 modern) (((os ++ [(⟨[], letter, itoa n⟩ : ValueOpt)]).map ValueOpt.args).flatten ++ t) st).val = .ok pos ∧
    (parse p (parseInt0 modern) (((os ++ [(⟨[], letter, itoa n⟩ : ValueOpt)]).map ValueOpt.args).flatten ++ t) st).store.int a = n := by
  have hd := C82_decimal modern n h1 h2
  obtain ⟨g1, _, g3, _⟩ := C33_values (p := p) (parseInt := parseInt0 modern) (os ++ [(⟨[], letter, itoa n⟩ : ValueOpt)])
    (by intro o hm; rcases List.mem_append.1 hm with hm | hm
        · exact h o hm
        · simp at hm; subst hm; exact ho)
    (by intro o hm; rcases List.mem_append.1 hm with hm | hm
        · exact hp o hm
        · simp at hm; subst hm; exact .inr ⟨n, hd⟩) ht st
  refine ⟨g1, ?_⟩
  rw [g3 a]
  have : ∀ os : List ValueOpt, lastInt p (parseInt0 modern) a (os ++ [(⟨[], letter, itoa n⟩ : ValueOpt)]) = some n := by
    intro os
    induction os with
    | nil => simp [lastInt, hs, ha, hd]
    | cons o os ih => simp [lastInt, ih]
  rw [this]; rfl

/-- **C82** Any other text given to an integer option makes parsing fail; the options before it have taken effect. -/
theorem C82_refuses (modern : Bool) (os : List ValueOpt) (h : ∀ o ∈ os, o.OK p) (hp : ∀ o ∈ os, o.Parses p (parseInt0 modern))
    (letter : Nat) (v : Bytes) (hv : ¬ ∃ n, Signed modern v n ∧ -2 ^ 63 ≤ n ∧ n < 2 ^ 63) (ho : (⟨[], letter, v⟩ : ValueOpt).OK p)
    (hs : p.strings letter = none) (t : List Bytes) (st : Store) :
    (parse p (parseInt0 modern) ((os.map ValueOpt.args).flatten ++ (⟨[], letter, v⟩ : ValueOpt).args ++ t) st).val = .error .nonInt ∧
    ∀ a, (parse p (parseInt0 modern) ((os.map ValueOpt.args).flatten ++ (⟨[], letter, v⟩ : ValueOpt).args ++ t) st).store.int a =
      (lastInt p (parseInt0 modern) a os).getD (st.int a) := by
  have hbad : ¬ (⟨[], letter, v⟩ : ValueOpt).Parses p (parseInt0 modern) := by
    rintro (h | ⟨n, h⟩)
    · exact h hs
    · exact hv ⟨n, (C82_accepted_exactly modern v n).1 h⟩
  have := C33_bad_integer os h hp _ ho hbad t st
  exact ⟨this.1, this.2.2⟩

/-- A parser with an integer option `k` writing to variable 0. -/
def intDemo : Parser := ({} : Parser).intVar 0 107

example (st : Store) : (parse intDemo (parseInt0 true) [b!"-k", b!"-9223372036854775808", b!"file"] st).val = .ok [b!"file"] ∧
    (parse intDemo (parseInt0 true) [b!"-k", b!"-9223372036854775808", b!"file"] st).store.int 0 = -2 ^ 63 := by
  have e : itoa (-2 ^ 63) = b!"-9223372036854775808" := by decide +kernel
  have h := C82_stores (p := intDemo) true [] (by simp) (by simp) 107 0 (-2 ^ 63) (by decide) (by decide)
    ⟨by simp, by simp, by decide, rfl, .inr (by simp [intDemo, Parser.intVar]), by simp⟩ rfl (by simp [intDemo, Parser.intVar])
    (t := [b!"file"]) (pos := [b!"file"]) (.operand b!"file" [] (by simp [IsOperand])) st
  rw [e] at h
  exact h

/-- A text that is no number. -/
example (st : Store) : (parse intDemo (parseInt0 true) [b!"-k", b!"1__2", b!"file"] st).val = .error .nonInt :=
  (C82_refuses (p := intDemo) true [] (by simp) (by simp) 107 b!"1__2"
    (by rintro ⟨n, h⟩
        have h1 := (C82_accepted_exactly true b!"1__2" n).2 h
        have h2 : parseInt0 true b!"1__2" = none := by decide
        rw [h2] at h1; cases h1)
    ⟨by simp, by simp, by decide, rfl, .inr (by simp [intDemo, Parser.intVar]), by simp⟩ rfl [b!"file"] st).1

end Flag
