import Verif.Cksum.Props
import Mathlib.GroupTheory.OrderOfElement
import Mathlib.Data.Fintype.Card
import Mathlib.Tactic.NormNum.Prime

/-! # C136, C137: which damage the checksum notices, and which it cannot

The bits of a file are taken as they are sent: byte after byte, the high bit of each byte first. -/

namespace Cksum
open Go

/-! ## Specification -/

/-- The bits of one byte, high bit first. -/
def byteBits (c : UInt8) : List Bool := (List.range 8).reverse.map c.toBitVec.getLsbD

/-- The bits of a file, in order. -/
def bits : Bytes → List Bool
  | [] => []
  | c :: cs => byteBits c ++ bits cs

/-- Where two words differ. -/
def flips (u v : List Bool) : List Bool := u.zipWith (· ^^ ·) v

/-! ## One bit at a time -/

def top : BitVec 32 := 0x80000000#32

def bitStep (s : BitVec 32) (b : Bool) : BitVec 32 := shiftStep (s ^^^ (if b then top else 0#32))

def feedBits (s : BitVec 32) (bs : List Bool) : BitVec 32 := bs.foldl bitStep s

theorem feedBits_cons (s : BitVec 32) (b : Bool) (bs : List Bool) :
    feedBits s (b :: bs) = feedBits (bitStep s b) bs := rfl

theorem feedBits_append (s : BitVec 32) (a b : List Bool) : feedBits s (a ++ b) = feedBits (feedBits s a) b := by
  simp [feedBits]

theorem shifts_succ' (n : Nat) (s : BitVec 32) : shifts (n + 1) s = shifts n (shiftStep s) := by
  rw [shifts_add]; rfl

theorem feedBits_linear (bs : List Bool) : ∀ s t, feedBits (s ^^^ t) bs = shifts bs.length s ^^^ feedBits t bs := by
  induction bs with
  | nil => intro s t; simp [feedBits, shifts]
  | cons b bs ih =>
    intro s t
    rw [feedBits_cons, feedBits_cons, List.length_cons, shifts_succ', ← ih]
    unfold bitStep
    rw [BitVec.xor_assoc, shiftStep_xor]

theorem feedBits_zero (bs : List Bool) (s : BitVec 32) : feedBits s bs = shifts bs.length s ^^^ feedBits 0#32 bs := by
  rw [← feedBits_linear, BitVec.xor_zero]

theorem byteBits_fin : ∀ i : Fin 256, shifts 8 (high (BitVec.ofFin i)) =
    feedBits 0#32 ((List.range 8).reverse.map (BitVec.ofFin i : BitVec 8).getLsbD) := by decide +kernel

theorem step_bits (s : BitVec 32) (c : UInt8) : step s c.toBitVec = feedBits s (byteBits c) := by
  rw [step_eq, shifts_xor, feedBits_zero]
  have := byteBits_fin c.toBitVec.toFin
  exact congrArg (shifts 8 s ^^^ ·) this

theorem feed_bits (a : Bytes) : ∀ s, feed s a = feedBits s (bits a) := by
  induction a with
  | nil => intro s; rfl
  | cons c cs ih => intro s; rw [feed_cons, ih, step_bits, bits, feedBits_append]

theorem bits_length (a : Bytes) : (bits a).length = 8 * a.length := by
  induction a with
  | nil => rfl
  | cons c cs ih => simp only [bits, List.length_append, ih, List.length_cons, byteBits, List.length_map,
      List.length_reverse, List.length_range]; omega

theorem bits_append (a b : Bytes) : bits (a ++ b) = bits a ++ bits b := by
  induction a with
  | nil => rfl
  | cons c cs ih => simp [bits, ih]

theorem feedBits_xor (u v : List Bool) (hl : u.length = v.length) : ∀ s t,
    feedBits s u ^^^ feedBits t v = feedBits (s ^^^ t) (flips u v) := by
  induction u generalizing v with
  | nil =>
    intro s t
    have : v = [] := List.length_eq_zero_iff.1 hl.symm
    subst this; rfl
  | cons x u ih =>
    intro s t
    cases v with
    | nil => simp at hl
    | cons y v =>
      have ih := ih v (by simpa using hl) (bitStep s x) (bitStep t y)
      rw [feedBits_cons, feedBits_cons, ih]
      show _ = feedBits (bitStep (s ^^^ t) (x ^^ y)) (flips u v)
      refine congrArg (feedBits · _) ?_
      unfold bitStep
      rw [← shiftStep_xor, xor_swap]
      cases x <;> cases y <;> simp

theorem flips_self (u : List Bool) : flips u u = List.replicate u.length false := by
  induction u with
  | nil => rfl
  | cons x u ih => simp only [flips, List.zipWith_cons_cons, List.length_cons, List.replicate_succ] at ih ⊢; rw [ih]; simp

theorem flips_append (a b c d : List Bool) (h : a.length = c.length) :
    flips (a ++ b) (c ++ d) = flips a c ++ flips b d := List.zipWith_append h

theorem flips_length (u v : List Bool) (h : u.length = v.length) : (flips u v).length = u.length := by
  simp [flips, h]

theorem feedBits_false (n : Nat) : ∀ s, feedBits s (List.replicate n false) = shifts n s := by
  induction n with
  | zero => intro s; rfl
  | succ n ih =>
    intro s
    rw [List.replicate_succ, feedBits_cons, ih, shifts_succ']
    simp [bitStep]

theorem flips_ne (u v : List Bool) (hl : u.length = v.length) (hne : u ≠ v) : true ∈ flips u v := by
  induction u generalizing v with
  | nil => cases v <;> simp_all
  | cons x u ih =>
    cases v with
    | nil => simp at hl
    | cons y v =>
      by_cases h : x = y
      · subst h
        have := ih v (by simpa using hl) (fun e => hne (by rw [e]))
        simp only [flips, List.zipWith_cons_cons, List.mem_cons]
        exact Or.inr this
      · simp only [flips, List.zipWith_cons_cons, List.mem_cons]
        left
        cases x <;> cases y <;> simp_all

/-! ## A short burst leaves a trace -/

/-- Bits in a word, the first on top. -/
def loadBits : List Bool → BitVec 32
  | [] => 0#32
  | b :: bs => (if b then top else 0#32) ^^^ (loadBits bs >>> 1)

theorem top_bit (b : Bool) (i : Nat) : (if b then top else 0#32).getLsbD i = (b && decide (i = 31)) := by
  cases b
  · simp
  · simp only [if_true, Bool.true_and]
    by_cases h : i < 32
    · have : ∀ j : Fin 32, top.getLsbD j.val = decide (j.val = 31) := by decide
      exact this ⟨i, h⟩
    · rw [BitVec.getLsbD_of_ge _ _ (by omega)]
      exact (decide_eq_false (by omega)).symm

theorem loadBits_low (e : List Bool) (h : e.length ≤ 32) : ∀ i, i < 32 - e.length → (loadBits e).getLsbD i = false := by
  induction e with
  | nil => intro i _; simp [loadBits]
  | cons b e ih =>
    intro i hi
    simp only [List.length_cons] at h hi
    rw [loadBits, BitVec.getLsbD_xor, top_bit, BitVec.getLsbD_ushiftRight, ih (by omega) (1 + i) (by omega),
      decide_eq_false (by omega : ¬ i = 31)]
    simp

theorem shiftStep_unload (x : BitVec 32) (h : x.getLsbD 0 = false) : shiftStep (x >>> 1) = x := by
  have hm : (x >>> 1).msb = false := by
    rw [BitVec.msb_eq_getLsbD_last, BitVec.getLsbD_ushiftRight]
    exact BitVec.getLsbD_of_ge _ _ (by omega)
  unfold shiftStep
  rw [hm]
  apply BitVec.eq_of_getLsbD_eq
  intro i hi
  simp only [Bool.false_eq_true, if_false, BitVec.xor_zero, BitVec.getLsbD_shiftLeft, BitVec.getLsbD_ushiftRight]
  rcases Nat.eq_zero_or_pos i with h0 | h0
  · subst h0; rw [h]; rfl
  · simp [hi, show ¬ i < 1 by omega, show 1 + (i - 1) = i by omega]

theorem feedBits_load (e : List Bool) (h : e.length ≤ 32) : ∀ s, feedBits s e = shifts e.length (s ^^^ loadBits e) := by
  induction e with
  | nil => intro s; simp [feedBits, loadBits, shifts]
  | cons b e ih =>
    intro s
    simp only [List.length_cons] at h
    rw [feedBits_cons, ih (by omega), List.length_cons, shifts_succ']
    refine congrArg (shifts _) ?_
    have hl : shiftStep (loadBits e >>> 1) = loadBits e :=
      shiftStep_unload _ (loadBits_low e (by omega) 0 (by omega))
    unfold bitStep
    rw [loadBits, ← BitVec.xor_assoc, shiftStep_xor _ (loadBits e >>> 1), hl]

theorem loadBits_ne (e : List Bool) (h : e.length ≤ 32) (ht : true ∈ e) : loadBits e ≠ 0#32 := by
  induction e with
  | nil => simp at ht
  | cons b e ih =>
    intro hz
    simp only [List.length_cons] at h
    rw [loadBits] at hz
    have hb : b = false := by
      have := congrArg (fun v : BitVec 32 => v.getLsbD 31) hz
      simp only [BitVec.getLsbD_xor, top_bit, BitVec.getLsbD_ushiftRight] at this
      rw [BitVec.getLsbD_of_ge _ _ (by omega)] at this
      simpa using this
    subst hb
    have ht : true ∈ e := by simpa using ht
    refine ih (by omega) ht ?_
    simp only [Bool.false_eq_true, if_false, BitVec.zero_xor] at hz
    have hl := shiftStep_unload _ (loadBits_low e (by omega) 0 (by omega))
    rw [← hl, hz, shiftStep_zero]

theorem burst_ne (e : List Bool) (h : e.length ≤ 32) (ht : true ∈ e) : feedBits 0#32 e ≠ 0#32 := by
  rw [feedBits_load e h, BitVec.zero_xor]
  intro hz
  exact loadBits_ne e h ht (shifts_eq_zero _ _ hz)

/-! ## Equal checksums -/

theorem memcrc_feed (a : Bytes) : ~~~ memcrc a = feed 0 (a ++ lengthOctets a.length) := by
  unfold memcrc
  rw [BitVec.not_not, feed_append, feedLen_eq]

theorem feed_injective (cs : Bytes) (s t : BitVec 32) (h : feed s cs = feed t cs) : s = t := by
  rw [feed_bits, feed_bits, feedBits_zero, feedBits_zero (s := t)] at h
  exact shifts_injective _ _ _ ((BitVec.xor_left_inj _).1 h)

/-- Files of one length have the same checksum exactly when their difference leaves an empty register. -/
theorem memcrc_eq_iff (a b : Bytes) (hl : a.length = b.length) :
    memcrc a = memcrc b ↔ feedBits 0#32 (flips (bits a) (bits b)) = 0#32 := by
  have hb : (bits a).length = (bits b).length := by rw [bits_length, bits_length, hl]
  have hx := feedBits_xor (bits a) (bits b) hb 0#32 0#32
  rw [BitVec.xor_self] at hx
  rw [← hx, BitVec.xor_eq_zero_iff, ← feed_bits, ← feed_bits]
  constructor
  · intro h
    have := congrArg (~~~ ·) h
    simp only [memcrc_feed, hl, feed_append] at this
    exact feed_injective _ _ _ this
  · intro h
    have : ~~~ memcrc a = ~~~ memcrc b := by
      rw [memcrc_feed, memcrc_feed, hl, feed_append, feed_append]
      exact congrArg (feed · _) h
    simpa using congrArg (~~~ ·) this

theorem length_of_bits (a b : Bytes) (h : (bits a).length = (bits b).length) : a.length = b.length := by
  rw [bits_length, bits_length] at h; omega

/-! ## The order of x -/

def mulGo : Nat → BitVec 32 → BitVec 32 → BitVec 32
  | 0, _, _ => 0#32
  | n + 1, a, b => shiftStep (mulGo n a b) ^^^ (if b.getLsbD (31 - n) then a else 0#32)

theorem shifts_if (m : Nat) (p : Bool) (a : BitVec 32) :
    shifts m (if p then a else 0#32) = if p then shifts m a else 0#32 := by
  cases p
  · have := shifts_xor m 0#32 0#32
    simpa using this
  · rfl

theorem shifts_shiftStep (m : Nat) (a : BitVec 32) : shifts m (shiftStep a) = shiftStep (shifts m a) := by
  rw [← shifts_succ']; rfl

theorem mulGo_shifts (m n : Nat) (a b : BitVec 32) : mulGo n (shifts m a) b = shifts m (mulGo n a b) := by
  induction n with
  | zero =>
    have := shifts_if m false 0#32
    simpa [mulGo] using this.symm
  | succ n ih => rw [mulGo, mulGo, ih, shifts_xor, shifts_if, shifts_shiftStep]

theorem mulGo_one (b : BitVec 32) : ∀ n, n ≤ 32 → mulGo n 1#32 b = b >>> (32 - n) := by
  intro n
  induction n with
  | zero =>
    intro _
    apply BitVec.eq_of_getLsbD_eq
    intro i _
    rw [BitVec.getLsbD_ushiftRight, BitVec.getLsbD_of_ge b _ (by omega)]
    simp [mulGo]
  | succ n ih =>
    intro hn
    rw [mulGo, ih (by omega)]
    have hm : (b >>> (32 - n)).msb = false := by
      rw [BitVec.msb_eq_getLsbD_last, BitVec.getLsbD_ushiftRight]
      exact BitVec.getLsbD_of_ge _ _ (by omega)
    unfold shiftStep
    rw [hm]
    have hone : ∀ (p : Bool) (i : Nat), (if p then 1#32 else 0#32).getLsbD i = (p && decide (i = 0)) := by
      intro p i
      cases p
      · simp
      · simp
    apply BitVec.eq_of_getLsbD_eq
    intro i hi
    simp only [Bool.false_eq_true, if_false, BitVec.xor_zero, BitVec.getLsbD_xor, BitVec.getLsbD_shiftLeft,
      BitVec.getLsbD_ushiftRight, hone]
    rcases Nat.eq_zero_or_pos i with h0 | h0
    · subst h0; simp [show 32 - (n + 1) = 31 - n by omega]
    · simp [hi, show ¬ i < 1 by omega, show ¬ i = 0 by omega, show 32 - n + (i - 1) = 32 - (n + 1) + i by omega]

def square (a : BitVec 32) : BitVec 32 := mulGo 32 a a

/-- x to the power `n`. -/
def pw (n : Nat) : BitVec 32 := shifts n 1#32

theorem square_pw (n : Nat) : square (pw n) = pw (n + n) := by
  unfold square
  have : mulGo 32 (pw n) (pw n) = shifts n (mulGo 32 1#32 (pw n)) := mulGo_shifts n 32 1#32 (pw n)
  rw [this, mulGo_one _ 32 (Nat.le_refl _)]
  simp only [Nat.sub_self, BitVec.ushiftRight_zero]
  unfold pw
  rw [← shifts_add]

def fastPw : List Bool → BitVec 32
  | [] => 1#32
  | false :: bs => square (fastPw bs)
  | true :: bs => shiftStep (square (fastPw bs))

def value : List Bool → Nat
  | [] => 0
  | b :: bs => 2 * value bs + b.toNat

theorem fastPw_eq (bs : List Bool) : fastPw bs = pw (value bs) := by
  induction bs with
  | nil => rfl
  | cons b bs ih =>
    have e : value bs + value bs = 2 * value bs := by omega
    cases b
    · show square (fastPw bs) = _
      rw [ih, square_pw, e]; rfl
    · show shiftStep (square (fastPw bs)) = _
      rw [ih, square_pw, e]; rfl

def pattern (k : Nat) (bs : List Bool) : List Bool := (List.replicate k bs).flatten

theorem pw_full : pw 4294967295 = 1#32 := by
  have := fastPw_eq (pattern 32 [true])
  rw [show value (pattern 32 [true]) = 4294967295 by decide +kernel] at this
  rw [← this]; decide +kernel

theorem pw_third : pw 1431655765 ≠ 1#32 := by
  have := fastPw_eq (pattern 16 [true, false])
  rw [show value (pattern 16 [true, false]) = 1431655765 by decide +kernel] at this
  rw [← this]; decide +kernel

theorem pw_fifth : pw 858993459 ≠ 1#32 := by
  have := fastPw_eq (pattern 8 [true, true, false, false])
  rw [show value (pattern 8 [true, true, false, false]) = 858993459 by decide +kernel] at this
  rw [← this]; decide +kernel

theorem pw_17 : pw 252645135 ≠ 1#32 := by
  have := fastPw_eq (pattern 4 (List.replicate 4 true ++ List.replicate 4 false))
  rw [show value (pattern 4 (List.replicate 4 true ++ List.replicate 4 false)) = 252645135 by decide +kernel] at this
  rw [← this]; decide +kernel

theorem pw_257 : pw 16711935 ≠ 1#32 := by
  have := fastPw_eq (pattern 2 (List.replicate 8 true ++ List.replicate 8 false))
  rw [show value (pattern 2 (List.replicate 8 true ++ List.replicate 8 false)) = 16711935 by decide +kernel] at this
  rw [← this]; decide +kernel

theorem pw_65537 : pw 65535 ≠ 1#32 := by
  have := fastPw_eq (List.replicate 16 true)
  rw [show value (List.replicate 16 true) = 65535 by decide +kernel] at this
  rw [← this]; decide +kernel

theorem iterate_pw (n : Nat) (s : BitVec 32) : shiftStep^[n] s = shifts n s := by
  induction n with
  | zero => rfl
  | succ n ih => rw [Function.iterate_succ_apply', ih]; rfl

theorem pw_iff (n : Nat) : pw n = 1#32 ↔ Function.minimalPeriod shiftStep 1#32 ∣ n := by
  rw [← Function.isPeriodicPt_iff_minimalPeriod_dvd]
  unfold Function.IsPeriodicPt Function.IsFixedPt pw
  rw [iterate_pw]

theorem prime_parts (p : Nat) (hp : p.Prime) (hd : p ∣ 4294967295) :
    p = 3 ∨ p = 5 ∨ p = 17 ∨ p = 257 ∨ p = 65537 := by
  have e : 4294967295 = 3 * (5 * (17 * (257 * 65537))) := by norm_num
  rw [e] at hd
  have one : ∀ q : Nat, q.Prime → p ∣ q → p = q := fun q hq h => (Nat.prime_dvd_prime_iff_eq hp hq).1 h
  rcases (Nat.Prime.dvd_mul hp).1 hd with h | h
  · exact Or.inl (one 3 (by norm_num) h)
  rcases (Nat.Prime.dvd_mul hp).1 h with h | h
  · exact Or.inr (Or.inl (one 5 (by norm_num) h))
  rcases (Nat.Prime.dvd_mul hp).1 h with h | h
  · exact Or.inr (Or.inr (Or.inl (one 17 (by norm_num) h)))
  rcases (Nat.Prime.dvd_mul hp).1 h with h | h
  · exact Or.inr (Or.inr (Or.inr (Or.inl (one 257 (by norm_num) h))))
  · exact Or.inr (Or.inr (Or.inr (Or.inr (one 65537 (by norm_num) h))))

/-- The generator polynomial is primitive: the powers of x repeat only after 2³²−1 steps. -/
theorem period : Function.minimalPeriod shiftStep 1#32 = 4294967295 := by
  have hN := (pw_iff _).1 pw_full
  obtain ⟨k, hk⟩ := hN
  by_cases h1 : k = 1
  · rw [hk, h1, Nat.mul_one]
  exfalso
  obtain ⟨p, hp, hpk⟩ := Nat.exists_prime_and_dvd h1
  obtain ⟨j, hj⟩ := hpk
  have hd : p ∣ 4294967295 := ⟨Function.minimalPeriod shiftStep 1#32 * j, by rw [hk, hj]; ring⟩
  have key : ∀ q, p * q = 4294967295 → pw q = 1#32 := by
    intro q hq
    refine (pw_iff q).2 ⟨j, ?_⟩
    apply Nat.eq_of_mul_eq_mul_left hp.pos
    rw [hq, hk, hj]; ring
  rcases prime_parts p hp hd with h | h | h | h | h
  · exact pw_third (key _ (by rw [h]))
  · exact pw_fifth (key _ (by rw [h]))
  · exact pw_17 (key _ (by rw [h]))
  · exact pw_257 (key _ (by rw [h]))
  · exact pw_65537 (key _ (by rw [h]))

theorem pw_ne_zero (n : Nat) : pw n ≠ 0#32 := fun h => absurd (shifts_eq_zero n _ h) (by decide)

/-- Every word other than zero is a power of x. -/
theorem is_pw (w : BitVec 32) (hw : w ≠ 0#32) : ∃ m, w = pw m := by
  generalize hN : (4294967295 : Nat) = N
  have hper : Function.minimalPeriod shiftStep 1#32 = N := by rw [period, hN]
  have hinj : Set.InjOn (fun i => (pw i).toNat) (Finset.range N) := by
    intro i hi j hj he
    have hi' : i < N := by simpa using hi
    have hj' : j < N := by simpa using hj
    have := Function.iterate_injOn_Iio_minimalPeriod (f := shiftStep) (x := 1#32)
    refine this (x₁ := i) (x₂ := j) (by rw [hper]; exact hi') (by rw [hper]; exact hj') ?_
    simp only [iterate_pw]
    exact BitVec.eq_of_toNat_eq he
  have hcard : ((Finset.range N).image fun i => (pw i).toNat).card = N := by
    rw [Finset.card_image_of_injOn hinj, Finset.card_range]
  have hsub : ((Finset.range N).image fun i => (pw i).toNat) ⊆ Finset.Icc 1 N := by
    intro v hv
    obtain ⟨i, _, rfl⟩ := Finset.mem_image.1 hv
    have h1 := (pw i).isLt
    have h2 : (pw i).toNat ≠ 0 := fun h => pw_ne_zero i (BitVec.eq_of_toNat_eq (by rw [h]; rfl))
    rw [Finset.mem_Icc]
    omega
  have heq := Finset.eq_of_subset_of_card_le hsub (by rw [hcard, Nat.card_Icc]; omega)
  have hmem : w.toNat ∈ Finset.Icc 1 N := by
    have h1 := w.isLt
    have h2 : w.toNat ≠ 0 := fun h => hw (BitVec.eq_of_toNat_eq (by rw [h]; rfl))
    rw [Finset.mem_Icc]
    omega
  rw [← heq] at hmem
  obtain ⟨m, _, hm⟩ := Finset.mem_image.1 hmem
  exact ⟨m, BitVec.eq_of_toNat_eq hm.symm⟩

theorem shifts_fixed (d : Nat) (w : BitVec 32) (hw : w ≠ 0#32) : shifts d w = w ↔ 4294967295 ∣ d := by
  obtain ⟨m, rfl⟩ := is_pw w hw
  have e : shifts d (pw m) = shifts m (pw d) := by
    unfold pw
    rw [← shifts_add, ← shifts_add, Nat.add_comm]
  rw [e, ← period, ← pw_iff]
  constructor
  · intro h; exact shifts_injective m _ _ h
  · intro h; rw [h]; rfl

/-! ## C136: what is noticed -/

/-- C136: two different files that agree outside some stretch of at most 32 bits, wherever in a byte
that stretch begins, never have the same checksum. -/
theorem C136_burst (a b : Bytes) (p u v r : List Bool) (ha : bits a = p ++ u ++ r) (hb : bits b = p ++ v ++ r)
    (hl : u.length = v.length) (h32 : u.length ≤ 32) (hne : u ≠ v) : memcrc a ≠ memcrc b := by
  rw [Ne, memcrc_eq_iff a b (length_of_bits a b (by rw [ha, hb]; simp [hl])), ha, hb,
    flips_append _ _ _ _ (by simp [hl]), flips_append _ _ _ _ rfl, flips_self, flips_self, feedBits_append,
    feedBits_append, feedBits_false, feedBits_false]
  intro hz
  have hz := shifts_eq_zero _ _ hz
  have e : shifts p.length 0#32 = 0#32 := by simpa using shifts_if p.length false 0#32
  rw [e] at hz
  exact burst_ne _ (by rw [flips_length _ _ hl]; exact h32) (flips_ne u v hl hne) hz

/-- C136: when the same damage of at most 32 bits happens twice, the checksum misses it exactly when
the two places lie a multiple of 2³²−1 bits apart. -/
theorem C136_twice (a b : Bytes) (p u u' q v v' r : List Bool)
    (ha : bits a = p ++ u ++ q ++ v ++ r) (hb : bits b = p ++ u' ++ q ++ v' ++ r)
    (hu : u.length = u'.length) (hv : v.length = v'.length) (h32 : u.length ≤ 32) (hne : u ≠ u')
    (hsame : flips u u' = flips v v') :
    memcrc a = memcrc b ↔ 4294967295 ∣ u.length + q.length := by
  have hlen : u.length = v.length := by rw [← flips_length u u' hu, hsame, flips_length v v' hv]
  have e : shifts p.length 0#32 = 0#32 := by simpa using shifts_if p.length false 0#32
  have hd : (flips v v').length = u.length := by rw [flips_length v v' hv, hlen]
  have hbn : feedBits 0#32 (flips v v') ≠ 0#32 := by
    rw [← hsame]
    exact burst_ne _ (by rw [flips_length _ _ hu]; exact h32) (flips_ne u u' hu hne)
  rw [memcrc_eq_iff a b (length_of_bits a b (by rw [ha, hb]; simp [hu, hv])), ha, hb,
    flips_append _ _ _ _ (by simp [hu, hv]), flips_append _ _ _ _ (by simp [hu]), flips_append _ _ _ _ (by simp [hu]),
    flips_append _ _ _ _ rfl, flips_self, flips_self, flips_self, feedBits_append, feedBits_append, feedBits_append,
    feedBits_append, feedBits_false, feedBits_false, feedBits_false, e, hsame, feedBits_zero (flips v v') (shifts _ _),
    hd, ← shifts_fixed _ _ hbn, ← shifts_add]
  generalize feedBits 0#32 (flips v v') = D
  constructor
  · intro h; exact BitVec.xor_eq_zero_iff.1 (shifts_eq_zero _ _ h)
  · intro h
    rw [h, BitVec.xor_self]
    simpa using shifts_if r.length false 0#32

/-- C136: flipping any two bits of a file is missed exactly when they lie a multiple of 2³²−1 bits
(512 MiB) apart, so never in a shorter file. -/
theorem C136_two_bits (a b : Bytes) (p q r : List Bool) (x y : Bool)
    (ha : bits a = p ++ [x] ++ q ++ [y] ++ r) (hb : bits b = p ++ [!x] ++ q ++ [!y] ++ r) :
    memcrc a = memcrc b ↔ 4294967295 ∣ q.length + 1 := by
  rw [C136_twice a b p [x] [!x] q [y] [!y] r ha hb rfl rfl (by simp) (by cases x <;> simp)
    (by cases x <;> cases y <;> rfl), Nat.add_comm]
  rfl

/-- C136: exchanging two different words of at most 32 bits is missed exactly when they lie a multiple
of 2³²−1 bits apart. -/
theorem C136_exchange (a b : Bytes) (p u q v r : List Bool)
    (ha : bits a = p ++ u ++ q ++ v ++ r) (hb : bits b = p ++ v ++ q ++ u ++ r)
    (hl : u.length = v.length) (h32 : u.length ≤ 32) (hne : u ≠ v) :
    memcrc a = memcrc b ↔ 4294967295 ∣ u.length + q.length := by
  refine C136_twice a b p u v q v u r ha hb hl hl.symm h32 hne ?_
  exact List.zipWith_comm_of_comm (fun x y => Bool.xor_comm x y)

/-- C136: in a file of less than 512 MiB any one or two flipped bits change the checksum. -/
theorem C136_short_file (a b : Bytes) (hs : a.length < 536870912) (p q r : List Bool) (x y : Bool)
    (ha : bits a = p ++ [x] ++ q ++ [y] ++ r) (hb : bits b = p ++ [!x] ++ q ++ [!y] ++ r) :
    memcrc a ≠ memcrc b := by
  rw [Ne, C136_two_bits a b p q r x y ha hb]
  have := congrArg List.length ha
  rw [bits_length] at this
  simp only [List.length_append, List.length_cons, List.length_nil] at this
  rintro ⟨k, hk⟩
  have : k ≠ 0 := by rintro rfl; omega
  have : 4294967295 * 1 ≤ 4294967295 * k := Nat.mul_le_mul_left _ (by omega)
  omega

theorem not_apart (a u q v r : Nat) (hpos : 0 < u) (hs : a + u + q + v + r < 536870912)
    (hd : 4294967295 ∣ 8 * u + 8 * q) : False := by
  have h0 : 0 < 8 * u + 8 * q := by clear hd; omega
  have := Nat.le_of_dvd h0 hd
  clear hd
  omega

/-- C136: exchanging two different words of four bytes, at any two places of a file shorter than
512 MiB, changes the checksum. -/
theorem C136_words_exchanged (pre u mid v post : Bytes) (hu : u.length = v.length) (h4 : u.length ≤ 4) (hne : u ≠ v)
    (hs : (pre ++ u ++ mid ++ v ++ post).length < 536870912) :
    memcrc (pre ++ u ++ mid ++ v ++ post) ≠ memcrc (pre ++ v ++ mid ++ u ++ post) := by
  have hb : bits u ≠ bits v := by
    intro h
    have hz : shifts (bits v).length 0#32 = 0#32 := by simpa using shifts_if (bits v).length false 0#32
    have := (memcrc_eq_iff u v hu).2 (by rw [h, flips_self, feedBits_false]; exact hz)
    have hd := C38_burst_detected [] u v [] hu h4 hne
    simp only [List.nil_append, List.append_nil] at hd
    exact hd this
  intro hmc
  have hdvd := (C136_exchange _ _ (bits pre) (bits u) (bits mid) (bits v) (bits post) (by simp only [bits_append])
    (by simp only [bits_append]) (by rw [bits_length, bits_length, hu]) (by rw [bits_length]; omega) hb).1 hmc
  rw [bits_length, bits_length] at hdvd
  have hun : u ≠ [] := by
    intro h
    subst h
    exact hne (List.length_eq_zero_iff.1 hu.symm).symm
  have hpos : 0 < u.length := List.length_pos_iff.2 hun
  simp only [List.length_append] at hs
  exact not_apart _ _ _ _ _ hpos hs hdvd

/-- C136: the limit is sharp. Of two files of 512 MiB, one all zero and the other with only its very
first and very last bits set, the checksums are equal. -/
theorem C136_missed (n : Nat) (hn : n = 536870910) :
    memcrc ([0x80] ++ List.replicate n 0 ++ [1]) = memcrc ([0] ++ List.replicate n 0 ++ [0]) := by
  have h80 : bits [0x80] = [true] ++ List.replicate 7 false := by decide
  have h1 : bits [1] = List.replicate 7 false ++ [true] := by decide
  have h0 : bits [0] = [false] ++ List.replicate 7 false := by decide
  have h0' : bits [0] = List.replicate 7 false ++ [false] := by decide
  refine (C136_two_bits _ _ [] (List.replicate 7 false ++ bits (List.replicate n 0) ++ List.replicate 7 false) []
    true true ?_ ?_).2 ?_
  · rw [bits_append, bits_append, h80, h1]
    simp only [List.append_assoc, List.nil_append, List.append_nil]
  · rw [bits_append, bits_append]
    conv_lhs => arg 1; arg 1; rw [h0]
    conv_lhs => arg 2; rw [h0']
    simp only [List.append_assoc, List.nil_append, List.append_nil, Bool.not_true]
  · refine ⟨1, ?_⟩
    rw [List.length_append, List.length_append, bits_length, List.length_replicate, List.length_replicate]
    omega

-- one bit in the first byte and one in the last: "abc" becomes "!bb"
example : memcrc b!"abc" ≠ memcrc b!"!bb" :=
  C136_short_file b!"abc" b!"!bb" (by decide) [false] ([true, false, false, false, false, true] ++ bits b!"b" ++
    [false, true, true, false, false, false, true]) [] true true (by decide) (by decide)

-- a burst across a byte boundary, not starting with a byte
example : memcrc b!"abc" ≠ memcrc b!"aac" :=
  C136_burst b!"abc" b!"aac" (bits b!"a" ++ [false, true]) [true, false, false, false, true, false, false]
    [true, false, false, false, false, true, false] [true, true, false, false, false, true, true]
    (by decide) (by decide) rfl (by decide) (by decide)

example : memcrc b!"from one to two" ≠ memcrc b!"from two to one" :=
  C136_words_exchanged b!"from " b!"one" b!" to " b!"two" [] rfl (by decide) (by decide) (by decide)

/-! ## C137: every checksum is reached -/

/-- The four bytes of a word, high byte first. -/
def wordBytes (w : BitVec 32) : Bytes :=
  [⟨(w >>> 24).setWidth 8⟩, ⟨(w >>> 16).setWidth 8⟩, ⟨(w >>> 8).setWidth 8⟩, ⟨w.setWidth 8⟩]

theorem wordBytes_injective (v w : BitVec 32) (h : wordBytes v = wordBytes w) : v = w := by
  simp only [wordBytes, List.cons.injEq, UInt8.ofBitVec.injEq, and_true] at h
  obtain ⟨h3, h2, h1, h0⟩ := h
  apply BitVec.eq_of_getLsbD_eq
  intro i hi
  have g : ∀ (k : Nat), (v >>> k).setWidth 8 = (w >>> k).setWidth 8 → ∀ j, j < 8 → v.getLsbD (k + j) = w.getLsbD (k + j) := by
    intro k hk j hj
    have := congrArg (fun x : BitVec 8 => x.getLsbD j) hk
    simpa [hj] using this
  have g0 : (v >>> 0).setWidth 8 = (w >>> 0).setWidth 8 := by simpa using h0
  rcases Nat.lt_or_ge i 8 with a | a
  · have := g 0 g0 i a; simpa using this
  rcases Nat.lt_or_ge i 16 with b | b
  · have := g 8 h1 (i - 8) (by omega); rwa [show 8 + (i - 8) = i by omega] at this
  rcases Nat.lt_or_ge i 24 with c | c
  · have := g 16 h2 (i - 16) (by omega); rwa [show 16 + (i - 16) = i by omega] at this
  · have := g 24 h3 (i - 24) (by omega); rwa [show 24 + (i - 24) = i by omega] at this

/-- C137: whatever surrounds them, four bytes can be chosen to give a file any checksum at all, and in
exactly one way. -/
theorem C137_forge (pre post : Bytes) (c : BitVec 32) :
    ∃ w : Bytes, w.length = 4 ∧ memcrc (pre ++ w ++ post) = c ∧
      ∀ w' : Bytes, w'.length = 4 → memcrc (pre ++ w' ++ post) = c → w' = w := by
  have hinj : Function.Injective fun w : BitVec 32 => memcrc (pre ++ wordBytes w ++ post) := by
    intro v w h
    by_contra hne
    exact C38_burst_detected pre (wordBytes v) (wordBytes w) post rfl (by simp [wordBytes])
      (fun e => hne (wordBytes_injective v w e)) h
  have hfin : Finite (BitVec 32) := Finite.of_injective BitVec.toFin (fun a b h => BitVec.eq_of_toFin_eq h)
  obtain ⟨w, hw⟩ := Finite.surjective_of_injective hinj c
  refine ⟨wordBytes w, rfl, hw, ?_⟩
  intro w' hl hc
  by_contra hne
  exact C38_burst_detected pre w' (wordBytes w) post (by simp [hl, wordBytes]) (by omega) hne (hc.trans hw.symm)

/-- C137: so every checksum belongs to some file of every length from four bytes on. -/
theorem C137_every_length (n : Nat) (c : BitVec 32) : ∃ a : Bytes, a.length = n + 4 ∧ memcrc a = c := by
  obtain ⟨w, hl, hc, _⟩ := C137_forge (List.replicate n 0) [] c
  exact ⟨List.replicate n 0 ++ w ++ [], by simp [hl], hc⟩

/-- C137: below five bytes no two files of one length share a checksum. -/
theorem C137_short_differ (a b : Bytes) (hl : a.length = b.length) (h4 : a.length ≤ 4) (hne : a ≠ b) :
    memcrc a ≠ memcrc b := by
  have := C38_burst_detected [] a b [] hl h4 hne
  simpa using this

-- the four bytes that make "hello" end with checksum zero
example : ∃ w : Bytes, w.length = 4 ∧ memcrc (b!"hello" ++ w ++ b!"\n") = 0#32 := by
  obtain ⟨w, h, hc, _⟩ := C137_forge b!"hello" b!"\n" 0#32
  exact ⟨w, h, hc⟩

end Cksum
