import Verif.Cksum.Spec
import Verif.Cksum.Lemmas
import Mathlib.Tactic.Ring
import Mathlib.Tactic.ComputeDegree

/-! # C36–C39: cksum -/

namespace Cksum
open Go Polynomial

theorem two_zero (p : (ZMod 2)[X]) : p + p = 0 := CharTwo.add_self_eq_zero p

theorem bitsPoly_xor {w : Nat} (a b : BitVec w) : bitsPoly (a ^^^ b) = bitsPoly a + bitsPoly b := by
  unfold bitsPoly
  rw [← Finset.sum_add_distrib]
  apply Finset.sum_congr rfl
  intro i _
  rw [BitVec.getLsbD_xor]
  cases a.getLsbD i <;> cases b.getLsbD i <;> simp [two_zero]

theorem bitsPoly_zero (w : Nat) : bitsPoly (0#w) = 0 := by
  unfold bitsPoly
  simp

theorem bitsPoly_poly : bitsPoly poly = G + X ^ 32 := by
  have hbits : ∀ i : Fin 32, poly.getLsbD i.val =
      decide (i.val ∈ [26, 23, 22, 16, 12, 11, 10, 8, 7, 5, 4, 2, 1, 0]) := by decide
  unfold bitsPoly
  have : ∀ i ∈ Finset.range 32, (if poly.getLsbD i then (X : (ZMod 2)[X]) ^ i else 0) =
      if i ∈ [26, 23, 22, 16, 12, 11, 10, 8, 7, 5, 4, 2, 1, 0] then X ^ i else 0 := by
    intro i hi
    have := hbits ⟨i, Finset.mem_range.1 hi⟩
    simp only at this
    rw [this]
    simp only [decide_eq_true_eq]
  rw [Finset.sum_congr rfl this]
  simp only [Finset.sum_range_succ, Finset.sum_range_zero]
  simp [G]
  have h := two_zero (X ^ 32)
  calc _ = (X ^ 32 + X ^ 32 : (ZMod 2)[X]) + (1 + X + X ^ 2 + X ^ 4 + X ^ 5 + X ^ 7 + X ^ 8 + X ^ 10 + X ^ 11 +
        X ^ 12 + X ^ 16 + X ^ 22 + X ^ 23 + X ^ 26) := by rw [h]; ring
    _ = _ := by ring

theorem bitsPoly_shift (s : BitVec 32) :
    bitsPoly (s <<< 1) = X * bitsPoly s + (if s.msb then X ^ 32 else 0) := by
  unfold bitsPoly
  rw [Finset.sum_range_succ' _ 31, Finset.sum_range_succ _ 31, mul_add, Finset.mul_sum]
  have h0 : (if (s <<< 1).getLsbD 0 then (X : (ZMod 2)[X]) ^ 0 else 0) = 0 := by simp
  rw [h0, add_zero]
  have h1 : ∀ i ∈ Finset.range 31, (if (s <<< 1).getLsbD (i + 1) then (X : (ZMod 2)[X]) ^ (i + 1) else 0) =
      X * (if s.getLsbD i then X ^ i else 0) := by
    intro i hi
    have := Finset.mem_range.1 hi
    have e : (s <<< 1).getLsbD (i + 1) = s.getLsbD i := by
      rw [BitVec.getLsbD_shiftLeft]; simp; omega
    rw [e]
    split <;> simp [pow_succ']
  rw [Finset.sum_congr rfl h1]
  have h2 : s.msb = s.getLsbD 31 := BitVec.msb_eq_getLsbD_last s
  rw [h2]
  have h3 : X * (if s.getLsbD 31 then (X : (ZMod 2)[X]) ^ 31 else 0) + (if s.getLsbD 31 then X ^ 32 else 0) = 0 := by
    split
    · rw [← pow_succ']; exact two_zero _
    · simp
  rw [add_assoc, h3, add_zero]

/-- One bit step multiplies by X modulo G. -/
theorem shiftStep_dvd (s : BitVec 32) : G ∣ X * bitsPoly s - bitsPoly (shiftStep s) := by
  unfold shiftStep
  rw [bitsPoly_xor, bitsPoly_shift]
  cases s.msb
  · simp [bitsPoly_zero]
  · simp only [if_true, bitsPoly_poly]
    refine ⟨1, ?_⟩
    have h1 := two_zero (X ^ 32)
    have h2 := two_zero G
    have : X * bitsPoly s - (X * bitsPoly s + X ^ 32 + (G + X ^ 32)) = - (X ^ 32 + X ^ 32) - G := by ring
    rw [this, h1, mul_one, neg_zero, zero_sub]
    exact neg_eq_of_add_eq_zero_left h2

theorem shifts_dvd (n : Nat) (s : BitVec 32) : G ∣ X ^ n * bitsPoly s - bitsPoly (shifts n s) := by
  induction n with
  | zero => simp [shifts]
  | succ n ih =>
    have h1 := shiftStep_dvd (shifts n s)
    have h2 := Dvd.dvd.mul_left ih X
    have := dvd_add h1 h2
    have e : X * bitsPoly (shifts n s) - bitsPoly (shiftStep (shifts n s)) +
        X * (X ^ n * bitsPoly s - bitsPoly (shifts n s)) =
        X ^ (n + 1) * bitsPoly s - bitsPoly (shifts (n + 1) s) := by
      simp only [shifts]; ring
    rwa [e] at this

theorem bitsPoly_high (c : BitVec 8) : bitsPoly (high c) = X ^ 24 * bitsPoly c := by
  unfold bitsPoly
  have hsplit : ∀ f : Nat → (ZMod 2)[X], ∑ i ∈ Finset.range 32, f i =
      ∑ i ∈ Finset.range 24, f i + ∑ i ∈ Finset.range 8, f (24 + i) := fun f => Finset.sum_range_add f 24 8
  rw [hsplit, Finset.mul_sum]
  have h1 : ∑ i ∈ Finset.range 24, (if (high c).getLsbD i then (X : (ZMod 2)[X]) ^ i else 0) = 0 := by
    apply Finset.sum_eq_zero
    intro i hi
    have := Finset.mem_range.1 hi
    have : (high c).getLsbD i = false := by
      unfold high; rw [BitVec.getLsbD_shiftLeft]; simp [this]
    simp [this]
  rw [h1, zero_add]
  apply Finset.sum_congr rfl
  intro i hi
  have hi := Finset.mem_range.1 hi
  have : (high c).getLsbD (24 + i) = c.getLsbD i := by
    unfold high; rw [BitVec.getLsbD_shiftLeft]; simp [show 24 + i < 32 by omega, show i < 32 by omega]
  rw [this]
  split <;> simp [pow_add]

theorem step_dvd (s : BitVec 32) (c : BitVec 8) :
    G ∣ (X ^ 8 * bitsPoly s + X ^ 32 * bitsPoly c) - bitsPoly (step s c) := by
  rw [step_eq]
  have := shifts_dvd 8 (s ^^^ high c)
  rw [bitsPoly_xor, bitsPoly_high] at this
  have e : X ^ 8 * (bitsPoly s + X ^ 24 * bitsPoly c) = X ^ 8 * bitsPoly s + X ^ 32 * bitsPoly c := by ring
  rwa [e] at this

theorem feed_dvd (cs : Bytes) : ∀ s, G ∣
    (X ^ (8 * cs.length) * bitsPoly s + X ^ 32 * octetsPoly cs) - bitsPoly (feed s cs) := by
  induction cs with
  | nil => intro s; simp [octetsPoly, feed]
  | cons c cs ih =>
    intro s
    have h1 := ih (step s c.toBitVec)
    have h2 := Dvd.dvd.mul_left (step_dvd s c.toBitVec) (X ^ (8 * cs.length))
    have := dvd_add h1 h2
    have e : X ^ (8 * cs.length) * bitsPoly (step s c.toBitVec) + X ^ 32 * octetsPoly cs -
          bitsPoly (feed (step s c.toBitVec) cs) +
        X ^ (8 * cs.length) * (X ^ 8 * bitsPoly s + X ^ 32 * bitsPoly c.toBitVec - bitsPoly (step s c.toBitVec)) =
        X ^ (8 * (c :: cs).length) * bitsPoly s + X ^ 32 * octetsPoly (c :: cs) -
          bitsPoly (feed s (c :: cs)) := by
      simp only [octetsPoly, List.length_cons, feed, List.foldl_cons]
      ring
    rwa [e] at this

theorem feed_append (s : BitVec 32) (a b : Bytes) : feed s (a ++ b) = feed (feed s a) b := by
  simp [feed]

theorem feedLen_eq (n : Nat) : ∀ s, feedLen s n = feed s (lengthOctets n) := by
  induction n using Nat.strong_induction_on with
  | _ n ih =>
    intro s
    rw [feedLen]
    split
    · next h => subst h; simp [lengthOctets, feed]
    · next h =>
      rw [ih (n / 256) (by omega)]
      have : lengthOctets n = UInt8.ofNat (n % 256) :: lengthOctets (n / 256) := by
        unfold lengthOctets
        rw [Nat.digits_def' (by decide) (by omega)]
        rfl
      rw [this]
      simp only [feed, List.foldl_cons]
      congr 2
      apply BitVec.eq_of_toNat_eq
      simp

theorem G_natDegree : G.natDegree = 32 := by
  unfold G; compute_degree!

theorem G_monic : G.Monic := by
  unfold G; monicity!

theorem bitsPoly_degree (v : BitVec 32) : (bitsPoly v).degree < 32 := by
  unfold bitsPoly
  apply lt_of_le_of_lt (degree_sum_le _ _)
  rw [Finset.sup_lt_iff (by decide)]
  intro i hi
  have := Finset.mem_range.1 hi
  split
  · rw [degree_X_pow]; exact_mod_cast this
  · simp; decide

/-- C36: the complement of the checksum is the remainder of (message, length octets)·x^32 divided by
the generator polynomial over GF(2). -/
theorem C36_posix_crc (m : Bytes) :
    bitsPoly (~~~ memcrc m) = (octetsPoly (m ++ lengthOctets m.length) * X ^ 32) %ₘ G := by
  have h := feed_dvd (m ++ lengthOctets m.length) 0#32
  rw [bitsPoly_zero, mul_zero, zero_add] at h
  have hs : ~~~ memcrc m = feed 0 (m ++ lengthOctets m.length) := by
    unfold memcrc
    rw [BitVec.not_not, feed_append, feedLen_eq]
  rw [hs]
  have h1 : (X ^ 32 * octetsPoly (m ++ lengthOctets m.length)) %ₘ G =
      bitsPoly (feed 0 (m ++ lengthOctets m.length)) %ₘ G := modByMonic_eq_of_dvd_sub G_monic h
  rw [mul_comm, h1]
  symm
  rw [modByMonic_eq_self_iff G_monic]
  rw [degree_eq_natDegree G_monic.ne_zero, G_natDegree]
  exact bitsPoly_degree _

/-- A checksum determines its polynomial and conversely, so C36 pins every bit of `memcrc`. -/
theorem C36_bits_determined (u v : BitVec 32) (h : bitsPoly u = bitsPoly v) : u = v := by
  have hc : ∀ (w : BitVec 32) (i : Nat), i < 32 → (bitsPoly w).coeff i = if w.getLsbD i then 1 else 0 := by
    intro w i hi
    unfold bitsPoly
    rw [finsetSum_coeff, Finset.sum_eq_single i]
    · split <;> simp
    · intro j _ hj
      split
      · rw [coeff_X_pow, if_neg (fun e => hj e.symm)]
      · simp
    · intro hn; exact absurd (Finset.mem_range.2 hi) hn
  apply BitVec.eq_of_getLsbD_eq
  intro i hi
  have := congrArg (fun p => p.coeff i) h
  simp only [hc _ i hi] at this
  cases hu : u.getLsbD i <;> cases hv : v.getLsbD i <;> simp_all

example : lengthOctets 300 = [44, 1] ∧ memcrc b!"123456789" = 930766865#32 := by
  constructor
  · simp [lengthOctets]
  · decide +kernel

/-- C37: every table entry is the remainder of (index)·x^32; the table has exactly 256 entries. -/
theorem C37_table : crctab.length = 256 ∧
    ∀ i : BitVec 8, bitsPoly (tab i) = (bitsPoly i * X ^ 32) %ₘ G := by
  refine ⟨crctab_length, fun i => ?_⟩
  have h := shifts_dvd 8 (high i)
  rw [← tab_eq, bitsPoly_high] at h
  have e : X ^ 8 * (X ^ 24 * bitsPoly i) = bitsPoly i * X ^ 32 := by ring
  rw [e] at h
  rw [modByMonic_eq_of_dvd_sub G_monic h]
  symm
  rw [modByMonic_eq_self_iff G_monic, degree_eq_natDegree G_monic.ne_zero, G_natDegree]
  exact bitsPoly_degree _

/-! ## Error detection -/

theorem high_xor (x y : UInt8) : high (x ^^^ y).toBitVec = high x.toBitVec ^^^ high y.toBitVec := by
  unfold high
  rw [UInt8.toBitVec_xor, ← BitVec.shiftLeft_xor_distrib, BitVec.setWidth_xor]

theorem xor_swap (s hx t hy : BitVec 32) : (s ^^^ hx) ^^^ (t ^^^ hy) = (s ^^^ t) ^^^ (hx ^^^ hy) := by
  rw [BitVec.xor_assoc, BitVec.xor_assoc, ← BitVec.xor_assoc hx t hy, BitVec.xor_comm hx t,
    BitVec.xor_assoc t hx hy]

theorem feed_cons (u : BitVec 32) (c : UInt8) (cs : Bytes) : feed u (c :: cs) = feed (step u c.toBitVec) cs := by
  simp only [feed, List.foldl_cons]

/-- The difference of two registers, fed with the difference of the bytes. -/
theorem feed_xor (a b : Bytes) (hl : a.length = b.length) : ∀ s t,
    feed s a ^^^ feed t b = feed (s ^^^ t) (a.zipWith (· ^^^ ·) b) := by
  induction a generalizing b with
  | nil =>
    intro s t
    have : b = [] := List.length_eq_zero_iff.1 hl.symm
    subst this; rfl
  | cons x a ih =>
    intro s t
    cases b with
    | nil => simp at hl
    | cons y b =>
      have ih := ih b (by simpa using hl) (step s x.toBitVec) (step t y.toBitVec)
      rw [List.zipWith_cons_cons, feed_cons, feed_cons, feed_cons, ih]
      refine congrArg (feed · _) ?_
      rw [step_eq, step_eq, step_eq, ← shifts_xor]
      refine congrArg (shifts 8) ?_
      rw [high_xor]
      exact xor_swap _ _ _ _

/-- Bytes loaded into a word, first byte on top. -/
def load : Bytes → BitVec 32
  | [] => 0
  | d :: ds => high d.toBitVec ^^^ (load ds >>> 8)

theorem load_low (ds : Bytes) (h : ds.length ≤ 4) : ∀ i, i < 8 * (4 - ds.length) → (load ds).getLsbD i = false := by
  induction ds with
  | nil => intro i _; simp [load]
  | cons d ds ih =>
    intro i hi
    simp only [List.length_cons] at h hi
    simp only [load, high, BitVec.getLsbD_xor, BitVec.getLsbD_shiftLeft, BitVec.getLsbD_ushiftRight]
    have := ih (by omega) (8 + i) (by omega)
    rw [this]
    have h24 : i < 24 := by omega
    simp [h24]

theorem shifts_add (m n : Nat) (s : BitVec 32) : shifts (m + n) s = shifts m (shifts n s) := by
  induction m with
  | zero => simp [shifts]
  | succ m ih => rw [Nat.add_right_comm]; simp only [shifts, ih]

theorem shifts_unload (x : BitVec 32) (h : ∀ i, i < 8 → x.getLsbD i = false) : shifts 8 (x >>> 8) = x := by
  rw [shifts_low (x >>> 8) 8 (by omega)]
  · ext i hi
    simp only [BitVec.getElem_shiftLeft, BitVec.getElem_ushiftRight]
    by_cases h8 : i < 8
    · have := h i h8
      rw [BitVec.getLsbD_eq_getElem hi] at this
      simp [h8, this]
    · simp [h8, show 8 + (i - 8) = i by omega]
      rw [BitVec.getLsbD_eq_getElem]
  · intro i hi
    rw [BitVec.getLsbD_ushiftRight]
    exact BitVec.getLsbD_of_ge _ _ (by omega)

theorem feed_load (ds : Bytes) (h : ds.length ≤ 4) : ∀ s, feed s ds = shifts (8 * ds.length) (s ^^^ load ds) := by
  induction ds with
  | nil => intro s; simp [feed, load, shifts]
  | cons d ds ih =>
    intro s
    simp only [List.length_cons] at h
    have e : feed s (d :: ds) = feed (step s d.toBitVec) ds := rfl
    rw [e, ih (by omega), step_eq]
    have hl : shifts 8 (load ds >>> 8) = load ds :=
      shifts_unload _ (fun i hi => load_low ds (by omega) i (by omega))
    have : shifts 8 (s ^^^ high d.toBitVec) ^^^ load ds = shifts 8 (s ^^^ load (d :: ds)) := by
      conv_lhs => rw [← hl, ← shifts_xor]
      rw [load, BitVec.xor_assoc]
    rw [this, ← shifts_add]
    rfl

theorem load_eq_zero (ds : Bytes) (h : ds.length ≤ 4) (hz : load ds = 0#32) : ∀ d ∈ ds, d = 0 := by
  induction ds with
  | nil => simp
  | cons d ds ih =>
    simp only [List.length_cons] at h
    simp only [load] at hz
    have hd : d = 0 := by
      apply UInt8.eq_of_toBitVec_eq
      apply BitVec.eq_of_getLsbD_eq
      intro i hi
      have := congrArg (fun v : BitVec 32 => v.getLsbD (24 + i)) hz
      simp only [high, BitVec.getLsbD_xor, BitVec.getLsbD_shiftLeft, BitVec.getLsbD_ushiftRight] at this
      rw [BitVec.getLsbD_of_ge (load ds) _ (by omega)] at this
      have h32 : 24 + i < 32 := by omega
      have h32' : i < 32 := by omega
      simpa [h32, h32'] using this
    have hds : load ds = 0#32 := by
      apply BitVec.eq_of_getLsbD_eq
      intro i hi
      by_cases h8 : i < 8
      · rw [load_low ds (by omega) i (by omega)]; simp
      · have := congrArg (fun v : BitVec 32 => v.getLsbD (i - 8)) hz
        simp only [high, BitVec.getLsbD_xor, BitVec.getLsbD_shiftLeft, BitVec.getLsbD_ushiftRight] at this
        rw [show 8 + (i - 8) = i by omega] at this
        have h24 : i - 8 < 24 := by omega
        simpa [h24] using this
    intro x hx
    rcases List.mem_cons.1 hx with rfl | hx
    · exact hd
    · exact ih (by omega) hds x hx

theorem zipWith_xor_self (a : Bytes) : a.zipWith (· ^^^ ·) a = List.replicate a.length 0 := by
  induction a with
  | nil => rfl
  | cons x a ih => simp [ih, List.replicate_succ]

theorem feed_zeros (n : Nat) : ∀ s, feed s (List.replicate n 0) = shifts (8 * n) s := by
  induction n with
  | zero => intro s; simp [feed, shifts]
  | succ n ih =>
    intro s
    have e : feed s (List.replicate (n + 1) 0) = feed (step s 0#8) (List.replicate n 0) := rfl
    rw [e, ih, step_eq]
    have : high 0#8 = 0#32 := by decide
    rw [this, BitVec.xor_zero, ← shifts_add]
    rfl

/-- C38: two files of the same length whose differences lie within a window of four bytes always have
different checksums. -/
theorem C38_burst_detected (pre w w' post : Bytes) (hl : w.length = w'.length) (h4 : w.length ≤ 4)
    (hne : w ≠ w') : memcrc (pre ++ w ++ post) ≠ memcrc (pre ++ w' ++ post) := by
  intro he
  have hlen : (pre ++ w ++ post).length = (pre ++ w' ++ post).length := by simp [hl]
  have h1 : feed 0 (pre ++ w ++ post ++ lengthOctets (pre ++ w ++ post).length) =
      feed 0 (pre ++ w' ++ post ++ lengthOctets (pre ++ w ++ post).length) := by
    have := congrArg (~~~ ·) he
    simp only [memcrc, BitVec.not_not, feedLen_eq] at this
    rw [feed_append, feed_append (0 : BitVec 32) (pre ++ w' ++ post), this, ← hlen]
  generalize lengthOctets (pre ++ w ++ post).length = lo at h1
  rw [List.append_assoc, List.append_assoc, List.append_assoc, List.append_assoc, feed_append,
    feed_append _ pre, feed_append, feed_append _ w'] at h1
  generalize feed 0 pre = s at h1
  have h2 : feed s w ^^^ feed s w' = 0#32 := by
    have hx : feed (feed s w) (post ++ lo) ^^^ feed (feed s w') (post ++ lo) = 0#32 := by
      rw [h1, BitVec.xor_self]
    rw [feed_xor _ _ rfl, zipWith_xor_self, feed_zeros] at hx
    exact shifts_eq_zero _ _ hx
  rw [feed_xor _ _ hl, BitVec.xor_self, feed_load _ (by simp; omega), BitVec.zero_xor] at h2
  have h3 := load_eq_zero _ (by simp; omega) (shifts_eq_zero _ _ h2)
  apply hne
  apply List.ext_getElem hl
  intro i hi hi'
  have hm : w[i] ^^^ w'[i] ∈ w.zipWith (· ^^^ ·) w' := by
    have : i < (w.zipWith (· ^^^ ·) w').length := by simp; omega
    have hmem := List.getElem_mem this
    simpa using hmem
  have := h3 _ hm
  exact UInt8.xor_eq_zero_iff.1 this

/-- C38: in particular, changing one byte always changes the checksum. -/
theorem C38_single_byte (pre post : Bytes) (x y : UInt8) (h : x ≠ y) :
    memcrc (pre ++ x :: post) ≠ memcrc (pre ++ y :: post) := by
  have := C38_burst_detected pre [x] [y] post rfl (by simp) (by simpa using h)
  simpa using this

example : memcrc b!"hello, wxyzd" ≠ memcrc b!"hello, worzd" :=
  C38_burst_detected b!"hello, w" b!"xy" b!"or" b!"zd" rfl (by decide) (by decide)

/-! ## The command -/

/-- The line a user expects for an operand: the checksum as a number, the size, the name. -/
def expectedLine (name content : Bytes) : Bytes :=
  itoa (memcrc content).toNat ++ b!" " ++ itoa content.length ++ b!" " ++ name ++ b!"\n"

theorem line_eq (content name : Bytes) : line content name = expectedLine name content := by
  unfold line expectedLine itoa
  rw [if_neg (by omega), if_neg (by omega)]
  simp

/-- What an operand reads: standard input for `-`, which is empty after its first use. -/
def contentOf (fs : FS) (stdin : Bytes) (before : List Bytes) (f : Bytes) : Option Bytes :=
  if f = b!"-" then some (if b!"-" ∈ before then [] else stdin) else fs f

/-- An operand that can be opened and read to its end. -/
def Readable (fs : FS) (er : Errors) (f : Bytes) : Prop := (f = b!"-" ∨ ∃ c, fs f = some c) ∧ er.readErr f = none

/-- What is printed for an operand that cannot, with status 1. -/
inductive Complaint (fs : FS) (er : Errors) (f : Bytes) : Bytes → Prop
  | opening : f ≠ b!"-" → fs f = none → Complaint fs er f (b!"couldn't open file " ++ er.openErr f)
  | reading {e : Bytes} : (f = b!"-" ∨ ∃ c, fs f = some c) → er.readErr f = some e → Complaint fs er f (b!"couldn't read input " ++ e)

/-- Every operand is one or the other. -/
theorem readable_or_not (fs : FS) (er : Errors) (f : Bytes) : Readable fs er f ∨ ∃ msg, Complaint fs er f msg := by
  by_cases hf : f = b!"-"
  · cases he : er.readErr f with
    | none => exact .inl ⟨.inl hf, he⟩
    | some e => exact .inr ⟨_, .reading (.inl hf) he⟩
  · cases hc : fs f with
    | none => exact .inr ⟨_, .opening hf hc⟩
    | some c =>
      cases he : er.readErr f with
      | none => exact .inl ⟨.inr ⟨c, hc⟩, he⟩
      | some e => exact .inr ⟨_, .reading (.inr ⟨c, hc⟩) he⟩

theorem runAll_ok (fs : FS) (er : Errors) (stdin : Bytes) (files : List Bytes) : ∀ before,
    (∀ f ∈ files, Readable fs er f) →
    runAll fs er (if b!"-" ∈ before then [] else stdin) files =
      { stdout := (files.zipIdx.map fun p =>
          expectedLine p.1 ((contentOf fs stdin (before ++ files.take p.2) p.1).getD [])).flatten,
        stderr := [], exit := 0 } := by
  induction files with
  | nil => intro before _; simp [runAll]
  | cons f files ih =>
    intro before h
    have ih := ih (before ++ [f]) (fun g hg => h g (by simp [hg]))
    have htail : (files.zipIdx.map fun p => expectedLine p.1
          ((contentOf fs stdin (before ++ [f] ++ files.take p.2) p.1).getD [])) =
        ((files.zipIdx 1).map fun p => expectedLine p.1
          ((contentOf fs stdin (before ++ (f :: files).take p.2) p.1).getD [])) := by
      rw [List.zipIdx_succ, List.map_map]
      apply List.map_congr_left
      intro p _
      simp
    rw [htail] at ih
    rw [List.zipIdx_cons, List.map_cons, List.flatten_cons]
    obtain ⟨ho, hr⟩ := h f (by simp)
    by_cases hf : f = b!"-"
    · subst hf
      rw [runAll, if_pos rfl, hr]
      have e : (if b!"-" ∈ before ++ [b!"-"] then [] else stdin) = ([] : Bytes) := by simp
      rw [e] at ih
      simp only [ih]
      simp [contentOf, line_eq]
    · obtain ⟨c, hc⟩ := ho.resolve_left hf
      rw [runAll, if_neg hf]
      have e : (if b!"-" ∈ before ++ [f] then [] else stdin) = (if b!"-" ∈ before then [] else stdin) := by
        have : ¬ (b!"-" : Bytes) = f := fun e => hf e.symm
        simp [this]
      rw [e] at ih
      simp only [hc, hr, ih]
      simp [contentOf, hf, hc, line_eq]

/-- C39: if every operand can be opened and read, one line per operand is printed, in order, and the status is
0. -/
theorem C39_all_readable (fs : FS) (er : Errors) (stdin : Bytes) (files : List Bytes)
    (hne : files ≠ []) (h : ∀ f ∈ files, Readable fs er f) :
    main fs er stdin files =
      { stdout := (files.zipIdx.map fun p =>
          expectedLine p.1 ((contentOf fs stdin (files.take p.2) p.1).getD [])).flatten,
        stderr := [], exit := 0 } := by
  have := runAll_ok fs er stdin files [] h
  simpa [main, hne] using this

/-- C39: without operands standard input is summed under the name `-`. -/
theorem C39_no_operands (fs : FS) (er : Errors) (stdin : Bytes) : main fs er stdin [] = main fs er stdin [b!"-"] ∧
    (er.readErr b!"-" = none → main fs er stdin [] = { stdout := expectedLine b!"-" stdin, stderr := [], exit := 0 }) := by
  refine ⟨rfl, fun h => ?_⟩
  simp [main, runAll, line_eq, h]

/-- C39: the first operand that cannot be opened or read ends the run with status 1; the operands before it
have been printed, those after it have not been looked at. -/
theorem C39_unreadable (fs : FS) (er : Errors) (stdin : Bytes) (pre post : List Bytes) (f msg : Bytes)
    (h : ∀ f ∈ pre, Readable fs er f) (hf : Complaint fs er f msg) :
    main fs er stdin (pre ++ f :: post) =
      { stdout := (pre.zipIdx.map fun p =>
          expectedLine p.1 ((contentOf fs stdin (pre.take p.2) p.1).getD [])).flatten,
        stderr := msg, exit := 1 } := by
  have key : ∀ (pre : List Bytes) (stdin : Bytes), (∀ f ∈ pre, Readable fs er f) →
      runAll fs er stdin (pre ++ f :: post) =
        { stdout := (runAll fs er stdin pre).stdout, stderr := msg, exit := 1 } := by
    intro pre
    induction pre with
    | nil =>
      intro stdin _
      cases hf with
      | opening hf hn => simp [runAll, hf, hn]
      | reading ho he =>
        by_cases hd : f = b!"-"
        · simp only [List.nil_append, runAll, if_pos hd, he]
        · obtain ⟨c, hc⟩ := ho.resolve_left hd
          simp only [List.nil_append, runAll, if_neg hd, hc, he]
    | cons g pre ih =>
      intro stdin hp
      have ih := fun s => ih s (fun x hx => hp x (by simp [hx]))
      obtain ⟨ho, hr⟩ := hp g (by simp)
      by_cases hg : g = b!"-"
      · subst hg
        simp [runAll, hr, ih]
      · obtain ⟨c, hc⟩ := ho.resolve_left hg
        simp [runAll, hg, hc, hr, ih]
  have hne : pre ++ f :: post ≠ [] := by simp
  have hall := runAll_ok fs er stdin pre [] h
  simp only [List.not_mem_nil, if_false, List.nil_append] at hall
  rw [main, if_neg hne, key pre stdin h, hall]

/-- An unreadable file, and a directory. -/
example : main (fun n => if n = b!"a" then some b!"x" else none) ⟨fun _ => b!"no", fun _ => none⟩ b!"in"
      [b!"a", b!"-", b!"-", b!"b", b!"a"] =
    { stdout := expectedLine b!"a" b!"x" ++ expectedLine b!"-" b!"in" ++ expectedLine b!"-" b!"",
      stderr := b!"couldn't open file no", exit := 1 } :=
  (C39_unreadable _ _ _ [b!"a", b!"-", b!"-"] [b!"a"] b!"b" _
    (by intro f hf; simp at hf; rcases hf with rfl | rfl <;> simp [Readable]) (.opening (by decide) rfl)).trans
    (by simp [contentOf])

example : main (fun _ => some []) ⟨fun _ => [], fun n => if n = b!"/" then some b!"is a directory" else none⟩ [] [b!"/", b!"a"] =
    { stdout := [], stderr := b!"couldn't read input is a directory", exit := 1 } :=
  C39_unreadable _ _ _ [] [b!"a"] b!"/" _ (by simp) (.reading (.inr ⟨[], rfl⟩) rfl)

end Cksum
