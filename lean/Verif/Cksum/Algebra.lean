import Verif.Cksum.Errors
import Verif.Go.StrconvProps

/-! # C155: checksums of files put together from others -/

namespace Cksum
open Go

/-! ## Specification -/

/-- The bytes of two files combined with exclusive or. -/
def xorBytes (a b : Bytes) : Bytes := a.zipWith (· ^^^ ·) b

/-- `a` and `b` differ in the bits `e`, with `m` bits before that are equal and `k` bits after. -/
def Damage (a b : Bytes) (m : Nat) (e : List Bool) (k : Nat) : Prop :=
  a.length = b.length ∧ flips (bits a) (bits b) = List.replicate m false ++ e ++ List.replicate k false

/-! ## Proofs -/

theorem feed_linear (s : BitVec 32) (cs : Bytes) : feed s cs = shifts (8 * cs.length) s ^^^ feed 0#32 cs := by
  rw [feed_bits, feed_bits, feedBits_zero, bits_length]

theorem memcrc_form (a : Bytes) : ~~~ memcrc a = shifts (8 * (lengthOctets a.length).length) (feed 0#32 a) ^^^ feed 0#32 (lengthOctets a.length) := by
  rw [memcrc_feed, feed_append, feed_linear]
  rfl

theorem memcrc_state {a b : Bytes} (hl : a.length = b.length) : memcrc a = memcrc b ↔ feed 0#32 a = feed 0#32 b := by
  rw [← BitVec.not_inj, memcrc_form, memcrc_form, hl, BitVec.xor_left_inj]
  exact ⟨fun h => shifts_injective _ _ _ h, fun h => by rw [h]⟩

/-- **C155** Whether some damage is noticed depends on the pattern of flipped bits alone: not on the file it happens to, nor on where in the file, nor on
the length of the file. -/
theorem C155_same_damage {a b a' b' : Bytes} {m m' k k' : Nat} {e : List Bool} (h : Damage a b m e k) (h' : Damage a' b' m' e k') :
    memcrc a = memcrc b ↔ memcrc a' = memcrc b' := by
  have key : ∀ (a b : Bytes) (m k : Nat), Damage a b m e k → (memcrc a = memcrc b ↔ feedBits 0#32 e = 0#32) := by
    intro a b m k ⟨hl, hf⟩
    have hz : ∀ n, shifts n 0#32 = 0#32 := by
      intro n
      induction n with
      | zero => rfl
      | succ n ih => rw [shifts_succ', shiftStep_zero, ih]
    rw [memcrc_eq_iff a b hl, hf, feedBits_append, feedBits_append, feedBits_false, feedBits_false, hz]
    exact ⟨shifts_eq_zero _ _, fun h => by rw [h, hz]⟩
  rw [key a b m k h, key a' b' m' k' h']

/-- **C155** The exclusive or of three files of one length has the exclusive or of their checksums. -/
theorem C155_three (a b c : Bytes) (h1 : a.length = b.length) (h2 : b.length = c.length) :
    memcrc (xorBytes (xorBytes a b) c) = memcrc a ^^^ memcrc b ^^^ memcrc c := by
  have hab : (xorBytes a b).length = a.length := by simp [xorBytes, h1]
  have hd : (xorBytes (xorBytes a b) c).length = a.length := by simp [xorBytes, h1, h2]
  have e1 : feed 0#32 (xorBytes a b) = feed 0#32 a ^^^ feed 0#32 b := by
    rw [feed_xor a b h1 0#32 0#32]; rfl
  have e2 : feed 0#32 (xorBytes (xorBytes a b) c) = feed 0#32 a ^^^ feed 0#32 b ^^^ feed 0#32 c := by
    rw [← e1, feed_xor (xorBytes a b) c (by rw [hab, h1, h2]) 0#32 0#32]; rfl
  have f := memcrc_form (xorBytes (xorBytes a b) c)
  have fa := memcrc_form a
  have fb := memcrc_form b
  have fc := memcrc_form c
  rw [hd, e2] at f
  rw [← h1] at fb
  rw [← h2, ← h1] at fc
  rw [shifts_xor, shifts_xor] at f
  generalize shifts _ (feed 0#32 a) = x at *
  generalize shifts _ (feed 0#32 b) = y at *
  generalize shifts _ (feed 0#32 c) = z at *
  generalize feed 0#32 (lengthOctets a.length) = l at *
  have g : ∀ u v : BitVec 32, ~~~ u = v → u = ~~~ v := by rintro u v rfl; simp
  rw [g _ _ f, g _ _ fa, g _ _ fb, g _ _ fc]
  ext i hi
  simp only [BitVec.getElem_not, BitVec.getElem_xor]
  generalize x[i] = p
  generalize y[i] = q
  generalize z[i] = r
  generalize l[i] = s
  revert p q r s
  decide

/-- **C155** The checksums and sizes of two files determine the checksum of the two put together. -/
theorem C155_joined {a a' b b' : Bytes} (ha : a.length = a'.length) (hb : b.length = b'.length) (h1 : memcrc a = memcrc a') (h2 : memcrc b = memcrc b') :
    memcrc (a ++ b) = memcrc (a' ++ b') := by
  rw [memcrc_state ha] at h1
  rw [memcrc_state hb] at h2
  rw [memcrc_state (by simp [ha, hb]), feed_append, feed_append, feed_linear, feed_linear (s := feed _ a'), h1, h2, hb]

/-- **C155** The same text put after, or before, two files of one length makes their checksums neither equal nor different. -/
theorem C155_same_text_added (a b pre post : Bytes) (hl : a.length = b.length) : memcrc (pre ++ a ++ post) = memcrc (pre ++ b ++ post) ↔ memcrc a = memcrc b := by
  rw [memcrc_state (by simp [hl]), memcrc_state hl, feed_append, feed_append, feed_append, feed_append]
  refine ⟨fun h => ?_, fun h => ?_⟩
  · have := feed_injective _ _ _ h
    rw [feed_linear, feed_linear (cs := b), hl, BitVec.xor_right_inj] at this
    exact this
  · rw [feed_linear (cs := a), feed_linear (cs := b), h, hl]

/-- **C155** With different lengths this is not so: here the checksums agree, and they no longer do when a zero byte is put after both files. -/
theorem C155_lengths_needed : ∃ a b : Bytes, memcrc a = memcrc b ∧ memcrc (a ++ [0]) ≠ memcrc (b ++ [0]) := by
  refine ⟨[], [174, 205, 161, 246], ?_, ?_⟩ <;> decide +kernel

theorem dec_no_blank (n : Nat) : (32 : UInt8) ∉ natToDec n := by
  intro h
  have := (natToDec_spec n).2.1 32 h
  revert this; decide

theorem cut_blank {x y r s : Bytes} (hx : (32 : UInt8) ∉ x) (hy : (32 : UInt8) ∉ y) (h : x ++ 32 :: r = y ++ 32 :: s) : x = y ∧ r = s := by
  induction x generalizing y with
  | nil =>
    cases y with
    | nil => exact ⟨rfl, by simpa using h⟩
    | cons c y => simp at h hy; exact absurd h.1 hy.1
  | cons c x ih =>
    cases y with
    | nil => simp at h hx; exact absurd h.1.symm hx.1
    | cons d y =>
      simp at h hx hy
      obtain ⟨h1, h2⟩ := ih hx.2 hy.2 h.2
      exact ⟨by rw [h.1, h1], h2⟩

/-- What is printed tells the checksum, the size and the name. -/
theorem line_read {a b f g : Bytes} (h : line a f = line b g) : memcrc a = memcrc b ∧ a.length = b.length ∧ f = g := by
  unfold line at h
  rw [show b!" " = [32] from rfl] at h
  simp only [List.append_assoc, List.singleton_append] at h
  obtain ⟨h1, h⟩ := cut_blank (dec_no_blank _) (dec_no_blank _) h
  obtain ⟨h2, h⟩ := cut_blank (dec_no_blank _) (dec_no_blank _) h
  exact ⟨BitVec.eq_of_toNat_eq (natToDec_injective h1), natToDec_injective h2, List.append_cancel_right h⟩

/-- **C155** What `cksum` prints for two files says what it will print for the two put together: other files with the same two lines give the same line. -/
theorem C155_printed {a a' b b' f g : Bytes} (h : Bytes) (h1 : line a f = line a' f) (h2 : line b g = line b' g) :
    line (a ++ b) h = line (a' ++ b') h := by
  obtain ⟨c1, l1, -⟩ := line_read h1
  obtain ⟨c2, l2, -⟩ := line_read h2
  unfold line
  rw [C155_joined l1 l2 c1 c2, List.length_append, List.length_append, l1, l2]

/-- A burst in the middle of a file and the same one at the end of another. -/
example : Damage b!"abc" b!"aBc" 8 (flips (byteBits 98) (byteBits 66)) 8 ∧ Damage b!"xb" b!"xB" 8 (flips (byteBits 98) (byteBits 66)) 0 :=
  ⟨⟨rfl, by decide⟩, ⟨rfl, by decide⟩⟩

end Cksum
