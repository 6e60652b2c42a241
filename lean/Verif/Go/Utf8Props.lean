import Verif.Go.Utf8

/-! # UTF-8 encoding and decoding are inverse on valid runes -/

namespace Go

/-- A Unicode scalar value. -/
def ValidRune (r : Nat) : Prop := r < 0xD800 ∨ (0xE000 ≤ r ∧ r ≤ 0x10FFFF)

instance (r : Nat) : Decidable (ValidRune r) := inferInstanceAs (Decidable (_ ∨ _))

theorem byte_toNat (n : Nat) (h : n < 256) : (UInt8.ofNat n).toNat = n := by
  simp [UInt8.toNat_ofNat']; omega

theorem inRange_iff (lo hi b : UInt8) : inRange lo hi b = true ↔ lo.toNat ≤ b.toNat ∧ b.toNat ≤ hi.toNat := by
  simp [inRange, UInt8.le_iff_toNat_le]

theorem inRange_false (lo hi b : UInt8) (h : ¬ (lo.toNat ≤ b.toNat ∧ b.toNat ≤ hi.toNat)) : inRange lo hi b = false := by
  cases hb : inRange lo hi b
  · rfl
  · exact absurd ((inRange_iff _ _ _).1 hb) h

theorem ne_of_toNat {a b : UInt8} (h : a.toNat ≠ b.toNat) : a ≠ b := fun e => h (by rw [e])

theorem decode3 (b0 b1 b2 : UInt8) (rest : Bytes) (h0 : 0xE0 ≤ b0.toNat ∧ b0.toNat ≤ 0xEF)
    (h1 : 0x80 ≤ b1.toNat ∧ b1.toNat ≤ 0xBF) (h2 : 0x80 ≤ b2.toNat ∧ b2.toNat ≤ 0xBF)
    (hE : b0.toNat = 0xE0 → 0xA0 ≤ b1.toNat) (hD : b0.toNat = 0xED → b1.toNat ≤ 0x9F) :
    decodeRune b0 (b1 :: b2 :: rest) = (b0.toNat % 16 * 4096 + b1.toNat % 64 * 64 + b2.toNat % 64, 3) := by
  have g0 : ¬ b0 < 0x80 := by rw [UInt8.lt_iff_toNat_lt]; simp; omega
  have g1 : ¬ inRange 0xC2 0xDF b0 = true := by rw [inRange_iff]; simp; omega
  have g2 : inRange 0x80 0xBF b2 = true := by rw [inRange_iff]; exact h2
  unfold decodeRune
  simp only []
  rw [if_neg g0, if_neg g1]
  by_cases c0 : b0 = 0xE0
  · have c0' : b0.toNat = 0xE0 := by rw [c0]; rfl
    have g3 : inRange 0xA0 0xBF b1 = true := by rw [inRange_iff]; exact ⟨hE c0', h1.2⟩
    rw [if_pos c0, g3, g2]
    rfl
  · have c0' : b0.toNat ≠ 0xE0 := fun e => c0 (UInt8.toNat_inj.1 e)
    rw [if_neg c0]
    by_cases c1 : b0 = 0xED
    · have c1' : b0.toNat = 0xED := by rw [c1]; rfl
      have g3 : inRange 0x80 0x9F b1 = true := by rw [inRange_iff]; exact ⟨h1.1, hD c1'⟩
      have g4 : ¬ (inRange 0xE1 0xEC b0 || inRange 0xEE 0xEF b0) = true := by
        rw [Bool.or_eq_true, inRange_iff, inRange_iff]; simp; omega
      rw [if_neg g4, if_pos c1, g3, g2]
      rfl
    · have c1' : b0.toNat ≠ 0xED := fun e => c1 (UInt8.toNat_inj.1 e)
      have g3 : inRange 0x80 0xBF b1 = true := by rw [inRange_iff]; exact h1
      have g4 : (inRange 0xE1 0xEC b0 || inRange 0xEE 0xEF b0) = true := by
        rw [Bool.or_eq_true, inRange_iff, inRange_iff]; simp; omega
      rw [if_pos g4, g3, g2]
      rfl

theorem decode4 (b0 b1 b2 b3 : UInt8) (rest : Bytes) (h0 : 0xF0 ≤ b0.toNat ∧ b0.toNat ≤ 0xF4)
    (h1 : 0x80 ≤ b1.toNat ∧ b1.toNat ≤ 0xBF) (h2 : 0x80 ≤ b2.toNat ∧ b2.toNat ≤ 0xBF)
    (h3 : 0x80 ≤ b3.toNat ∧ b3.toNat ≤ 0xBF)
    (hL : b0.toNat = 0xF0 → 0x90 ≤ b1.toNat) (hH : b0.toNat = 0xF4 → b1.toNat ≤ 0x8F) :
    decodeRune b0 (b1 :: b2 :: b3 :: rest) =
      (b0.toNat % 8 * 262144 + b1.toNat % 64 * 4096 + b2.toNat % 64 * 64 + b3.toNat % 64, 4) := by
  have g0 : ¬ b0 < 0x80 := by rw [UInt8.lt_iff_toNat_lt]; simp; omega
  have g1 : ¬ inRange 0xC2 0xDF b0 = true := by rw [inRange_iff]; simp; omega
  have g2 : inRange 0x80 0xBF b2 = true := by rw [inRange_iff]; exact h2
  have g3 : inRange 0x80 0xBF b3 = true := by rw [inRange_iff]; exact h3
  have n0 : ¬ b0 = 0xE0 := ne_of_toNat (by simp; omega)
  have n1 : ¬ b0 = 0xED := ne_of_toNat (by simp; omega)
  have n2 : ¬ (inRange 0xE1 0xEC b0 || inRange 0xEE 0xEF b0) = true := by
    rw [Bool.or_eq_true, inRange_iff, inRange_iff]; simp; omega
  unfold decodeRune
  simp only []
  rw [if_neg g0, if_neg g1, if_neg n0, if_neg n2, if_neg n1]
  by_cases c0 : b0 = 0xF0
  · have c0' : b0.toNat = 0xF0 := by rw [c0]; rfl
    have g4 : inRange 0x90 0xBF b1 = true := by rw [inRange_iff]; exact ⟨hL c0', h1.2⟩
    rw [if_pos c0, g4, g2, g3]
    rfl
  · have c0' : b0.toNat ≠ 0xF0 := fun e => c0 (UInt8.toNat_inj.1 e)
    rw [if_neg c0]
    by_cases c1 : b0 = 0xF4
    · have c1' : b0.toNat = 0xF4 := by rw [c1]; rfl
      have g4 : inRange 0x80 0x8F b1 = true := by rw [inRange_iff]; exact ⟨h1.1, hH c1'⟩
      have n3 : ¬ inRange 0xF1 0xF3 b0 = true := by rw [inRange_iff]; simp; omega
      rw [if_neg n3, if_pos c1, g4, g2, g3]
      rfl
    · have c1' : b0.toNat ≠ 0xF4 := fun e => c1 (UInt8.toNat_inj.1 e)
      have g4 : inRange 0x80 0xBF b1 = true := by rw [inRange_iff]; exact h1
      have n3 : inRange 0xF1 0xF3 b0 = true := by rw [inRange_iff]; simp; omega
      rw [if_pos n3, g4, g2, g3]
      rfl

/-- Decoding what was encoded gives the rune and the length of its encoding. -/
theorem decode_encode (r : Nat) (h : ValidRune r) (rest : Bytes) :
    ∃ b bs, encodeRune r = b :: bs ∧ decodeRune b (bs ++ rest) = (r, bs.length + 1) := by
  unfold encodeRune
  unfold ValidRune at h
  split
  · next h1 =>
    refine ⟨_, [], rfl, ?_⟩
    have hb := byte_toNat r (by omega)
    rw [decodeRune_ascii]
    · simp [hb]
    · rw [UInt8.lt_iff_toNat_lt, hb]; exact h1
  · split
    · next h1 h2 =>
      refine ⟨_, _, rfl, ?_⟩
      have e0 := byte_toNat (0xC0 + r / 64) (by omega)
      have e1 := byte_toNat (0x80 + r % 64) (by omega)
      generalize UInt8.ofNat (0xC0 + r / 64) = b0 at *
      generalize UInt8.ofNat (0x80 + r % 64) = b1 at *
      have g0 : ¬ b0 < 0x80 := by rw [UInt8.lt_iff_toNat_lt, e0]; simp; omega
      have g1 : inRange 0xC2 0xDF b0 = true := by rw [inRange_iff, e0]; simp; omega
      have g2 : inRange 0x80 0xBF b1 = true := by rw [inRange_iff, e1]; simp; omega
      simp only [decodeRune, g0, if_false, g1, if_true, List.cons_append, List.nil_append, g2, e0, e1,
        Option.getD_some, List.length_cons, List.length_nil, Prod.mk.injEq, and_true]
      omega
    · split
      · omega
      · split
        · next h1 h2 h3 h4 =>
          refine ⟨_, _, rfl, ?_⟩
          have e0 := byte_toNat (0xE0 + r / 4096) (by omega)
          have e1 := byte_toNat (0x80 + r / 64 % 64) (by omega)
          have e2 := byte_toNat (0x80 + r % 64) (by omega)
          simp only [List.cons_append, List.nil_append, List.length_cons, List.length_nil]
          rw [decode3] <;> simp only [e0, e1, e2]
          · refine Prod.ext ?_ rfl
            simp only
            omega
          all_goals omega
        · next h1 h2 h3 h4 =>
          refine ⟨_, _, rfl, ?_⟩
          have hr : r ≤ 0x10FFFF := by omega
          have e0 := byte_toNat (0xF0 + r / 262144) (by omega)
          have e1 := byte_toNat (0x80 + r / 4096 % 64) (by omega)
          have e2 := byte_toNat (0x80 + r / 64 % 64) (by omega)
          have e3 := byte_toNat (0x80 + r % 64) (by omega)
          simp only [List.cons_append, List.nil_append, List.length_cons, List.length_nil]
          rw [decode4] <;> simp only [e0, e1, e2, e3]
          · refine Prod.ext ?_ rfl
            simp only
            omega
          all_goals omega

theorem chunksAux_skip (xs rest : Bytes) : chunksAux xs.length (xs ++ rest) = chunksAux 0 rest := by
  induction xs with
  | nil => rfl
  | cons x xs ih => simpa [chunksAux] using ih

theorem chunks_encode (r : Nat) (h : ValidRune r) (rest : Bytes) :
    chunks (encodeRune r ++ rest) = (r, encodeRune r) :: chunks rest := by
  obtain ⟨b, bs, e, hd⟩ := decode_encode r h rest
  rw [e]
  simp only [chunks, List.cons_append, chunksAux, hd, Nat.add_sub_cancel, chunksAux_skip]
  simp

/-- `[]rune(string(rs))` is `rs` for valid runes. -/
theorem runes_ofRunes (rs : List Nat) (h : ∀ r ∈ rs, ValidRune r) : runes (ofRunes rs) = rs := by
  unfold runes ofRunes
  induction rs with
  | nil => rfl
  | cons r rs ih =>
    rw [List.flatMap_cons, chunks_encode r (h r (by simp)), List.map_cons, ih (fun x hx => h x (by simp [hx]))]

example : runes (ofRunes [104, 233, 8364, 0x1F600]) = [104, 233, 8364, 0x1F600] :=
  runes_ofRunes _ (by decide)

end Go
