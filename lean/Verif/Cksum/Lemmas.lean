import Verif.Cksum.Model

/-! # The byte step as eight bit steps -/

namespace Cksum
open Go

/-- The coefficients of the generator below x^32. -/
def poly : BitVec 32 := 0x04C11DB7#32

/-- Multiply by x and reduce. -/
def shiftStep (s : BitVec 32) : BitVec 32 := (s <<< 1) ^^^ (if s.msb then poly else 0#32)

/-- Multiply by x^n and reduce. -/
def shifts : Nat → BitVec 32 → BitVec 32
  | 0, s => s
  | n + 1, s => shiftStep (shifts n s)

theorem xor_bit (p q : Bool) (P : BitVec 32) :
    (if (p ^^ q) then P else 0#32) = (if p then P else 0#32) ^^^ (if q then P else 0#32) := by
  cases p <;> cases q <;> simp

theorem shiftStep_xor (a b : BitVec 32) : shiftStep (a ^^^ b) = shiftStep a ^^^ shiftStep b := by
  unfold shiftStep
  rw [BitVec.msb_xor, xor_bit]
  ext i hi
  simp
  generalize (if a.msb then poly else 0#32)[i] = u
  generalize (if b.msb then poly else 0#32)[i] = v
  by_cases h : i = 0
  · subst h; simp
  · simp [h]
    generalize a[i - 1] = u'
    generalize b[i - 1] = v'
    cases u <;> cases v <;> cases u' <;> cases v' <;> rfl

theorem shiftStep_zero : shiftStep 0#32 = 0#32 := by decide

theorem shiftStep_eq_zero (a : BitVec 32) (h : shiftStep a = 0#32) : a = 0#32 := by
  have hm : a.msb = false := by
    have := congrArg (fun v : BitVec 32 => v.getLsbD 0) h
    simp only [shiftStep] at this
    cases hm : a.msb with
    | false => rfl
    | true => rw [hm] at this; simp [poly] at this
  have hs : a <<< 1 = 0#32 := by
    have := h
    simp only [shiftStep, hm] at this
    simpa using this
  ext i hi
  by_cases h31 : i = 31
  · subst h31
    rw [BitVec.msb_eq_getLsbD_last] at hm
    simpa [BitVec.getElem_eq_testBit_toNat, BitVec.getLsbD] using hm
  · have := congrArg (fun v : BitVec 32 => v.getLsbD (i + 1)) hs
    simp [BitVec.getLsbD_shiftLeft] at this
    have h' := this (by omega)
    rw [BitVec.getLsbD_eq_getElem hi] at h'
    simpa using h'

theorem shifts_xor (n : Nat) (a b : BitVec 32) : shifts n (a ^^^ b) = shifts n a ^^^ shifts n b := by
  induction n with
  | zero => rfl
  | succ n ih => simp only [shifts, ih, shiftStep_xor]

theorem shifts_eq_zero (n : Nat) (a : BitVec 32) (h : shifts n a = 0#32) : a = 0#32 := by
  induction n with
  | zero => exact h
  | succ n ih => exact ih (shiftStep_eq_zero _ h)

theorem shifts_injective (n : Nat) (a b : BitVec 32) (h : shifts n a = shifts n b) : a = b := by
  have : shifts n (a ^^^ b) = 0#32 := by rw [shifts_xor, h, BitVec.xor_self]
  have := shifts_eq_zero n _ this
  exact BitVec.xor_eq_zero_iff.1 this

/-- Without high bits nothing is reduced. -/
theorem shifts_low (s : BitVec 32) (n : Nat) (hn : n ≤ 8) (h : ∀ i, 24 ≤ i → s.getLsbD i = false) :
    shifts n s = s <<< n := by
  induction n with
  | zero => simp [shifts]
  | succ n ih =>
    have ih := ih (by omega)
    simp only [shifts, ih, shiftStep]
    have : (s <<< n).msb = false := by
      rw [BitVec.msb_eq_getLsbD_last, BitVec.getLsbD_shiftLeft]
      simp [h (31 - n) (by omega)]
    rw [this]
    simp [← BitVec.shiftLeft_add]

/-- The byte in the high position of a word. -/
def high (c : BitVec 8) : BitVec 32 := c.setWidth 32 <<< 24

theorem crctab_length : crctab.length = 256 := by decide +kernel

theorem tab_fin : ∀ i : Fin 256, tab (BitVec.ofFin i) = shifts 8 (high (BitVec.ofFin i)) := by
  decide +kernel

/-- Each table entry is its index times x^32, reduced (checked for all 256 by the kernel). -/
theorem tab_eq (i : BitVec 8) : tab i = shifts 8 (high i) := tab_fin i.toFin

theorem step_eq (s : BitVec 32) (c : BitVec 8) : step s c = shifts 8 (s ^^^ high c) := by
  have hsplit : s ^^^ high c = (s &&& 0x00FFFFFF#32) ^^^ high ((s >>> 24).truncate 8 ^^^ c) := by
    ext i hi
    simp only [high, BitVec.getElem_xor, BitVec.getElem_and, BitVec.getElem_shiftLeft]
    have hmask : (0x00FFFFFF#32)[i] = decide (i < 24) := by
      have : ∀ j : Fin 32, (0x00FFFFFF#32).getLsbD j.val = decide (j.val < 24) := by decide
      rw [← BitVec.getLsbD_eq_getElem]
      exact this ⟨i, hi⟩
    rw [hmask]
    by_cases h : i < 24
    · simp [h]
    · simp [h, show 24 + (i - 24) = i by omega, show i - 24 < 8 by omega]
      rw [BitVec.getLsbD_eq_getElem]
  have hlow : shifts 8 (s &&& 0x00FFFFFF#32) = s <<< 8 := by
    have hmask : ∀ i, 24 ≤ i → (0x00FFFFFF#32).getLsbD i = false := by
      intro i hi
      by_cases h : i < 32
      · have : ∀ j : Fin 32, 24 ≤ j.val → (0x00FFFFFF#32).getLsbD j.val = false := by decide
        exact this ⟨i, h⟩ hi
      · exact BitVec.getLsbD_of_ge _ _ (by omega)
    rw [shifts_low _ 8 (by omega) (by intro i hi; simp [hmask i hi])]
    ext i hi
    simp only [BitVec.getElem_shiftLeft, BitVec.getElem_and]
    by_cases h : i < 8
    · simp [h]
    · have : ∀ j : Fin 24, (0x00FFFFFF#32).getLsbD j.val = true := by decide
      have := this ⟨i - 8, by omega⟩
      rw [BitVec.getLsbD_eq_getElem (by omega)] at this
      simp [h, this]
  rw [hsplit, shifts_xor, hlow, ← tab_eq]
  rfl

end Cksum
