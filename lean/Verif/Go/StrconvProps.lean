import Verif.Go.Strconv

/-! # Property C72: decimal conversion -/

namespace Go

/-- **C72** round trip: for every 64-bit integer, `Atoi(Itoa(n))` is `n` without error. -/
theorem C72_atoi_itoa (n : Int) (h1 : -2 ^ 63 ≤ n) (h2 : n < 2 ^ 63) : atoi (itoa n) = (n, none) := by
  obtain ⟨k1, k2, k3, _⟩ := natToDec_spec n.natAbs
  simp only [itoa]
  split
  · next hn =>
    simp only [atoi]
    rw [if_neg (by decide), if_pos trivial]
    rw [parseUint_ok _ k1 k2 (by omega), k3]
    simp only [finishInt, if_true]
    rw [if_neg (by omega)]
    simp; omega
  · next hn =>
    have : n.toNat = n.natAbs := by omega
    rw [this, atoi_digits _ k1 k2, k3, if_pos (by omega)]
    simp; omega

example : atoi (itoa (-2 ^ 63)) = (-2 ^ 63, none) := C72_atoi_itoa _ (by decide) (by decide)

/-- What a decimal integer literal is: optional sign, one or more digits. -/
inductive IsDecimal : Bytes → Int → Prop
  | plain (ds : Bytes) : ds ≠ [] → (∀ c ∈ ds, isDigit c = true) → IsDecimal ds (digitsVal ds)
  | plus (ds : Bytes) : ds ≠ [] → (∀ c ∈ ds, isDigit c = true) → IsDecimal (43 :: ds) (digitsVal ds)
  | minus (ds : Bytes) : ds ≠ [] → (∀ c ∈ ds, isDigit c = true) → IsDecimal (45 :: ds) (-(digitsVal ds : Int))

/-- **C72** exactness: `Atoi` succeeds with `n` exactly on the decimal literals of value `n` in
64-bit range. -/
theorem C72_atoi_iff (s : Bytes) (n : Int) :
    atoi s = (n, none) ↔ IsDecimal s n ∧ -2 ^ 63 ≤ n ∧ n < 2 ^ 63 := by
  constructor
  · intro h
    cases s with
    | nil => simp [atoi] at h
    | cons c cs =>
      simp only [atoi] at h
      split at h
      · next hc =>
        subst hc
        cases hp : parseUint cs with
        | error e => rw [hp] at h; cases e <;> simp [finishInt] at h
        | ok m =>
          rw [hp] at h
          simp only [parseUint] at hp
          split at hp
          · cases hp
          · next hne =>
            obtain ⟨i1, i2⟩ := parseUintLoop_inv _ _ _ hp
            simp only [Nat.zero_mul, Nat.zero_add] at i2
            simp only [finishInt] at h
            rw [if_neg (by simp)] at h
            split at h
            · simp at h
            · simp only [Prod.mk.injEq, and_true] at h
              subst h i2
              exact ⟨.plus cs hne i1, by omega, by omega⟩
      · split at h
        · next hc =>
          subst hc
          cases hp : parseUint cs with
          | error e => rw [hp] at h; cases e <;> simp [finishInt] at h
          | ok m =>
            rw [hp] at h
            simp only [parseUint] at hp
            split at hp
            · cases hp
            · next hne =>
              obtain ⟨i1, i2⟩ := parseUintLoop_inv _ _ _ hp
              simp only [Nat.zero_mul, Nat.zero_add] at i2
              simp only [finishInt, if_true] at h
              split at h
              · simp at h
              · simp only [Prod.mk.injEq, and_true] at h
                subst h i2
                exact ⟨.minus cs hne i1, by omega, by omega⟩
        · cases hp : parseUint (c :: cs) with
          | error e => rw [hp] at h; cases e <;> simp [finishInt] at h
          | ok m =>
            rw [hp] at h
            simp only [parseUint] at hp
            split at hp
            · cases hp
            · next hne =>
              obtain ⟨i1, i2⟩ := parseUintLoop_inv _ _ _ hp
              simp only [Nat.zero_mul, Nat.zero_add] at i2
              simp only [finishInt] at h
              rw [if_neg (by simp)] at h
              split at h
              · simp at h
              · simp only [Prod.mk.injEq, and_true] at h
                subst h i2
                exact ⟨.plain (c :: cs) hne i1, by omega, by omega⟩
  · rintro ⟨hd, h1, h2⟩
    cases hd with
    | plain _ hne hdig =>
      rw [atoi_digits _ hne hdig, if_pos (by omega)]
    | plus ds hne hdig =>
      simp only [atoi, if_true]
      rw [parseUint_ok _ hne hdig (by omega)]
      simp only [finishInt]
      rw [if_neg (by simp), if_neg (by omega)]
    | minus ds hne hdig =>
      simp only [atoi]
      rw [if_neg (by decide), if_pos trivial, parseUint_ok _ hne hdig (by omega)]
      simp only [finishInt, if_true]
      rw [if_neg (by omega)]

example : IsDecimal b!"-007" (-7) := .minus b!"007" (by decide) (by decide)

/-- **C72** range errors clamp: a digit string too large for an int gives the largest int, with an
error (the editor ignores that error). -/
theorem C72_atoi_clamps (ds : Bytes) (h : ∀ c ∈ ds, isDigit c = true)
    (hb : 2 ^ 63 ≤ digitsVal ds) : atoi ds = (2 ^ 63 - 1, some .range) := by
  have hne : ds ≠ [] := by rintro rfl; simp [digitsVal] at hb
  rw [atoi_digits ds hne h, if_neg (by omega)]

example : atoi b!"9223372036854775808" = (2 ^ 63 - 1, some .range) :=
  C72_atoi_clamps _ (by decide) (by decide)

/-- Decimal rendering is injective. -/
theorem natToDec_injective {m n : Nat} (h : natToDec m = natToDec n) : m = n := by
  rw [← (natToDec_spec m).2.2.1, ← (natToDec_spec n).2.2.1, h]

end Go
