import Verif.Go.StrconvProps

/-! # Which error `strconv.Atoi` reports -/

namespace Go

/-- The digit loop reports a range error exactly if a beginning of the text is a number of 2^64 or more. -/
theorem parseUintLoop_range_iff (cs : Bytes) : ∀ n, n < 2 ^ 64 →
    (parseUintLoop n cs = .error .range ↔
      ∃ ds rest, cs = ds ++ rest ∧ (∀ c ∈ ds, isDigit c = true) ∧ 2 ^ 64 ≤ n * 10 ^ ds.length + digitsVal ds) := by
  induction cs with
  | nil =>
    intro n hn
    constructor
    · intro h; cases h
    · rintro ⟨ds, rest, e, -, h⟩
      have : ds = [] := by cases ds <;> simp_all
      subst this
      simp [digitsVal] at h
      omega
  | cons c cs ih =>
    intro n hn
    have e : ∀ ds : Bytes, n * 10 ^ (c :: ds).length + digitsVal (c :: ds) = (n * 10 + (c.toNat - 48)) * 10 ^ ds.length + digitsVal ds := by
      intro ds
      simp only [digitsVal, List.length_cons, Nat.pow_succ]
      rw [Nat.add_mul, Nat.mul_assoc n 10, Nat.mul_comm 10, Nat.add_assoc]
    simp only [parseUintLoop]
    by_cases hd : isDigit c = true
    · rw [if_pos hd]
      by_cases hb : n * 10 + (c.toNat - 48) ≥ 2 ^ 64
      · rw [if_pos hb]
        refine ⟨fun _ => ⟨[c], cs, rfl, by simpa using hd, ?_⟩, fun _ => rfl⟩
        rw [e []]
        simpa [digitsVal] using hb
      · rw [if_neg hb, ih _ (by omega)]
        constructor
        · rintro ⟨ds, rest, h1, h2, h3⟩
          refine ⟨c :: ds, rest, by rw [h1]; rfl, ?_, by rw [e]; exact h3⟩
          intro x hx
          rcases List.mem_cons.mp hx with rfl | hx
          · exact hd
          · exact h2 x hx
        · rintro ⟨ds, rest, h1, h2, h3⟩
          cases ds with
          | nil => simp [digitsVal] at h3; omega
          | cons x ds =>
            obtain ⟨rfl, h4⟩ : c = x ∧ cs = ds ++ rest := by simpa using h1
            exact ⟨ds, rest, h4, fun y hy => h2 y (by simp [hy]), by rw [← e]; exact h3⟩
    · rw [if_neg hd]
      constructor
      · intro h; cases h
      · rintro ⟨ds, rest, h1, h2, h3⟩
        cases ds with
        | nil => simp [digitsVal] at h3; omega
        | cons x ds =>
          obtain ⟨rfl, -⟩ : c = x ∧ cs = ds ++ rest := by simpa using h1
          exact absurd (h2 c (by simp)) hd

/-- A beginning of the text is an unsigned number of 2^64 or more. -/
def Exceeds (s : Bytes) : Prop := ∃ ds rest, s = ds ++ rest ∧ (∀ c ∈ ds, isDigit c = true) ∧ 2 ^ 64 ≤ digitsVal ds

theorem parseUint_range_iff (s : Bytes) : parseUint s = .error .range ↔ Exceeds s := by
  unfold parseUint Exceeds
  by_cases h : s = []
  · subst h
    rw [if_pos rfl]
    constructor
    · intro h; cases h
    · rintro ⟨ds, rest, e, -, h⟩
      have : ds = [] := by cases ds <;> simp_all
      subst this
      simp [digitsVal] at h
  · rw [if_neg h, parseUintLoop_range_iff s 0 (by decide)]
    simp only [Nat.zero_mul, Nat.zero_add]

/-- The text without its sign. -/
def unsigned (s : Bytes) : Bytes :=
  match s with
  | [] => []
  | c :: cs => if c = 43 ∨ c = 45 then cs else c :: cs

theorem finishInt_range {neg : Bool} {r : Except NumErr Nat} (h : (finishInt neg r).2 = some .range) :
    r = .error .range ∨ ∃ n, r = .ok n ∧ (if neg then 2 ^ 63 < n else 2 ^ 63 ≤ n) := by
  unfold finishInt at h
  split at h
  · cases h
  · exact .inl rfl
  · next n =>
    right
    refine ⟨n, rfl, ?_⟩
    split at h
    · next hn =>
      rw [if_pos hn]
      split at h
      · assumption
      · cases h
    · next hn =>
      rw [if_neg hn]
      split at h
      · assumption
      · cases h

/-- A decimal number that does not fit is reported as out of range. -/
theorem atoi_range {s : Bytes} {n : Int} (h : IsDecimal s n) (ho : n < -2 ^ 63 ∨ 2 ^ 63 ≤ n) : (atoi s).2 = some .range := by
  have key : ∀ (ds : Bytes), ds ≠ [] → (∀ c ∈ ds, isDigit c = true) →
      parseUint ds = (if digitsVal ds < 2 ^ 64 then .ok (digitsVal ds) else .error .range) := by
    intro ds hne hd
    by_cases hb : digitsVal ds < 2 ^ 64
    · rw [if_pos hb, parseUint_ok ds hne hd hb]
    · rw [if_neg hb, parseUint_range_iff]
      exact ⟨ds, [], by simp, hd, by omega⟩
  cases h with
  | plain ds hne hd =>
    obtain ⟨c, cs, rfl⟩ := List.exists_cons_of_ne_nil hne
    have hs := isDigit_ne_sign (hd c (by simp))
    simp only [atoi, if_neg hs.1, if_neg hs.2, key _ hne hd]
    split
    · simp only [finishInt]
      rw [if_neg (by simp), if_pos (by omega)]
    · simp [finishInt]
  | plus ds hne hd =>
    simp only [atoi, if_true, key _ hne hd]
    split
    · simp only [finishInt]
      rw [if_neg (by simp), if_pos (by omega)]
    · simp [finishInt]
  | minus ds hne hd =>
    simp only [atoi]
    rw [if_neg (by decide), if_pos trivial, key _ hne hd]
    split
    · simp only [finishInt]
      rw [if_pos trivial, if_pos (by omega)]
    · simp [finishInt]

/-- What is reported as out of range is a number that does not fit, or begins with one of 2^64 or more. -/
theorem atoi_range_only {s : Bytes} (h : (atoi s).2 = some .range) :
    (∃ n, IsDecimal s n ∧ (n < -2 ^ 63 ∨ 2 ^ 63 ≤ n)) ∨ Exceeds (unsigned s) := by
  have key : ∀ (ds : Bytes) (m : Nat), parseUint ds = .ok m → ds ≠ [] ∧ (∀ c ∈ ds, isDigit c = true) ∧ m = digitsVal ds := by
    intro ds m hp
    simp only [parseUint] at hp
    split at hp
    · cases hp
    · next hne =>
      obtain ⟨i1, i2⟩ := parseUintLoop_inv _ _ _ hp
      exact ⟨hne, i1, by simpa using i2⟩
  cases s with
  | nil => cases h
  | cons c cs =>
    simp only [atoi] at h
    split at h
    · next hc =>
      subst hc
      have hu : unsigned (43 :: cs) = cs := rfl
      rcases finishInt_range h with h | ⟨n, h1, h2⟩
      · exact .inr (by rw [hu]; exact (parseUint_range_iff _).mp h)
      · obtain ⟨k1, k2, k3⟩ := key _ _ h1
        rw [if_neg (by simp)] at h2
        exact .inl ⟨_, .plus cs k1 k2, by omega⟩
    · next hc =>
      split at h
      · next hc' =>
        subst hc'
        have hu : unsigned (45 :: cs) = cs := rfl
        rcases finishInt_range h with h | ⟨n, h1, h2⟩
        · exact .inr (by rw [hu]; exact (parseUint_range_iff _).mp h)
        · obtain ⟨k1, k2, k3⟩ := key _ _ h1
          rw [if_pos rfl] at h2
          exact .inl ⟨_, .minus cs k1 k2, by omega⟩
      · next hc' =>
        have hu : unsigned (c :: cs) = c :: cs := by simp [unsigned, hc, hc']
        rcases finishInt_range h with h | ⟨n, h1, h2⟩
        · exact .inr (by rw [hu]; exact (parseUint_range_iff _).mp h)
        · obtain ⟨k1, k2, k3⟩ := key _ _ h1
          rw [if_neg (by simp)] at h2
          exact .inl ⟨_, .plain _ k1 k2, by omega⟩

/-- If a beginning of the text is too large, the rest is not looked at. -/
theorem atoi_exceeds {s : Bytes} (h : Exceeds (unsigned s)) : (atoi s).2 = some .range := by
  cases s with
  | nil =>
    obtain ⟨ds, rest, e, -, h⟩ := h
    have : ds = [] := by cases ds <;> simp_all [unsigned]
    subst this
    simp [digitsVal] at h
  | cons c cs =>
    simp only [atoi]
    by_cases h1 : c = 43
    · have hu : unsigned (c :: cs) = cs := by simp [unsigned, h1]
      rw [hu, ← parseUint_range_iff] at h
      rw [if_pos h1, h]
      rfl
    · by_cases h2 : c = 45
      · have hu : unsigned (c :: cs) = cs := by simp [unsigned, h2]
        rw [hu, ← parseUint_range_iff] at h
        rw [if_neg h1, if_pos h2, h]
        rfl
      · have hu : unsigned (c :: cs) = c :: cs := by simp [unsigned, h1, h2]
        rw [hu, ← parseUint_range_iff] at h
        rw [if_neg h1, if_neg h2, h]
        rfl

end Go
