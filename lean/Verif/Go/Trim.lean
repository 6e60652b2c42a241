import Verif.Go.Utf8Last

/-! # What `strings.TrimSpace` removes -/

namespace Go

/-- The characters with the property White_Space in Unicode. -/
def White (r : Nat) : Prop :=
  r ∈ [0x9, 0xA, 0xB, 0xC, 0xD, 0x20, 0x85, 0xA0, 0x1680, 0x2000, 0x2001, 0x2002, 0x2003, 0x2004, 0x2005, 0x2006, 0x2007,
    0x2008, 0x2009, 0x200A, 0x2028, 0x2029, 0x202F, 0x205F, 0x3000]

/-- `u` is `s` without its leading spaces. -/
def TrimmedLeft (s u : Bytes) : Prop :=
  (∃ a : List Nat, (∀ r ∈ a, White r) ∧ s = ofRunes a ++ u) ∧
    ∀ r rest, White r → u ≠ encodeRune r ++ rest

/-- `t` is `u` without its trailing spaces. -/
def TrimmedRight (u t : Bytes) : Prop :=
  (∃ b : List Nat, (∀ r ∈ b, White r) ∧ u = t ++ ofRunes b) ∧
    ∀ r pre, White r → t ≠ pre ++ encodeRune r

/-- `t` is `s` without its leading and then trailing spaces. -/
def Trimmed (s t : Bytes) : Prop := ∃ u, TrimmedLeft s u ∧ TrimmedRight u t

theorem white_eq (r : Nat) : White r = (isSpace r = true) := by
  simp only [White, isSpace, Bool.or_eq_true, Bool.and_eq_true, decide_eq_true_eq, List.mem_cons, List.not_mem_nil, or_false,
    eq_iff_iff]
  omega

theorem isSpace_valid {r : Nat} (h : isSpace r = true) : ValidRune r ∧ r ≠ runeError := by
  simp only [isSpace, Bool.or_eq_true, Bool.and_eq_true, decide_eq_true_eq] at h
  unfold ValidRune runeError
  omega

theorem trimLeft_spec (n : Nat) (s : Bytes) (h : s.length ≤ n) : TrimmedLeft s (trimLeftFuel n s) := by
  simp only [TrimmedLeft, white_eq]
  induction n generalizing s with
  | zero =>
    cases s with
    | nil => exact ⟨⟨[], by simp, rfl⟩, fun r rest _ => by simp [trimLeftFuel, encode_ne_nil]⟩
    | cons _ _ => simp at h
  | succ n ih =>
    simp only [trimLeftFuel]
    split
    · next hc =>
      obtain ⟨hv, hne⟩ := isSpace_valid hc.2
      obtain ⟨r, tail, h1, h2, h3⟩ := decodeFirst_valid hne
      rw [h3, h2]
      rw [List.drop_append, List.drop_length, Nat.sub_self, List.nil_append, List.drop_zero]
      have hl := congrArg List.length h2
      have := List.length_pos_iff.mpr (encode_ne_nil r)
      simp only [List.length_append] at hl
      obtain ⟨⟨a, a1, a2⟩, a3⟩ := ih tail (by omega)
      refine ⟨⟨r :: a, ?_, ?_⟩, a3⟩
      · intro x hx
        rcases List.mem_cons.mp hx with rfl | hx
        · rw [h3] at hc; exact hc.2
        · exact a1 x hx
      · simp only [ofRunes, List.flatMap_cons, List.append_assoc]
        rw [show List.flatMap encodeRune a = ofRunes a from rfl, ← a2]
    · next hc =>
      refine ⟨⟨[], by simp, rfl⟩, ?_⟩
      rintro r rest hr rfl
      apply hc
      rw [decodeFirst_encode r (isSpace_valid hr).1]
      exact ⟨by simp [encode_ne_nil], hr⟩

theorem trimRight_spec (n : Nat) (s : Bytes) (h : s.length ≤ n) : TrimmedRight s (trimRightFuel n s) := by
  simp only [TrimmedRight, white_eq]
  induction n generalizing s with
  | zero =>
    cases s with
    | nil => exact ⟨⟨[], by simp, rfl⟩, fun r rest _ => by simp [trimRightFuel, encode_ne_nil]⟩
    | cons _ _ => simp at h
  | succ n ih =>
    simp only [trimRightFuel]
    split
    · next hc =>
      obtain ⟨hv, hne⟩ := isSpace_valid hc.2
      obtain ⟨pre, r, h1, h2, h3⟩ := decodeLast_valid hne
      rw [h3]
      have hl := congrArg List.length h2
      have := List.length_pos_iff.mpr (encode_ne_nil r)
      simp only [List.length_append] at hl
      rw [show s.take (s.length - (encodeRune r).length) = pre by rw [hl, Nat.add_sub_cancel, h2]; simp]
      obtain ⟨⟨a, a1, a2⟩, a3⟩ := ih pre (by omega)
      refine ⟨⟨a ++ [r], ?_, ?_⟩, a3⟩
      · intro x hx
        rcases List.mem_append.mp hx with hx | hx
        · exact a1 x hx
        · rw [h3] at hc; rw [List.mem_singleton.mp hx]; exact hc.2
      · rw [h2]
        simp only [ofRunes, List.flatMap_append, List.flatMap_cons, List.flatMap_nil, List.append_nil]
        rw [show List.flatMap encodeRune a = ofRunes a from rfl, ← List.append_assoc, ← a2]
    · next hc =>
      refine ⟨⟨[], by simp, by simp [ofRunes]⟩, ?_⟩
      rintro r rest hr rfl
      apply hc
      rw [decodeLast_encode _ r (isSpace_valid hr).1]
      exact ⟨by simp [encode_ne_nil], hr⟩

theorem trimSpace_spec (s : Bytes) : Trimmed s (trimSpace s) :=
  ⟨_, trimLeft_spec _ _ (Nat.le_refl _), trimRight_spec _ _ (Nat.le_refl _)⟩

theorem trimLeft_unique (n : Nat) (a : List Nat) (u : Bytes) (h : (ofRunes a ++ u).length ≤ n)
    (ha : ∀ r ∈ a, isSpace r = true) (hu : ∀ r rest, isSpace r = true → u ≠ encodeRune r ++ rest) :
    trimLeftFuel n (ofRunes a ++ u) = u := by
  induction a generalizing n with
  | nil =>
    simp only [ofRunes, List.flatMap_nil, List.nil_append]
    cases n with
    | zero => rfl
    | succ n =>
      simp only [trimLeftFuel]
      rw [if_neg]
      rintro ⟨h1, h2⟩
      obtain ⟨hv, hne⟩ := isSpace_valid h2
      obtain ⟨r, tail, k1, k2, k3⟩ := decodeFirst_valid hne
      rw [k3] at h2
      exact hu r tail h2 k2
  | cons r a ih =>
    have e : ofRunes (r :: a) ++ u = encodeRune r ++ (ofRunes a ++ u) := by simp [ofRunes]
    have hr := ha r (by simp)
    have := List.length_pos_iff.mpr (encode_ne_nil r)
    rw [e] at h ⊢
    cases n with
    | zero => simp only [List.length_append] at h; omega
    | succ n =>
      simp only [trimLeftFuel]
      rw [decodeFirst_encode r (isSpace_valid hr).1]
      rw [if_pos ⟨by simp [encode_ne_nil], hr⟩]
      rw [List.drop_append, List.drop_length, Nat.sub_self, List.nil_append, List.drop_zero]
      exact ih n (by rw [List.length_append] at h; omega) (fun x hx => ha x (by simp [hx]))

theorem trimRight_unique (n : Nat) (k : Nat) (a : List Nat) (hk : a.length = k) (u : Bytes) (h : (u ++ ofRunes a).length ≤ n)
    (ha : ∀ r ∈ a, isSpace r = true) (hu : ∀ r pre, isSpace r = true → u ≠ pre ++ encodeRune r) :
    trimRightFuel n (u ++ ofRunes a) = u := by
  induction k generalizing n a with
  | zero =>
    rw [List.eq_nil_of_length_eq_zero hk]
    simp only [ofRunes, List.flatMap_nil, List.append_nil]
    cases n with
    | zero => rfl
    | succ n =>
      simp only [trimRightFuel]
      rw [if_neg]
      rintro ⟨h1, h2⟩
      obtain ⟨hv, hne⟩ := isSpace_valid h2
      obtain ⟨pre, r, k1, k2, k3⟩ := decodeLast_valid hne
      rw [k3] at h2
      exact hu r pre h2 k2
  | succ k ih =>
    obtain ⟨a, r, rfl⟩ : ∃ a' r, a = a' ++ [r] := by
      have hne : a ≠ [] := by rintro rfl; simp at hk
      exact ⟨_, _, (List.dropLast_concat_getLast hne).symm⟩
    have e : u ++ ofRunes (a ++ [r]) = (u ++ ofRunes a) ++ encodeRune r := by simp [ofRunes]
    have hr := ha r (by simp)
    have := List.length_pos_iff.mpr (encode_ne_nil r)
    rw [e] at h ⊢
    cases n with
    | zero => rw [List.length_append] at h; omega
    | succ n =>
      simp only [trimRightFuel]
      rw [decodeLast_encode _ r (isSpace_valid hr).1]
      rw [if_pos ⟨by simp [encode_ne_nil], hr⟩]
      rw [show (u ++ ofRunes a ++ encodeRune r).take ((u ++ ofRunes a ++ encodeRune r).length - (encodeRune r).length) =
        u ++ ofRunes a by rw [List.length_append, Nat.add_sub_cancel]; exact List.take_left' rfl]
      exact ih n a (by simpa using hk) (by rw [List.length_append] at h; omega) (fun x hx => ha x (by simp [hx]))

theorem trimSpace_unique {s t : Bytes} (h : Trimmed s t) : trimSpace s = t := by
  simp only [Trimmed, TrimmedLeft, TrimmedRight, white_eq] at h
  obtain ⟨u, ⟨⟨a, a1, a2⟩, a3⟩, ⟨⟨b, b1, b2⟩, b3⟩⟩ := h
  unfold trimSpace
  simp only
  have e : trimLeftFuel s.length s = u := by
    rw [a2]
    exact trimLeft_unique _ a u (Nat.le_refl _) a1 a3
  rw [e, b2]
  exact trimRight_unique _ _ b rfl t (Nat.le_refl _) b1 b3

end Go
