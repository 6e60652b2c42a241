import Verif.Go.Utf8Props

/-!
# `utf8.DecodeLastRuneInString`, `utf8.DecodeRuneInString` and `strings.TrimSpace`

Part of the trusted modelling of the standard library.
-/

namespace Go

/-- `utf8.RuneStart`. -/
def runeStart (b : UInt8) : Bool := b.toNat < 0x80 || 0xC0 ≤ b.toNat

/-- The loop of `utf8.DecodeLastRuneInString`: look for the start of a rune at positions below `n`, not below `lim`. -/
def lastStart (s : Bytes) (lim : Nat) : Nat → Nat
  | 0 => 0
  | n + 1 => if n < lim then n else if runeStart (s.getD n 0) then n else lastStart s lim n

/-- `utf8.DecodeRuneInString`. -/
def decodeFirst : Bytes → Nat × Nat
  | [] => (runeError, 0)
  | b :: rest => decodeRune b rest

/-- `utf8.DecodeLastRuneInString`. -/
def decodeLast (s : Bytes) : Nat × Nat :=
  match s.getLast? with
  | none => (runeError, 0)
  | some b =>
    if b.toNat < 0x80 then (b.toNat, 1)
    else
      let start := lastStart s (s.length - 4) (s.length - 1)
      let d := decodeFirst (s.drop start)
      if start + d.2 = s.length then d else (runeError, 1)

/-- `strings.TrimLeftFunc(s, unicode.IsSpace)`. -/
def trimLeftFuel : Nat → Bytes → Bytes
  | 0, s => s
  | n + 1, s => if s ≠ [] ∧ isSpace (decodeFirst s).1 then trimLeftFuel n (s.drop (decodeFirst s).2) else s

/-- `strings.TrimRightFunc(s, unicode.IsSpace)`. -/
def trimRightFuel : Nat → Bytes → Bytes
  | 0, s => s
  | n + 1, s =>
    if s ≠ [] ∧ isSpace (decodeLast s).1 then trimRightFuel n (s.take (s.length - (decodeLast s).2)) else s

/-- `strings.TrimSpace`: leading spaces, then trailing spaces. -/
def trimSpace (s : Bytes) : Bytes :=
  let t := trimLeftFuel s.length s
  trimRightFuel t.length t

/-! ## Decoding gives valid runes -/

theorem ofNat_eq {n : Nat} {b : UInt8} (h : n = b.toNat) : UInt8.ofNat n = b := by
  subst h; simp

theorem encode2 {b0 b1 : UInt8} (h0 : 0xC2 ≤ b0.toNat ∧ b0.toNat ≤ 0xDF) (h1 : 0x80 ≤ b1.toNat ∧ b1.toNat ≤ 0xBF) :
    ValidRune (b0.toNat % 32 * 64 + b1.toNat % 64) ∧ encodeRune (b0.toNat % 32 * 64 + b1.toNat % 64) = [b0, b1] := by
  refine ⟨by unfold ValidRune; omega, ?_⟩
  unfold encodeRune
  rw [if_neg (by omega), if_pos (by omega), ofNat_eq (b := b0) (by omega), ofNat_eq (b := b1) (by omega)]

theorem encode3 {b0 b1 b2 : UInt8} (h0 : 0xE0 ≤ b0.toNat ∧ b0.toNat ≤ 0xEF) (h1 : 0x80 ≤ b1.toNat ∧ b1.toNat ≤ 0xBF)
    (h2 : 0x80 ≤ b2.toNat ∧ b2.toNat ≤ 0xBF) (hE : b0.toNat = 0xE0 → 0xA0 ≤ b1.toNat) (hD : b0.toNat = 0xED → b1.toNat ≤ 0x9F) :
    ValidRune (b0.toNat % 16 * 4096 + b1.toNat % 64 * 64 + b2.toNat % 64) ∧
      encodeRune (b0.toNat % 16 * 4096 + b1.toNat % 64 * 64 + b2.toNat % 64) = [b0, b1, b2] := by
  refine ⟨by unfold ValidRune; omega, ?_⟩
  unfold encodeRune
  rw [if_neg (by omega), if_neg (by omega), if_neg (by omega), if_pos (by omega), ofNat_eq (b := b0) (by omega),
    ofNat_eq (b := b1) (by omega), ofNat_eq (b := b2) (by omega)]

theorem encode4 {b0 b1 b2 b3 : UInt8} (h0 : 0xF0 ≤ b0.toNat ∧ b0.toNat ≤ 0xF4) (h1 : 0x80 ≤ b1.toNat ∧ b1.toNat ≤ 0xBF)
    (h2 : 0x80 ≤ b2.toNat ∧ b2.toNat ≤ 0xBF) (h3 : 0x80 ≤ b3.toNat ∧ b3.toNat ≤ 0xBF)
    (hL : b0.toNat = 0xF0 → 0x90 ≤ b1.toNat) (hH : b0.toNat = 0xF4 → b1.toNat ≤ 0x8F) :
    ValidRune (b0.toNat % 8 * 262144 + b1.toNat % 64 * 4096 + b2.toNat % 64 * 64 + b3.toNat % 64) ∧
      encodeRune (b0.toNat % 8 * 262144 + b1.toNat % 64 * 4096 + b2.toNat % 64 * 64 + b3.toNat % 64) = [b0, b1, b2, b3] := by
  refine ⟨by unfold ValidRune; omega, ?_⟩
  unfold encodeRune
  rw [if_neg (by omega), if_neg (by omega), if_neg (by omega), if_neg (by omega), ofNat_eq (b := b0) (by omega),
    ofNat_eq (b := b1) (by omega), ofNat_eq (b := b2) (by omega), ofNat_eq (b := b3) (by omega)]

theorem encode1 {b : UInt8} (h : b.toNat < 0x80) : ValidRune b.toNat ∧ encodeRune b.toNat = [b] := by
  refine ⟨by unfold ValidRune; omega, ?_⟩
  unfold encodeRune
  rw [if_pos h, ofNat_eq rfl]

/-- What is decoded is either an error of width 1 or a valid rune whose encoding was there. -/
theorem decode_valid (b : UInt8) (rest : Bytes) :
    decodeRune b rest = (runeError, 1) ∨
    ∃ r tail, ValidRune r ∧ b :: rest = encodeRune r ++ tail ∧ decodeRune b rest = (r, (encodeRune r).length) := by
  unfold decodeRune
  simp only []
  have two : ∀ lo hi : UInt8, 0xC2 ≤ b.toNat ∧ b.toNat ≤ 0xDF → 0x80 ≤ lo.toNat → hi.toNat ≤ 0xBF →
      let d := (match (generalizing := false) rest with
        | b1 :: _ => if inRange lo hi b1 = true then some ((b.toNat % 32) * 64 + b1.toNat % 64, 2) else none
        | _ => none : Option (Nat × Nat)).getD (runeError, 1)
      d = (runeError, 1) ∨ ∃ r tail, ValidRune r ∧ b :: rest = encodeRune r ++ tail ∧ d = (r, (encodeRune r).length) := by
    intro lo hi h0 hlo hhi
    cases rest with
    | nil => exact .inl rfl
    | cons b1 rest =>
      simp only
      split
      · next h1 =>
        rw [inRange_iff] at h1
        obtain ⟨e1, e2⟩ := encode2 h0 (b1 := b1) (by omega)
        exact .inr ⟨_, rest, e1, by rw [e2]; rfl, by rw [e2]; rfl⟩
      · exact .inl rfl
  have three : ∀ lo hi : UInt8, 0xE0 ≤ b.toNat ∧ b.toNat ≤ 0xEF → 0x80 ≤ lo.toNat → hi.toNat ≤ 0xBF →
      (b.toNat = 0xE0 → 0xA0 ≤ lo.toNat) → (b.toNat = 0xED → hi.toNat ≤ 0x9F) →
      let d := (match (generalizing := false) rest with
        | b1 :: b2 :: _ => if (inRange lo hi b1 && inRange 0x80 0xBF b2) = true then
            some ((b.toNat % 16) * 4096 + (b1.toNat % 64) * 64 + b2.toNat % 64, 3) else none
        | _ => none : Option (Nat × Nat)).getD (runeError, 1)
      d = (runeError, 1) ∨ ∃ r tail, ValidRune r ∧ b :: rest = encodeRune r ++ tail ∧ d = (r, (encodeRune r).length) := by
    intro lo hi h0 hlo hhi hE hD
    rcases rest with _ | ⟨b1, _ | ⟨b2, rest⟩⟩
    · exact .inl rfl
    · exact .inl rfl
    · simp only
      split
      · next h1 =>
        rw [Bool.and_eq_true, inRange_iff, inRange_iff] at h1
        have k1 : (0x80 : UInt8).toNat = 0x80 := rfl
        have k2 : (0xBF : UInt8).toNat = 0xBF := rfl
        obtain ⟨e1, e2⟩ := encode3 h0 (b1 := b1) (b2 := b2) (by omega) (by omega) (by omega) (by omega)
        exact .inr ⟨_, rest, e1, by rw [e2]; rfl, by rw [e2]; rfl⟩
      · exact .inl rfl
  have four : ∀ lo hi : UInt8, 0xF0 ≤ b.toNat ∧ b.toNat ≤ 0xF4 → 0x80 ≤ lo.toNat → hi.toNat ≤ 0xBF →
      (b.toNat = 0xF0 → 0x90 ≤ lo.toNat) → (b.toNat = 0xF4 → hi.toNat ≤ 0x8F) →
      let d := (match (generalizing := false) rest with
        | b1 :: b2 :: b3 :: _ =>
          if (inRange lo hi b1 && inRange 0x80 0xBF b2 && inRange 0x80 0xBF b3) = true then
            some ((b.toNat % 8) * 262144 + (b1.toNat % 64) * 4096 + (b2.toNat % 64) * 64 + b3.toNat % 64, 4) else none
        | _ => none : Option (Nat × Nat)).getD (runeError, 1)
      d = (runeError, 1) ∨ ∃ r tail, ValidRune r ∧ b :: rest = encodeRune r ++ tail ∧ d = (r, (encodeRune r).length) := by
    intro lo hi h0 hlo hhi hE hD
    rcases rest with _ | ⟨b1, _ | ⟨b2, _ | ⟨b3, rest⟩⟩⟩
    · exact .inl rfl
    · exact .inl rfl
    · exact .inl rfl
    · simp only
      split
      · next h1 =>
        rw [Bool.and_eq_true, Bool.and_eq_true, inRange_iff, inRange_iff, inRange_iff] at h1
        have k1 : (0x80 : UInt8).toNat = 0x80 := rfl
        have k2 : (0xBF : UInt8).toNat = 0xBF := rfl
        obtain ⟨e1, e2⟩ := encode4 h0 (b1 := b1) (b2 := b2) (b3 := b3) (by omega) (by omega) (by omega) (by omega) (by omega)
        exact .inr ⟨_, rest, e1, by rw [e2]; rfl, by rw [e2]; rfl⟩
      · exact .inl rfl
  have key : ∀ k : UInt8, b = k → b.toNat = k.toNat := fun k h => by rw [h]
  by_cases h : b < 0x80
  · rw [if_pos h]
    have h : b.toNat < 0x80 := UInt8.lt_iff_toNat_lt.mp h
    obtain ⟨e1, e2⟩ := encode1 h
    exact .inr ⟨_, rest, e1, by rw [e2]; rfl, by rw [e2]; rfl⟩
  rw [if_neg h]
  by_cases h : inRange 0xC2 0xDF b = true
  · rw [if_pos h]
    rw [inRange_iff] at h
    exact two 0x80 0xBF (by simpa using h) (by decide) (by decide)
  rw [if_neg h]
  by_cases h : b = 0xE0
  · rw [if_pos h]
    have h := key _ h
    simp only [UInt8.reduceToNat] at h
    exact three 0xA0 0xBF (by omega) (by decide) (by decide) (fun _ => by decide) (by omega)
  rw [if_neg h]
  by_cases h : (inRange 0xE1 0xEC b || inRange 0xEE 0xEF b) = true
  · rw [if_pos h]
    rw [Bool.or_eq_true, inRange_iff, inRange_iff] at h
    simp only [UInt8.reduceToNat] at h
    exact three 0x80 0xBF (by omega) (by decide) (by decide) (by omega) (by omega)
  rw [if_neg h]
  by_cases h : b = 0xED
  · rw [if_pos h]
    have h := key _ h
    simp only [UInt8.reduceToNat] at h
    exact three 0x80 0x9F (by omega) (by decide) (by decide) (by omega) (fun _ => by decide)
  rw [if_neg h]
  by_cases h : b = 0xF0
  · rw [if_pos h]
    have h := key _ h
    simp only [UInt8.reduceToNat] at h
    exact four 0x90 0xBF (by omega) (by decide) (by decide) (fun _ => by decide) (by omega)
  rw [if_neg h]
  by_cases h : inRange 0xF1 0xF3 b = true
  · rw [if_pos h]
    rw [inRange_iff] at h
    simp only [UInt8.reduceToNat] at h
    exact four 0x80 0xBF (by omega) (by decide) (by decide) (by omega) (by omega)
  rw [if_neg h]
  by_cases h : b = 0xF4
  · rw [if_pos h]
    have h := key _ h
    simp only [UInt8.reduceToNat] at h
    exact four 0x80 0x8F (by omega) (by decide) (by decide) (by omega) (fun _ => by decide)
  · rw [if_neg h]
    exact .inl rfl

theorem encode_ne_nil (r : Nat) : encodeRune r ≠ [] := by
  unfold encodeRune
  repeat' split
  all_goals simp

theorem decodeFirst_encode (r : Nat) (h : ValidRune r) (rest : Bytes) :
    decodeFirst (encodeRune r ++ rest) = (r, (encodeRune r).length) := by
  obtain ⟨b, bs, e, hd⟩ := decode_encode r h rest
  rw [e]
  simpa [decodeFirst] using hd

theorem decodeFirst_valid {s : Bytes} (h : (decodeFirst s).1 ≠ runeError) :
    ∃ r tail, ValidRune r ∧ s = encodeRune r ++ tail ∧ decodeFirst s = (r, (encodeRune r).length) := by
  cases s with
  | nil => simp [decodeFirst] at h
  | cons b rest =>
    rcases decode_valid b rest with h1 | h1
    · simp [decodeFirst, h1] at h
    · exact h1

/-- The encodings of non-ASCII runes: a first byte, then one to three continuation bytes. -/
theorem encode_shape (r : Nat) (h : ValidRune r) (hr : 0x80 ≤ r) :
    ∃ b bs, encodeRune r = b :: bs ∧ runeStart b = true ∧ (∀ c ∈ bs, runeStart c = false) ∧ bs ≠ [] ∧ bs.length ≤ 3 ∧
      (∀ c ∈ bs, 0x80 ≤ c.toNat) := by
  unfold encodeRune
  unfold ValidRune at h
  have cont : ∀ n, n < 64 → runeStart (UInt8.ofNat (0x80 + n)) = false ∧ 0x80 ≤ (UInt8.ofNat (0x80 + n)).toNat := by
    intro n hn
    rw [byte_toNat _ (by omega)]
    simp only [runeStart, byte_toNat (0x80 + n) (by omega)]
    simp
    omega
  have strt : ∀ n, 0xC0 ≤ n → n < 256 → runeStart (UInt8.ofNat n) = true := by
    intro n h1 h2
    simp only [runeStart, byte_toNat n h2]
    simp
    omega
  rw [if_neg (by omega)]
  split
  · exact ⟨_, _, rfl, strt _ (by omega) (by omega), by
      intro c hc
      simp only [List.mem_cons, List.not_mem_nil, or_false] at hc
      subst hc <;> exact (cont _ (by omega)).1,
      by simp, by simp, by
      intro c hc
      simp only [List.mem_cons, List.not_mem_nil, or_false] at hc
      subst hc <;> exact (cont _ (by omega)).2⟩
  rw [if_neg (by omega)]
  split
  · exact ⟨_, _, rfl, strt _ (by omega) (by omega), by
      intro c hc
      simp only [List.mem_cons, List.not_mem_nil, or_false] at hc
      rcases hc with rfl | rfl <;> exact (cont _ (by omega)).1,
      by simp, by simp, by
      intro c hc
      simp only [List.mem_cons, List.not_mem_nil, or_false] at hc
      rcases hc with rfl | rfl <;> exact (cont _ (by omega)).2⟩
  · exact ⟨_, _, rfl, strt _ (by omega) (by omega), by
      intro c hc
      simp only [List.mem_cons, List.not_mem_nil, or_false] at hc
      rcases hc with rfl | rfl | rfl <;> exact (cont _ (by omega)).1,
      by simp, by simp, by
      intro c hc
      simp only [List.mem_cons, List.not_mem_nil, or_false] at hc
      rcases hc with rfl | rfl | rfl <;> exact (cont _ (by omega)).2⟩

theorem lastStart_found (s : Bytes) (lim k n : Nat) (h1 : k < n) (h2 : lim ≤ k) (h3 : runeStart (s.getD k 0) = true)
    (h4 : ∀ i, k < i → i < n → runeStart (s.getD i 0) = false) : lastStart s lim n = k := by
  induction n with
  | zero => omega
  | succ n ih =>
    simp only [lastStart]
    rw [if_neg (by omega)]
    by_cases hk : k = n
    · subst hk
      rw [if_pos h3]
    · rw [if_neg (by rw [h4 n (by omega) (by omega)]; simp)]
      exact ih (by omega) (fun i hi hi' => h4 i hi (by omega))

theorem lastStart_lt (s : Bytes) (lim n : Nat) : lastStart s lim n ≤ n := by
  induction n with
  | zero => simp [lastStart]
  | succ n ih =>
    simp only [lastStart]
    split
    · omega
    · split <;> omega

/-- The last rune of a text that ends with the encoding of a valid rune. -/
theorem decodeLast_encode (pre : Bytes) (r : Nat) (h : ValidRune r) :
    decodeLast (pre ++ encodeRune r) = (r, (encodeRune r).length) := by
  by_cases hr : r < 0x80
  · have he : encodeRune r = [UInt8.ofNat r] := by unfold encodeRune; rw [if_pos hr]
    have hb := byte_toNat r (by omega)
    rw [he]
    simp only [decodeLast, List.getLast?_append, List.getLast?_singleton, Option.some_or]
    rw [if_pos (by rw [hb]; exact hr), hb]
    rfl
  · obtain ⟨b, bs, e, s1, s2, s3, s4, s5⟩ := encode_shape r h (by omega)
    have hl : ∃ c, (pre ++ encodeRune r).getLast? = some c ∧ 0x80 ≤ c.toNat := by
      refine ⟨bs.getLast s3, ?_, s5 _ (List.getLast_mem s3)⟩
      rw [e, List.getLast?_append, List.getLast?_cons]
      simp [List.getLast?_eq_some_getLast s3]
    obtain ⟨c, hc1, hc2⟩ := hl
    unfold decodeLast
    rw [hc1]
    simp only
    rw [if_neg (by omega)]
    have hlen : (pre ++ encodeRune r).length = pre.length + bs.length + 1 := by rw [e]; simp; omega
    have hb : 0 < bs.length := List.length_pos_iff.mpr s3
    have hst : lastStart (pre ++ encodeRune r) ((pre ++ encodeRune r).length - 4) ((pre ++ encodeRune r).length - 1) = pre.length := by
      apply lastStart_found
      · omega
      · omega
      · rw [e, List.getD_eq_getElem?_getD, List.getElem?_append_right (by omega)]
        simpa using s1
      · intro i hi1 hi2
        rw [e, List.getD_eq_getElem?_getD, List.getElem?_append_right (by omega)]
        have : i - pre.length = (i - pre.length - 1) + 1 := by omega
        rw [this, List.getElem?_cons_succ, List.getElem?_eq_getElem (by omega)]
        exact s2 _ (List.getElem_mem _)
    rw [hst]
    rw [show (pre ++ encodeRune r).drop pre.length = encodeRune r ++ [] by simp, decodeFirst_encode r h]
    simp

/-- A decoded last rune: its encoding is at the end. -/
theorem decodeLast_valid {s : Bytes} (h : (decodeLast s).1 ≠ runeError) :
    ∃ pre r, ValidRune r ∧ s = pre ++ encodeRune r ∧ decodeLast s = (r, (encodeRune r).length) := by
  suffices hs : ∃ pre r, ValidRune r ∧ s = pre ++ encodeRune r by
    obtain ⟨pre, r, h1, h2⟩ := hs
    exact ⟨pre, r, h1, h2, by rw [h2]; exact decodeLast_encode pre r h1⟩
  unfold decodeLast at h
  split at h
  · simp at h
  · next b hb =>
    split at h
    · next hlt =>
      obtain ⟨e1, e2⟩ := encode1 hlt
      refine ⟨s.dropLast, b.toNat, e1, ?_⟩
      rw [e2]
      obtain ⟨l, rfl⟩ := List.getLast?_eq_some_iff.mp hb
      simp
    · simp only at h
      split at h
      · next hst =>
        obtain ⟨r, tail, h1, h2, h3⟩ := decodeFirst_valid h
        generalize lastStart s (s.length - 4) (s.length - 1) = st at *
        refine ⟨s.take st, r, h1, ?_⟩
        have hl := congrArg List.length h2
        rw [h3] at hst
        simp only [List.length_drop, List.length_append] at hl hst
        have : tail = [] := List.eq_nil_of_length_eq_zero (by omega)
        rw [this, List.append_nil] at h2
        rw [← h2, List.take_append_drop]
      · simp at h

theorem decodeLast_iff (s : Bytes) (r n : Nat) (hr : r ≠ runeError) :
    decodeLast s = (r, n) ↔ ∃ pre, ValidRune r ∧ s = pre ++ encodeRune r ∧ n = (encodeRune r).length := by
  constructor
  · intro h
    obtain ⟨pre, r', h1, h2, h3⟩ := decodeLast_valid (s := s) (by rw [h]; exact hr)
    rw [h] at h3
    simp only [Prod.mk.injEq] at h3
    obtain ⟨rfl, rfl⟩ := h3
    exact ⟨pre, h1, h2, rfl⟩
  · rintro ⟨pre, h1, rfl, rfl⟩
    exact decodeLast_encode pre r h1

end Go
