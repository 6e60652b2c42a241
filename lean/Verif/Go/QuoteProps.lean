import Verif.Go.Quote

/-! # What is quoted can be read back -/

namespace Go

/-! ## Specification: reading a quoted text, as Go and C do -/

/-- The value of a hexadecimal digit. -/
def digitVal (b : UInt8) : Nat := if b.toNat < 58 then b.toNat - 48 else b.toNat - 87

/-- The value of hexadecimal digits. -/
def hexVal (ds : Bytes) : Nat := ds.foldl (fun a d => a * 16 + digitVal d) 0

/-- What the first character or escape of a text stands for, and its length. Nothing at the closing quote. -/
def readOne : Bytes → Option (Bytes × Nat)
  | [] => none
  | b :: rest =>
    if b = 34 then none
    else if b ≠ 92 then some ([b], 1)
    else
      match rest with
      | [] => none
      | c :: ds =>
        if c = 120 then some ([UInt8.ofNat (hexVal (ds.take 2))], 4)
        else if c = 117 then some (encodeRune (hexVal (ds.take 4)), 6)
        else if c = 85 then some (encodeRune (hexVal (ds.take 8)), 10)
        else if c = 97 then some ([7], 2)
        else if c = 98 then some ([8], 2)
        else if c = 102 then some ([12], 2)
        else if c = 110 then some ([10], 2)
        else if c = 114 then some ([13], 2)
        else if c = 116 then some ([9], 2)
        else if c = 118 then some ([11], 2)
        else some ([c], 2)

/-- Reads until the closing quote; the first argument bounds the number of characters. -/
def readQuoted : Nat → Bytes → Bytes
  | 0, _ => []
  | n + 1, q =>
    match readOne q with
    | none => []
    | some (s, k) => s ++ readQuoted n (q.drop k)

/-- What a quoted text stands for. -/
def unquote (q : Bytes) : Bytes := readQuoted q.length (q.drop 1)

/-! ## Proofs -/

theorem digitVal_hexDigit {v : Nat} (h : v < 16) : digitVal (hexDigit v) = v := by
  have : ∀ v : Fin 16, digitVal (hexDigit v.val) = v.val := by decide
  exact this ⟨v, h⟩

theorem hexVal_append (a : Bytes) (d : UInt8) : hexVal (a ++ [d]) = hexVal a * 16 + digitVal d := by simp [hexVal]

theorem hexVal_hex (n v : Nat) : hexVal (hex n v) = v % 16 ^ n := by
  induction n generalizing v with
  | zero => simp [hex, hexVal, Nat.mod_one]
  | succ n ih =>
    rw [hex, hexVal_append, ih, digitVal_hexDigit (Nat.mod_lt _ (by omega)), Nat.pow_succ, Nat.mul_comm (16 ^ n) 16, Nat.mod_mul]
    omega

theorem hex_length (n v : Nat) : (hex n v).length = n := by
  induction n generalizing v with
  | zero => rfl
  | succ n ih => simp [hex, ih]

/-- One item is read, whatever follows. -/
def Reads (q s : Bytes) : Prop := q ≠ [] ∧ ∀ n t, q.length ≤ n → ∃ m, n ≤ m + q.length ∧ m ≤ n ∧ readQuoted n (q ++ t) = s ++ readQuoted m t

theorem Reads.one {q s : Bytes} (hne : q ≠ []) (h : ∀ t, readOne (q ++ t) = some (s, q.length)) : Reads q s := by
  refine ⟨hne, fun n t hn => ?_⟩
  have := List.length_pos_iff.mpr hne
  obtain ⟨m, rfl⟩ : ∃ m, n = m + 1 := ⟨n - 1, by omega⟩
  refine ⟨m, by omega, by omega, ?_⟩
  rw [readQuoted, h]
  simp

theorem Reads.append {q s q' s' : Bytes} (h : Reads q s) (h' : Reads q' s') : Reads (q ++ q') (s ++ s') := by
  refine ⟨by simp [h.1], fun n t hn => ?_⟩
  simp only [List.length_append] at hn ⊢
  obtain ⟨m, h1, h2, h3⟩ := h.2 n (q' ++ t) (by omega)
  obtain ⟨k, k1, k2, k3⟩ := h'.2 m t (by omega)
  refine ⟨k, by omega, by omega, ?_⟩
  rw [List.append_assoc, h3, k3, List.append_assoc]

theorem Reads.plain {b : UInt8} (h1 : b ≠ 34) (h2 : b ≠ 92) : Reads [b] [b] :=
  Reads.one (by simp) fun t => by simp [readOne, h1, h2]

theorem Reads.plains {q : Bytes} (hne : q ≠ []) (h : ∀ b ∈ q, b ≠ 34 ∧ b ≠ 92) : Reads q q := by
  induction q with
  | nil => exact absurd rfl hne
  | cons b q ih =>
    have hb := Reads.plain (h b (by simp)).1 (h b (by simp)).2
    cases q with
    | nil => exact hb
    | cons c q => exact hb.append (ih (by simp) fun x hx => h x (by simp [hx]))

theorem Reads.hexByte {v : Nat} (h : v < 256) : Reads ([92, 120] ++ hex 2 v) [UInt8.ofNat v] := by
  refine Reads.one (by simp) fun t => ?_
  have : (hex 2 v ++ t).take 2 = hex 2 v := List.take_left' (hex_length 2 v)
  simp only [List.cons_append, List.nil_append, readOne, this, hexVal_hex]
  rw [if_neg (by decide), if_neg (by decide), if_pos trivial, Nat.mod_eq_of_lt (by omega)]
  simp [hex_length]

theorem Reads.hex4 {r : Nat} (h : r < 0x10000) : Reads ([92, 117] ++ hex 4 r) (encodeRune r) := by
  refine Reads.one (by simp) fun t => ?_
  have : (hex 4 r ++ t).take 4 = hex 4 r := List.take_left' (hex_length 4 r)
  simp only [List.cons_append, List.nil_append, readOne, this, hexVal_hex]
  rw [if_neg (by decide), if_neg (by decide), if_neg (by decide), if_pos trivial, Nat.mod_eq_of_lt (by omega)]
  simp [hex_length]

theorem Reads.hex8 {r : Nat} (h : r ≤ 0x10FFFF) : Reads ([92, 85] ++ hex 8 r) (encodeRune r) := by
  refine Reads.one (by simp) fun t => ?_
  have : (hex 8 r ++ t).take 8 = hex 8 r := List.take_left' (hex_length 8 r)
  simp only [List.cons_append, List.nil_append, readOne, this, hexVal_hex]
  rw [if_neg (by decide), if_neg (by decide), if_neg (by decide), if_neg (by decide), if_pos trivial, Nat.mod_eq_of_lt (by omega)]
  simp [hex_length]

theorem encode_small {r : Nat} (h : r < 0x80) : encodeRune r = [UInt8.ofNat r] := by simp [encodeRune, h]

theorem encode_high {r : Nat} (h : ValidRune r) (hr : 0x80 ≤ r) (b : UInt8) (hb : b ∈ encodeRune r) : 0x80 ≤ b.toNat := by
  unfold ValidRune at h
  have byte : ∀ n, 0x80 ≤ n → n < 256 → b = UInt8.ofNat n → 0x80 ≤ b.toNat := by
    intro n h1 h2 e
    rw [e, byte_toNat n h2]
    exact h1
  unfold encodeRune at hb
  rw [if_neg (by omega)] at hb
  split at hb
  · simp only [List.mem_cons, List.not_mem_nil, or_false] at hb
    rcases hb with e | e <;> exact byte _ (by omega) (by omega) e
  rw [if_neg (by omega)] at hb
  split at hb
  · simp only [List.mem_cons, List.not_mem_nil, or_false] at hb
    rcases hb with e | e | e <;> exact byte _ (by omega) (by omega) e
  · simp only [List.mem_cons, List.not_mem_nil, or_false] at hb
    rcases hb with e | e | e | e <;> exact byte _ (by omega) (by omega) e

theorem Reads.rune (p : Nat → Bool) {r : Nat} (h : ValidRune r) : Reads (escapeRune p r) (encodeRune r) := by
  have hr : r ≤ 0x10FFFF := by unfold ValidRune at h; omega
  unfold escapeRune
  have esc : ∀ (v : Nat) (c : UInt8), v < 0x80 → (∀ t, readOne ([92, c] ++ t) = some ([UInt8.ofNat v], 2)) → Reads [92, c] (encodeRune v) := by
    intro v c hv ht
    rw [encode_small hv]
    exact Reads.one (by simp) ht
  split
  · next e => rcases e with rfl | rfl <;> exact esc _ _ (by decide) fun t => rfl
  · split
    · next hq hp =>
      refine Reads.plains (encode_ne_nil r) fun b hb => ?_
      by_cases hs : r < 0x80
      · rw [encode_small hs] at hb
        simp only [List.mem_cons, List.not_mem_nil, or_false] at hb
        subst hb
        have := byte_toNat r (by omega)
        constructor <;> intro e <;> rw [e] at this
        · exact hq (.inl this.symm)
        · exact hq (.inr this.symm)
      · have := encode_high h (by omega) b hb
        constructor <;> rintro rfl <;> simp at this
    · repeat' split
      · next e => subst e; exact esc 7 97 (by decide) fun t => rfl
      · next e => subst e; exact esc 8 98 (by decide) fun t => rfl
      · next e => subst e; exact esc 12 102 (by decide) fun t => rfl
      · next e => subst e; exact esc 10 110 (by decide) fun t => rfl
      · next e => subst e; exact esc 13 114 (by decide) fun t => rfl
      · next e => subst e; exact esc 9 116 (by decide) fun t => rfl
      · next e => subst e; exact esc 11 118 (by decide) fun t => rfl
      · next e => rw [encode_small (by omega)]; exact Reads.hexByte (by omega)
      · next e => exact Reads.hex4 e
      · exact Reads.hex8 hr

/-- A text is empty, or begins with a byte that starts no character, or with a character. -/
theorem text_cases (s : Bytes) : s = [] ∨
    (∃ b rest, s = b :: rest ∧ 0x80 ≤ b.toNat ∧ chunks s = (runeError, [b]) :: chunks rest) ∨
    ∃ r rest, ValidRune r ∧ s = encodeRune r ++ rest ∧ chunks s = (r, encodeRune r) :: chunks rest := by
  cases s with
  | nil => exact .inl rfl
  | cons b rest =>
    rcases decode_valid b rest with e | ⟨r, tail, hr, e1, -⟩
    · refine .inr (.inl ⟨b, rest, rfl, ?_, ?_⟩)
      · by_cases hb : b.toNat < 0x80
        · have : decodeRune b rest = (b.toNat, 1) := decodeRune_ascii b rest (by rw [UInt8.lt_iff_toNat_lt]; exact hb)
          rw [e] at this
          have := congrArg Prod.fst this
          simp only [runeError] at this
          omega
        · omega
      · simp [chunks, chunksAux, e]
    · exact .inr (.inr ⟨r, tail, hr, e1, by rw [e1]; exact chunks_encode r hr tail⟩)

theorem quoteChunk_rune (p : Nat → Bool) {r : Nat} (h : ValidRune r) : quoteChunk p (r, encodeRune r) = escapeRune p r := by
  unfold quoteChunk
  refine if_neg ?_
  rintro ⟨h1, h2⟩
  dsimp only at h1 h2
  subst h1
  exact absurd h2 (by decide)

theorem quoteChunk_byte (p : Nat → Bool) (b : UInt8) : quoteChunk p (runeError, [b]) = [92, 120] ++ hex 2 b.toNat := by
  unfold quoteChunk
  exact if_pos ⟨rfl, rfl⟩

theorem body_reads (p : Nat → Bool) (s : Bytes) : ∀ n t, ((chunks s).flatMap (quoteChunk p)).length ≤ n →
    ∃ m, n ≤ m + ((chunks s).flatMap (quoteChunk p)).length ∧
      readQuoted n ((chunks s).flatMap (quoteChunk p) ++ t) = s ++ readQuoted m t := by
  induction hl : s.length using Nat.strongRecOn generalizing s with
  | ind k ih =>
    subst hl
    have step : ∀ (c : Nat × Bytes) (pre rest : Bytes), s = pre ++ rest → rest.length < s.length → chunks s = c :: chunks rest →
        Reads (quoteChunk p c) pre → ∀ n t, ((chunks s).flatMap (quoteChunk p)).length ≤ n →
        ∃ m, n ≤ m + ((chunks s).flatMap (quoteChunk p)).length ∧
          readQuoted n ((chunks s).flatMap (quoteChunk p) ++ t) = s ++ readQuoted m t := by
      intro c pre rest hs hlt hc hr n t hn
      rw [hc, List.flatMap_cons] at hn ⊢
      rw [List.length_append] at hn ⊢
      obtain ⟨m, h1, h2, h3⟩ := hr.2 n ((chunks rest).flatMap (quoteChunk p) ++ t) (by omega)
      obtain ⟨m', k1, k2⟩ := ih rest.length hlt rest rfl m t (by omega)
      refine ⟨m', by omega, ?_⟩
      rw [List.append_assoc, h3, k2, hs, List.append_assoc]
    rcases text_cases s with rfl | ⟨b, rest, hs, hb, hc⟩ | ⟨r, rest, hr, hs, hc⟩
    · intro n t _
      exact ⟨n, by omega, rfl⟩
    · refine step (runeError, [b]) [b] rest hs (by rw [hs]; simp) hc ?_
      rw [quoteChunk_byte]
      have := Reads.hexByte (v := b.toNat) (UInt8.toNat_lt b)
      rwa [UInt8.ofNat_toNat] at this
    · refine step (r, encodeRune r) (encodeRune r) rest hs ?_ hc ?_
      · have := List.length_pos_iff.mpr (encode_ne_nil r)
        rw [hs, List.length_append]
        omega
      · rw [quoteChunk_rune p hr]
        exact Reads.rune p hr

/-- Every text can be read back from its quoted form, whatever counts as printable. -/
theorem unquote_quote (p : Nat → Bool) (s : Bytes) : unquote (quote p s) = s := by
  unfold unquote quote
  simp only [List.drop_succ_cons, List.drop_zero, List.length_cons, List.length_append, List.length_nil]
  obtain ⟨m, -, h⟩ := body_reads p s (((chunks s).flatMap (quoteChunk p)).length + (0 + 1) + 1) [34] (by omega)
  rw [h]
  have : readQuoted m [34] = [] := by cases m <;> rfl
  rw [this, List.append_nil]

/-- Different texts are quoted differently. -/
theorem quote_injective (p : Nat → Bool) {s t : Bytes} (h : quote p s = quote p t) : s = t := by
  rw [← unquote_quote p s, h, unquote_quote]

/-- Printable ASCII text without quotes and backslashes is only put in quotes. -/
theorem quote_plain (p : Nat → Bool) {s : Bytes} (h : ∀ b ∈ s, 32 ≤ b ∧ b ≤ 126 ∧ b ≠ 34 ∧ b ≠ 92) : quote p s = 34 :: (s ++ [34]) := by
  unfold quote
  congr 2
  induction s with
  | nil => rfl
  | cons b s ih =>
    obtain ⟨h1, h2, h3, h4⟩ := h b (by simp)
    have hb : b.toNat < 0x80 := by
      have := UInt8.le_iff_toNat_le.mp h2
      simp at this
      omega
    rw [chunks_cons_ascii b s (by rw [UInt8.lt_iff_toNat_lt]; exact hb), List.flatMap_cons, ih fun x hx => h x (by simp [hx])]
    have : quoteChunk p (b.toNat, [b]) = [b] := by
      unfold quoteChunk escapeRune isPrint
      rw [if_neg (by simp [runeError]; omega), if_neg, if_pos]
      · rw [encode_small hb, UInt8.ofNat_toNat]
      · rw [if_pos hb]
        have h1 := UInt8.le_iff_toNat_le.mp h1
        have h2 := UInt8.le_iff_toNat_le.mp h2
        simp at h1 h2
        simp [h1, h2]
      · rintro (e | e)
        · exact h3 (UInt8.toNat_inj.mp e)
        · exact h4 (UInt8.toNat_inj.mp e)
    rw [this]
    rfl

example : quote (fun _ => false) [97, 9, 34, 0xC3, 0xA9, 0xFF] = b!"\"a\\t\\\"\\u00e9\\xff\"" := by decide

theorem hexDigit_visible {v : Nat} (h : v < 16) : 32 ≤ (hexDigit v).toNat ∧ (hexDigit v).toNat ≠ 127 := by
  have : ∀ v : Fin 16, 32 ≤ (hexDigit v.val).toNat ∧ (hexDigit v.val).toNat ≠ 127 := by decide
  exact this ⟨v, h⟩

theorem hex_visible (n v : Nat) : ∀ b ∈ hex n v, 32 ≤ b.toNat ∧ b.toNat ≠ 127 := by
  induction n generalizing v with
  | zero => simp [hex]
  | succ n ih =>
    intro b hb
    rw [hex, List.mem_append, List.mem_singleton] at hb
    rcases hb with hb | rfl
    · exact ih _ b hb
    · exact hexDigit_visible (Nat.mod_lt _ (by omega))

theorem escapeRune_visible (p : Nat → Bool) {r : Nat} (h : ValidRune r) : ∀ b ∈ escapeRune p r, 32 ≤ b.toNat ∧ b.toNat ≠ 127 := by
  have e1 : ∀ (l : Bytes), l.all (fun b => decide (32 ≤ b.toNat ∧ b.toNat ≠ 127)) = true → ∀ b ∈ l, 32 ≤ b.toNat ∧ b.toNat ≠ 127 := by
    intro l hl b hb
    simpa using List.all_eq_true.mp hl b hb
  have e2 : ∀ (l m : Bytes), l.all (fun b => decide (32 ≤ b.toNat ∧ b.toNat ≠ 127)) = true → (∀ b ∈ m, 32 ≤ b.toNat ∧ b.toNat ≠ 127) →
      ∀ b ∈ l ++ m, 32 ≤ b.toNat ∧ b.toNat ≠ 127 := by
    intro l m hl hm b hb
    rcases List.mem_append.mp hb with hb | hb
    · exact e1 l hl b hb
    · exact hm b hb
  have ite : ∀ {c : Prop} [Decidable c] (l m : Bytes), (c → ∀ b ∈ l, 32 ≤ b.toNat ∧ b.toNat ≠ 127) → (∀ b ∈ m, 32 ≤ b.toNat ∧ b.toNat ≠ 127) →
      ∀ b ∈ (if c then l else m), 32 ≤ b.toNat ∧ b.toNat ≠ 127 := by
    intro c _ l m h1 h2
    by_cases hc : c
    · rw [if_pos hc]; exact h1 hc
    · rw [if_neg hc]; exact h2
  unfold escapeRune
  refine ite _ _ ?_ (ite _ _ ?_ ?_)
  · intro hr; rcases hr with rfl | rfl <;> exact e1 _ (by decide)
  · intro hp b hb
    by_cases hr : r < 0x80
    · rw [encode_small hr, List.mem_singleton] at hb
      unfold isPrint at hp
      rw [if_pos hr] at hp
      have hp := of_decide_eq_true hp
      rw [hb, byte_toNat r (by omega)]
      omega
    · have h1 := encode_high h (by omega) b hb
      exact ⟨by omega, by omega⟩
  · refine ite _ _ (fun _ => e1 _ (by decide)) (ite _ _ (fun _ => e1 _ (by decide)) (ite _ _ (fun _ => e1 _ (by decide))
      (ite _ _ (fun _ => e1 _ (by decide)) (ite _ _ (fun _ => e1 _ (by decide)) (ite _ _ (fun _ => e1 _ (by decide))
      (ite _ _ (fun _ => e1 _ (by decide)) (ite _ _ (fun _ => e2 _ _ (by decide) (hex_visible _ _))
      (ite _ _ (fun _ => e2 _ _ (by decide) (hex_visible _ _)) (e2 _ _ (by decide) (hex_visible _ _))))))))))

/-- Quoted text has no control characters, in particular no newlines. -/
theorem quote_visible (p : Nat → Bool) (s : Bytes) : ∀ b ∈ quote p s, 32 ≤ b.toNat ∧ b.toNat ≠ 127 := by
  have key : ∀ b ∈ (chunks s).flatMap (quoteChunk p), 32 ≤ b.toNat ∧ b.toNat ≠ 127 := by
    induction hl : s.length using Nat.strongRecOn generalizing s with
    | ind k ih =>
      subst hl
      rcases text_cases s with rfl | ⟨b, rest, hs, hb, hc⟩ | ⟨r, rest, hr, hs, hc⟩
      · intro b hb; cases hb
      · intro x hx
        rw [hc, List.flatMap_cons, quoteChunk_byte] at hx
        rcases List.mem_append.mp hx with hx | hx
        · rcases List.mem_append.mp hx with hx | hx
          · have : x = 92 ∨ x = 120 := by simpa using hx
            rcases this with rfl | rfl <;> decide
          · exact hex_visible _ _ x hx
        · exact ih rest.length (by rw [hs]; simp) rest rfl x hx
      · intro x hx
        rw [hc, List.flatMap_cons, quoteChunk_rune p hr] at hx
        rcases List.mem_append.mp hx with hx | hx
        · exact escapeRune_visible p hr x hx
        · refine ih rest.length ?_ rest rfl x hx
          have := List.length_pos_iff.mpr (encode_ne_nil r)
          rw [hs, List.length_append]
          omega
  intro b hb
  unfold quote at hb
  rw [List.mem_cons, List.mem_append, List.mem_singleton] at hb
  rcases hb with rfl | hb | rfl
  · decide
  · exact key b hb
  · decide

end Go
