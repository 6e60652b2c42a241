import Verif.Go.Trim

/-! # What `strings.Fields` and `bufio.ScanWords` take for words -/

namespace Go

/-! ## Specification -/

/-- No white space anywhere in it. -/
def Solid (w : Bytes) : Prop := ∀ a r b, White r → w ≠ a ++ encodeRune r ++ b

/-- A word may end here: at the end of the text or before white space. -/
def Breaks (s : Bytes) : Prop := s = [] ∨ ∃ r t, White r ∧ s = encodeRune r ++ t

/-- The text consists of these words, with white space before, between and after them. The bytes need not be UTF-8. -/
inductive Words : Bytes → List Bytes → Prop
  | none (g : List Nat) (hg : ∀ r ∈ g, White r) : Words (ofRunes g) []
  | word (g : List Nat) (hg : ∀ r ∈ g, White r) (w s : Bytes) (ws : List Bytes) (hne : w ≠ []) (hw : Solid w) (hb : Breaks s)
    (h : Words s ws) : Words (ofRunes g ++ w ++ s) (w :: ws)

/-! ## Proofs -/

theorem white_valid {r : Nat} (h : White r) : ValidRune r := (isSpace_valid ((white_eq r).mp h)).1

theorem encode_start (r : Nat) (h : ValidRune r) : ∃ b bs, encodeRune r = b :: bs ∧ runeStart b = true ∧
    ∀ c ∈ bs, runeStart c = false := by
  by_cases hr : 0x80 ≤ r
  · obtain ⟨b, bs, h1, h2, h3, -⟩ := encode_shape r h hr
    exact ⟨b, bs, h1, h2, h3⟩
  · refine ⟨UInt8.ofNat r, [], ?_, ?_, by simp⟩
    · unfold encodeRune; rw [if_pos (by omega)]
    · simp only [runeStart, byte_toNat r (by omega)]
      simp; omega

theorem chunks_step (s : Bytes) (hs : s ≠ []) :
    chunks s = ((decodeFirst s).1, s.take (decodeFirst s).2) :: chunks (s.drop (decodeFirst s).2) := by
  cases s with
  | nil => exact absurd rfl hs
  | cons b rest =>
    have hd : decodeFirst (b :: rest) = decodeRune b rest := rfl
    rw [hd]
    rcases decode_valid b rest with h | ⟨r, tail, hv, he, h⟩
    · simp [chunks, chunksAux, h]
    · rw [h, he, chunks_encode r hv]
      simp

theorem first_width (s : Bytes) (hs : s ≠ []) : 1 ≤ (decodeFirst s).2 ∧ (decodeFirst s).2 ≤ s.length ∧
    ∀ c ∈ (s.take (decodeFirst s).2).tail, runeStart c = false := by
  cases s with
  | nil => exact absurd rfl hs
  | cons b rest =>
    have hd : decodeFirst (b :: rest) = decodeRune b rest := rfl
    rw [hd]
    rcases decode_valid b rest with h | ⟨r, tail, hv, he, h⟩
    · simp [h]
    · rw [h, he]
      obtain ⟨b', bs, e1, e2, e3⟩ := encode_start r hv
      rw [e1]
      simpa using e3

/-- Text without white space is read in pieces that are none, and they end where it does. -/
theorem chunks_solid (n : Nat) (w s : Bytes) (hn : w.length ≤ n) (hw : Solid w) (hb : Breaks s) :
    ∃ cs, chunks (w ++ s) = cs ++ chunks s ∧ (∀ c ∈ cs, isSpace c.1 = false) ∧ cs.flatMap (·.2) = w := by
  induction n generalizing w with
  | zero => rw [List.eq_nil_of_length_eq_zero (Nat.le_zero.mp hn)]; exact ⟨[], rfl, by simp, rfl⟩
  | succ n ih =>
    by_cases hwe : w = []
    · subst hwe; exact ⟨[], rfl, by simp, rfl⟩
    have hne : w ++ s ≠ [] := by simp [hwe]
    rw [chunks_step _ hne]
    obtain ⟨k1, k2, k3⟩ := first_width _ hne
    generalize hd : decodeFirst (w ++ s) = d at k1 k2 k3 ⊢
    have hk : d.2 ≤ w.length := by
      apply Decidable.byContradiction
      intro hk
      rcases hb with rfl | ⟨r, t, hr, rfl⟩
      · simp at k2; omega
      · obtain ⟨b, bs, e1, e2, -⟩ := encode_start r (white_valid hr)
        have hmem : b ∈ ((w ++ (encodeRune r ++ t)).take d.2).tail := by
          rw [e1, List.take_append]
          obtain ⟨x, w', rfl⟩ := List.exists_cons_of_ne_nil hwe
          rw [List.take_of_length_le (by simp at hk ⊢; omega)]
          have hpos : 0 < d.2 - (x :: w').length := by omega
          obtain ⟨m, hm⟩ := Nat.exists_eq_add_of_lt hpos
          simp only [Nat.zero_add] at hm
          rw [hm]
          simp
        rw [k3 b hmem] at e2
        cases e2
    have hsp : isSpace d.1 = false := by
      rw [Bool.eq_false_iff]
      intro hs
      have hv := isSpace_valid hs
      obtain ⟨r, tail, v1, v2, v3⟩ := decodeFirst_valid (s := w ++ s) (by rw [hd]; exact hv.2)
      rw [hd] at v3
      have hr : White r := by rw [white_eq]; rw [v3] at hs; exact hs
      have hl : (encodeRune r).length ≤ w.length := by rw [v3] at hk; exact hk
      have : w = [] ++ encodeRune r ++ w.drop (encodeRune r).length := by
        have := congrArg (List.take (encodeRune r).length) v2
        rw [List.take_append_of_le_length hl, List.take_left' rfl] at this
        simp only [List.nil_append]
        rw [← this, List.length_take, Nat.min_eq_left hl, List.take_append_drop]
      exact hw _ _ _ hr this
    have hrest : Solid (w.drop d.2) := by
      intro a r b hr he
      refine hw (w.take d.2 ++ a) r b hr ?_
      rw [List.append_assoc, List.append_assoc, ← List.append_assoc a, ← he, List.take_append_drop]
    obtain ⟨cs, c1, c2, c3⟩ := ih (w.drop d.2) (by rw [List.length_drop]; omega) hrest
    refine ⟨(d.1, w.take d.2) :: cs, ?_, ?_, ?_⟩
    · rw [List.take_append_of_le_length hk, List.drop_append_of_le_length hk, c1]
      rfl
    · intro c hc
      rcases List.mem_cons.mp hc with rfl | hc
      · exact hsp
      · exact c2 c hc
    · rw [List.flatMap_cons, c3, List.take_append_drop]

theorem words_solid (w cur s : Bytes) (hw : Solid w) (hb : Breaks s) :
    wordsAux cur (chunks (w ++ s)) = wordsAux (cur ++ w) (chunks s) := by
  obtain ⟨cs, h1, h2, h3⟩ := chunks_solid _ w s (Nat.le_refl _) hw hb
  rw [h1, ← h3]
  clear h1 h3 hw
  induction cs generalizing cur with
  | nil => simp
  | cons c cs ih =>
    rw [List.cons_append, wordsAux, h2 c (by simp)]
    simp only [Bool.false_eq_true, if_false]
    rw [ih _ (fun x hx => h2 x (by simp [hx])), List.flatMap_cons, List.append_assoc]

theorem words_gap (g : List Nat) (hg : ∀ r ∈ g, White r) (s : Bytes) :
    wordsAux [] (chunks (ofRunes g ++ s)) = wordsAux [] (chunks s) := by
  induction g with
  | nil => rfl
  | cons r g ih =>
    have hr := hg r (by simp)
    rw [show ofRunes (r :: g) ++ s = encodeRune r ++ (ofRunes g ++ s) by simp [ofRunes], chunks_encode r (white_valid hr)]
    rw [wordsAux, if_pos (by rw [← white_eq]; exact hr), if_pos rfl]
    exact ih (fun x hx => hg x (by simp [hx]))

theorem words_break (w s : Bytes) (hw : w ≠ []) (hb : Breaks s) :
    wordsAux w (chunks s) = w :: wordsAux [] (chunks s) := by
  rcases hb with rfl | ⟨r, t, hr, rfl⟩
  · simp [chunks, chunksAux, wordsAux, hw]
  · rw [chunks_encode r (white_valid hr)]
    simp only [wordsAux]
    rw [if_pos (by rw [← white_eq]; exact hr), if_neg hw, if_pos (by rw [← white_eq]; exact hr), if_pos trivial]

theorem Words.fields {s : Bytes} {ws : List Bytes} (h : Words s ws) : fields s = ws := by
  induction h with
  | none g hg =>
    have := words_gap g hg []
    simp only [List.append_nil] at this
    rw [Go.fields, this]
    simp [chunks, chunksAux, wordsAux]
  | word g hg w s ws hne hw hb h ih =>
    rw [Go.fields, List.append_assoc, words_gap g hg, words_solid w [] s hw hb, List.nil_append,
      words_break w s hne hb]
    rw [show wordsAux [] (chunks s) = ws from ih]

theorem least (P : Nat → Prop) (k : Nat) (h : P k) : ∃ m, P m ∧ m ≤ k ∧ ∀ j < m, ¬ P j := by
  induction k using Nat.strongRecOn with
  | _ k ih =>
    by_cases hx : ∃ j, j < k ∧ P j
    · obtain ⟨j, hj, hp⟩ := hx
      obtain ⟨m, a, b, c⟩ := ih j hj hp
      exact ⟨m, a, by omega, c⟩
    · exact ⟨k, h, Nat.le_refl _, fun j hj hp => hx ⟨j, hj, hp⟩⟩

theorem words_exist (n : Nat) (s : Bytes) (hn : s.length ≤ n) : ∃ ws, Words s ws := by
  induction n generalizing s with
  | zero => rw [List.eq_nil_of_length_eq_zero (Nat.le_zero.mp hn)]; exact ⟨[], Words.none [] (by simp)⟩
  | succ n ih =>
    by_cases hs : ∃ r t, White r ∧ s = encodeRune r ++ t
    · obtain ⟨r, t, hr, rfl⟩ := hs
      have := List.length_pos_iff.mpr (encode_ne_nil r)
      obtain ⟨ws, h⟩ := ih t (by rw [List.length_append] at hn; omega)
      have hgap : ∀ g : List Nat, (∀ x ∈ g, White x) → ∀ x ∈ r :: g, White x := by
        intro g hg x hx
        rcases List.mem_cons.mp hx with rfl | hx
        · exact hr
        · exact hg x hx
      cases h with
      | none g hg => exact ⟨[], by simpa [ofRunes] using Words.none (r :: g) (hgap g hg)⟩
      | word g hg w s ws h1 h2 h3 h4 =>
        exact ⟨w :: ws, by simpa [ofRunes] using Words.word (r :: g) (hgap g hg) w s ws h1 h2 h3 h4⟩
    · by_cases he : s = []
      · subst he; exact ⟨[], Words.none [] (by simp)⟩
      obtain ⟨m, ⟨m1, m2⟩, m3, m4⟩ := least (fun k => 1 ≤ k ∧ Breaks (s.drop k)) s.length
        ⟨List.length_pos_iff.mpr he, Or.inl (by simp)⟩
      obtain ⟨ws, h⟩ := ih (s.drop m) (by rw [List.length_drop]; omega)
      refine ⟨s.take m :: ws, ?_⟩
      have := Words.word [] (by simp) (s.take m) (s.drop m) ws
        (by intro h0; have := congrArg List.length h0; rw [List.length_take, List.length_nil] at this; omega) ?_ m2 h
      · simpa [ofRunes] using this
      · intro a r b hr heq
        have hsplit : s = a ++ (encodeRune r ++ (b ++ s.drop m)) := by
          rw [← List.append_assoc, ← List.append_assoc, ← heq, List.take_append_drop]
        have hl := congrArg List.length heq
        have hpos := List.length_pos_iff.mpr (encode_ne_nil r)
        simp only [List.length_take, List.length_append] at hl
        by_cases ha : a = []
        · subst ha
          exact hs ⟨r, _, hr, by simpa using hsplit⟩
        · refine m4 a.length (by omega) ⟨List.length_pos_iff.mpr ha, Or.inr ⟨r, b ++ s.drop m, hr, ?_⟩⟩
          have := congrArg (List.drop a.length) hsplit
          rwa [List.drop_left' rfl] at this

/-- The words of a text are those of the specification, and every text has exactly one list of them. -/
theorem fields_iff (s : Bytes) (ws : List Bytes) : fields s = ws ↔ Words s ws := by
  constructor
  · rintro rfl
    obtain ⟨ws, h⟩ := words_exist _ s (Nat.le_refl _)
    rwa [h.fields]
  · exact Words.fields

theorem white_length {r : Nat} (h : White r) : 1 ≤ (encodeRune r).length ∧ (encodeRune r).length ≤ 3 := by
  simp only [White, List.mem_cons, List.not_mem_nil, or_false] at h
  rcases h with rfl | rfl | rfl | rfl | rfl | rfl | rfl | rfl | rfl | rfl | rfl | rfl | rfl | rfl | rfl | rfl | rfl | rfl | rfl |
    rfl | rfl | rfl | rfl | rfl | rfl <;> decide

/-- The words are those of `fields`, and no white space is longer than three bytes. -/
theorem room_words (n : Nat) (s : Bytes) (hn : s.length ≤ n) (cur : Bytes) :
    (wordsRoom cur (chunks s)).map (·.1) = wordsAux cur (chunks s) ∧ ∀ x ∈ wordsRoom cur (chunks s), 1 ≤ x.2 ∧ x.2 ≤ 3 := by
  induction n generalizing s cur with
  | zero =>
    rw [List.eq_nil_of_length_eq_zero (Nat.le_zero.mp hn)]
    by_cases h : cur = [] <;> simp [chunks, chunksAux, wordsRoom, wordsAux, h]
  | succ n ih =>
    by_cases hs : s = []
    · subst hs
      by_cases h : cur = [] <;> simp [chunks, chunksAux, wordsRoom, wordsAux, h]
    · rw [chunks_step s hs]
      obtain ⟨k1, k2, -⟩ := first_width s hs
      have hd : (s.drop (decodeFirst s).2).length ≤ n := by rw [List.length_drop]; omega
      simp only [wordsRoom, wordsAux]
      by_cases hsp : isSpace (decodeFirst s).1 = true
      · simp only [hsp, if_true]
        obtain ⟨i1, i2⟩ := ih _ hd []
        by_cases hc : cur = []
        · simp only [hc, if_true]; exact ⟨i1, i2⟩
        · simp only [hc, if_false, List.map_cons, i1]
          refine ⟨trivial, fun x hx => ?_⟩
          rcases List.mem_cons.mp hx with rfl | hx
          · have hv := isSpace_valid hsp
            obtain ⟨r, tail, v1, v2, v3⟩ := decodeFirst_valid (s := s) hv.2
            have hr : White r := by rw [white_eq]; rw [v3] at hsp; exact hsp
            simp only [List.length_take, Nat.min_eq_left k2]
            rw [v3]
            exact white_length hr
          · exact i2 x hx
      · rw [Bool.not_eq_true] at hsp
        simp only [hsp, Bool.false_eq_true, if_false]
        exact ih _ hd _

theorem scanTokens_room (ws : List (Bytes × Nat)) (hk : ∀ x ∈ ws, x.2 ≤ 3) (hl : ∀ x ∈ ws, x.1.length < 65534) :
    scanWordTokens ws = (ws.map (·.1), false) := by
  induction ws with
  | nil => rfl
  | cons x ws ih =>
    have h1 := hk x (by simp)
    have h2 := hl x (by simp)
    rw [scanWordTokens, if_pos (show x.1.length + x.2 ≤ maxToken by rw [maxToken]; omega),
      ih (fun y hy => hk y (by simp [hy])) (fun y hy => hl y (by simp [hy]))]
    rfl

/-- A scanner delivers the words of a text as long as they fit in its buffer with the white space after them. -/
theorem scanWords_words {s : Bytes} {ws : List Bytes} (h : Words s ws) (hl : ∀ w ∈ ws, w.length < 65534) :
    scanWords s = (ws, false) := by
  obtain ⟨r1, r2⟩ := room_words _ s (Nat.le_refl _) []
  rw [← Go.fields, h.fields] at r1
  rw [scanWords, scanTokens_room _ (fun x hx => (r2 x hx).2) ?_, r1]
  intro x hx
  exact hl _ (by rw [← r1]; exact List.mem_map_of_mem hx)

/-- It stops at the first word that is longer than its buffer. -/
theorem scanWords_long {s : Bytes} {pre post : List Bytes} {w : Bytes} (h : Words s (pre ++ w :: post))
    (hl : ∀ w ∈ pre, w.length < 65534) (hw : 65536 ≤ w.length) : scanWords s = (pre, true) := by
  obtain ⟨r1, r2⟩ := room_words _ s (Nat.le_refl _) []
  rw [← Go.fields, h.fields] at r1
  rw [scanWords]
  generalize wordsRoom [] (chunks s) = rs at r1 r2
  clear h
  induction pre generalizing rs with
  | nil =>
    cases rs with
    | nil => simp at r1
    | cons x rs =>
      have e : x.1 = w := by simp at r1; exact r1.1
      have := (r2 x (by simp)).1
      rw [scanWordTokens, if_neg (show ¬ x.1.length + x.2 ≤ maxToken by rw [maxToken, e]; omega)]
  | cons v pre ih =>
    cases rs with
    | nil => simp at r1
    | cons x rs =>
      simp only [List.cons_append, List.map_cons, List.cons.injEq] at r1
      have h1 := hl v (by simp)
      have h2 := (r2 x (by simp)).2
      rw [scanWordTokens, if_pos (show x.1.length + x.2 ≤ maxToken by rw [maxToken, r1.1]; omega),
        ih (fun u hu => hl u (by simp [hu])) rs r1.2 (fun y hy => r2 y (by simp [hy])), r1.1]

end Go
