import Verif.Go.ScannerProps

/-! # The words of a scanner are those of the bytes, however these arrive -/

namespace Go

/-- It begins with white space. -/
def StartsWhite (s : Bytes) : Prop := ∃ r t, White r ∧ s = encodeRune r ++ t

/-- A text is without white space, or it has a first one. -/
theorem solid_or (d : Bytes) : Solid d ∨ ∃ w r t, White r ∧ d = w ++ (encodeRune r ++ t) ∧ Solid w := by
  by_cases h : ∃ k, k ≤ d.length ∧ StartsWhite (d.drop k)
  · right
    obtain ⟨k, h1, h2⟩ := h
    obtain ⟨m, ⟨m1, r, t, hr, ht⟩, m3, m4⟩ := least (fun k => k ≤ d.length ∧ StartsWhite (d.drop k)) k ⟨h1, h2⟩
    refine ⟨d.take m, r, t, hr, by rw [← ht, List.take_append_drop], ?_⟩
    intro a r' b hr' he
    have hsplit : d = a ++ (encodeRune r' ++ (b ++ d.drop m)) := by
      rw [← List.append_assoc, ← List.append_assoc, ← he, List.take_append_drop]
    have hl := congrArg List.length he
    have hpos := List.length_pos_iff.mpr (encode_ne_nil r')
    simp only [List.length_take, List.length_append] at hl
    refine m4 a.length (by omega) ⟨by omega, r', b ++ d.drop m, hr', ?_⟩
    have := congrArg (List.drop a.length) hsplit
    rwa [List.drop_left' rfl] at this
  · left
    intro a r b hr he
    refine h ⟨a.length, by rw [he]; simp, r, b, hr, ?_⟩
    rw [he, List.append_assoc, List.drop_left' rfl]

theorem gap_or (n : Nat) (d : Bytes) (hn : d.length ≤ n) :
    ∃ g d', (∀ r ∈ g, White r) ∧ d = ofRunes g ++ d' ∧ ¬ StartsWhite d' := by
  induction n generalizing d with
  | zero =>
    refine ⟨[], d, by simp, rfl, ?_⟩
    rintro ⟨r, t, hr, e⟩
    have := congrArg List.length e
    have hpos := List.length_pos_iff.mpr (encode_ne_nil r)
    simp only [List.length_append] at this
    omega
  | succ n ih =>
    by_cases h : StartsWhite d
    · obtain ⟨r, t, hr, rfl⟩ := h
      have hpos := List.length_pos_iff.mpr (encode_ne_nil r)
      obtain ⟨g, d', g1, g2, g3⟩ := ih t (by simp only [List.length_append] at hn; omega)
      refine ⟨r :: g, d', ?_, ?_, g3⟩
      · intro x hx
        rcases List.mem_cons.mp hx with rfl | hx
        · exact hr
        · exact g1 x hx
      · rw [g2]; simp [ofRunes]
    · exact ⟨[], d, by simp, rfl, h⟩

theorem leading_none (d : Bytes) (h : ¬ StartsWhite d) : leading (chunks d) = 0 := by
  by_cases hd : d = []
  · subst hd; rfl
  · rw [chunks_step d hd, leading]
    rw [if_neg]
    intro hsp
    have hv := isSpace_valid hsp
    obtain ⟨r, tail, v1, v2, v3⟩ := decodeFirst_valid (s := d) hv.2
    rw [v3] at hsp
    exact h ⟨r, tail, (white_eq r).mpr hsp, v2⟩

theorem leading_gap (g : List Nat) (hg : ∀ r ∈ g, White r) (d : Bytes) (h : ¬ StartsWhite d) :
    leading (chunks (ofRunes g ++ d)) = (ofRunes g).length := by
  induction g with
  | nil => exact leading_none d h
  | cons r g ih =>
    have hr := hg r (by simp)
    rw [show ofRunes (r :: g) ++ d = encodeRune r ++ (ofRunes g ++ d) by simp [ofRunes], chunks_encode r (white_valid hr), leading,
      if_pos ((white_eq r).mp hr), ih (fun x hx => hg x (by simp [hx]))]
    simp [ofRunes]

theorem firstSpace_skip (cs : List (Nat × Bytes)) (h : ∀ c ∈ cs, isSpace c.1 = false) (rest : List (Nat × Bytes)) :
    firstSpace (cs ++ rest) = (firstSpace rest).map (fun x => ((cs.flatMap (·.2)).length + x.1, x.2)) := by
  induction cs with
  | nil => cases h : firstSpace rest <;> simp [h]
  | cons c cs ih =>
    rw [List.cons_append, firstSpace, h c (by simp)]
    simp only [Bool.false_eq_true, if_false]
    rw [ih (fun x hx => h x (by simp [hx]))]
    cases firstSpace rest with
    | none => rfl
    | some x => simp; omega

theorem firstSpace_solid (w : Bytes) (h : Solid w) : firstSpace (chunks w) = none := by
  obtain ⟨cs, h1, h2, -⟩ := chunks_solid _ w [] (Nat.le_refl _) h (.inl rfl)
  rw [List.append_nil] at h1
  rw [h1, firstSpace_skip cs h2]
  rfl

theorem firstSpace_found (w : Bytes) (h : Solid w) (r : Nat) (hr : White r) (t : Bytes) :
    firstSpace (chunks (w ++ (encodeRune r ++ t))) = some (w.length, (encodeRune r).length) := by
  obtain ⟨cs, h1, h2, h3⟩ := chunks_solid _ w (encodeRune r ++ t) (Nat.le_refl _) h (.inr ⟨r, t, hr, rfl⟩)
  rw [h1, firstSpace_skip cs h2, chunks_encode r (white_valid hr), firstSpace, if_pos ((white_eq r).mp hr), h3]
  rfl

/-! ## What `ScanWords` returns -/

theorem splitWords_found (g : List Nat) (hg : ∀ r ∈ g, White r) (w : Bytes) (hw : Solid w) (hne : ¬ StartsWhite (w ++ (encodeRune r ++ t)))
    (hr : White r) (b : Bool) :
    splitWords (ofRunes g ++ (w ++ (encodeRune r ++ t))) b =
      ((ofRunes g).length + w.length + (encodeRune r).length, some w) := by
  simp only [splitWords]
  rw [leading_gap g hg _ hne, List.drop_left' rfl, firstSpace_found w hw r hr t]
  simp

theorem splitWords_none (g : List Nat) (hg : ∀ r ∈ g, White r) (w : Bytes) (hw : Solid w) (hne : ¬ StartsWhite w) :
    splitWords (ofRunes g ++ w) false = ((ofRunes g).length, none) := by
  simp only [splitWords]
  rw [leading_gap g hg _ hne, List.drop_left' rfl, firstSpace_solid w hw]
  simp

theorem splitWords_end (w : Bytes) (hw : Solid w) (hne : ¬ StartsWhite w) :
    splitWords w true = if w = [] then (0, none) else (w.length, some w) := by
  have h := leading_none w hne
  simp only [splitWords]
  rw [h, List.drop_zero, firstSpace_solid w hw]
  by_cases he : w = []
  · simp [he]
  · have := List.length_pos_iff.mpr he
    simp [he, this]

/-! ## The words and their room -/

theorem room_gap (g : List Nat) (hg : ∀ r ∈ g, White r) (s : Bytes) :
    wordsRoom [] (chunks (ofRunes g ++ s)) = wordsRoom [] (chunks s) := by
  induction g with
  | nil => rfl
  | cons r g ih =>
    have hr := hg r (by simp)
    rw [show ofRunes (r :: g) ++ s = encodeRune r ++ (ofRunes g ++ s) by simp [ofRunes], chunks_encode r (white_valid hr)]
    rw [wordsRoom, if_pos (by rw [← white_eq]; exact hr), if_pos rfl]
    exact ih (fun x hx => hg x (by simp [hx]))

theorem room_skip (cs : List (Nat × Bytes)) (h : ∀ c ∈ cs, isSpace c.1 = false) (rest : List (Nat × Bytes)) (cur : Bytes) :
    wordsRoom cur (cs ++ rest) = wordsRoom (cur ++ cs.flatMap (·.2)) rest := by
  induction cs generalizing cur with
  | nil => simp
  | cons c cs ih =>
    rw [List.cons_append, wordsRoom, h c (by simp)]
    simp only [Bool.false_eq_true, if_false]
    rw [ih (fun x hx => h x (by simp [hx])), List.flatMap_cons, List.append_assoc]

theorem room_solid (w : Bytes) (h : Solid w) : wordsRoom [] (chunks w) = if w = [] then [] else [(w, 1)] := by
  obtain ⟨cs, h1, h2, h3⟩ := chunks_solid _ w [] (Nat.le_refl _) h (.inl rfl)
  rw [List.append_nil] at h1
  rw [h1, room_skip cs h2, h3]
  rfl

theorem room_found (w : Bytes) (h : Solid w) (hne : w ≠ []) (r : Nat) (hr : White r) (t : Bytes) :
    wordsRoom [] (chunks (w ++ (encodeRune r ++ t))) = (w, (encodeRune r).length) :: wordsRoom [] (chunks t) := by
  obtain ⟨cs, h1, h2, h3⟩ := chunks_solid _ w (encodeRune r ++ t) (Nat.le_refl _) h (.inr ⟨r, t, hr, rfl⟩)
  rw [h1, room_skip cs h2, h3, chunks_encode r (white_valid hr), wordsRoom, if_pos ((white_eq r).mp hr), if_neg (by simpa using hne)]
  rfl

/-- A text that has not got white space in the first `n` bytes begins with a word that does not fit in `n` bytes. -/
theorem room_long (d u : Bytes) (hd : Solid d) (hl : 3 ≤ d.length) :
    ∃ w k ws, wordsRoom [] (chunks (d ++ u)) = (w, k) :: ws ∧ d.length < w.length + k := by
  have hns : ∀ a r b, White r → d ++ u = a ++ (encodeRune r ++ b) → d.length < a.length + (encodeRune r).length := by
    intro a r b hr he
    apply Decidable.byContradiction
    intro hlt
    obtain ⟨x, h1, -⟩ := prefix_cases (a := a ++ encodeRune r) (b := b) (c := d) (d := u) (by rw [he]; simp) (by simp; omega)
    exact hd a r x hr h1
  rcases solid_or (d ++ u) with h | ⟨w, r, t, hr, he, hw⟩
  · refine ⟨d ++ u, 1, [], ?_, by simp; omega⟩
    rw [room_solid _ h, if_neg]
    intro h0
    have := congrArg List.length h0
    simp at this
    rw [this.1] at hl; simp at hl
  · have := hns w r t hr he
    have h3 := (white_length hr).2
    rw [he, room_found w hw (by rintro rfl; simp at this; omega) r hr t]
    exact ⟨w, _, _, rfl, this⟩

/-- The scanner will deliver these words (unless one does not fit), and its reader ends like this. -/
inductive ReadyW (e : ScanErr) : Scanner → List (Bytes × Nat) → Prop
  | more {s : Scanner} (hs : s.Sound) (he : s.src.ending = e) : ReadyW e s (wordsRoom [] (chunks s.pending))
  | ended {s : Scanner} (hh : s.held = []) (he : s.err = some e) : ReadyW e s []

/-- One call of `Scan`, in terms of the words to come. -/
structure WordStep (e : ScanErr) (ws : List (Bytes × Nat)) (r : Option Bytes × Scanner) : Prop where
  done : ws = [] → r.1 = none ∧ r.2.err = some e ∧ ReadyW e r.2 []
  word : ∀ w k rest, ws = (w, k) :: rest → w.length + k ≤ maxToken → r.1 = some w ∧ ReadyW e r.2 rest
  long : ∀ w k rest, ws = (w, k) :: rest → maxToken < w.length + k → r.1 = none ∧ r.2.err = some .tooLong

theorem rounds_ended_words (n : Nat) (s : Scanner) (e : ScanErr) (he : s.err = some e) (hn : Solid s.held) (hw : ¬ StartsWhite s.held)
    (h : 1 ≤ n) :
    (s.held = [] → Scanner.rounds splitWords n s = (none, { s with start := 0 })) ∧
    (s.held ≠ [] → Scanner.rounds splitWords n s = (some s.held, { s with start := s.start + s.held.length, held := [] })) := by
  obtain ⟨m, rfl⟩ : ∃ m, n = m + 1 := ⟨n - 1, by omega⟩
  have hsp := splitWords_end s.held hn hw
  constructor
  · intro hh
    rw [rounds_succ]
    have : s.attempt splitWords = (none, s) := by
      rw [if_pos hh] at hsp
      simp only [Scanner.attempt, he]
      rw [if_pos (.inr (by simp))]
      simp only [Option.isSome_some, hsp]
      rw [← he]; rfl
    rw [this]
    simp [he, ← hh]
  · intro hh
    rw [rounds_succ]
    have : s.attempt splitWords = (some s.held, { s with start := s.start + s.held.length, held := [] }) := by
      rw [if_neg hh] at hsp
      simp only [Scanner.attempt, he]
      rw [if_pos (.inl hh)]
      simp [hsp]
    rw [this]

theorem rounds_words : ∀ (n : Nat) (s : Scanner) (e : ScanErr), s.Sound → s.src.ending = e → s.src.bytes.length + 2 ≤ n →
    WordStep e (wordsRoom [] (chunks s.pending)) (Scanner.rounds splitWords n s) := by
  intro n
  induction n with
  | zero => intro s _ _ _ h; omega
  | succ n ih =>
    intro s e hs hend hn
    have hlen : s.held.length ≤ maxToken := by have := hs.fits; have := hs.capped; omega
    obtain ⟨g, d, g1, g2, g3⟩ := gap_or _ s.held (Nat.le_refl _)
    have hpend : s.pending = ofRunes g ++ (d ++ s.src.bytes) := by rw [Scanner.pending, g2, List.append_assoc]
    rw [hpend, room_gap g g1]
    rcases solid_or d with hsolid | ⟨w, r, t, hr, rfl, hw⟩
    · -- no token yet
      have ha : s.attempt splitWords = (none, { s with start := s.start + (ofRunes g).length, held := d }) := by
        by_cases hh : s.held = []
        · rw [attempt_none _ _ hs.open_ (fun h => absurd hh h)]
          have h2 := g2.symm.trans hh
          simp only [List.append_eq_nil_iff] at h2
          rw [h2.1, h2.2]
          obtain ⟨src, cap, start, held, err⟩ := s
          simp only at hh
          subst hh
          rfl
        · rw [attempt_open _ _ hs.open_ hh, g2, splitWords_none g g1 d hsolid g3]
          simp
      rw [rounds_succ, ha]
      simp only [hs.open_, ne_eq, not_true_eq_false, if_false]
      generalize hs1 : ({ s with start := s.start + (ofRunes g).length, held := d, err := none } : Scanner) = s1
      have hs1src : s1.src = s.src := by rw [← hs1]
      have hs1held : s1.held = d := by rw [← hs1]
      have sound1 : s1.Sound := by
        have := hs.fits
        rw [g2] at this
        rw [← hs1]
        refine ⟨?_, hs.capped, hs.lively, rfl⟩
        simp at this ⊢
        omega
      rcases after_attempt s1 sound1 with ⟨hfull, s2, hg, q1, q2, q3⟩ | ⟨hroom, s2, hg, hcase⟩
      · rw [hg]
        rw [hs1held] at hfull
        obtain ⟨w, k, ws, e1, e2⟩ := room_long d s.src.bytes hsolid (by rw [hfull]; decide)
        rw [e1]
        refine ⟨fun h => (by cases h), ?_, fun _ _ _ _ _ => ⟨rfl, q3⟩⟩
        intro w' k' rest h hle
        simp only [List.cons.injEq, Prod.mk.injEq] at h
        obtain ⟨⟨rfl, rfl⟩, -⟩ := h
        omega
      · rw [hg]
        simp only
        rw [hs1src, hs1held] at hcase
        rw [hs1held] at hroom
        rcases hcase with ⟨hc, f1, f2, f3⟩ | ⟨f1, f2, x, hx, f3, f4⟩
        · have hb : s.src.bytes = [] := by simp [Source.bytes, hc]
          rw [hend] at f3
          obtain ⟨r1, r2⟩ := rounds_ended_words n s2.fill e f3 (by rw [f1]; exact hsolid) (by rw [f1]; exact g3) (by omega)
          rw [f1] at r1 r2
          rw [hb, List.append_nil, room_solid d hsolid]
          by_cases hd : d = []
          · rw [if_pos hd, r1 hd]
            refine ⟨fun _ => ⟨rfl, f3, .ended ?_ f3⟩, fun _ _ _ h => (by simp at h), fun _ _ _ h => (by simp at h)⟩
            simp [f1, hd]
          · rw [if_neg hd, r2 hd]
            refine ⟨fun h => (by simp at h), ?_, ?_⟩
            · intro w k rest h _
              simp only [List.cons.injEq, Prod.mk.injEq] at h
              obtain ⟨⟨rfl, rfl⟩, rfl⟩ := h
              exact ⟨rfl, .ended rfl f3⟩
            · intro w k rest h hlt
              simp only [List.cons.injEq, Prod.mk.injEq] at h
              obtain ⟨⟨rfl, rfl⟩, rfl⟩ := h
              omega
        · have hx1 : 1 ≤ x.length := List.length_pos_iff.mpr hx
          have := ih s2.fill e f1 (by rw [← hend]; simp [Source.ending, f2]) (by rw [f4] at hn; simp at hn; omega)
          have hp2 : s2.fill.pending = d ++ s.src.bytes := by simp [Scanner.pending, f3, f4]
          rw [hp2] at this
          exact this
    · -- a word
      have hwne : w ≠ [] := by
        rintro rfl
        exact g3 ⟨r, t, hr, rfl⟩
      have hhne : s.held ≠ [] := by rw [g2]; simp [hwne]
      have ha : s.attempt splitWords =
          (some w, { s with start := s.start + ((ofRunes g).length + w.length + (encodeRune r).length), held := t }) := by
        rw [attempt_open _ _ hs.open_ hhne, g2, splitWords_found g g1 w hw g3 hr]
        congr 2
        rw [show ofRunes g ++ (w ++ (encodeRune r ++ t)) = (ofRunes g ++ w ++ encodeRune r) ++ t by simp, List.drop_left' (by simp; omega)]
      rw [rounds_succ, ha, List.append_assoc, List.append_assoc, room_found w hw hwne r hr]
      have hl : w.length + (encodeRune r).length ≤ maxToken := by
        rw [g2] at hlen
        simp at hlen
        omega
      refine ⟨fun h => (by simp at h), ?_, ?_⟩
      · intro w' k' rest h _
        simp only [List.cons.injEq, Prod.mk.injEq] at h
        obtain ⟨⟨rfl, rfl⟩, rfl⟩ := h
        refine ⟨rfl, ?_⟩
        refine ReadyW.more (s := { s with start := s.start + ((ofRunes g).length + w.length + (encodeRune r).length), held := t })
          ⟨?_, hs.capped, hs.lively, hs.open_⟩ hend
        have := hs.fits
        rw [g2] at this
        simp at this ⊢
        omega
      · intro w' k' rest h hlt
        simp only [List.cons.injEq, Prod.mk.injEq] at h
        obtain ⟨⟨rfl, rfl⟩, rfl⟩ := h
        omega

/-- One call of `Scan`, in terms of the words to come. -/
theorem scan_readyW {e : ScanErr} {s : Scanner} {ws : List (Bytes × Nat)} (h : ReadyW e s ws) : WordStep e ws (s.scan splitWords) := by
  cases h with
  | more hs he => exact rounds_words _ s e hs he (Nat.le_refl _)
  | ended hh he =>
    have := (rounds_ended_words (s.src.bytes.length + 2) s e he (by rw [hh]; intro a r b _ h; simp [encode_ne_nil] at h)
      (by rw [hh]; rintro ⟨r, t, _, h⟩; simp [encode_ne_nil] at h) (by omega)).1 hh
    rw [Scanner.scan, this]
    exact ⟨fun _ => ⟨rfl, he, .ended hh he⟩, fun _ _ _ h => (by simp at h), fun _ _ _ h => (by simp at h)⟩

theorem new_readyW (r : Source) (h : r.Lively) : ReadyW r.ending (newScanner r) (wordsRoom [] (chunks r.bytes)) :=
  ReadyW.more (s := newScanner r) (new_sound h) rfl

end Go
