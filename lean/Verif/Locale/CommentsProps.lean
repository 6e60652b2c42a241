import Verif.Locale.Comments
import Verif.Go.Words

/-! # Comment removal: properties (C55) -/

namespace Locale
open Go

/-! ## Specification -/

/-- The text ends with the character. -/
def EndsWith (l : Bytes) (r : Nat) : Prop := ValidRune r ∧ r ≠ runeError ∧ ∃ pre, l = pre ++ encodeRune r

/-- The line begins with the word and has two words, the second one starting with the character. -/
def Sets (word line : Bytes) (r : Nat) : Prop :=
  word <+: line ∧ ∃ w1 w2, Words line [w1, w2] ∧ r = (decodeFirst w2).1

/-- `Joined esc l conts out`: the line `l` is continued by the lines `conts`; all together they are `out`. -/
inductive Joined (esc : Nat) : Bytes → List Bytes → Bytes → Prop
  | empty : Joined esc [] [] []
  | stop (l : Bytes) (r : Nat) (h : EndsWith l r) (hne : r ≠ esc) : Joined esc l [] l
  | more (l next t : Bytes) (conts : List Bytes) (out : Bytes) (h : EndsWith (l ++ encodeRune esc) esc) (ht : Trimmed next t)
    (h' : Joined esc (l ++ t) conts out) : Joined esc (l ++ encodeRune esc) (next :: conts) out

/-- `Stuck esc l rest`: the line `l`, followed by the lines `rest`, ends in something that is not a character, or is
continued past the last line. -/
inductive Stuck (esc : Nat) : Bytes → List Bytes → Prop
  | bad (l : Bytes) (rest : List Bytes) (hne : l ≠ []) (h : ∀ r, ¬ EndsWith l r) : Stuck esc l rest
  | last (l : Bytes) (h : EndsWith l esc) : Stuck esc l []
  | more (l next t : Bytes) (rest : List Bytes) (h : EndsWith (l ++ encodeRune esc) esc) (ht : Trimmed next t)
    (h' : Stuck esc (l ++ t) rest) : Stuck esc (l ++ encodeRune esc) (next :: rest)

/-- `Cleaned c e lines out e'`: with comment character `c` and escape character `e`, the lines are cleaned to `out`;
the escape character is then `e'`. -/
inductive Cleaned : Nat → Nat → List Bytes → Bytes → Nat → Prop
  | done (c e : Nat) : Cleaned c e [] [] e
  | comment (c e : Nat) (l : Bytes) (rest : List Bytes) (out : Bytes) (e' : Nat) (hc : (decodeFirst l).1 = c)
    (h : Cleaned c e rest out e') : Cleaned c e (l :: rest) out e'
  | escape (c e r : Nat) (l : Bytes) (rest : List Bytes) (out : Bytes) (e' : Nat) (hc : (decodeFirst l).1 ≠ c)
    (hs : Sets b!"escape_char" l r) (h : Cleaned c r rest out e') : Cleaned c e (l :: rest) out e'
  | commentChar (c e r : Nat) (l : Bytes) (conts rest : List Bytes) (line out : Bytes) (e' : Nat)
    (hc : (decodeFirst l).1 ≠ c) (hs : Sets b!"comment_char" l r) (hj : Joined e l conts line)
    (h : Cleaned r e rest out e') : Cleaned c e (l :: (conts ++ rest)) (line ++ nl :: out) e'
  | text (c e : Nat) (l : Bytes) (conts rest : List Bytes) (line out : Bytes) (e' : Nat) (hc : (decodeFirst l).1 ≠ c)
    (hs : ∀ r, ¬ Sets b!"escape_char" l r ∧ ¬ Sets b!"comment_char" l r) (hj : Joined e l conts line)
    (h : Cleaned c e rest out e') : Cleaned c e (l :: (conts ++ rest)) (line ++ nl :: out) e'

/-- Some line of the text is stuck. -/
inductive Crashes : Nat → Nat → List Bytes → Prop
  | here (c e : Nat) (l : Bytes) (rest : List Bytes) (hc : (decodeFirst l).1 ≠ c)
    (hs : ∀ r, ¬ Sets b!"escape_char" l r) (h : Stuck e l rest) : Crashes c e (l :: rest)
  | comment (c e : Nat) (l : Bytes) (rest : List Bytes) (hc : (decodeFirst l).1 = c) (h : Crashes c e rest) :
    Crashes c e (l :: rest)
  | escape (c e r : Nat) (l : Bytes) (rest : List Bytes) (hc : (decodeFirst l).1 ≠ c) (hs : Sets b!"escape_char" l r)
    (h : Crashes c r rest) : Crashes c e (l :: rest)
  | commentChar (c e r : Nat) (l : Bytes) (conts rest : List Bytes) (line : Bytes)
    (hc : (decodeFirst l).1 ≠ c) (hs : Sets b!"comment_char" l r) (hj : Joined e l conts line)
    (h : Crashes r e rest) : Crashes c e (l :: (conts ++ rest))
  | text (c e : Nat) (l : Bytes) (conts rest : List Bytes) (line : Bytes) (hc : (decodeFirst l).1 ≠ c)
    (hs : ∀ r, ¬ Sets b!"escape_char" l r ∧ ¬ Sets b!"comment_char" l r) (hj : Joined e l conts line)
    (h : Crashes c e rest) : Crashes c e (l :: (conts ++ rest))

/-! ## Proofs -/

theorem endsWith_iff (l : Bytes) (r : Nat) : EndsWith l r ↔ r ≠ runeError ∧ (decodeLast l).1 = r := by
  constructor
  · rintro ⟨h1, h2, pre, rfl⟩
    exact ⟨h2, by rw [decodeLast_encode pre r h1]⟩
  · rintro ⟨h1, h2⟩
    obtain ⟨pre, r', k1, k2, k3⟩ := decodeLast_valid (s := l) (by rw [h2]; exact h1)
    rw [k3] at h2
    simp only at h2
    subst h2
    exact ⟨k1, h1, pre, k2⟩

theorem sets_iff (word line : Bytes) (r : Nat) : checkSpecialWord line word = some r ↔ Sets word line r := by
  unfold checkSpecialWord Sets
  simp only [← fields_iff]
  rw [← List.isPrefixOf_iff_prefix]
  split
  · next h =>
    simp only [true_and, h]
    generalize hf : fields line = ws
    rcases ws with _ | ⟨a, _ | ⟨b, _ | ⟨c, d⟩⟩⟩
    · simp
    · simp
    · simp only [Option.some.injEq, List.cons.injEq, and_true]
      constructor
      · rintro rfl; exact ⟨a, b, ⟨rfl, rfl⟩, rfl⟩
      · rintro ⟨_, _, ⟨rfl, rfl⟩, rfl⟩; rfl
    · simp
  · next h => simp [h]

theorem sets_none (word line : Bytes) : checkSpecialWord line word = none ↔ ∀ r, ¬ Sets word line r := by
  cases h : checkSpecialWord line word with
  | none =>
    simp only [true_iff]
    intro r hr
    rw [← sets_iff, h] at hr
    cases hr
  | some r =>
    simp only [reduceCtorEq, false_iff]
    exact fun hh => hh r ((sets_iff _ _ _).mp h)

theorem joinLine_unfold (esc : Nat) (l : Bytes) (rest : List Bytes) : joinLine esc l rest =
    (if l = [] then .ok (l, rest)
    else
      let d := decodeLast l
      if d.1 = runeError then .error .explicit
      else if d.1 ≠ esc then .ok (l, rest)
      else
        match rest with
        | [] => .error .index
        | next :: rest => joinLine esc (l.take (l.length - d.2) ++ trimSpace next) rest) := by
  cases rest <;> rfl

theorem joinLine_more (esc : Nat) (l : Bytes) (h : EndsWith (l ++ encodeRune esc) esc) (rest : List Bytes) :
    joinLine esc (l ++ encodeRune esc) rest = (match rest with
      | [] => .error .index
      | next :: rest => joinLine esc (l ++ trimSpace next) rest) := by
  rw [joinLine_unfold, if_neg (by simp [encode_ne_nil])]
  simp only
  rw [decodeLast_encode l esc h.1, if_neg h.2.1, if_neg (by simp)]
  simp only [List.length_append, Nat.add_sub_cancel]
  rw [List.take_left' rfl]

theorem joinLine_ok_iff (esc : Nat) (rest : List Bytes) (l l' : Bytes) (rest' : List Bytes) :
    joinLine esc l rest = .ok (l', rest') ↔ ∃ conts, rest = conts ++ rest' ∧ Joined esc l conts l' := by
  constructor
  · intro h
    induction rest generalizing l with
    | nil =>
      rw [joinLine_unfold] at h
      split at h
      · next hl =>
        subst hl
        cases h
        exact ⟨[], rfl, .empty⟩
      · simp only at h
        split at h
        · cases h
        · next hr =>
          split at h
          · next hne =>
            cases h
            exact ⟨[], rfl, .stop _ _ ((endsWith_iff _ _).mpr ⟨hr, rfl⟩) hne⟩
          · cases h
    | cons next rest ih =>
      rw [joinLine_unfold] at h
      split at h
      · next hl =>
        subst hl
        cases h
        exact ⟨[], rfl, .empty⟩
      · simp only at h
        split at h
        · cases h
        · next hr =>
          split at h
          · next hne =>
            cases h
            exact ⟨[], rfl, .stop _ _ ((endsWith_iff _ _).mpr ⟨hr, rfl⟩) hne⟩
          · next he =>
            have he : (decodeLast l).1 = esc := Decidable.not_not.mp he
            have hend := (endsWith_iff l esc).mpr ⟨he ▸ hr, he⟩
            obtain ⟨k1, k2, pre, rfl⟩ := hend
            rw [decodeLast_encode pre esc k1] at h
            simp only [List.length_append, Nat.add_sub_cancel] at h
            rw [List.take_left' rfl] at h
            obtain ⟨conts, rfl, hj⟩ := ih _ h
            exact ⟨next :: conts, rfl, .more _ _ _ _ _ ⟨k1, k2, _, rfl⟩ (trimSpace_spec next) hj⟩
  · rintro ⟨conts, rfl, hj⟩
    induction hj with
    | empty => rw [joinLine_unfold]; simp
    | stop l r h hne =>
      obtain ⟨k1, k2⟩ := (endsWith_iff _ _).mp h
      rw [joinLine_unfold, if_neg]
      · simp only [k2]
        rw [if_neg k1, if_pos hne]
        rfl
      · rintro rfl
        exact k1 k2.symm
    | more l next t conts out h ht h' ih =>
      rw [joinLine_more _ _ h]
      simp only [List.cons_append]
      rw [trimSpace_unique ht]
      exact ih

theorem joinLine_error_iff (esc : Nat) (rest : List Bytes) (l : Bytes) :
    (∃ p, joinLine esc l rest = .error p) ↔ Stuck esc l rest := by
  constructor
  · rintro ⟨p, h⟩
    induction rest generalizing l with
    | nil =>
      rw [joinLine_unfold] at h
      split at h
      · cases h
      · next hl =>
        simp only at h
        split at h
        · next hr =>
          exact .bad l _ hl (fun r hr' => by
            obtain ⟨k1, k2⟩ := (endsWith_iff _ _).mp hr'
            exact k1 (k2 ▸ hr))
        · next hr =>
          split at h
          · cases h
          · next he =>
            have he : (decodeLast l).1 = esc := Decidable.not_not.mp he
            exact .last l ((endsWith_iff l esc).mpr ⟨he ▸ hr, he⟩)
    | cons next rest ih =>
      rw [joinLine_unfold] at h
      split at h
      · cases h
      · next hl =>
        simp only at h
        split at h
        · next hr =>
          exact .bad l _ hl (fun r hr' => by
            obtain ⟨k1, k2⟩ := (endsWith_iff _ _).mp hr'
            exact k1 (k2 ▸ hr))
        · next hr =>
          split at h
          · cases h
          · next he =>
            have he : (decodeLast l).1 = esc := Decidable.not_not.mp he
            have hend := (endsWith_iff l esc).mpr ⟨he ▸ hr, he⟩
            obtain ⟨k1, k2, pre, rfl⟩ := hend
            rw [decodeLast_encode pre esc k1] at h
            simp only [List.length_append, Nat.add_sub_cancel] at h
            rw [List.take_left' rfl] at h
            exact .more _ _ _ _ ⟨k1, k2, _, rfl⟩ (trimSpace_spec next) (ih _ h)
  · intro h
    induction h with
    | bad l rest hne h =>
      refine ⟨.explicit, ?_⟩
      rw [joinLine_unfold, if_neg hne]
      simp only
      rw [if_pos]
      cases Decidable.em ((decodeLast l).1 = runeError) with
      | inl h => exact h
      | inr hh => exact absurd ((endsWith_iff l _).mpr ⟨hh, rfl⟩) (h _)
    | last l h =>
      refine ⟨.index, ?_⟩
      obtain ⟨k1, k2, pre, rfl⟩ := h
      rw [joinLine_more _ _ ⟨k1, k2, _, rfl⟩]
    | more l next t rest h ht h' ih =>
      obtain ⟨p, ih⟩ := ih
      exact ⟨p, by rw [joinLine_more _ _ h]; simp only; rw [trimSpace_unique ht]; exact ih⟩

theorem prefix_clash {l : Bytes} {r r' : Nat} (h1 : Sets b!"comment_char" l r) (h2 : Sets b!"escape_char" l r') : False := by
  obtain ⟨⟨t1, h1⟩, -⟩ := h1
  obtain ⟨⟨t2, h2⟩, -⟩ := h2
  rw [← h2] at h1
  cases h1

theorem clean_ok (n : Nat) (c e : Nat) (out : Bytes) (lines : List Bytes) (hn : lines.length < n) (out' : Bytes) (e' : Nat)
    (h : cleanFuel n c e out lines = .ok (out', e')) : ∃ o, out' = out ++ o ∧ Cleaned c e lines o e' := by
  induction n generalizing c e out lines with
  | zero => omega
  | succ n ih =>
    cases lines with
    | nil =>
      cases h
      exact ⟨[], by simp, .done _ _⟩
    | cons l rest =>
      simp only [List.length_cons] at hn
      simp only [cleanFuel] at h
      split at h
      · next hc =>
        obtain ⟨o, h1, h2⟩ := ih _ _ _ _ (by omega) h
        exact ⟨o, h1, .comment _ _ _ _ _ _ hc h2⟩
      · next hc =>
        cases hesc : checkSpecialWord l b!"escape_char" with
        | some r =>
          rw [hesc] at h
          simp only at h
          have hs := (sets_iff _ _ _).mp hesc
          have hcn : checkSpecialWord l b!"comment_char" = none :=
            (sets_none _ _).mpr (fun r hr => prefix_clash hr hs)
          rw [hcn] at h
          obtain ⟨o, h1, h2⟩ := ih _ _ _ _ (by omega) h
          exact ⟨o, h1, .escape _ _ r _ _ _ _ hc hs h2⟩
        | none =>
          rw [hesc] at h
          simp only at h
          have hs := (sets_none _ _).mp hesc
          cases hj : joinLine e l rest with
          | error p => rw [hj] at h; cases h
          | ok lr =>
            obtain ⟨l', rest'⟩ := lr
            rw [hj] at h
            simp only at h
            obtain ⟨conts, rfl, hj'⟩ := (joinLine_ok_iff _ _ _ _ _).mp hj
            simp only [List.length_append] at hn
            obtain ⟨o, h1, h2⟩ := ih _ _ _ _ (by omega) h
            refine ⟨l' ++ nl :: o, by rw [h1]; simp, ?_⟩
            cases hcc : checkSpecialWord l b!"comment_char" with
            | none =>
              rw [hcc] at h2
              exact .text _ _ _ _ _ _ _ _ hc (fun r => ⟨hs r, (sets_none _ _).mp hcc r⟩) hj' h2
            | some r =>
              rw [hcc] at h2
              exact .commentChar _ _ r _ _ _ _ _ _ hc ((sets_iff _ _ _).mp hcc) hj' h2

theorem clean_error (n : Nat) (c e : Nat) (out : Bytes) (lines : List Bytes) (hn : lines.length < n) (p : Panic)
    (h : cleanFuel n c e out lines = .error p) : Crashes c e lines := by
  induction n generalizing c e out lines with
  | zero => omega
  | succ n ih =>
    cases lines with
    | nil => cases h
    | cons l rest =>
      simp only [List.length_cons] at hn
      simp only [cleanFuel] at h
      split at h
      · next hc => exact .comment _ _ _ _ hc (ih _ _ _ _ (by omega) h)
      · next hc =>
        cases hesc : checkSpecialWord l b!"escape_char" with
        | some r =>
          rw [hesc] at h
          simp only at h
          have hs := (sets_iff _ _ _).mp hesc
          have hcn : checkSpecialWord l b!"comment_char" = none :=
            (sets_none _ _).mpr (fun r hr => prefix_clash hr hs)
          rw [hcn] at h
          exact .escape _ _ r _ _ hc hs (ih _ _ _ _ (by omega) h)
        | none =>
          rw [hesc] at h
          simp only at h
          have hs := (sets_none _ _).mp hesc
          cases hj : joinLine e l rest with
          | error p' => exact .here _ _ _ _ hc hs ((joinLine_error_iff _ _ _).mp ⟨p', hj⟩)
          | ok lr =>
            obtain ⟨l', rest'⟩ := lr
            rw [hj] at h
            simp only at h
            obtain ⟨conts, rfl, hj'⟩ := (joinLine_ok_iff _ _ _ _ _).mp hj
            simp only [List.length_append] at hn
            have h2 := ih _ _ _ _ (by omega) h
            cases hcc : checkSpecialWord l b!"comment_char" with
            | none =>
              rw [hcc] at h2
              exact .text _ _ _ _ _ _ hc (fun r => ⟨hs r, (sets_none _ _).mp hcc r⟩) hj' h2
            | some r =>
              rw [hcc] at h2
              exact .commentChar _ _ r _ _ _ _ hc ((sets_iff _ _ _).mp hcc) hj' h2

theorem cleaned_run {c e : Nat} {lines : List Bytes} {o : Bytes} {e' : Nat} (h : Cleaned c e lines o e') :
    ∀ n out, lines.length < n → cleanFuel n c e out lines = .ok (out ++ o, e') := by
  induction h with
  | done c e =>
    intro n out hn
    cases n with
    | zero => omega
    | succ n => simp [cleanFuel]
  | comment c e l rest o e' hc h ih =>
    intro n out hn
    cases n with
    | zero => omega
    | succ n =>
      simp only [cleanFuel]
      rw [if_pos hc]
      exact ih n out (by simp at hn; omega)
  | escape c e r l rest o e' hc hs h ih =>
    intro n out hn
    cases n with
    | zero => omega
    | succ n =>
      simp only [cleanFuel]
      rw [if_neg hc, (sets_iff _ _ _).mpr hs, (sets_none b!"comment_char" _).mpr (fun r hr => prefix_clash hr hs)]
      exact ih n out (by simp at hn; omega)
  | commentChar c e r l conts rest line o e' hc hs hj h ih =>
    intro n out hn
    cases n with
    | zero => omega
    | succ n =>
      simp only [cleanFuel]
      rw [if_neg hc, (sets_iff _ _ _).mpr hs, (sets_none b!"escape_char" _).mpr (fun r hr => prefix_clash hs hr),
        (joinLine_ok_iff _ _ _ _ _).mpr ⟨conts, rfl, hj⟩]
      simp only [Option.getD_some]
      rw [ih n _ (by simp at hn; omega)]
      simp
  | text c e l conts rest line o e' hc hs hj h ih =>
    intro n out hn
    cases n with
    | zero => omega
    | succ n =>
      simp only [cleanFuel]
      rw [if_neg hc, (sets_none b!"comment_char" _).mpr (fun r => (hs r).2), (sets_none b!"escape_char" _).mpr (fun r => (hs r).1),
        (joinLine_ok_iff _ _ _ _ _).mpr ⟨conts, rfl, hj⟩]
      simp only [Option.getD_none]
      rw [ih n _ (by simp at hn; omega)]
      simp

theorem crashes_run {c e : Nat} {lines : List Bytes} (h : Crashes c e lines) :
    ∀ n out, lines.length < n → ∃ p, cleanFuel n c e out lines = .error p := by
  induction h with
  | here c e l rest hc hs h =>
    intro n out hn
    cases n with
    | zero => omega
    | succ n =>
      obtain ⟨p, hp⟩ := (joinLine_error_iff _ _ _).mpr h
      refine ⟨p, ?_⟩
      simp only [cleanFuel]
      rw [if_neg hc, (sets_none b!"escape_char" _).mpr hs, hp]
  | comment c e l rest hc h ih =>
    intro n out hn
    cases n with
    | zero => omega
    | succ n =>
      simp only [cleanFuel]
      rw [if_pos hc]
      exact ih n out (by simp at hn; omega)
  | escape c e r l rest hc hs h ih =>
    intro n out hn
    cases n with
    | zero => omega
    | succ n =>
      simp only [cleanFuel]
      rw [if_neg hc, (sets_iff _ _ _).mpr hs, (sets_none b!"comment_char" _).mpr (fun r hr => prefix_clash hr hs)]
      exact ih n out (by simp at hn; omega)
  | commentChar c e r l conts rest line hc hs hj h ih =>
    intro n out hn
    cases n with
    | zero => omega
    | succ n =>
      simp only [cleanFuel]
      rw [if_neg hc, (sets_iff _ _ _).mpr hs, (sets_none b!"escape_char" _).mpr (fun r hr => prefix_clash hs hr),
        (joinLine_ok_iff _ _ _ _ _).mpr ⟨conts, rfl, hj⟩]
      exact ih n _ (by simp at hn; omega)
  | text c e l conts rest line hc hs hj h ih =>
    intro n out hn
    cases n with
    | zero => omega
    | succ n =>
      simp only [cleanFuel]
      rw [if_neg hc, (sets_none b!"comment_char" _).mpr (fun r => (hs r).2), (sets_none b!"escape_char" _).mpr (fun r => (hs r).1),
        (joinLine_ok_iff _ _ _ _ _).mpr ⟨conts, rfl, hj⟩]
      exact ih n _ (by simp at hn; omega)

/-- **C55.** What comment removal gives: comment lines and `escape_char` lines are dropped, continued lines are joined,
other lines are kept. -/
theorem C55_cleans (input out : Bytes) (e : Nat) :
    removeComments input = .ok (out, e) ↔ Cleaned 35 92 (split input [nl]) out e := by
  unfold removeComments
  constructor
  · intro h
    obtain ⟨o, rfl, h⟩ := clean_ok _ _ _ _ _ (by simp) _ _ h
    exact h
  · intro h
    exact cleaned_run h _ [] (by simp)

/-- **C55.** When it panics: a kept line, after joining, ends in something that is no character (or in U+FFFD), or is
continued past the end of the text. -/
theorem C55_panics (input : Bytes) : (∃ p, removeComments input = .error p) ↔ Crashes 35 92 (split input [nl]) := by
  unfold removeComments
  constructor
  · rintro ⟨p, h⟩
    exact clean_error _ _ _ _ _ (by simp) _ h
  · intro h
    exact crashes_run h _ [] (by simp)

/-- **C55.** Without continued or special lines, and with every line decodable, what is left is the lines that do not
start with `#`. -/
theorem C55_filters (lines : List Bytes) (hne : lines ≠ []) (hnl : ∀ l ∈ lines, nl ∉ l)
    (hplain : ∀ l ∈ lines, ¬ b!"comment_char" <+: l ∧ ¬ b!"escape_char" <+: l)
    (hend : ∀ l ∈ lines, l = [] ∨ ∃ r, EndsWith l r ∧ r ≠ 92) :
    removeComments (join [nl] lines) = .ok (unlines (lines.filter fun l => l.head? ≠ some 35), 92) := by
  rw [C55_cleans, split_join_byte nl lines hne hnl]
  clear hne hnl
  induction lines with
  | nil => exact .done _ _
  | cons l ls ih =>
    have ih := ih (fun m hm => hplain m (by simp [hm])) (fun m hm => hend m (by simp [hm]))
    have hhash : (decodeFirst l).1 = 35 ↔ l.head? = some 35 := by
      constructor
      · intro h
        obtain ⟨r, tail, h1, h2, h3⟩ := decodeFirst_valid (s := l) (by rw [h]; decide)
        rw [h3] at h
        simp only at h
        subst h
        rw [h2]
        rfl
      · intro h
        cases l with
        | nil => cases h
        | cons b l =>
          simp only [List.head?_cons, Option.some.injEq] at h
          subst h
          simp [decodeFirst, decodeRune_ascii]
    by_cases hc : l.head? = some 35
    · rw [List.filter_cons_of_neg (by simpa using hc)]
      exact .comment _ _ _ _ _ _ (hhash.mpr hc) ih
    · rw [List.filter_cons_of_pos (by simpa using hc)]
      have hp := hplain l (by simp)
      have hj : Joined 92 l [] l := by
        rcases hend l (by simp) with rfl | ⟨r, h1, h2⟩
        · exact .empty
        · exact .stop l r h1 h2
      exact .text 35 92 l [] ls l _ 92 (fun h => hc (hhash.mp h)) (fun r => ⟨fun h => hp.2 h.1, fun h => hp.1 h.1⟩) hj ih

/-- The hypotheses of `C55_filters` can be met. -/
example : removeComments (join [nl] [b!"# a", b!"LC_TIME", [], b!"END LC_TIME"]) =
    .ok (unlines [b!"LC_TIME", [], b!"END LC_TIME"], 92) :=
  C55_filters _ (by decide) (by decide) (by decide +kernel)
    (by
      intro l hl
      simp only [List.mem_cons, List.not_mem_nil, or_false] at hl
      rcases hl with rfl | rfl | rfl | rfl
      · exact .inr ⟨97, (endsWith_iff _ _).mpr (by decide), by decide⟩
      · exact .inr ⟨69, (endsWith_iff _ _).mpr (by decide), by decide⟩
      · exact .inl rfl
      · exact .inr ⟨69, (endsWith_iff _ _).mpr (by decide), by decide⟩)

/-- Continued lines, another comment character, another escape character. -/
example : removeComments b!"comment_char %\n% x\na\\\n  b \nescape_char /\n# y/\n z" =
    .ok (b!"comment_char %\nab\n# yz\n", 47) := by decide +kernel

/-- A text to which `C55_panics` applies: continued past its end. -/
example : Crashes 35 92 (split b!"LC_TIME\\" [nl]) :=
  (C55_panics _).mp ⟨.index, by decide +kernel⟩

/-- A text to which `C55_panics` applies: a broken character at the end of a line. -/
example : Crashes 35 92 (split [97, 0xC3] [nl]) :=
  (C55_panics _).mp ⟨.explicit, by decide +kernel⟩

end Locale
