import Verif.Regex.Parse

/-! # C24–C30: basic regular expressions -/

namespace Regex
open Go

/-! ## Preliminaries -/

theorem chunksAux_length (bs : Bytes) : ∀ k, (chunksAux k bs).length ≤ bs.length := by
  induction bs with
  | nil => intro k; cases k <;> simp [chunksAux]
  | cons b bs ih =>
    intro k
    cases k with
    | zero => simp only [chunksAux, List.length_cons]; have := ih ((decodeRune b bs).2 - 1); omega
    | succ k => simp only [chunksAux, List.length_cons]; have := ih k; omega

theorem runes_length (s : Bytes) : (runes s).length ≤ s.length := by
  simp only [runes, List.length_map]
  exact chunksAux_length s 0

theorem maxInt_ge {s : Bytes} (h : s.length < 2 ^ 63) : (runes s).length ≤ maxInt := by
  have := runes_length s
  unfold maxInt
  omega

/-! ## C27 -/

/-- C27: a pattern in the notation is accepted, and if the text contains a match (in the standard sense,
respecting the left anchor) the matcher says so. Go strings are always shorter than 2^63 bytes. -/
theorem C27_complete (p s : Bytes) {left right : Bool} {es : List (Sym × Rep)} (hp : PatText (runes p) left es right)
    (hs : s.length < 2 ^ 63) (hc : Contains left false es (runes s)) :
    ∃ b, parseBre p = .ok b ∧ b.matches s = true := by
  refine ⟨_, (parseBre_iff p _).2 ⟨left, es, right, hp, rfl⟩, ?_⟩
  rw [matches_spec]
  obtain ⟨pre, mid, post, e, hl, hleft, _⟩ := hc
  have hlen := maxInt_ge hs
  split
  · next h =>
    have hpre : pre = [] := by
      rcases h with h | h
      · exact hleft h
      · rw [runes_eq_nil.2 h] at e
        simp at e
        exact e.1
    subst hpre
    rw [List.nil_append] at e
    rw [e] at hlen ⊢
    exact act_of_lang hl post hlen
  · next h =>
    have hne : runes s ≠ [] := fun h' => h (.inr (runes_eq_nil.1 h'))
    by_cases hi : pre.length < (runes s).length
    · refine ⟨pre.length, hi, ?_⟩
      rw [e, List.append_assoc, List.drop_left]
      apply act_of_lang hl post
      rw [e] at hlen
      simp at hlen ⊢
      omega
    · have hmid : mid = [] := by
        apply List.length_eq_zero_iff.1
        have := congrArg List.length e
        simp at this
        omega
      subst hmid
      refine ⟨0, List.length_pos_iff.2 hne, ?_⟩
      have := act_of_lang hl (runes s) (by simpa using hlen)
      simpa using this

/-! ## C28 -/

/-- C28, the part that holds: if every element is a wildcard, is not repeated, is repeated a fixed number
of times, or occurs at most once, the matcher reports only real matches. -/
theorem C28_sound_partial (p s : Bytes) {left right : Bool} {es : List (Sym × Rep)} (hp : PatText (runes p) left es right)
    (hex : ∀ x ∈ es, Exact x) (hs : s.length < 2 ^ 63) (b : Bre) (hb : parseBre p = .ok b) (hm : b.matches s = true) :
    Contains left false es (runes s) := by
  have hb' := (parseBre_iff p _).2 ⟨left, es, right, hp, rfl⟩
  rw [hb] at hb'
  simp only [Except.ok.injEq] at hb'
  subst hb'
  rw [matches_spec] at hm
  have hlen := maxInt_ge hs
  split at hm
  · next h =>
    obtain ⟨mid, post, e, hl⟩ := lang_of_act es hex _ hlen hm
    exact ⟨[], mid, post, by simpa using e, hl, fun _ => rfl, by simp⟩
  · next h =>
    obtain ⟨i, hi, hm⟩ := hm
    obtain ⟨mid, post, e, hl⟩ := lang_of_act es hex _ (by simp; omega) hm
    refine ⟨(runes s).take i, mid, post, ?_, hl, fun hleft => absurd (.inl hleft) h, by simp⟩
    rw [List.append_assoc, ← e, List.take_append_drop]

/-- `ba*c` -/
theorem C28_pattern : PatText (runes b!"ba*c") false [(.char 98, .once), (.char 97, .star), (.char 99, .once)] false := by
  have e : runes b!"ba*c" = [98] ++ [] ++ ([97] ++ [42] ++ ([99] ++ [] ++ [])) := by decide
  refine .plain (by decide) (by decide) ?_
  rw [e]
  exact .cons (.char (by decide)) .once (by simp [NoRepAhead])
    (.cons (.char (by decide)) .star (by simp) (.cons (.char (by decide)) .once (by simp [NoRepAhead]) .nil))

/-- C28 is false in general: `ba*c` is reported to match `bxca`, which has no match. -/
theorem C28_counterexample :
    (∃ b, parseBre b!"ba*c" = .ok b ∧ b.matches b!"bxca" = true) ∧
    ¬ Contains false false [(.char 98, .once), (.char 97, .star), (.char 99, .once)] (runes b!"bxca") := by
  constructor
  · refine ⟨_, (parseBre_iff _ _).2 ⟨_, _, _, C28_pattern, rfl⟩, ?_⟩
    rw [matches_spec, if_neg (by decide)]
    refine ⟨0, by decide, ?_⟩
    have e : runes b!"bxca" = [98, 120, 99, 97] := by decide
    have hM : maxInt = (2 ^ 63 - 5) + 4 := by unfold maxInt; rfl
    rw [e]
    refine ⟨by decide, 1, by decide, by decide, ?_⟩
    refine ⟨by simp [toElem, Rep.toCount], 1, by decide, ?_, ?_⟩
    · simp only [hits, toElem, Rep.toCount, hM, List.drop_succ_cons, List.drop_zero]
      rw [List.take_of_length_le (by simp)]
      decide
    · exact ⟨by decide, 1, by decide, by decide, trivial⟩
  · rintro ⟨pre, mid, post, e, hl, _, _⟩
    have e' : runes b!"bxca" = [98, 120, 99, 97] := by decide
    rw [e'] at e
    cases hl with
    | cons xs ys h1 h2 hl =>
      cases hl with
      | cons us vs k1 k2 hl =>
        cases hl with
        | cons zs ws j1 j2 hl =>
          cases hl
          simp only [Rep.allows] at h2 j2
          obtain ⟨x, rfl⟩ := List.length_eq_one_iff.1 h2
          obtain ⟨z, rfl⟩ := List.length_eq_one_iff.1 j2
          simp only [Sym.accepts, List.mem_singleton, forall_eq] at h1 j1 k1
          subst h1 j1
          have hp : pre.length ≤ 3 := by
            have := congrArg List.length e
            simp at this
            omega
          match pre, hp with
          | [], _ =>
            cases us with
            | nil => simp at e
            | cons u us => simp at e; have := k1 u (by simp); omega
          | [a], _ => simp at e
          | [a, b], _ => simp at e
          | [a, b, c], _ => simp at e

/-- The fewest copies a repetition allows. -/
def Rep.least : Rep → Nat
  | .once => 1
  | .star => 0
  | .exactly n => n
  | .atLeast n => n
  | .between m _ => m

/-- The most copies a repetition allows. -/
def Rep.most : Rep → Option Nat
  | .once => some 1
  | .star => none
  | .exactly n => some n
  | .atLeast _ => none
  | .between _ n => some n

/-- What the matcher really looks for at a position. For each element it passes over some number of
characters that is at least the minimum. The characters that count are the accepted ones within the
first `most`, wherever they are among them; only the first `least` characters must be accepted. -/
inductive Loose : List (Sym × Rep) → List Nat → Prop
  | nil {rs} : Loose [] rs
  | cons {s r es rs} (accepted : List Nat) : (∀ x ∈ rs.take r.least, s.accepts x) → r.least ≤ accepted.length →
      List.Sublist accepted (match r.most with | none => rs | some n => rs.take n) → (∀ x ∈ accepted, s.accepts x) →
      Loose es (rs.drop accepted.length) → Loose ((s, r) :: es) rs

theorem window_eq (r : Rep) (rs : List Nat) (h : rs.length ≤ maxInt) :
    (match r.most with | none => rs | some n => rs.take n) = rs.take r.toCount.max := by
  cases r <;> simp only [Rep.most, Rep.toCount] <;> rw [List.take_of_length_le h]

theorem least_eq (r : Rep) : r.least = r.toCount.min := by cases r <;> rfl

theorem loose_iff (es : List (Sym × Rep)) : ∀ rs : List Nat, rs.length ≤ maxInt →
    (Act (es.map toElem) rs ↔ Loose es rs) := by
  induction es with
  | nil => intro rs _; exact ⟨fun _ => .nil, fun _ => trivial⟩
  | cons x es ih =>
    obtain ⟨s, r⟩ := x
    intro rs hlen
    have hdrop : ∀ i, (rs.drop i).length ≤ maxInt := by intro i; simp; omega
    rw [List.map_cons]
    constructor
    · rintro ⟨h0, i, h1, h2, h3⟩
      simp only [toElem] at h0 h1
      have hacc : (((rs.take r.toCount.max).filter s.toAtom.matches).take i).length = i := by
        rw [List.length_take]; exact Nat.min_eq_left h2
      have hmm : r.toCount.min ≤ r.toCount.max := by
        have := List.length_filter_le s.toAtom.matches (rs.take r.toCount.max)
        simp only [hits, toElem] at h2
        simp only [List.length_take] at this
        omega
      refine .cons (((rs.take r.toCount.max).filter s.toAtom.matches).take i) ?_ ?_ ?_ ?_ ?_
      · intro x hx
        rw [← toAtom_matches]
        apply h0
        rw [List.take_take, Nat.min_eq_left hmm, ← least_eq]
        exact hx
      · rw [hacc, least_eq]; exact h1
      · rw [window_eq r rs hlen]
        exact (List.take_sublist _ _).trans List.filter_sublist
      · intro x hx
        rw [← toAtom_matches]
        exact (List.mem_filter.1 (List.mem_of_mem_take hx)).2
      · rw [hacc]
        exact (ih _ (hdrop i)).1 h3
    · intro h
      cases h with
      | cons accepted h0 h1 h2 h3 h4 =>
        rw [window_eq r rs hlen] at h2
        rw [least_eq] at h0 h1
        refine ⟨?_, accepted.length, h1, ?_, (ih _ (hdrop _)).2 h4⟩
        · intro x hx
          simp only [toElem] at hx ⊢
          rw [toAtom_matches]
          apply h0
          rw [List.take_take] at hx
          exact (List.take_subset_take_left rs (Nat.min_le_left _ _)) hx
        · simp only [hits, toElem]
          have := h2.filter s.toAtom.matches
          rw [List.filter_eq_self.2 (fun x hx => (toAtom_matches s x).2 (h3 x hx))] at this
          exact this.length_le

/-- C28: what the matcher reports, exactly, for every pattern in the notation. -/
theorem C28_actual (p s : Bytes) {left right : Bool} {es : List (Sym × Rep)} (hp : PatText (runes p) left es right)
    (hs : s.length < 2 ^ 63) :
    ∃ b, parseBre p = .ok b ∧ (b.matches s = true ↔
      ∃ pre post, runes s = pre ++ post ∧ Loose es post ∧ (left = true → pre = []) ∧ (s ≠ [] → post ≠ [] ∨ left = true)) := by
  refine ⟨_, (parseBre_iff p _).2 ⟨left, es, right, hp, rfl⟩, ?_⟩
  rw [matches_spec]
  have hlen := maxInt_ge hs
  by_cases h : left = true ∨ s = []
  · simp only [if_pos h]
    rw [loose_iff es _ hlen]
    constructor
    · intro hl
      exact ⟨[], runes s, rfl, hl, fun _ => rfl, fun hne => .inr (h.resolve_right hne)⟩
    · rintro ⟨pre, post, e, hl, h1, _⟩
      have hpre : pre = [] := by
        rcases h with h | h
        · exact h1 h
        · rw [runes_eq_nil.2 h] at e
          exact (List.append_eq_nil_iff.1 e.symm).1
      rw [e, hpre]
      exact hl
  · simp only [if_neg h]
    have hl : left ≠ true := fun h' => h (.inl h')
    have hne : s ≠ [] := fun h' => h (.inr h')
    constructor
    · rintro ⟨i, hi, ha⟩
      refine ⟨(runes s).take i, (runes s).drop i, (List.take_append_drop _ _).symm, (loose_iff es _ (by simp; omega)).1 ha,
        fun h' => absurd h' hl, fun _ => .inl ?_⟩
      intro e
      have := congrArg List.length e
      simp at this
      omega
    · rintro ⟨pre, post, e, hlo, _, h2⟩
      have hpost : post ≠ [] := (h2 hne).resolve_right hl
      have hpos := List.length_pos_iff.2 hpost
      refine ⟨pre.length, by rw [e]; simp; omega, ?_⟩
      rw [e, List.drop_left]
      rw [e] at hlen
      exact (loose_iff es _ (by simp at hlen; omega)).2 hlo

/-! ## C26 -/

/-- C26: the right anchor has no effect on any expression and any text. -/
theorem C26_no_effect (b : Bre) (x : Bool) (s : Bytes) :
    ({ b with anchorRight := x } : Bre).matches s = b.matches s := by
  rw [Bool.eq_iff_iff, matches_spec, matches_spec]

/-- A list of ordinary characters: no special character, no `^` at the start, no `$` at the end. -/
structure Literal (ls : List Nat) : Prop where
  valid : ∀ c ∈ ls, ValidRune c
  ordinary : ∀ c ∈ ls, c ∉ [91, 46, 40, 41, 42, 123]
  start : ls.head? ≠ some 94
  end_ : ls.getLast? ≠ some 36

/-- The expression a literal stands for. -/
def lit (ls : List Nat) : List (Sym × Rep) := ls.map (fun c => (.char c, .once))

theorem seq_literal (ls : List Nat) (h : ∀ c ∈ ls, c ∉ [91, 46, 40, 41, 42, 123]) : SeqText ls (lit ls) := by
  induction ls with
  | nil => exact .nil
  | cons c ls ih =>
    have hc := h c (by simp)
    have e : c :: ls = [c] ++ [] ++ ls := rfl
    rw [e]
    refine .cons (.char ?_) .once (fun _ => ?_) (ih (fun x hx => h x (by simp [hx])))
    · simp only [List.mem_cons, List.not_mem_nil, or_false, not_or] at hc ⊢
      omega
    · cases ls with
      | nil => simp [NoRepAhead]
      | cons d ls =>
        have hd := h d (by simp)
        simp only [List.mem_cons, List.not_mem_nil, or_false, not_or] at hd
        simp only [NoRepAhead, List.head?_cons, ne_eq, Option.some.injEq]
        omega

theorem lang_literal (ls mid : List Nat) : Lang (lit ls) mid ↔ mid = ls := by
  induction ls generalizing mid with
  | nil =>
    constructor
    · intro h; cases h; rfl
    · rintro rfl; exact .nil
  | cons c ls ih =>
    constructor
    · intro h
      cases h with
      | cons xs ys h1 h2 h3 =>
        obtain ⟨x, rfl⟩ := List.length_eq_one_iff.1 h2
        rw [(ih ys).1 h3]
        have := h1 x (by simp)
        simp only [Sym.accepts] at this
        rw [this]
        rfl
    · rintro rfl
      exact .cons [c] ls (by simp [Sym.accepts]) rfl ((ih ls).2 rfl)

theorem exact_literal (ls : List Nat) : ∀ x ∈ lit ls, Exact x := by
  intro x hx
  obtain ⟨c, _, rfl⟩ := List.mem_map.1 hx
  trivial

theorem contains_literal (ls : List Nat) (s : List Nat) : Contains false false (lit ls) s ↔ ls <:+: s := by
  constructor
  · rintro ⟨pre, mid, post, e, hl, _, _⟩
    rw [(lang_literal ls mid).1 hl] at e
    exact ⟨pre, post, e.symm⟩
  · rintro ⟨pre, post, e⟩
    exact ⟨pre, ls, post, e.symm, (lang_literal ls ls).2 rfl, by simp, by simp⟩

theorem contains_literal_left (ls : List Nat) (s : List Nat) : Contains true false (lit ls) s ↔ ls <+: s := by
  constructor
  · rintro ⟨pre, mid, post, e, hl, h, _⟩
    rw [(lang_literal ls mid).1 hl, h rfl] at e
    exact ⟨post, by simpa using e.symm⟩
  · rintro ⟨post, e⟩
    exact ⟨[], ls, post, by simpa using e.symm, (lang_literal ls ls).2 rfl, by simp, by simp⟩

theorem literal_iff (p s : Bytes) (ls : List Nat) (left right : Bool) (hp : PatText (runes p) left (lit ls) right)
    (hs : s.length < 2 ^ 63) :
    ∃ b, parseBre p = .ok b ∧ (b.matches s = true ↔ Contains left false (lit ls) (runes s)) := by
  have hb := (parseBre_iff p _).2 ⟨left, lit ls, right, hp, rfl⟩
  refine ⟨_, hb, fun h => C28_sound_partial p s hp (exact_literal ls) hs _ hb h, fun h => ?_⟩
  obtain ⟨b', hb', hm⟩ := C27_complete p s hp hs h
  rw [hb] at hb'
  simp only [Except.ok.injEq] at hb'
  rw [hb']
  exact hm

/-! ## C24, C25 -/

/-- C24: a literal pattern matches a text iff it occurs in it. -/
theorem C24_literal (ls : List Nat) (h : Literal ls) (s : Bytes) (hs : s.length < 2 ^ 63) :
    ∃ b, parseBre (ofRunes ls) = .ok b ∧ (b.matches s = true ↔ ls <:+: runes s) := by
  have hp : PatText (runes (ofRunes ls)) false (lit ls) false := by
    rw [runes_ofRunes ls h.valid]
    exact .plain h.start h.end_ (seq_literal ls h.ordinary)
  obtain ⟨b, hb, hm⟩ := literal_iff _ s ls _ _ hp hs
  exact ⟨b, hb, by rw [hm, contains_literal]⟩

/-- C25: with a leading `^` a literal pattern matches iff it is a prefix. -/
theorem C25_anchored (ls : List Nat) (hv : ∀ c ∈ ls, ValidRune c) (ho : ∀ c ∈ ls, c ∉ [91, 46, 40, 41, 42, 123])
    (he : ls.getLast? ≠ some 36) (s : Bytes) (hs : s.length < 2 ^ 63) :
    ∃ b, parseBre (ofRunes (94 :: ls)) = .ok b ∧ (b.matches s = true ↔ ls <+: runes s) := by
  have hp : PatText (runes (ofRunes (94 :: ls))) true (lit ls) false := by
    rw [runes_ofRunes]
    · exact .left he (seq_literal ls ho)
    · intro c hc
      rcases List.mem_cons.1 hc with rfl | hc
      · decide
      · exact hv c hc
  obtain ⟨b, hb, hm⟩ := literal_iff _ s ls _ _ hp hs
  exact ⟨b, hb, by rw [hm, contains_literal_left]⟩

/-- C26 for literals: with a trailing `$` a literal pattern still matches iff it occurs anywhere. -/
theorem C26_literal (ls : List Nat) (hv : ∀ c ∈ ls, ValidRune c) (ho : ∀ c ∈ ls, c ∉ [91, 46, 40, 41, 42, 123])
    (hst : ls.head? ≠ some 94) (s : Bytes) (hs : s.length < 2 ^ 63) :
    ∃ b, parseBre (ofRunes (ls ++ [36])) = .ok b ∧ (b.matches s = true ↔ ls <:+: runes s) := by
  have hp : PatText (runes (ofRunes (ls ++ [36]))) false (lit ls) true := by
    rw [runes_ofRunes]
    · exact .right hst (seq_literal ls ho)
    · intro c hc
      rcases List.mem_append.1 hc with hc | hc
      · exact hv c hc
      · simp at hc; subst hc; decide
  obtain ⟨b, hb, hm⟩ := literal_iff _ s ls _ _ hp hs
  exact ⟨b, hb, by rw [hm, contains_literal]⟩

/-- C26 is false: `a$` matches `ab`. -/
theorem C26_counterexample : (∃ b, parseBre b!"a$" = .ok b ∧ b.matches b!"ab" = true) ∧ ¬ [97] <:+ runes b!"ab" := by
  constructor
  · obtain ⟨b, hb, hm⟩ := C26_literal [97] (by decide) (by decide) (by decide) b!"ab" (by decide)
    exact ⟨b, hb, hm.2 ⟨[], [98], by decide⟩⟩
  · decide

/-- C26, the part that holds: if the text ends in the literal, the pattern with `$` matches. -/
theorem C26_suffix_partial (ls : List Nat) (hv : ∀ c ∈ ls, ValidRune c) (ho : ∀ c ∈ ls, c ∉ [91, 46, 40, 41, 42, 123])
    (hst : ls.head? ≠ some 94) (s : Bytes) (hs : s.length < 2 ^ 63) (h : ls <:+ runes s) :
    ∃ b, parseBre (ofRunes (ls ++ [36])) = .ok b ∧ b.matches s = true := by
  obtain ⟨b, hb, hm⟩ := C26_literal ls hv ho hst s hs
  exact ⟨b, hb, hm.2 h.isInfix⟩

/-! ## C29 -/

/-- C29: a pattern is either read (there is no error result) or makes the parser panic, and it is read
exactly if it is in the notation. -/
theorem C29_panics_iff (p : Bytes) :
    (∃ e, parseBre p = .error e) ↔ ¬ ∃ left es right, PatText (runes p) left es right := by
  constructor
  · rintro ⟨e, he⟩ ⟨left, es, right, hp⟩
    rw [(parseBre_iff p _).2 ⟨left, es, right, hp, rfl⟩] at he
    cases he
  · intro h
    cases hb : parseBre p with
    | error e => exact ⟨e, rfl⟩
    | ok b =>
      obtain ⟨left, es, right, hp, _⟩ := (parseBre_iff p b).1 hb
      exact absurd ⟨left, es, right, hp⟩ h

theorem seq_simple (t : List Nat) (h : ∀ c ∈ t, c ≠ 91 ∧ c ≠ 123) : ∃ es, SeqText t es := by
  match t with
  | [] => exact ⟨[], .nil⟩
  | c :: t =>
    have hc := h c (by simp)
    by_cases hp : c = 40 ∨ c = 41
    · obtain ⟨es, hs⟩ := seq_simple t (fun x hx => h x (by simp [hx]))
      exact ⟨es, .paren hp hs⟩
    · have hsym : ∃ s, SymText [c] s := by
        by_cases h46 : c = 46
        · subst h46; exact ⟨_, .any⟩
        · exact ⟨_, .char (by simp [hc, h46]; omega)⟩
      obtain ⟨s, hsym⟩ := hsym
      match t with
      | [] => exact ⟨_, .cons (a := [c]) (b := []) hsym .once (by simp [NoRepAhead]) .nil⟩
      | d :: t =>
        have hd := h d (by simp)
        by_cases hstar : d = 42
        · subst hstar
          obtain ⟨es, hs⟩ := seq_simple t (fun x hx => h x (by simp [hx]))
          exact ⟨_, .cons (a := [c]) (b := [42]) hsym .star (by simp) hs⟩
        · obtain ⟨es, hs⟩ := seq_simple (d :: t) (fun x hx => h x (by simp at hx ⊢; right; exact hx))
          exact ⟨_, .cons (a := [c]) (b := []) hsym .once (by simp [NoRepAhead, hd, hstar]) hs⟩
termination_by t.length

/-- C29: a pattern without `[` and `{` is always read. -/
theorem C29_simple (p : Bytes) (h : ∀ c ∈ runes p, c ≠ 91 ∧ c ≠ 123) : ∃ b, parseBre p = .ok b := by
  suffices hs : ∃ left es right, PatText (runes p) left es right by
    obtain ⟨left, es, right, hp⟩ := hs
    exact ⟨_, (parseBre_iff p _).2 ⟨left, es, right, hp, rfl⟩⟩
  generalize runes p = t at h
  have key : ∀ t : List Nat, t.getLast? = some 36 → ∃ u, t = u ++ [36] := fun t ht => ⟨_, getLast_split t ht⟩
  by_cases h1 : t.head? = some 94
  · obtain ⟨u, rfl⟩ : ∃ u, t = 94 :: u := by
      cases t with
      | nil => simp at h1
      | cons a u => simp at h1; exact ⟨u, by rw [h1]⟩
    by_cases h2 : u.getLast? = some 36
    · obtain ⟨v, rfl⟩ := key u h2
      obtain ⟨es, hs⟩ := seq_simple v (fun c hc => h c (by simp [hc]))
      exact ⟨_, _, _, .both hs⟩
    · obtain ⟨es, hs⟩ := seq_simple u (fun c hc => h c (by simp [hc]))
      exact ⟨_, _, _, .left h2 hs⟩
  · by_cases h2 : t.getLast? = some 36
    · obtain ⟨v, rfl⟩ := key t h2
      obtain ⟨es, hs⟩ := seq_simple v (fun c hc => h c (by simp [hc]))
      refine ⟨_, _, _, .right ?_ hs⟩
      cases v with
      | nil => simp
      | cons a v => simpa using h1
    · obtain ⟨es, hs⟩ := seq_simple t h
      exact ⟨_, _, _, .plain h1 h2 hs⟩

/-! ## C30 -/

/-- Writing a one-character expression. -/
def renderSym : Sym → List Nat
  | .char c => [c]
  | .any => [46]
  | .set cs => 91 :: cs ++ [93]

/-- Writing a number in decimal. -/
def renderNum (n : Nat) : List Nat := (natToDec n).map UInt8.toNat

/-- Writing a repetition. -/
def renderRep : Rep → List Nat
  | .once => []
  | .star => [42]
  | .exactly n => 123 :: renderNum n ++ [125]
  | .atLeast n => 123 :: renderNum n ++ [44, 125]
  | .between m n => 123 :: renderNum m ++ 44 :: renderNum n ++ [125]

/-- Writing a sequence. -/
def render (es : List (Sym × Rep)) : List Nat := es.flatMap (fun x => renderSym x.1 ++ renderRep x.2)

/-- Expressions that can be written: characters are not special, sets are writable, numbers fit. -/
def Writable : Sym × Rep → Prop
  | (s, r) =>
    (match s with
     | .char c => c ∉ [91, 46, 40, 41, 42, 123] ∧ ValidRune c
     | .any => True
     | .set cs => Inside cs ∧ ∀ c ∈ cs, ValidRune c) ∧
    (match r with
     | .exactly n => n < 2 ^ 63
     | .atLeast n => n < 2 ^ 63
     | .between m n => m < 2 ^ 63 ∧ n < 2 ^ 63
     | _ => True)

theorem numText_render (n : Nat) (h : n < 2 ^ 63) : NumText (renderNum n) n := by
  obtain ⟨h1, h2, h3, _⟩ := natToDec_spec n
  have := NumText.mk (natToDec n) h1 h2 (by rw [h3]; exact h)
  rw [h3] at this
  exact this

theorem symText_render {s : Sym} {r : Rep} (h : Writable (s, r)) : SymText (renderSym s) s := by
  cases s with
  | char c =>
    refine .char ?_
    have := h.1.1
    simp only [List.mem_cons, List.not_mem_nil, or_false, not_or] at this ⊢
    omega
  | any => exact .any
  | set cs => exact .set h.1.1

theorem repText_render {s : Sym} {r : Rep} (h : Writable (s, r)) : RepText (renderRep r) r := by
  cases r with
  | once => exact .once
  | star => exact .star
  | exactly n => exact .exactly (numText_render n h.2)
  | atLeast n => exact .atLeast (numText_render n h.2)
  | between m n => exact .between (numText_render m h.2.1) (numText_render n h.2.2)

theorem render_noRep (es : List (Sym × Rep)) (h : ∀ x ∈ es, Writable x) : NoRepAhead (render es) := by
  cases es with
  | nil => simp [render, NoRepAhead]
  | cons x es =>
    obtain ⟨s, r⟩ := x
    have hx := h (s, r) (by simp)
    cases s with
    | char c =>
      have hc := hx.1.1
      simp only [List.mem_cons, List.not_mem_nil, or_false, not_or] at hc
      simp [render, renderSym, NoRepAhead]
      omega
    | any => simp [render, renderSym, NoRepAhead]
    | set cs => simp [render, renderSym, NoRepAhead]

theorem seq_render (es : List (Sym × Rep)) (h : ∀ x ∈ es, Writable x) : SeqText (render es) es := by
  induction es with
  | nil => exact .nil
  | cons x es ih =>
    obtain ⟨s, r⟩ := x
    have hx := h (s, r) (by simp)
    have hes : ∀ x ∈ es, Writable x := fun y hy => h y (by simp [hy])
    have e : render ((s, r) :: es) = renderSym s ++ renderRep r ++ render es := by simp [render]
    rw [e]
    exact .cons (symText_render hx) (repText_render hx) (fun _ => render_noRep es hes) (ih hes)

theorem valid_ascii {c : Nat} (h : c < 128) : ValidRune c := .inl (by omega)

theorem valid_num (n : Nat) : ∀ c ∈ renderNum n, ValidRune c := by
  intro c hc
  obtain ⟨d, hd, rfl⟩ := List.mem_map.1 hc
  have := (isDigit_iff d).1 ((natToDec_spec n).2.1 d hd)
  exact valid_ascii (by omega)

theorem valid_render (es : List (Sym × Rep)) (h : ∀ x ∈ es, Writable x) : ∀ c ∈ render es, ValidRune c := by
  intro c hc
  obtain ⟨⟨s, r⟩, hx, hc⟩ := List.mem_flatMap.1 hc
  have hw := h _ hx
  rcases List.mem_append.1 hc with hc | hc
  · cases s with
    | char d => simp [renderSym] at hc; subst hc; exact hw.1.2
    | any => simp [renderSym] at hc; subst hc; decide
    | set cs =>
      simp [renderSym] at hc
      rcases hc with rfl | hc | rfl
      · decide
      · exact hw.1.2 c hc
      · decide
  · have h123 : ValidRune 123 := by decide
    have h125 : ValidRune 125 := by decide
    have h44 : ValidRune 44 := by decide
    cases r with
    | once => simp [renderRep] at hc
    | star => simp [renderRep] at hc; subst hc; decide
    | exactly n =>
      simp [renderRep] at hc
      rcases hc with rfl | hc | rfl
      · exact h123
      · exact valid_num n c hc
      · exact h125
    | atLeast n =>
      simp [renderRep] at hc
      rcases hc with rfl | hc | rfl | rfl
      · exact h123
      · exact valid_num n c hc
      · exact h44
      · exact h125
    | between m n =>
      simp [renderRep] at hc
      rcases hc with rfl | hc | rfl | hc | rfl
      · exact h123
      · exact valid_num m c hc
      · exact h44
      · exact valid_num n c hc
      · exact h125

/-- The whole pattern. -/
def pattern (left : Bool) (es : List (Sym × Rep)) (right : Bool) : List Nat :=
  (if left then [94] else []) ++ render es ++ (if right then [36] else [])

/-- C30: a written expression is read back as the same elements, counts and anchors. -/
theorem C30_round_trip (left : Bool) (es : List (Sym × Rep)) (right : Bool) (h : ∀ x ∈ es, Writable x)
    (hl : left = false → (render es).head? ≠ some 94) (hr : right = false → (render es).getLast? ≠ some 36) :
    parseBre (ofRunes (pattern left es right)) =
      .ok { anchorLeft := left, anchorRight := right,
            elements := es.map (fun x => ⟨x.1.toAtom, x.2.toCount⟩) } := by
  rw [parseBre_iff]
  refine ⟨left, es, right, ?_, rfl⟩
  rw [runes_ofRunes]
  · have hs := seq_render es h
    cases left <;> cases right
    · have := PatText.plain (hl rfl) (hr rfl) hs
      simpa [pattern] using this
    · have := PatText.right (hl rfl) hs
      simpa [pattern] using this
    · have := PatText.left (hr rfl) hs
      simpa [pattern] using this
    · have := PatText.both hs
      simpa [pattern] using this
  · intro c hc
    simp only [pattern, List.mem_append] at hc
    rcases hc with (hc | hc) | hc
    · split at hc
      · simp at hc; subst hc; decide
      · simp at hc
    · exact valid_render es h c hc
    · split at hc
      · simp at hc; subst hc; decide
      · simp at hc

/-- C30: reading and the notation agree for every text, so a text is read in at most one way. -/
theorem C30_exact (p : Bytes) (b : Bre) :
    parseBre p = .ok b ↔
      ∃ left es right, PatText (runes p) left es right ∧
        b = ⟨left, right, es.map (fun x => ⟨x.1.toAtom, x.2.toCount⟩)⟩ :=
  parseBre_iff p b

/-! ## Examples: the hypotheses are met -/

example : Literal [104, 233, 36, 108] := ⟨by decide, by decide, by decide, by decide⟩

example : ∃ b, parseBre b!"h" = .ok b ∧ (b.matches b!"oh!" = true ↔ [104] <:+: runes b!"oh!") :=
  C24_literal [104] ⟨by decide, by decide, by decide, by decide⟩ _ (by decide)

example : Contains true false [(.set [97, 98], .star), (.any, .once)] [97, 98, 120] :=
  ⟨[], [97, 98, 120], [], rfl,
    .cons [97, 98] [120] (by simp [Sym.accepts]) trivial (.cons [120] [] (by simp [Sym.accepts]) rfl .nil), by simp, by simp⟩

example : Writable (.set [97, 92, 93], .between 2 3) := ⟨⟨.char (by decide) (by decide) (.escape .nil), by decide⟩, by decide⟩

example : ∃ e, parseBre b!"a{x}" = .error e := by
  refine ⟨.explicit, ?_⟩
  have e : runes b!"a{x}" = [97, 123, 120, 125] := by decide
  have e2 : parseElems [97, 123, 120, 125] = .error .explicit := by
    rw [parseElems]
    have e2 : parseCount [123, 120, 125] = .error .explicit := by decide
    simp [parseAtom, e2]
  simp [parseBre, e, parseRight, e2]

end Regex
