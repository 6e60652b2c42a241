import Verif.Regex.Props

/-!
# Looking for a text that contains special characters (C149)
-/

namespace Regex
open Go

/-- Specification: a character with a special meaning is put between brackets. -/
def quoted (c : Nat) : List Nat := if c ∈ [36, 40, 41, 42, 46, 91, 94, 123] then [91, c, 93] else [c]

/-- What it is read as. -/
def quotedSym (c : Nat) : Sym := if c ∈ [36, 40, 41, 42, 46, 91, 94, 123] then .set [c] else .char c

theorem quoted_sym (c : Nat) : SymText (quoted c) (quotedSym c) := by
  unfold quoted quotedSym
  by_cases h : c ∈ [36, 40, 41, 42, 46, 91, 94, 123]
  · rw [if_pos h, if_pos h]
    have h1 : c ≠ 92 := by rintro rfl; simp at h
    have h2 : c ≠ 93 := by rintro rfl; simp at h
    exact .set (cs := [c]) (.char h1 h2 .nil)
  · rw [if_neg h, if_neg h]
    refine .char (fun hm => h ?_)
    simp only [List.mem_cons, List.not_mem_nil, or_false] at hm ⊢
    omega

theorem quoted_head (c : Nat) (t : List Nat) : NoRepAhead (quoted c ++ t) ∧ (quoted c ++ t).head? ≠ some 94 := by
  unfold quoted NoRepAhead
  by_cases h : c ∈ [36, 40, 41, 42, 46, 91, 94, 123]
  · rw [if_pos h]; simp
  · rw [if_neg h]
    simp only [List.mem_cons, List.not_mem_nil, or_false] at h
    simp only [List.cons_append, List.nil_append, List.head?_cons, ne_eq, Option.some.injEq]
    omega

theorem seq_quoted (ls : List Nat) : SeqText (ls.flatMap quoted) (ls.map (fun c => (quotedSym c, Rep.once))) := by
  induction ls with
  | nil => exact .nil
  | cons c ls ih =>
    have := SeqText.cons (quoted_sym c) .once (t := ls.flatMap quoted) (fun _ => ?_) ih
    · simpa using this
    · cases ls with
      | nil => simp [NoRepAhead]
      | cons d ls => exact (quoted_head d _).1

theorem quoted_last (ls : List Nat) : (ls.flatMap quoted).getLast? ≠ some 36 := by
  rcases List.eq_nil_or_concat ls with rfl | ⟨ls, c, rfl⟩
  · simp
  · rw [List.concat_eq_append, List.flatMap_append]
    simp only [List.flatMap_cons, List.flatMap_nil, List.append_nil]
    unfold quoted
    by_cases h : c ∈ [36, 40, 41, 42, 46, 91, 94, 123]
    · rw [if_pos h]; simp
    · rw [if_neg h]
      simp only [List.mem_cons, List.not_mem_nil, or_false] at h
      simp
      omega

theorem quotedSym_accepts (c r : Nat) : (quotedSym c).accepts r ↔ r = c := by
  unfold quotedSym
  split <;> simp [Sym.accepts]

theorem lang_quoted (ls mid : List Nat) : Lang (ls.map (fun c => (quotedSym c, Rep.once))) mid ↔ mid = ls := by
  induction ls generalizing mid with
  | nil =>
    constructor
    · intro h; cases h; rfl
    · rintro rfl; exact .nil
  | cons c ls ih =>
    constructor
    · intro h
      cases h with
      | cons xs ys h1 h2 h3 =>
        obtain ⟨x, rfl⟩ := List.length_eq_one_iff.1 h2
        rw [(ih ys).1 h3, (quotedSym_accepts c x).mp (h1 x (by simp))]
        rfl
    · rintro rfl
      exact .cons [c] ls (by simp [quotedSym_accepts]) rfl ((ih ls).2 rfl)

theorem quoted_valid (ls : List Nat) (h : ∀ c ∈ ls, ValidRune c) : ∀ c ∈ ls.flatMap quoted, ValidRune c := by
  intro c hc
  obtain ⟨d, hd, hc⟩ := List.mem_flatMap.mp hc
  unfold quoted at hc
  split at hc
  · simp only [List.mem_cons, List.not_mem_nil, or_false] at hc
    rcases hc with rfl | rfl | rfl
    · decide
    · exact h _ hd
    · decide
  · simp only [List.mem_cons, List.not_mem_nil, or_false] at hc
    subst hc
    exact h _ hd

theorem quoted_iff (p s : Bytes) (ls : List Nat) (left : Bool) (hp : PatText (runes p) left (ls.map (fun c => (quotedSym c, Rep.once))) false)
    (hs : s.length < 2 ^ 63) :
    ∃ b, parseBre p = .ok b ∧ (b.matches s = true ↔ Contains left false (ls.map (fun c => (quotedSym c, Rep.once))) (runes s)) := by
  have hb := (parseBre_iff p _).2 ⟨left, _, false, hp, rfl⟩
  refine ⟨_, hb, fun h => C28_sound_partial p s hp ?_ hs _ hb h, fun h => ?_⟩
  · intro x hx
    obtain ⟨c, _, rfl⟩ := List.mem_map.1 hx
    show Exact (quotedSym c, Rep.once)
    cases quotedSym c <;> trivial
  · obtain ⟨b', hb', hm⟩ := C27_complete p s hp hs h
    rw [hb] at hb'
    simp only [Except.ok.injEq] at hb'
    rw [hb']
    exact hm

/-- **C149** Every text can be looked for, whatever characters it contains: with its special characters between brackets it is a pattern that
is read and matches exactly the texts in which it occurs. -/
theorem C149_any_text_partial (ls : List Nat) (hv : ∀ c ∈ ls, ValidRune c) (s : Bytes) (hs : s.length < 2 ^ 63) :
    ∃ b, parseBre (ofRunes (ls.flatMap quoted)) = .ok b ∧ (b.matches s = true ↔ ls <:+: runes s) := by
  have hh : (ls.flatMap quoted).head? ≠ some 94 := by
    cases ls with
    | nil => simp
    | cons c ls => exact (quoted_head c _).2
  have hp : PatText (runes (ofRunes (ls.flatMap quoted))) false (ls.map (fun c => (quotedSym c, Rep.once))) false := by
    rw [runes_ofRunes _ (quoted_valid ls hv)]
    exact .plain hh (quoted_last ls) (seq_quoted ls)
  obtain ⟨b, hb, hm⟩ := quoted_iff _ s ls _ hp hs
  refine ⟨b, hb, hm.trans ⟨?_, ?_⟩⟩
  · rintro ⟨pre, mid, post, e, hl, _, _⟩
    rw [(lang_quoted ls mid).1 hl] at e
    exact ⟨pre, post, e.symm⟩
  · rintro ⟨pre, post, e⟩
    exact ⟨pre, ls, post, e.symm, (lang_quoted ls ls).2 rfl, by simp, by simp⟩

/-- **C149** With `^` in front it matches exactly the texts that start with it. -/
theorem C149_at_the_start (ls : List Nat) (hv : ∀ c ∈ ls, ValidRune c) (s : Bytes) (hs : s.length < 2 ^ 63) :
    ∃ b, parseBre (ofRunes (94 :: ls.flatMap quoted)) = .ok b ∧ (b.matches s = true ↔ ls <+: runes s) := by
  have hp : PatText (runes (ofRunes (94 :: ls.flatMap quoted))) true (ls.map (fun c => (quotedSym c, Rep.once))) false := by
    rw [runes_ofRunes]
    · exact .left (quoted_last ls) (seq_quoted ls)
    · intro c hc
      rcases List.mem_cons.1 hc with rfl | hc
      · decide
      · exact quoted_valid ls hv c hc
  obtain ⟨b, hb, hm⟩ := quoted_iff _ s ls _ hp hs
  refine ⟨b, hb, hm.trans ⟨?_, ?_⟩⟩
  · rintro ⟨pre, mid, post, e, hl, h, _⟩
    rw [(lang_quoted ls mid).1 hl, h rfl] at e
    exact ⟨post, by simpa using e.symm⟩
  · rintro ⟨post, e⟩
    exact ⟨[], ls, post, by simpa using e.symm, (lang_quoted ls ls).2 rfl, by simp, by simp⟩

/-- Specification: the way of POSIX, a backslash in front of every special character. -/
def backslashed (c : Nat) : List Nat := if c ∈ [36, 42, 46, 91, 92, 94] then [92, c] else [c]

/-- **C149** The way of POSIX does not work: a backslash is an ordinary character here. `\.` does not match `.`, it matches a backslash and any other
character; `a\*` matches `a`; and `a\[` makes the parser panic. -/
theorem C149_counterexample :
    ([46].flatMap backslashed = [92, 46] ∧ ∃ b, parseBre (ofRunes [92, 46]) = .ok b ∧ b.matches b!"." = false ∧ b.matches b!"\\x" = true) ∧
    ([97, 42].flatMap backslashed = [97, 92, 42] ∧ ∃ b, parseBre (ofRunes [97, 92, 42]) = .ok b ∧ b.matches b!"a" = true ∧ ¬ [97, 42] <:+: runes b!"a") ∧
    ([97, 91].flatMap backslashed = [97, 92, 91] ∧ ∃ e, parseBre (ofRunes [97, 92, 91]) = .error e) := by
  have h1 : PatText (runes (ofRunes [92, 46])) false [(.char 92, .once), (.any, .once)] false := by
    have e : runes (ofRunes [92, 46]) = [92] ++ [] ++ ([46] ++ [] ++ []) := by decide
    refine .plain (by decide) (by decide) ?_
    rw [e]
    exact .cons (.char (by decide)) .once (by simp [NoRepAhead]) (.cons .any .once (by simp [NoRepAhead]) .nil)
  have h2 : PatText (runes (ofRunes [97, 92, 42])) false [(.char 97, .once), (.char 92, .star)] false := by
    have e : runes (ofRunes [97, 92, 42]) = [97] ++ [] ++ ([92] ++ [42] ++ []) := by decide
    refine .plain (by decide) (by decide) ?_
    rw [e]
    exact .cons (.char (by decide)) .once (by simp [NoRepAhead]) (.cons (.char (by decide)) .star (by simp) .nil)
  refine ⟨⟨by decide, ?_⟩, ⟨by decide, ?_⟩, by decide, ?_⟩
  · have hb := (parseBre_iff _ _).2 ⟨_, _, _, h1, rfl⟩
    refine ⟨_, hb, ?_, ?_⟩
    · refine Bool.eq_false_iff.mpr (fun hm => ?_)
      obtain ⟨pre, mid, post, e, hl, _⟩ := C28_sound_partial _ b!"." h1 (by
        intro x hx
        simp only [List.mem_cons, List.not_mem_nil, or_false] at hx
        rcases hx with rfl | rfl <;> trivial) (by decide) _ hb hm
      cases hl with
      | cons xs ys h3 h4 h5 =>
        cases h5 with
        | cons xs' ys' h6 h7 h8 =>
          have hlen := congrArg List.length e
          have : (runes b!".").length = 1 := by decide
          simp [Rep.allows] at h4 h7
          simp [this] at hlen
          omega
    · obtain ⟨b', hb', hm⟩ := C27_complete _ b!"\\x" h1 (by decide) ⟨[], [92, 120], [], by decide,
        .cons [92] [120] (by simp [Sym.accepts]) rfl (.cons [120] [] (by simp [Sym.accepts]) rfl .nil), by simp, by simp⟩
      rw [hb] at hb'
      cases hb'
      exact hm
  · obtain ⟨b', hb', hm⟩ := C27_complete _ b!"a" h2 (by decide) ⟨[], [97], [], by decide,
      .cons [97] [] (by simp [Sym.accepts]) rfl (.cons [] [] (by simp) trivial .nil), by simp, by simp⟩
    refine ⟨b', hb', hm, ?_⟩
    rintro ⟨pre, post, e⟩
    have hlen := congrArg List.length e
    have : (runes b!"a").length = 1 := by decide
    simp [this] at hlen
    omega
  · have : (match parseBre (ofRunes [97, 92, 91]) with | .ok _ => false | .error _ => true) = true := by decide +kernel
    cases hp : parseBre (ofRunes [97, 92, 91]) with
    | error e => exact ⟨e, rfl⟩
    | ok b => rw [hp] at this; cases this

/-- A price in a list: the pattern, and what it finds. -/
example : ofRunes ((runes b!"$1.50 (net)*").flatMap quoted) = b!"[$]1[.]50 [(]net[)][*]" := by decide +kernel

example : ∃ b, parseBre b!"[$]1[.]50" = .ok b ∧ b.matches b!"only $1.50 each" = true := by
  obtain ⟨b, hb, hm⟩ := C149_any_text_partial (runes b!"$1.50") (by decide +kernel) b!"only $1.50 each" (by decide)
  refine ⟨b, ?_, hm.mpr ⟨runes b!"only ", runes b!" each", by decide +kernel⟩⟩
  rw [← hb]
  congr 1

end Regex
