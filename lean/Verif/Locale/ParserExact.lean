import Verif.Locale.ParserComplete

/-!
# The generated parser accepts exactly the locale definitions

C57, C58, second part.
-/

namespace Locale
open Go

/-! ## Removing the ambiguities -/

abbrev wl : Sym := .n .weight_list
abbrev ws : Sym := .n .weight_symbol
abbrev sl : Sym := .n .symb_list

/-- What a derivation from one symbol becomes in `grammar2`. -/
def Conv (x : Sym) (ts : List Tok) (d : Def) (v : Bytes) (d' : Def) : Prop :=
  if x = ws then (ts = [] ∧ d' = d) ∨ ∃ v', Derives2 [-43] ts d [v'] d'
  else if x = wl then (ts = [] ∧ d' = d) ∨ ∃ v', Derives2 [-42] ts d [v'] d'
  else if x = sl then ∃ v', Derives2 [-14] ts d [v'] d'
  else Derives2 [x.num] ts d [v] d'

/-- What a derivation becomes in `grammar2`. -/
def ConvL : List Sym → List Tok → Def → List Bytes → Def → Prop
  | [], ts, d, vs, d' => ts = [] ∧ vs = [] ∧ d' = d
  | x :: ss, ts, d, vs, d' =>
    ∃ ts1 ts2 v vs' d1, ts = ts1 ++ ts2 ∧ vs = v :: vs' ∧ Conv x ts1 d v d1 ∧ ConvL ss ts2 d1 vs' d'

/-- Not one of the symbols treated specially. -/
def plain (x : Sym) : Bool := !(x == ws || x == wl || x == sl)

theorem Conv.plain {x ts d v d'} (h : Conv x ts d v d') (hx : Locale.plain x = true) : Derives2 [x.num] ts d [v] d' := by
  simp only [Locale.plain, Bool.not_eq_true', Bool.or_eq_false_iff, beq_eq_false_iff_ne] at hx
  simpa only [Conv, if_neg hx.1.1, if_neg hx.1.2, if_neg hx.2] using h

theorem ConvL.plain {ss ts d vs d'} (h : ConvL ss ts d vs d') (hs : ss.all Locale.plain = true) :
    Derives2 (ss.map Sym.num) ts d vs d' := by
  induction ss generalizing ts d vs with
  | nil =>
    obtain ⟨rfl, rfl, rfl⟩ := h
    exact .nil _
  | cons x ss ih =>
    obtain ⟨ts1, ts2, v, vs', d1, rfl, rfl, h1, h2⟩ := h
    simp only [List.all_cons, Bool.and_eq_true] at hs
    exact (h1.plain hs.1).append (ih h2 hs.2)

/-- The productions taken over unchanged. -/
def generic (p : Prod) : Bool :=
  p.lhs != .weight_list && p.lhs != .symb_list && !p.rhs.isEmpty && p.rhs.all plain

open Tm Nt Sym in
/-- The others. -/
def specials : List Prod :=
  [⟨weight_symbol, []⟩, ⟨weight_symbol, [t DQUOTE, n symb_list, t DQUOTE]⟩,
   ⟨weight_list, [n weight_list, t SEMI, n weight_symbol]⟩, ⟨weight_list, [n weight_list, t SEMI]⟩,
   ⟨weight_list, [n weight_symbol]⟩, ⟨symb_list, [n symb_list, t COLLSYMBOL]⟩, ⟨symb_list, [t COLLSYMBOL]⟩,
   ⟨collation_entry, [n collation_element, n weight_list, t EOL]⟩]

theorem generic_ok : ((List.range 190).all fun i =>
    match prodAt (i + 1) with
    | none => false
    | some p => if generic p then grammar2.contains ((Sym.n p.lhs).num, p.rhs.map Sym.num, i + 1) else specials.contains p) = true := by
  decide +kernel

theorem grammar_length : grammar.length = 190 := by decide +kernel

theorem prod_cases {p : Prod} (h : p ∈ grammar) :
    (generic p = true ∧ ∃ i, p.action = actionOf i ∧ ((Sym.n p.lhs).num, p.rhs.map Sym.num, i) ∈ grammar2) ∨ p ∈ specials := by
  obtain ⟨j, hj⟩ := List.getElem?_of_mem h
  have hl : j < 190 := by
    have := (List.getElem?_eq_some_iff.mp hj).1
    rwa [grammar_length] at this
  have hp : prodAt (j + 1) = some p := by simpa [prodAt] using hj
  have hg := List.all_eq_true.mp generic_ok j (by simpa using hl)
  rw [hp] at hg
  simp only at hg
  split at hg
  · rename_i hgen
    left
    refine ⟨hgen, j + 1, ?_, by simpa using hg⟩
    obtain ⟨pr, h1, -, -, -, h2⟩ := prod_facts (p := j + 1) (by omega) (by omega)
    rw [hp] at h1
    cases h1
    exact h2
  · right; simpa using hg

theorem Derives2.node {l r i} (hk : (l, r, i) ∈ grammar2) {ts d us d1 v d2} (h : Derives2 r ts d us d1)
    (hm : Means (actionOf i) us d1 v d2) : Derives2 [l] ts d [v] d2 := by
  obtain ⟨k, hk⟩ := List.getElem?_of_mem hk
  have := Derives2.nt k l r i hk ts [] d d1 d2 d2 us v [] [] h hm (.nil _)
  simpa using this

theorem means_first {a vs d v d'} (h : Means a vs d v d') (ha : a = .first) : d' = d := by
  subst ha
  cases h <;> rfl

theorem special_first : (specials.all fun p => decide (p.action = .first)) = true := by decide +kernel

/-- A node whose text does not matter. -/
theorem Derives2.node' {l r i} (hk : (l, r, i) ∈ grammar2) (hi : actionOf i = .first) {ts d us d1}
    (h : Derives2 r ts d us d1) : ∃ v, Derives2 [l] ts d [v] d1 := by
  cases us with
  | nil => exact ⟨[], .node hk h (by rw [hi]; exact .empty _ _)⟩
  | cons u us => exact ⟨u, .node hk h (by rw [hi]; exact .first _ _ _)⟩

theorem empty_list (d : Def) : ∃ v, Derives2 [-74] [] d [v] d := by
  obtain ⟨v, h⟩ := Derives2.node' (l := -75) (r := []) (i := 98) (by decide +kernel) rfl (Derives2.nil d)
  exact Derives2.node' (l := -74) (r := [-75]) (i := 97) (by decide +kernel) rfl h

theorem conv_tm {x : Tm} {ts d v d'} (h : Conv (.t x) ts d v d') : Derives2 [(Sym.t x).num] ts d [v] d' :=
  h.plain rfl

theorem conv_special {p : Prod} (hp : p ∈ specials) {ts d vs d1 v d2} (h : ConvL p.rhs ts d vs d1)
    (hm : Means p.action vs d1 v d2) : Conv (.n p.lhs) ts d v d2 := by
  have hf := List.all_eq_true.mp special_first p hp
  simp only [decide_eq_true_eq] at hf
  have hd : d2 = d1 := means_first hm hf
  rw [hf] at hm
  subst hd
  simp only [specials, List.mem_cons, List.not_mem_nil, or_false] at hp
  rcases hp with rfl | rfl | rfl | rfl | rfl | rfl | rfl | rfl
  · -- the empty weight
    simp only [ConvL] at h
    simp only [Conv, ws, if_true]
    exact .inl ⟨h.1, h.2.2⟩
  · -- a quoted list of symbols
    simp only [ConvL] at h
    obtain ⟨t1, _, v1, _, d3, rfl, rfl, h1, t2, _, v2, _, d4, rfl, rfl, h2, t3, _, v3, _, d5, rfl, rfl, h3, rfl, rfl, rfl⟩ := h
    have h2' : ∃ v', Derives2 [-14] t2 d3 [v'] d4 := h2
    obtain ⟨v2', h2'⟩ := h2'
    have hh := ((conv_tm h1).append h2').append (conv_tm h3)
    simp only [Conv, ws, if_true]
    right
    obtain ⟨u, hu⟩ := Derives2.node' (l := -43) (r := [94, -14, 94]) (i := 101) (by decide +kernel) rfl hh
    exact ⟨u, by simpa using hu⟩
  · -- list ; weight
    simp only [ConvL] at h
    obtain ⟨t1, _, v1, _, d3, rfl, rfl, h1, t2, _, v2, _, d4, rfl, rfl, h2, t3, _, v3, _, d5, rfl, rfl, h3, rfl, rfl, rfl⟩ := h
    have h1' : (t1 = [] ∧ d3 = d) ∨ ∃ v', Derives2 [-42] t1 d [v'] d3 := h1
    have h3' : (t3 = [] ∧ d2 = d4) ∨ ∃ v', Derives2 [-43] t3 d4 [v'] d2 := h3
    have h2' := conv_tm h2
    have goal : ∃ v', Derives2 [-42] (t1 ++ (t2 ++ t3)) d [v'] d2 := by
      rcases h1' with ⟨rfl, rfl⟩ | ⟨v1', h1'⟩
      · obtain ⟨u, hu⟩ := empty_list d3
        rcases h3' with ⟨rfl, rfl⟩ | ⟨v3', h3'⟩
        · have := Derives2.node' (l := -42) (r := [-74, 95]) (i := 96) (by decide +kernel) rfl (hu.append h2')
          simpa using this
        · have := Derives2.node' (l := -42) (r := [-74, 95, -43]) (i := 95) (by decide +kernel) rfl ((hu.append h2').append h3')
          simpa using this
      · rcases h3' with ⟨rfl, rfl⟩ | ⟨v3', h3'⟩
        · have := Derives2.node' (l := -42) (r := [-42, 95]) (i := 96) (by decide +kernel) rfl (h1'.append h2')
          simpa using this
        · have := Derives2.node' (l := -42) (r := [-42, 95, -43]) (i := 95) (by decide +kernel) rfl ((h1'.append h2').append h3')
          simpa using this
    simp only [Conv, ws, wl]
    rw [if_neg (by decide), if_pos trivial]
    right
    simpa using goal
  · -- list ;
    simp only [ConvL] at h
    obtain ⟨t1, _, v1, _, d3, rfl, rfl, h1, t2, _, v2, _, d4, rfl, rfl, h2, rfl, rfl, rfl⟩ := h
    have h1' : (t1 = [] ∧ d3 = d) ∨ ∃ v', Derives2 [-42] t1 d [v'] d3 := h1
    have h2' := conv_tm h2
    have goal : ∃ v', Derives2 [-42] (t1 ++ t2) d [v'] d2 := by
      rcases h1' with ⟨rfl, rfl⟩ | ⟨v1', h1'⟩
      · obtain ⟨u, hu⟩ := empty_list d3
        have := Derives2.node' (l := -42) (r := [-74, 95]) (i := 96) (by decide +kernel) rfl (hu.append h2')
        simpa using this
      · have := Derives2.node' (l := -42) (r := [-42, 95]) (i := 96) (by decide +kernel) rfl (h1'.append h2')
        simpa using this
    simp only [Conv, ws, wl]
    rw [if_neg (by decide), if_pos trivial]
    right
    simpa using goal
  · -- weight
    simp only [ConvL] at h
    obtain ⟨t1, _, v1, _, d3, rfl, rfl, h1, rfl, rfl, rfl⟩ := h
    have h1' : (t1 = [] ∧ d2 = d) ∨ ∃ v', Derives2 [-43] t1 d [v'] d2 := h1
    simp only [Conv, ws, wl]
    rw [if_neg (by decide), if_pos trivial]
    rcases h1' with ⟨rfl, rfl⟩ | ⟨v1', h1'⟩
    · exact .inl ⟨rfl, rfl⟩
    · right
      have := Derives2.node' (l := -42) (r := [-43]) (i := 97) (by decide +kernel) rfl h1'
      simpa using this
  · -- symbols, symbol
    simp only [ConvL] at h
    obtain ⟨t1, _, v1, _, d3, rfl, rfl, h1, t2, _, v2, _, d4, rfl, rfl, h2, rfl, rfl, rfl⟩ := h
    have h1' : ∃ v', Derives2 [-14] t1 d [v'] d3 := h1
    obtain ⟨v1', h1'⟩ := h1'
    have := Derives2.node' (l := -14) (r := [-14, 7]) (i := 23) (by decide +kernel) rfl (h1'.append (conv_tm h2))
    simp only [Conv, ws, wl, sl]
    rw [if_neg (by decide), if_neg (by decide), if_pos trivial]
    simpa using this
  · -- symbol
    simp only [ConvL] at h
    obtain ⟨t1, _, v1, _, d3, rfl, rfl, h1, rfl, rfl, rfl⟩ := h
    have := Derives2.node' (l := -14) (r := [7]) (i := 26) (by decide +kernel) rfl (conv_tm h1)
    simp only [Conv, ws, wl, sl]
    rw [if_neg (by decide), if_neg (by decide), if_pos trivial]
    simpa using this
  · -- collation entry
    simp only [ConvL] at h
    obtain ⟨t1, _, v1, _, d3, rfl, rfl, h1, t2, _, v2, _, d4, rfl, rfl, h2, t3, _, v3, _, d5, rfl, rfl, h3, rfl, rfl, rfl⟩ := h
    have h2' : (t2 = [] ∧ d4 = d3) ∨ ∃ v', Derives2 [-42] t2 d3 [v'] d4 := h2
    have h1' := h1.plain rfl
    have h3' := conv_tm h3
    have hv : v = v1 := by cases hm; rfl
    subst hv
    have goal : Derives2 [-40] (t1 ++ (t2 ++ t3)) d [v] d2 := by
      rcases h2' with ⟨rfl, rfl⟩ | ⟨v2', h2'⟩
      · have := Derives2.node (l := -40) (r := [-41, 16]) (i := 90) (by decide +kernel) (h1'.append h3') (.first v [v3] d2)
        simpa using this
      · have := Derives2.node (l := -40) (r := [-41, -42, 16]) (i := 89) (by decide +kernel) ((h1'.append h2').append h3') (.first v [v2', v3] d2)
        simpa using this
    simp only [Conv, ws, wl, sl]
    rw [if_neg (by decide), if_neg (by decide), if_neg (by decide), List.append_nil]
    exact goal

theorem convert {ss ts d vs d'} (h : Derives ss ts d vs d') : ConvL ss ts d vs d' := by
  induction h with
  | nil d => exact ⟨rfl, rfl, rfl⟩
  | tm x v ss ts d d' vs _ ih =>
    refine ⟨[⟨x.code, v⟩], ts, v, vs, d, rfl, rfl, ?_, ih⟩
    simp only [Conv, ws, wl, sl]
    rw [if_neg (by simp), if_neg (by simp), if_neg (by simp)]
    exact .tm x v _ _ _ _ _ (.nil _)
  | nt p hp ts ts1 d d1 d2 d3 us v ss vs h hm _ ih1 ih2 =>
    refine ⟨ts, ts1, v, vs, d2, rfl, rfl, ?_, ih2⟩
    rcases prod_cases hp with ⟨hg, i, hi, hmem⟩ | hs
    · simp only [generic, Bool.and_eq_true, bne_iff_ne] at hg
      have hd := ih1.plain hg.2
      rw [hi] at hm
      have := Derives2.node hmem hd hm
      simp only [Conv, ws, wl, sl]
      by_cases h1 : p.lhs = .weight_symbol
      · rw [if_pos (by rw [h1])]
        right
        rw [h1] at this
        exact ⟨v, this⟩
      · rw [if_neg (by simpa using h1), if_neg (by simpa using hg.1.1.1), if_neg (by simpa using hg.1.1.2)]
        exact this
    · exact conv_special hs ih1 hm

/-! ## The property -/

theorem Derives.pos {ss ts d vs d'} (h : Derives ss ts d vs d') : ∀ t ∈ ts, 0 < t.code := by
  induction h with
  | nil d => simp
  | tm x v ss ts d d' vs _ ih =>
    intro t ht
    rcases List.mem_cons.mp ht with rfl | ht
    · exact (yylex1_code x).2
    · exact ih t ht
  | nt p hp ts ts1 d d1 d2 d3 us v ss vs h hm _ ih1 ih2 =>
    intro t ht
    rcases List.mem_append.mp ht with ht | ht
    · exact ih1 t ht
    · exact ih2 t ht

/-- **C57.** Every locale definition according to the grammar is accepted, with the definitions its derivation
gives: the conflicts in the generated tables lose nothing. -/
theorem C57_complete (handler : Bool) (toks : List Tok) (d d' : Def) (h : LocaleDefinition toks d d') :
    parse handler toks d = .ok (0, d') := by
  obtain ⟨v, h⟩ := h
  have hc := convert h
  obtain ⟨t1, t2, v1, vs', d1, e1, e2, e3, e4, e5, e6⟩ := hc
  subst e4; subst e5; subst e6
  simp only [List.append_nil] at e1
  subst e1
  obtain ⟨fuel, hf⟩ := accepts_derives2 (handler := handler) h.pos (e3.plain rfl)
  exact parse_eq hf

/-- **C57.** The parser accepts exactly the token streams derivable from the grammar, and stores exactly what the
derivation says. -/
theorem C57_exact (handler : Bool) (toks : List Tok) (hp : ∀ t ∈ toks, 0 < t.code) (d d' : Def) :
    parse handler toks d = .ok (0, d') ↔ LocaleDefinition toks d d' := by
  constructor
  · intro h
    obtain ⟨r, hr, -⟩ := C58_stops handler toks d
    have := parse_eq hr
    rw [h] at this
    subst this
    exact C57_sound handler toks hp d d' _ hr
  · exact C57_complete handler toks d d'

/-- So a token stream means one thing only, although the grammar is ambiguous. -/
theorem C57_unambiguous (toks : List Tok) (d d1 d2 : Def) (h1 : LocaleDefinition toks d d1)
    (h2 : LocaleDefinition toks d d2) : d1 = d2 := by
  have e1 := C57_complete false toks d d1 h1
  have e2 := C57_complete false toks d d2 h2
  rw [e1] at e2
  cases e2
  rfl

/-- **C57.** A stream that is no locale definition, or that has a malformed number, makes the parser panic with a
message of its own. -/
theorem C57_rejects (toks : List Tok) (hp : ∀ t ∈ toks, 0 < t.code) (d : Def) (h : ∀ d', ¬LocaleDefinition toks d d') :
    parse false toks d = .error .explicit := by
  obtain ⟨r, hr, h1⟩ := C58_stops false toks d
  rw [parse_eq hr]
  rcases h1 with ⟨d', rfl⟩ | ⟨d', rfl, h2⟩ | rfl
  · exact absurd (C57_sound false toks hp d d' _ hr) (h d')
  · cases h2
  · rfl

/-- The hypotheses are met: a collation order with empty weights. -/
example : ∃ d', LocaleDefinition
    [tk .LC_COLLATE_STR [], tk .EOL [], tk .ORDER_START_STR [], tk .FORWARD_STR [], tk .SEMI [], tk .BACKWARD_STR [],
     tk .EOL [], tk .CHARSYMBOL b!"<a>", tk .SEMI [], tk .EOL [], tk .CHARSYMBOL b!"<b>", tk .DQUOTE [],
     tk .COLLSYMBOL [], tk .DQUOTE [], tk .SEMI [], tk .IGNORE_STR [], tk .EOL [], tk .ORDER_END_STR [], tk .EOL [],
     tk .END_STR [], tk .LC_COLLATE_STR [], tk .EOL []] {} d' := by
  refine ⟨{}, (C57_exact false _ (by decide +kernel) _ _).mp ?_⟩
  decide +kernel

end Locale
