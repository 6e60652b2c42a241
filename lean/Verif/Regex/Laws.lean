import Verif.Regex.Props

/-!
# Laws of matching (C129, C130)

Patterns that stand for the same strings should match the same texts. The matcher counts accepted characters wherever they are
(C28), and so this is false in general; it holds for patterns whose repetitions are exact, and a count may be written out. More
text never loses a match.
-/

namespace Regex
open Go

/-- More text does no harm. -/
theorem loose_append (es : List (Sym × Rep)) : ∀ rs t : List Nat, Loose es rs → Loose es (rs ++ t) := by
  induction es with
  | nil => intro rs t _; exact .nil
  | cons x es ih =>
    intro rs t h
    cases h with
    | @cons s r _ _ acc h0 h1 h2 h3 h4 =>
      have hle : acc.length ≤ rs.length := by
        refine Nat.le_trans h2.length_le ?_
        cases r.most with
        | none => exact Nat.le_refl _
        | some n => simp only [List.length_take]; exact Nat.min_le_right _ _
      refine .cons acc ?_ h1 ?_ h3 ?_
      · rw [List.take_append_of_le_length (Nat.le_trans h1 hle)]; exact h0
      · cases hm : r.most with
        | none => rw [hm] at h2; exact h2.trans (List.sublist_append_left _ _)
        | some n =>
          rw [hm] at h2
          simp only at h2 ⊢
          rw [List.take_append]
          exact h2.trans (List.sublist_append_left _ _)
      · rw [List.drop_append_of_le_length hle]; exact ih _ t h4

/-- What the matcher reports, without the case of nothing left. -/
theorem matches_loose (p s : Bytes) {left right : Bool} {es : List (Sym × Rep)} (hp : PatText (runes p) left es right)
    (hs : s.length < 2 ^ 63) (b : Bre) (hb : parseBre p = .ok b) :
    b.matches s = true ↔ ∃ pre post, runes s = pre ++ post ∧ Loose es post ∧ (left = true → pre = []) := by
  obtain ⟨b', h1, h2⟩ := C28_actual p s hp hs
  rw [hb] at h1
  cases h1
  rw [h2]
  constructor
  · rintro ⟨pre, post, h3, h4, h5, -⟩
    exact ⟨pre, post, h3, h4, h5⟩
  · rintro ⟨pre, post, h3, h4, h5⟩
    by_cases h6 : post = []
    · subst h6
      refine ⟨[], runes s, rfl, loose_append es [] _ h4, fun _ => rfl, fun hne => .inl ?_⟩
      intro e
      exact hne (runes_eq_nil.1 e)
    · exact ⟨pre, post, h3, h4, h5, fun _ => .inl h6⟩

theorem parses (p : Bytes) {left right : Bool} {es : List (Sym × Rep)} (hp : PatText (runes p) left es right) :
    ∃ b, parseBre p = .ok b := ⟨_, (parseBre_iff p _).2 ⟨left, es, right, hp, rfl⟩⟩

/-! ## More text -/

/-- **C130** a text that matches still matches with more text after it, and, unless the pattern starts with `^`, with more
text before it. -/
theorem C130_more_text (p : Bytes) {left right : Bool} {es : List (Sym × Rep)} (hp : PatText (runes p) left es right) (b : Bre)
    (hb : parseBre p = .ok b) (before text after : List Nat) (hv : ∀ c ∈ before ++ text ++ after, ValidRune c)
    (hlen : (ofRunes (before ++ text ++ after)).length < 2 ^ 63) (hl : left = true → before = [])
    (hm : b.matches (ofRunes text) = true) : b.matches (ofRunes (before ++ text ++ after)) = true := by
  have hvt : ∀ c ∈ text, ValidRune c := fun c hc => hv c (by simp [hc])
  have hlen' : (ofRunes text).length < 2 ^ 63 := by
    refine Nat.lt_of_le_of_lt ?_ hlen
    simp only [ofRunes, List.flatMap_append, List.length_append]; omega
  rw [matches_loose p _ hp hlen' b hb, runes_ofRunes _ hvt] at hm
  rw [matches_loose p _ hp hlen b hb, runes_ofRunes _ hv]
  obtain ⟨pre, post, rfl, h2, h3⟩ := hm
  refine ⟨before ++ pre, post ++ after, by simp, loose_append es post after h2, fun h => ?_⟩
  rw [hl h, h3 h]; rfl

/-- **C130** what matches with `^` matches without. -/
theorem C130_unanchored (p q s : Bytes) {right right' : Bool} {es : List (Sym × Rep)} (hp : PatText (runes p) true es right)
    (hq : PatText (runes q) false es right') (hs : s.length < 2 ^ 63) (b c : Bre) (hb : parseBre p = .ok b) (hc : parseBre q = .ok c)
    (h : b.matches s = true) : c.matches s = true := by
  rw [matches_loose p s hp hs b hb] at h
  rw [matches_loose q s hq hs c hc]
  obtain ⟨pre, post, h1, h2, -⟩ := h
  exact ⟨pre, post, h1, h2, fun h => by cases h⟩

/-! ## Patterns that mean the same -/

/-- The same strings, in the standard sense. -/
def SameLang (es es' : List (Sym × Rep)) : Prop := ∀ s, Lang es s ↔ Lang es' s

/-- **C129** the part that holds for all meanings: patterns with exact repetitions that stand for the same strings match the same texts. -/
theorem C129_same_partial (p q s : Bytes) {left right right' : Bool} {es es' : List (Sym × Rep)} (hp : PatText (runes p) left es right)
    (hq : PatText (runes q) left es' right') (he : ∀ x ∈ es, Exact x) (he' : ∀ x ∈ es', Exact x) (hsame : SameLang es es')
    (hs : s.length < 2 ^ 63) (b c : Bre) (hb : parseBre p = .ok b) (hc : parseBre q = .ok c) : b.matches s = c.matches s := by
  have conv : ∀ {es es'}, SameLang es es' → Contains left false es (runes s) → Contains left false es' (runes s) := by
    rintro es es' h ⟨pre, mid, post, h1, h2, h3⟩
    exact ⟨pre, mid, post, h1, (h mid).1 h2, h3⟩
  rw [Bool.eq_iff_iff]
  constructor
  · intro h
    obtain ⟨c', h1, h2⟩ := C27_complete q s hq hs (conv hsame (C28_sound_partial p s hp he hs b hb h))
    rw [hc] at h1; cases h1; exact h2
  · intro h
    obtain ⟨b', h1, h2⟩ := C27_complete p s hp hs (conv (fun s => (hsame s).symm) (C28_sound_partial q s hq he' hs c hc h))
    rw [hb] at h1; cases h1; exact h2

/-- The copies of a repetition, written out: so many single ones, and then those that may be missing. -/
def Rep.writtenOut : Rep → List Rep
  | .once => [.once]
  | .star => [.star]
  | .exactly n => List.replicate n .once
  | .atLeast n => List.replicate n .once ++ [.star]
  | .between m n => List.replicate m .once ++ [.between 0 (n - m)]

/-- `{m,n}` with `m ≤ n`. -/
def Rep.Proper : Rep → Prop
  | .between m n => m ≤ n
  | _ => True

/-- Only the least and the most number of copies matter. -/
theorem loose_congr (s : Sym) (r r' : Rep) (es : List (Sym × Rep)) (rs : List Nat) (h1 : r.least = r'.least) (h2 : r.most = r'.most) :
    Loose ((s, r) :: es) rs → Loose ((s, r') :: es) rs := by
  intro h
  cases h with
  | cons acc a0 a1 a2 a3 a4 => exact .cons acc (by rw [← h1]; exact a0) (by rw [← h1]; exact a1) (by rw [← h2]; exact a2) a3 a4

/-- One copy taken out of a repetition. -/
theorem loose_step (s : Sym) (r r' : Rep) (es : List (Sym × Rep)) (rs : List Nat) (h1 : r.least = r'.least + 1)
    (h2 : r.most = r'.most.map (· + 1)) : Loose ((s, r) :: es) rs ↔ Loose ((s, .once) :: (s, r') :: es) rs := by
  constructor
  · intro h
    cases h with
    | cons acc a0 a1 a2 a3 a4 =>
      rw [h1] at a0 a1
      rw [h2] at a2
      cases acc with
      | nil => simp at a1
      | cons a acc =>
        cases rs with
        | nil => cases hm : r'.most <;> rw [hm] at a2 <;> simp at a2
        | cons x rs =>
          have hx : s.accepts x := a0 x (by simp)
          refine .cons [x] (by simpa [Rep.least] using hx) (by simp [Rep.least]) (by simp [Rep.most]) (by simpa using hx) ?_
          refine .cons acc ?_ ?_ ?_ (fun y hy => a3 y (List.mem_cons_of_mem _ hy)) ?_
          · intro y hy; exact a0 y (by simp at hy ⊢; exact .inr hy)
          · simp only [List.length_cons] at a1; omega
          · cases hm : r'.most with
            | none => rw [hm] at a2; exact a2.tail
            | some n => rw [hm] at a2; simp only [Option.map_some, List.take_succ_cons] at a2; exact a2.tail
          · exact a4
  · intro h
    cases h with
    | cons acc a0 a1 a2 a3 a4 =>
      simp only [Rep.most, Rep.least] at a0 a1 a2
      cases rs with
      | nil => simp at a2; subst a2; simp at a1
      | cons x rs =>
        have hl : acc.length = 1 := by
          have := a2.length_le
          simp at this
          omega
        rw [hl] at a4
        have hx : s.accepts x := a0 x (by simp)
        cases a4 with
        | cons acc b0 b1 b2 b3 b4 =>
          refine .cons (x :: acc) ?_ ?_ ?_ ?_ b4
          · intro y hy
            rw [h1] at hy
            simp only [List.take_succ_cons, List.mem_cons] at hy
            rcases hy with rfl | hy
            · exact hx
            · exact b0 y hy
          · rw [h1]; simp only [List.length_cons]; omega
          · rw [h2]
            cases hm : r'.most with
            | none => rw [hm] at b2; exact b2.cons_cons x
            | some n => rw [hm] at b2; simp only [Option.map_some, List.take_succ_cons]; exact b2.cons_cons x
          · intro y hy
            simp only [List.mem_cons] at hy
            rcases hy with rfl | hy
            · exact hx
            · exact b3 y hy

theorem loose_prefix (pre a c : List (Sym × Rep)) (h : ∀ rs, Loose a rs → Loose c rs) : ∀ rs, Loose (pre ++ a) rs → Loose (pre ++ c) rs := by
  induction pre with
  | nil => exact h
  | cons x pre ih =>
    intro rs hl
    cases hl with
    | cons acc a0 a1 a2 a3 a4 => exact .cons acc a0 a1 a2 a3 (ih _ a4)

/-- Writing a repetition out makes no difference to what is looked for. -/
theorem loose_written (s : Sym) (r : Rep) (hr : r.Proper) (es : List (Sym × Rep)) :
    ∀ rs, Loose ((s, r) :: es) rs ↔ Loose (r.writtenOut.map (fun x => (s, x)) ++ es) rs := by
  cases r with
  | once => intro rs; exact Iff.rfl
  | star => intro rs; exact Iff.rfl
  | exactly n =>
    induction n with
    | zero =>
      intro rs
      constructor
      · intro h
        cases h with
        | cons acc a0 a1 a2 a3 a4 =>
          simp only [Rep.most, List.take_zero, List.sublist_nil] at a2
          subst a2
          exact a4
      · intro h
        exact .cons [] (by simp [Rep.least]) (by simp [Rep.least]) (List.nil_sublist _) (by simp) h
    | succ n ih =>
      intro rs
      rw [loose_step s (.exactly (n + 1)) (.exactly n) es rs rfl rfl]
      exact ⟨loose_prefix [(s, .once)] _ _ (fun rs => (ih trivial rs).1) rs, loose_prefix [(s, .once)] _ _ (fun rs => (ih trivial rs).2) rs⟩
  | atLeast n =>
    induction n with
    | zero => intro rs; exact ⟨loose_congr s _ _ es rs rfl rfl, loose_congr s _ _ es rs rfl rfl⟩
    | succ n ih =>
      intro rs
      rw [loose_step s (.atLeast (n + 1)) (.atLeast n) es rs rfl rfl]
      exact ⟨loose_prefix [(s, .once)] _ _ (fun rs => (ih trivial rs).1) rs, loose_prefix [(s, .once)] _ _ (fun rs => (ih trivial rs).2) rs⟩
  | between m n =>
    induction m generalizing n with
    | zero => intro rs; exact Iff.rfl
    | succ m ih =>
      intro rs
      obtain ⟨n, rfl⟩ : ∃ k, n = k + 1 := ⟨n - 1, by simp only [Rep.Proper] at hr; omega⟩
      have hr' : m ≤ n := by simp only [Rep.Proper] at hr; omega
      rw [loose_step s (.between (m + 1) (n + 1)) (.between m n) es rs rfl rfl]
      have e : (Rep.between (m + 1) (n + 1)).writtenOut = .once :: (Rep.between m n).writtenOut := by
        simp only [Rep.writtenOut, Nat.add_sub_add_right]; rfl
      rw [e]
      exact ⟨loose_prefix [(s, .once)] _ _ (fun rs => (ih n hr' rs).1) rs, loose_prefix [(s, .once)] _ _ (fun rs => (ih n hr' rs).2) rs⟩

/-- The same is looked for, so the same is reported. -/
theorem same_loose (p q s : Bytes) {left right right' : Bool} {es es' : List (Sym × Rep)} (hp : PatText (runes p) left es right)
    (hq : PatText (runes q) left es' right') (hsame : ∀ rs, Loose es rs ↔ Loose es' rs)
    (hs : s.length < 2 ^ 63) (b c : Bre) (hb : parseBre p = .ok b) (hc : parseBre q = .ok c) : b.matches s = c.matches s := by
  rw [Bool.eq_iff_iff, matches_loose p s hp hs b hb, matches_loose q s hq hs c hc]
  simp only [hsame]

/-- **C129** in any pattern a count may be written out: `x{3}` as `xxx`, `x{2,}` as `xxx*`, `x{1,3}` as `xx{0,2}`. -/
theorem C129_written_out (p q s : Bytes) {left right right' : Bool} {es es' : List (Sym × Rep)} {x : Sym} {r : Rep} (hr : r.Proper)
    (hp : PatText (runes p) left (es ++ (x, r) :: es') right)
    (hq : PatText (runes q) left (es ++ (r.writtenOut.map (fun y => (x, y)) ++ es')) right')
    (hs : s.length < 2 ^ 63) (b c : Bre) (hb : parseBre p = .ok b) (hc : parseBre q = .ok c) : b.matches s = c.matches s :=
  same_loose p q s hp hq (fun rs => ⟨loose_prefix es _ _ (fun rs => (loose_written x r hr es' rs).1) rs,
    loose_prefix es _ _ (fun rs => (loose_written x r hr es' rs).2) rs⟩) hs b c hb hc

/-- **C129** an element that may be missing makes no difference at the end of a pattern. -/
theorem C129_optional_last (p q s : Bytes) {left right right' : Bool} {es : List (Sym × Rep)} {x : Sym} {r : Rep} (hr : r.least = 0)
    (hp : PatText (runes p) left (es ++ [(x, r)]) right) (hq : PatText (runes q) left es right')
    (hs : s.length < 2 ^ 63) (b c : Bre) (hb : parseBre p = .ok b) (hc : parseBre q = .ok c) : b.matches s = c.matches s := by
  refine same_loose p q s hp hq (fun rs => ?_) hs b c hb hc
  have h1 : ∀ rs, Loose [(x, r)] rs ↔ Loose [] rs := by
    intro rs
    exact ⟨fun _ => .nil, fun _ => .cons [] (by rw [hr]; simp) (by rw [hr]; simp) (List.nil_sublist _) (by simp) .nil⟩
  have h2 := loose_prefix es [(x, r)] [] (fun rs => (h1 rs).1) rs
  have h3 := loose_prefix es [] [(x, r)] (fun rs => (h1 rs).2) rs
  rw [List.append_nil] at h2 h3
  exact ⟨h2, h3⟩

/-- **C129** and none at the start of a pattern without `^`. -/
theorem C129_optional_first (p q s : Bytes) {right right' : Bool} {es : List (Sym × Rep)} {x : Sym} {r : Rep} (hr : r.least = 0)
    (hp : PatText (runes p) false ((x, r) :: es) right) (hq : PatText (runes q) false es right')
    (hs : s.length < 2 ^ 63) (b c : Bre) (hb : parseBre p = .ok b) (hc : parseBre q = .ok c) : b.matches s = c.matches s := by
  rw [Bool.eq_iff_iff, matches_loose p s hp hs b hb, matches_loose q s hq hs c hc]
  constructor
  · rintro ⟨pre, post, h1, h2, -⟩
    cases h2 with
    | cons acc a0 a1 a2 a3 a4 =>
      refine ⟨pre ++ post.take acc.length, post.drop acc.length, ?_, a4, fun h => by cases h⟩
      rw [List.append_assoc, List.take_append_drop, h1]
  · rintro ⟨pre, post, h1, h2, -⟩
    refine ⟨pre, post, h1, ?_, fun h => by cases h⟩
    exact .cons [] (by rw [hr]; simp) (by rw [hr]; simp) (List.nil_sublist _) (by simp) (by simpa using h2)

/-! ## Cases -/

theorem C129_star_once : PatText (runes b!"^a*a") true [(.char 97, .star), (.char 97, .once)] false := by
  have e : runes b!"^a*a" = 94 :: ([97] ++ [42] ++ ([97] ++ [] ++ [])) := by decide
  rw [e]
  exact .left (by decide) (.cons (.char (by decide)) .star (by simp) (.cons (.char (by decide)) .once (by simp [NoRepAhead]) .nil))

theorem C129_once_star : PatText (runes b!"^aa*") true [(.char 97, .once), (.char 97, .star)] false := by
  have e : runes b!"^aa*" = 94 :: ([97] ++ [] ++ ([97] ++ [42] ++ [])) := by decide
  rw [e]
  exact .left (by decide) (.cons (.char (by decide)) .once (by simp [NoRepAhead]) (.cons (.char (by decide)) .star (by simp) .nil))

/-- `a*a` and `aa*` both stand for one or more `a`. -/
theorem same_a : SameLang [(.char 97, .star), (.char 97, .once)] [(.char 97, .once), (.char 97, .star)] := by
  intro w
  have h1 : Lang [(.char 97, .star), (.char 97, .once)] w ↔ w ≠ [] ∧ ∀ x ∈ w, x = 97 := by
    constructor
    · intro h
      cases h with
      | cons xs ys a1 a2 h =>
        cases h with
        | cons us vs b1 b2 h =>
          cases h
          simp only [Rep.allows] at b2
          obtain ⟨u, rfl⟩ := List.length_eq_one_iff.1 b2
          refine ⟨by simp, fun x hx => ?_⟩
          simp only [List.append_nil, List.mem_append] at hx
          exact hx.elim (a1 x) (b1 x)
    · rintro ⟨hne, hall⟩
      obtain ⟨xs, x, rfl⟩ : ∃ xs x, w = xs ++ [x] := ⟨w.dropLast, w.getLast hne, (List.dropLast_concat_getLast hne).symm⟩
      have := Lang.cons (s := .char 97) (r := .star) xs ([x] ++ []) (fun y hy => hall y (by simp [hy])) trivial
        (Lang.cons (s := .char 97) (r := .once) [x] [] (fun y hy => hall y (by simp at hy; simp [hy])) rfl .nil)
      simpa using this
  have h2 : Lang [(.char 97, .once), (.char 97, .star)] w ↔ w ≠ [] ∧ ∀ x ∈ w, x = 97 := by
    constructor
    · intro h
      cases h with
      | cons xs ys a1 a2 h =>
        cases h with
        | cons us vs b1 b2 h =>
          cases h
          simp only [Rep.allows] at a2
          obtain ⟨u, rfl⟩ := List.length_eq_one_iff.1 a2
          refine ⟨by simp, fun x hx => ?_⟩
          simp only [List.append_nil, List.mem_append] at hx
          exact hx.elim (a1 x) (b1 x)
    · rintro ⟨hne, hall⟩
      cases w with
      | nil => exact absurd rfl hne
      | cons x xs =>
        have := Lang.cons (s := .char 97) (r := .once) [x] (xs ++ []) (fun y hy => hall y (by simp at hy; simp [hy])) rfl
          (Lang.cons (s := .char 97) (r := .star) xs [] (fun y hy => hall y (by simp [hy])) trivial .nil)
        simpa using this
  rw [h1, h2]

/-- **C129 is false**: `^a*a` and `^aa*` stand for the same strings, but only the first is reported to match `xa`. -/
theorem C129_counterexample : SameLang [(.char 97, .star), (.char 97, .once)] [(.char 97, .once), (.char 97, .star)] ∧
    ∃ b c, parseBre b!"^a*a" = .ok b ∧ parseBre b!"^aa*" = .ok c ∧ b.matches b!"xa" = true ∧ c.matches b!"xa" = false := by
  refine ⟨same_a, ?_⟩
  obtain ⟨b, hb⟩ := parses _ C129_star_once
  obtain ⟨c, hc⟩ := parses _ C129_once_star
  have e : runes b!"xa" = [120, 97] := by decide
  refine ⟨b, c, hb, hc, ?_, ?_⟩
  · rw [matches_loose _ _ C129_star_once (by decide) b hb, e]
    refine ⟨[], [120, 97], rfl, ?_, fun _ => rfl⟩
    exact .cons [97] (by simp [Rep.least]) (by simp [Rep.least]) (by simp [Rep.most]) (by simp [Sym.accepts])
      (.cons [97] (by simp [Rep.least, Sym.accepts]) (by simp [Rep.least]) (by simp [Rep.most]) (by simp [Sym.accepts]) .nil)
  · rw [Bool.eq_false_iff]
    intro h
    rw [matches_loose _ _ C129_once_star (by decide) c hc, e] at h
    obtain ⟨pre, post, h1, h2, h3⟩ := h
    rw [h3 rfl] at h1
    rw [← show [120, 97] = post from h1] at h2
    cases h2 with
    | cons acc a0 a1 a2 a3 a4 => have := a0 120 (by simp [Rep.least]); simp [Sym.accepts] at this

/-- `ba{2,}c` and `baaa*c` agree on all texts. -/
example (s : Bytes) (hs : s.length < 2 ^ 63) (b c : Bre) (hb : parseBre b!"ba{2,}c" = .ok b) (hc : parseBre b!"baaa*c" = .ok c) :
    b.matches s = c.matches s := by
  have hp : PatText (runes b!"ba{2,}c") false ([(.char 98, .once)] ++ (.char 97, .atLeast 2) :: [(.char 99, .once)]) false := by
    have e : runes b!"ba{2,}c" = [98] ++ [] ++ ([97] ++ (123 :: (b!"2").map UInt8.toNat ++ [44, 125]) ++ ([99] ++ [] ++ [])) := by decide
    refine .plain (by decide) (by decide) ?_
    rw [e]
    have hn : NumText ((b!"2").map UInt8.toNat) 2 := .mk b!"2" (by decide) (by decide) (by decide)
    exact .cons (.char (by decide)) .once (by simp [NoRepAhead])
      (.cons (.char (by decide)) (.atLeast hn) (by simp) (.cons (.char (by decide)) .once (by simp [NoRepAhead]) .nil))
  have hq : PatText (runes b!"baaa*c") false
      ([(.char 98, .once)] ++ ((Rep.atLeast 2).writtenOut.map (fun y => (Sym.char 97, y)) ++ [(.char 99, .once)])) false := by
    have e : runes b!"baaa*c" = [98] ++ [] ++ ([97] ++ [] ++ ([97] ++ [] ++ ([97] ++ [42] ++ ([99] ++ [] ++ [])))) := by decide
    refine .plain (by decide) (by decide) ?_
    rw [e]
    exact .cons (.char (by decide)) .once (by simp [NoRepAhead]) (.cons (.char (by decide)) .once (by simp [NoRepAhead])
      (.cons (.char (by decide)) .once (by simp [NoRepAhead]) (.cons (.char (by decide)) .star (by simp)
        (.cons (.char (by decide)) .once (by simp [NoRepAhead]) .nil))))
  exact C129_written_out (r := .atLeast 2) _ _ s trivial hp hq hs b c hb hc

/-- `^aa*` matches `a`, and so it matches `ax`. -/
example : ∃ b, parseBre b!"^aa*" = .ok b ∧ b.matches (ofRunes [97]) = true ∧ b.matches (ofRunes ([] ++ [97] ++ [120])) = true := by
  obtain ⟨b, hb⟩ := parses _ C129_once_star
  have h : b.matches (ofRunes [97]) = true := by
    rw [matches_loose _ _ C129_once_star (by decide) b hb, runes_ofRunes _ (by decide)]
    refine ⟨[], [97], rfl, ?_, fun _ => rfl⟩
    exact .cons [97] (by simp [Rep.least, Sym.accepts]) (by simp [Rep.least]) (by simp [Rep.most]) (by simp [Sym.accepts])
      (.cons [] (by simp [Rep.least]) (by simp [Rep.least]) (List.nil_sublist _) (by simp) .nil)
  exact ⟨b, hb, h, C130_more_text _ C129_once_star b hb [] [97] [120] (by decide) (by decide) (fun _ => rfl) h⟩

end Regex
