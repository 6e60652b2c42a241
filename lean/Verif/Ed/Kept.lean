import Verif.Ed.OneTest
import Verif.Ed.Backwards

/-! # C180: the lines of the file keep their order, and no line is there twice

Whatever a script does, the file holds afterwards some of its lines, each once and in the order they had, and among them lines typed, each at most as
often as it was typed. A script that neither deletes nor changes lines loses none. -/

namespace Ed
open Go

/-! ## Specification -/

/-- A list put together from two others, each in its own order. -/
inductive Woven {α : Type} : List α → List α → List α → Prop
  | nil : Woven [] [] []
  | left {a : α} {xs ys zs : List α} : Woven xs ys zs → Woven (a :: xs) ys (a :: zs)
  | right {a : α} {xs ys zs : List α} : Woven xs ys zs → Woven xs (a :: ys) (a :: zs)

/-- A command that deletes no lines. -/
def TCmd.Adds (c : TCmd) : Prop := c.verb ≠ .delete ∧ ∀ t, c.verb ≠ .change t

/-! ## Marks -/

/-- The lines of the file among the marks. -/
def olds (ms : List (Nat ⊕ Bytes)) : List Nat := ms.filterMap Sum.getLeft?

/-- The lines typed among the marks. -/
def news (ms : List (Nat ⊕ Bytes)) : List Bytes := ms.filterMap Sum.getRight?

/-- Marks of lines of a file in their order, and of lines typed at most as often as in `typed`. -/
def InOrder (n : Nat) (typed : List Bytes) (ms : List (Nat ⊕ Bytes)) : Prop :=
  (olds ms).Sublist (List.range n) ∧ ∀ l, (news ms).count l ≤ typed.count l

theorem InOrder.more {n : Nat} {typed : List Bytes} {ms : List (Nat ⊕ Bytes)} (h : InOrder n typed ms) (t : List Bytes) : InOrder n (typed ++ t) ms :=
  ⟨h.1, fun l => by rw [List.count_append]; exact Nat.le_trans (h.2 l) (Nat.le_add_right _ _)⟩

theorem InOrder.sub {n : Nat} {typed : List Bytes} {ms ms' : List (Nat ⊕ Bytes)} (h : InOrder n typed ms) (hs : ms'.Sublist ms) : InOrder n typed ms' :=
  ⟨(hs.filterMap _).trans h.1, fun l => Nat.le_trans ((hs.filterMap _).count_le l) (h.2 l)⟩

theorem olds_typed (t : List Bytes) : olds (t.map .inr) = [] := by
  induction t with
  | nil => rfl
  | cons l t ih => simp [olds]

theorem news_typed (t : List Bytes) : news (t.map .inr) = t := by
  induction t with
  | nil => rfl
  | cons l t ih => simpa [news] using ih

theorem olds_put (ms : List (Nat ⊕ Bytes)) (k : Nat) (t : List Bytes) : olds (ms.take k ++ t.map .inr ++ ms.drop k) = olds ms := by
  have h := olds_typed t
  unfold olds at h ⊢
  rw [List.filterMap_append, List.filterMap_append, h, List.append_nil, ← List.filterMap_append, List.take_append_drop]

theorem InOrder.put {n : Nat} {typed : List Bytes} {ms : List (Nat ⊕ Bytes)} (h : InOrder n typed ms) (k : Nat) (t : List Bytes) :
    InOrder n (typed ++ t) (ms.take k ++ t.map .inr ++ ms.drop k) := by
  refine ⟨by rw [olds_put]; exact h.1, fun l => ?_⟩
  have e : news (ms.take k ++ t.map .inr ++ ms.drop k) = news (ms.take k) ++ t ++ news (ms.drop k) := by
    have h := news_typed t
    unfold news at h ⊢
    rw [List.filterMap_append, List.filterMap_append, h]
  have e2 : news ms = news (ms.take k) ++ news (ms.drop k) := by
    unfold news
    rw [← List.filterMap_append, List.take_append_drop]
  have := h.2 l
  rw [e2, List.count_append] at this
  rw [e, List.count_append, List.count_append, List.count_append]
  omega

theorem cut_sublist {α : Type} {L : List α} {i j : Nat} (h : min i L.length ≤ min j L.length) : (L.take i ++ L.drop j).Sublist L := by
  have e : L.take i = L.take (min i L.length) := by rw [← List.take_take, List.take_length]
  have e2 : L.drop j = L.drop (min j L.length) := by
    by_cases hj : j ≤ L.length
    · rw [Nat.min_eq_left hj]
    · rw [List.drop_eq_nil_of_le (by omega), List.drop_eq_nil_of_le (by omega)]
  rw [e, e2]
  have := List.Sublist.append (List.Sublist.refl (L.take (min i L.length))) (List.drop_sublist_drop_left L h)
  rwa [List.take_append_drop] at this

/-- A trial all of whose lists of marks have a property. -/
def Trial.Both (P : List (Nat ⊕ Bytes) → Prop) (d : Trial (Nat ⊕ Bytes)) : Prop := P d.lines ∧ ∀ s, d.saved = some s → P s

theorem tryOut_both {P Q : List (Nat ⊕ Bytes) → Prop} {mb : Nat ⊕ Bytes → Bool} {mt : Bytes → Option (Option (Nat ⊕ Bytes → Bool))} {room : Nat → Nat}
    {c : TCmd} {d d1 : Trial (Nat ⊕ Bytes)} {w : Display (Nat ⊕ Bytes)} (h : tryOut .inr mb mt room c d = .done d1 w)
    (hPQ : ∀ ms, P ms → Q ms)
    (hcut : c.Adds ∨ ∀ ms ms', P ms → ms'.Sublist ms → P ms')
    (hput : ∀ ms k, P ms → Q (ms.take k ++ c.text.map .inr ++ ms.drop k)) (hd : d.Both P) : d1.Both Q := by
  obtain ⟨r, v⟩ := c
  have old : ∀ s, d.saved = some s → Q s := fun s hs => hPQ _ (hd.2 s hs)
  have same : d.Both Q := ⟨hPQ _ hd.1, old⟩
  cases v with
  | print =>
    obtain ⟨a, h⟩ := with_done h
    obtain ⟨b, h⟩ := with_done h
    split at h <;> cases h
    exact same
  | number =>
    obtain ⟨a, h⟩ := with_done h
    obtain ⟨b, h⟩ := with_done h
    split at h
    · cases h; exact same
    · split at h <;> cases h
      exact same
  | equals =>
    obtain ⟨a, h⟩ := with_done h
    cases h; exact same
  | null =>
    obtain ⟨a, h⟩ := with_done h
    split at h <;> cases h
    exact same
  | delete =>
    have hcut := hcut.resolve_left fun h => h.1 rfl
    obtain ⟨a, h⟩ := with_done h
    obtain ⟨b, h⟩ := with_done h
    simp only at h
    split at h
    · cases h
    · split at h
      · next hc =>
        obtain ⟨c, h⟩ := with_done h
        cases h
        exact ⟨hPQ _ (hcut _ _ hd.1 (cut_sublist hc.1)), old⟩
      · cases h
  | append t =>
    obtain ⟨a, h⟩ := with_done h
    split at h
    · cases h
    · split at h <;> cases h
      exact ⟨hput _ _ hd.1, old⟩
  | insert t =>
    obtain ⟨a, h⟩ := with_done h
    split at h
    · cases h
    · split at h <;> cases h
      exact ⟨hput _ _ hd.1, old⟩
  | change t =>
    have hcut := hcut.resolve_left fun h => h.2 t rfl
    obtain ⟨a, h⟩ := with_done h
    obtain ⟨b, h⟩ := with_done h
    simp only at h
    split at h
    · cases h
    · split at h
      · next hc =>
        obtain ⟨a1, h⟩ := with_done h
        split at h
        · cases h
        · split at h
          · obtain ⟨a2, h⟩ := with_done h
            cases h
            exact ⟨hput _ _ (hcut _ _ hd.1 (cut_sublist hc.1)), old⟩
          · cases h
      · cases h
  | write =>
    cases h
    refine ⟨hPQ _ hd.1, ?_⟩
    intro s hs
    cases hs
    exact hPQ _ hd.1
  | edit n => cases h
  | unsupported l => cases h; exact same

theorem tryAll_tidy {mb : Nat ⊕ Bytes → Bool} {mt : Bytes → Option (Option (Nat ⊕ Bytes → Bool))} {room : Nat → Nat} {n : Nat} : ∀ (cs : List TCmd)
    {typed : List Bytes} {d d1 : Trial (Nat ⊕ Bytes)} {os : List (Display (Nat ⊕ Bytes))} {x : Outlook},
    tryAll .inr mb mt room cs d = some (d1, os, x) → d.Both (InOrder n typed) → d1.Both (InOrder n (typed ++ cs.flatMap TCmd.text)) := by
  intro cs
  induction cs with
  | nil =>
    intro typed d d1 os x h hd
    simp only [tryAll, Option.some.injEq, Prod.mk.injEq] at h
    rw [← h.1]; simpa using hd
  | cons c cs ih =>
    intro typed d d1 os x h hd
    simp only [tryAll] at h
    cases hc : tryOut .inr mb mt room c d with
    | done d2 o =>
      rw [hc] at h
      simp only [Option.map_eq_some_iff, Prod.mk.injEq] at h
      obtain ⟨⟨d3, os3, x3⟩, h, rfl, -, -⟩ := h
      have := ih h (tryOut_both (Q := InOrder n (typed ++ c.text)) hc (fun ms h => h.more _) (.inr fun ms ms' h hs => h.sub hs) (fun ms k h => h.put k _) hd)
      simpa [List.append_assoc] using this
    | crash | never =>
      rw [hc] at h
      simp only [Option.some.injEq, Prod.mk.injEq] at h
      rw [← h.1]; exact ⟨hd.1.more _, fun s hs => (hd.2 s hs).more _⟩
    | unsaid => rw [hc] at h; cases h

theorem tryAll_adds {mb : Nat ⊕ Bytes → Bool} {mt : Bytes → Option (Option (Nat ⊕ Bytes → Bool))} {room : Nat → Nat} {ns : List Nat} : ∀ (cs : List TCmd)
    {d d1 : Trial (Nat ⊕ Bytes)} {os : List (Display (Nat ⊕ Bytes))} {x : Outlook},
    tryAll .inr mb mt room cs d = some (d1, os, x) → (∀ c ∈ cs, c.Adds) → d.Both (fun ms => olds ms = ns) → d1.Both (fun ms => olds ms = ns) := by
  intro cs
  induction cs with
  | nil =>
    intro d d1 os x h _ hd
    simp only [tryAll, Option.some.injEq, Prod.mk.injEq] at h
    rw [← h.1]; exact hd
  | cons c cs ih =>
    intro d d1 os x h ha hd
    simp only [tryAll] at h
    cases hc : tryOut .inr mb mt room c d with
    | done d2 o =>
      rw [hc] at h
      simp only [Option.map_eq_some_iff, Prod.mk.injEq] at h
      obtain ⟨⟨d3, os3, x3⟩, h, rfl, -, -⟩ := h
      exact ih h (fun c hc => ha c (by simp [hc]))
        (tryOut_both (Q := fun ms => olds ms = ns) hc (fun ms h => h) (.inl (ha c (by simp))) (fun ms k h => by rw [olds_put]; exact h) hd)
    | crash | never =>
      rw [hc] at h
      simp only [Option.some.injEq, Prod.mk.injEq] at h
      rw [← h.1]; exact hd
    | unsaid => rw [hc] at h; cases h

theorem olds_numbers (n : Nat) : olds (numbers n).lines = List.range n := by
  unfold olds numbers
  rw [List.filterMap_map]
  exact List.filterMap_some

theorem news_numbers (n : Nat) : news (numbers n).lines = [] := by
  unfold news numbers
  rw [List.filterMap_map]
  induction List.range n with
  | nil => rfl
  | cons a l ih => simp

theorem marks_woven (ls : List Bytes) (ms : List (Nat ⊕ Bytes)) :
    Woven ((olds ms).map fun i => ls.getD i []) (news ms) (ms.map (lineFor ls)) := by
  induction ms with
  | nil => exact .nil
  | cons m ms ih =>
    cases m with
    | inl i => exact .left ih
    | inr l => exact .right ih

theorem range_lines (ls : List Bytes) : ((List.range ls.length).map fun i => ls.getD i []) = ls := by
  have := numbers_of ls
  rw [List.map_map] at this
  exact this

/-! ## The theorems -/

/-- **C180** (partial: for scripts that can be tried, see C177; false for ranges given backwards, see below) What a script leaves in a file is some of its lines, each once and in their order, and among them lines typed, each at most as often as it
was typed. -/
theorem C180_order_partial {env : Env} (hsave : Saves env) (hmem : Memory env) {n : Nat} {bs : List Nat}
    {mt : Bytes → Option (Option (Nat ⊕ Bytes → Bool))} (hk : Knows env.compile mt) {cs : List TCmd} (h : Tried env n bs mt cs) {ls : List Bytes}
    (hls : Fits n bs ls) (hmt : Matched env.compile mt ls (cs.flatMap TCmd.text)) (hsz : (unlines ls).length + (unlines (cs.flatMap TCmd.text)).length < 2 ^ 61)
    (t : Bytes) (hl : Leaves env cs ls t) :
    ∃ kept added out, t = unlines out ∧ Woven kept added out ∧ kept.Sublist ls ∧ ∀ l, added.count l ≤ (cs.flatMap TCmd.text).count l := by
  obtain rfl := hls.len
  obtain ⟨⟨d', os, x⟩, htry⟩ := Option.isSome_iff_exists.1 h.said
  have e := leaves_tried hsave hmem hk h htry hls hmt hsz hl
  have h0 : InOrder ls.length [] (numbers ls.length).lines := ⟨by rw [olds_numbers]; exact List.Sublist.refl _, fun l => by rw [news_numbers]; exact Nat.le_refl _⟩
  have hd := tryAll_tidy (n := ls.length) cs (typed := []) htry ⟨h0, nofun⟩
  rw [List.nil_append] at hd
  have hT : InOrder ls.length (cs.flatMap TCmd.text) (d'.saved.getD (numbers ls.length).lines) := by
    cases hs : d'.saved with
    | none => simpa using h0.more (cs.flatMap TCmd.text)
    | some s => exact hd.2 s hs
  refine ⟨_, _, _, e, marks_woven ls _, ?_, hT.2⟩
  have := hT.1.map fun i => ls.getD i []
  rw [range_lines] at this
  exact this

/-- **C180** (partial, likewise) A script that deletes and changes no lines loses none: all the lines of the file are still there, in their order. -/
theorem C180_none_lost_partial {env : Env} (hsave : Saves env) (hmem : Memory env) {n : Nat} {bs : List Nat}
    {mt : Bytes → Option (Option (Nat ⊕ Bytes → Bool))} (hk : Knows env.compile mt) {cs : List TCmd} (h : Tried env n bs mt cs) (hadd : ∀ c ∈ cs, c.Adds) {ls : List Bytes}
    (hls : Fits n bs ls) (hmt : Matched env.compile mt ls (cs.flatMap TCmd.text)) (hsz : (unlines ls).length + (unlines (cs.flatMap TCmd.text)).length < 2 ^ 61)
    (t : Bytes) (hl : Leaves env cs ls t) :
    ∃ added out, t = unlines out ∧ Woven ls added out ∧ ∀ l, added.count l ≤ (cs.flatMap TCmd.text).count l := by
  obtain rfl := hls.len
  obtain ⟨⟨d', os, x⟩, htry⟩ := Option.isSome_iff_exists.1 h.said
  have e := leaves_tried hsave hmem hk h htry hls hmt hsz hl
  have h0 : InOrder ls.length [] (numbers ls.length).lines := ⟨by rw [olds_numbers]; exact List.Sublist.refl _, fun l => by rw [news_numbers]; exact Nat.le_refl _⟩
  have hd := tryAll_tidy (n := ls.length) cs (typed := []) htry ⟨h0, nofun⟩
  rw [List.nil_append] at hd
  have ho := tryAll_adds cs htry hadd (ns := List.range ls.length) ⟨olds_numbers _, nofun⟩
  have hT : (∀ l, (news (d'.saved.getD (numbers ls.length).lines)).count l ≤ (cs.flatMap TCmd.text).count l) ∧ olds (d'.saved.getD (numbers ls.length).lines) = List.range ls.length := by
    cases hs : d'.saved with
    | none => exact ⟨by simpa using (h0.more (cs.flatMap TCmd.text)).2, olds_numbers _⟩
    | some s => exact ⟨(hd.2 s hs).2, ho.2 s hs⟩
  refine ⟨_, _, e, ?_, hT.1⟩
  have := marks_woven ls (d'.saved.getD (numbers ls.length).lines)
  rw [hT.2, range_lines] at this
  exact this

theorem Woven.length {α : Type} {xs ys zs : List α} (h : Woven xs ys zs) : zs.length = xs.length + ys.length := by
  induction h with
  | nil => rfl
  | left _ ih => simp only [List.length_cons]; omega
  | right _ ih => simp only [List.length_cons]; omega

theorem Woven.mem {α : Type} {xs ys zs : List α} (h : Woven xs ys zs) (z : α) : z ∈ zs ↔ z ∈ xs ∨ z ∈ ys := by
  induction h with
  | nil => simp
  | left _ ih => simp only [List.mem_cons, ih]; grind
  | right _ ih => simp only [List.mem_cons, ih]; grind

theorem Woven.parts {α : Type} {xs ys zs : List α} (h : Woven xs ys zs) : xs.Sublist zs ∧ ys.Sublist zs := by
  induction h with
  | nil => exact ⟨.slnil, .slnil⟩
  | left _ ih => exact ⟨ih.1.cons_cons _, ih.2.cons _⟩
  | right _ ih => exact ⟨ih.1.cons _, ih.2.cons_cons _⟩

theorem unlines_sublist {xs ys : List Bytes} (h : xs.Sublist ys) : (unlines xs).length ≤ (unlines ys).length := by
  induction h with
  | slnil => exact Nat.le_refl _
  | cons a _ ih => simp only [unlines, List.length_append, List.length_cons]; omega
  | cons_cons a _ ih => simp only [unlines, List.length_append, List.length_cons]; omega

/-- **C180** is false for a range given backwards: `a,bd` with b+1 < a in a buffer just opened leaves a text that is not made of lines of the file
that have their order and are there once. -/
theorem C180_backwards (env : Env) {s : State} {ls : List Bytes} (cl : Bool) (h : s.pt = Txt.newPieceTable (unlines ls) cl (unlines ls).length) (hc : Clean ls)
    (c : Command) (hty : c.typ = .delete) (a b : Nat) (ha : Denotes c.start (.num a)) (hb : Denotes c.end_ (.num b)) (h1 : a < 2 ^ 62) (hab : b + 1 < a)
    (hl : b < ls.length) :
    ∃ s' t, processCommand env s c = .ok (s', []) ∧ s'.pt.string = .ok t ∧ ¬ ∃ kept : List Bytes, kept.Sublist ls ∧ t = unlines kept := by
  obtain ⟨s', e1, e2, -⟩ := C106_backwards env cl h hc c hty a b ha hb h1 hab hl
  refine ⟨s', _, e1, e2, ?_⟩
  rintro ⟨kept, hk, e⟩
  have h1 := unlines_sublist hk
  rw [← e, unlines_append, List.length_append] at h1
  have h2 : (unlines (ls.take b)).length + 1 ≤ (unlines (ls.take (a - 1))).length := by
    have h3 : (ls.take (b + 1)).Sublist (ls.take (a - 1)) := by
      have : ls.take (b + 1) = (ls.take (a - 1)).take (b + 1) := by rw [List.take_take, Nat.min_eq_left (by omega)]
      rw [this]; exact List.take_sublist _ _
    have h4 := unlines_sublist h3
    rw [List.take_add_one, List.getElem?_eq_getElem hl, unlines_append] at h4
    simp only [Option.toList, unlines, List.length_append, List.length_singleton] at h4
    omega
  have h5 : (unlines ls).length = (unlines (ls.take b)).length + (unlines (ls.drop b)).length := by
    rw [← List.length_append, ← unlines_append, List.take_append_drop]
  omega

/-! ## Cases -/

/-- `3,1d` doubles the second line. -/
example : ∃ s' t, processCommand demoEnv (opened [b!"one", b!"two", b!"six"] 3) { typ := .delete, start := numAddr 3, end_ := numAddr 1 } = .ok (s', []) ∧
    s'.pt.string = .ok t ∧ ¬ ∃ kept : List Bytes, kept.Sublist [b!"one", b!"two", b!"six"] ∧ t = unlines kept :=
  C180_backwards demoEnv true rfl (clean_of _ (by decide) (by decide)) _ rfl 3 1 (numAddr_denotes 3) (numAddr_denotes 1) (by decide) (by decide) (by decide)

/-- Of three lines, the second of which may be blank, some are left in their order by `1d`, `1d`, `w`. -/
example (ls : List Bytes) (hls : Fits 3 [1] ls) (hsz : (unlines ls).length < 2 ^ 61) (t : Bytes) (h : Leaves demoEnv oneByOne ls t) :
    ∃ kept, t = unlines kept ∧ kept.Sublist ls := by
  obtain ⟨kept, added, out, e, hw, hk, ha⟩ := C180_order_partial (fun _ => ⟨rfl, rfl, rfl⟩) demo_memory (unknown_knows _) cases_tried.1 hls nofun
    (by have : (unlines (oneByOne.flatMap TCmd.text)).length = 0 := by decide
        omega) t h
  have hn : added = [] := by
    cases added with
    | nil => rfl
    | cons l _ =>
      have h := ha l
      rw [show oneByOne.flatMap TCmd.text = [] from rfl, List.count_cons_self] at h
      simp at h
  subst hn
  have : ∀ {xs ys zs : List Bytes}, Woven xs ys zs → ys = [] → zs = xs := by
    intro xs ys zs h
    induction h with
    | nil => intro _; rfl
    | left _ ih => intro h; rw [ih h]
    | right _ _ => intro h; cases h
  rw [this hw rfl] at e
  exact ⟨kept, e, hk⟩

/-- `2a`, `x`, `.`, `1i`, `y`, `.`, `w` -/
def addScript : List TCmd := [⟨.one (.lit b!"2") [], .append [b!"x"]⟩, ⟨.one (.lit b!"1") [], .insert [b!"y"]⟩, ⟨.none, .write⟩]

theorem add_tried : Tried demoEnv 3 [1] unknown addScript := by
  have d1 : digitsVal b!"1" = 1 := by decide
  have d2 : digitsVal b!"2" = 2 := by decide
  have m1 : min (1 : Int) 9223372036854775807 = 1 := by decide
  have m2 : min (2 : Int) 9223372036854775807 = 2 := by decide
  have hr : (List.range 3) = [0, 1, 2] := by decide
  refine ⟨?_, plain_of _ (by decide), by decide, ?_⟩
  · intro c hc
    simp only [addScript, List.mem_cons, List.not_mem_nil, or_false] at hc
    rcases hc with rfl | rfl | rfl
    · exact ⟨⟨⟨⟨by decide, by decide⟩, by intro c hc; cases hc⟩, trivial, trivial, ⟨by decide, by decide, by decide, by decide⟩, by decide⟩, by decide, by decide, by decide⟩
    · exact ⟨⟨⟨⟨by decide, by decide⟩, by intro c hc; cases hc⟩, trivial, trivial, ⟨by decide, by decide, by decide, by decide⟩, by decide⟩, by decide, by decide, by decide⟩
    · exact ⟨⟨trivial, trivial⟩, trivial⟩
  · simp [tryAll, addScript, numbers, tryOut, TFate.with, RangeSyn.counted1, AddrSyn.counted, firm, blankAt, hr, d1, d2, m1, m2]

/-- All the lines of a file of three lines are still there, among the two typed. -/
example (ls : List Bytes) (hls : Fits 3 [1] ls) (hsz : (unlines ls).length < 2 ^ 60) (t : Bytes) (h : Leaves demoEnv addScript ls t) :
    ∃ added out, t = unlines out ∧ Woven ls added out ∧ ∀ l, added.count l ≤ [b!"x", b!"y"].count l :=
  C180_none_lost_partial (fun _ => ⟨rfl, rfl, rfl⟩) demo_memory (unknown_knows _) add_tried (by
    intro c hc
    simp only [addScript, List.mem_cons, List.not_mem_nil, or_false] at hc
    rcases hc with rfl | rfl | rfl <;> exact ⟨nofun, nofun⟩) hls nofun
    (by have : (unlines (addScript.flatMap TCmd.text)).length = 4 := by decide
        omega) t h

end Ed
