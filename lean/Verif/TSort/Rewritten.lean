import Verif.TSort.OrderProps

/-! # C143: the same constraints written differently -/

namespace TSort
open Go

section
variable {α : Type} [DecidableEq α]

/-! ## Specification -/

/-- The two histories of `Add` calls mention the same items and constrain them, directly or through others, in the same way. -/
structure SameMeaning (hist hist' : List (List α)) : Prop where
  items : ∀ x, Known hist x ↔ Known hist' x
  before : ∀ a b, Relation.TransGen (Constrains hist) a b ↔ Relation.TransGen (Constrains hist') a b

/-- The constraints leave one order only. -/
structure Forced (hist : List (List α)) (l : List α) : Prop where
  nodup : l.Nodup
  items : ∀ x, x ∈ l ↔ Known hist x
  before : ∀ a b, Adjacent a b l → Relation.TransGen (Constrains hist) a b
  acyclic : ¬ Cyclic (Constrains hist)

/-! ## Lists -/

omit [DecidableEq α] in
theorem precedes_mem {l : List α} {a b : α} (h : Precedes l a b) : a ∈ l ∧ b ∈ l := by
  obtain ⟨p, q, r, rfl⟩ := h
  simp

omit [DecidableEq α] in
theorem precedes_tail {x a b : α} {l : List α} (h : Precedes (x :: l) a b) (ha : a ≠ x) : Precedes l a b := by
  obtain ⟨p, q, r, e⟩ := h
  cases p with
  | nil => simp only [List.nil_append, List.cons.injEq] at e; exact absurd e.1.symm ha
  | cons y p =>
    simp only [List.cons_append, List.cons.injEq] at e
    exact ⟨p, q, r, e.2⟩

omit [DecidableEq α] in
theorem precedes_cons {x a b : α} {l : List α} (h : Precedes l a b) : Precedes (x :: l) a b := by
  obtain ⟨p, q, r, rfl⟩ := h
  exact ⟨x :: p, q, r, rfl⟩

omit [DecidableEq α] in
theorem precedes_head {x b : α} {l : List α} (h : b ∈ l) : Precedes (x :: l) x b := by
  obtain ⟨q, r, rfl⟩ := List.append_of_mem h
  exact ⟨[], q, r, rfl⟩

omit [DecidableEq α] in
theorem not_precedes_head {x a : α} {l : List α} (hn : (x :: l).Nodup) : ¬ Precedes (x :: l) a x := by
  rintro ⟨p, q, r, e⟩
  rw [List.nodup_cons] at hn
  cases p with
  | nil =>
    simp only [List.nil_append, List.cons.injEq] at e
    exact hn.1 (by rw [e.2]; simp)
  | cons y p =>
    simp only [List.cons_append, List.cons.injEq] at e
    exact hn.1 (by rw [e.2]; simp)

omit [DecidableEq α] in
theorem same_order : ∀ (u v : List α), u.Nodup → v.Nodup → (∀ x, x ∈ u ↔ x ∈ v) → (∀ a b, Precedes v a b → Precedes u a b) → u = v := by
  intro u v
  induction v generalizing u with
  | nil =>
    intro _ _ hm _
    cases u with
    | nil => rfl
    | cons x u => exact absurd ((hm x).1 (by simp)) (by simp)
  | cons y v ih =>
    intro hu hv hm hp
    cases u with
    | nil => exact absurd ((hm y).2 (by simp)) (by simp)
    | cons x u =>
      have hxy : x = y := by
        apply Classical.byContradiction
        intro hne
        have hx : x ∈ v := by
          rcases List.mem_cons.1 ((hm x).1 (by simp)) with h | h
          · exact absurd h hne
          · exact h
        exact not_precedes_head hu (hp y x (precedes_head hx))
      subst hxy
      have hu' := List.nodup_cons.1 hu
      have hv' := List.nodup_cons.1 hv
      congr 1
      refine ih u hu'.2 hv'.2 (fun z => ?_) (fun a b hab => ?_)
      · have := hm z
        simp only [List.mem_cons] at this
        constructor
        · intro hz
          rcases this.1 (.inr hz) with h | h
          · subst h; exact absurd hz hu'.1
          · exact h
        · intro hz
          rcases this.2 (.inr hz) with h | h
          · subst h; exact absurd hz hv'.1
          · exact h
      · refine precedes_tail (hp a b (precedes_cons hab)) ?_
        rintro rfl
        exact hv'.1 (precedes_mem hab).1

omit [DecidableEq α] in
theorem precedes_trans {l : List α} (hn : l.Nodup) {a b c : α} (h1 : Precedes l a b) (h2 : Precedes l b c) : Precedes l a c := by
  induction l with
  | nil => have := (precedes_mem h1).1; cases this
  | cons x l ih =>
    have hn' := List.nodup_cons.1 hn
    have hb : b ≠ x := by rintro rfl; exact not_precedes_head hn h1
    have h2' := precedes_tail h2 hb
    by_cases ha : a = x
    · subst ha; exact precedes_head (precedes_mem h2').2
    · exact precedes_cons (ih hn'.2 (precedes_tail h1 ha) h2')

omit [DecidableEq α] in
theorem precedes_gen {l : List α} (hn : l.Nodup) {R : α → α → Prop} (hR : ∀ a b, R a b → Precedes l a b) {a b : α}
    (h : Relation.TransGen R a b) : Precedes l a b := by
  induction h with
  | single h => exact hR _ _ h
  | tail _ h ih => exact precedes_trans hn ih (hR _ _ h)

omit [DecidableEq α] in
/-- Neighbours in order: all in order. -/
theorem gen_of_neighbours {R : α → α → Prop} (l : List α) (h : ∀ a b, Adjacent a b l → Relation.TransGen R a b) :
    ∀ a b, Precedes l a b → Relation.TransGen R a b := by
  rintro a b ⟨p, q, r, rfl⟩
  induction q generalizing p a with
  | nil => exact h a b ⟨p, r, rfl⟩
  | cons c q ih =>
    have h1 := h a c ⟨p, q ++ b :: r, rfl⟩
    refine h1.trans (ih c (p ++ [a]) (fun x y hxy => h x y ?_))
    simpa using hxy

/-! ## Histories -/

/-- **C143** Constraints that leave one order only: it is printed, whatever the order of the constraints and of the map. -/
theorem C143_forced (hist : List (List α)) (l : List α) (hf : Forced hist l) (r : Option (List α)) (m' : Orderings α)
    (ho : Order (addAll [] hist) r m') : r = some l := by
  cases r with
  | none =>
    exact absurd (((C20_fails_iff_cycle hist).2 _ _ ho).1 rfl) hf.acyclic
  | some out =>
    obtain ⟨h1, h2⟩ := C19_permutation hist out m' ho
    have := same_order out l h1 hf.nodup (fun x => (h2 x).trans (hf.items x).symm) (fun a b hab =>
      precedes_gen h1 (fun a b h => C18_respects_constraints hist out m' ho a b h) (gen_of_neighbours l hf.before a b hab))
    rw [this]

/-- **C143** Histories of the same meaning: both have an order or none; the items printed are the same; the orders of one are orders for the other. -/
theorem C143_same_meaning (hist hist' : List (List α)) (h : SameMeaning hist hist') (r r' : Option (List α)) (m m' : Orderings α)
    (ho : Order (addAll [] hist) r m) (ho' : Order (addAll [] hist') r' m') :
    (r = none ↔ r' = none) ∧ ∀ out out', r = some out → r' = some out' →
      (∀ x, x ∈ out ↔ x ∈ out') ∧ out.length = out'.length ∧ ∀ a b, Constrains hist' a b → Precedes out a b := by
  refine ⟨?_, ?_⟩
  · rw [(C20_fails_iff_cycle hist).2 _ _ ho, (C20_fails_iff_cycle hist').2 _ _ ho']
    unfold Cyclic
    simp only [h.before]
  · rintro out out' rfl rfl
    obtain ⟨h1, h2⟩ := C19_permutation hist out m ho
    obtain ⟨h1', h2'⟩ := C19_permutation hist' out' m' ho'
    have hm : ∀ x, x ∈ out ↔ x ∈ out' := fun x => by rw [h2, h2', h.items]
    have hperm : out.Perm out' := by
      rw [List.perm_iff_count]
      intro x
      have c1 := List.Nodup.count h1 (a := x)
      have c2 := List.Nodup.count h1' (a := x)
      rw [c1, c2]
      simp only [hm]
    refine ⟨hm, hperm.length_eq, fun a b hab => ?_⟩
    exact precedes_gen h1 (fun a b h => C18_respects_constraints hist out m ho a b h) ((h.before a b).2 (.single hab))

theorem addPairs_known (items : List α) : ∀ m : Orderings α, (∀ a b, Adjacent a b items → b ∈ get m a) → addPairs m items = m := by
  induction items with
  | nil => intro m _; rfl
  | cons x items ih =>
    intro m h
    cases items with
    | nil => rfl
    | cons y items =>
      have hy : inSlice (get m x) y = true := (inSlice_iff _ _).2 (h x y ⟨[], items, rfl⟩)
      rw [addPairs, hy]
      simp only [Bool.not_true, Bool.false_eq_true, if_false]
      refine ih m (fun a b hab => h a b ?_)
      obtain ⟨p, q, e⟩ := hab
      exact ⟨x :: p, q, by rw [e]; rfl⟩

/-- **C143** Saying again what is in force changes nothing at all: what comes afterwards has the same effects. -/
theorem C143_repeated (before after : List (List α)) (items : List α) (hlen : items.length ≠ 1) (h : ∀ a b, Adjacent a b items → Constrains before a b) :
    addAll [] (before ++ items :: after) = addAll [] (before ++ after) := by
  obtain ⟨-, h2, -⟩ := addAll_spec before
  have key : add (addAll [] before) items = addAll [] before := by
    match items with
    | [] => rfl
    | [x] => simp at hlen
    | x :: y :: items => exact addPairs_known _ _ (fun a b hab => (h2 a b).2 (h a b hab))
  simp only [addAll, List.foldl_append, List.foldl_cons]
  change List.foldl add (add (addAll [] before) items) after = _
  rw [key]
  rfl

end

/-! ## The command -/

/-- No word is first in one pair and alone in another. -/
def Harmless (ps : List (Bytes × Bytes)) : Prop := ∀ x, (x, x) ∈ ps → ∀ y, (x, y) ∈ ps → y = x

theorem constrains_pairs (ps : List (Bytes × Bytes)) (h : Harmless ps) (a b : Bytes) : Constrains (pairHist ps) a b ↔ (a, b) ∈ ps ∧ a ≠ b := by
  constructor
  · rintro ⟨pre, items, post, e, ⟨p, q, hadj⟩, -⟩
    have hm : items ∈ pairHist ps := by rw [e]; simp
    obtain ⟨⟨x, y⟩, hxy, he⟩ := List.mem_map.1 hm
    dsimp only at he
    split at he
    · rw [← he] at hadj
      have := congrArg List.length hadj
      simp at this
      omega
    · next hne =>
      rw [← he] at hadj
      match p, hadj with
      | [], hadj => simp only [List.nil_append, List.cons.injEq] at hadj; obtain ⟨rfl, rfl, -⟩ := hadj; exact ⟨hxy, hne⟩
      | [_], hadj => simp at hadj
      | _ :: _ :: p, hadj =>
        have := congrArg List.length hadj
        simp at this
  · rintro ⟨hab, hne⟩
    obtain ⟨p, q, rfl⟩ := List.append_of_mem hab
    refine ⟨pairHist p, [a, b], pairHist q, ?_, ⟨[], [], rfl⟩, ?_⟩
    · simp [pairHist, hne]
    · intro hm
      obtain ⟨⟨x, y⟩, hxy, he⟩ := List.mem_map.1 hm
      dsimp only at he
      split at he
      · next exy =>
        subst exy
        simp only [List.cons.injEq, and_true] at he
        subst he
        exact hne (h x (by simp [hxy]) b (by simp)).symm
      · simp at he

theorem known_pairs (ps : List (Bytes × Bytes)) (h : Harmless ps) (x : Bytes) : Known (pairHist ps) x ↔ ∃ p ∈ ps, x = p.1 ∨ x = p.2 := by
  constructor
  · rintro (hx | ⟨items, hi, b, p, q, e⟩ | ⟨a, ha⟩)
    · obtain ⟨⟨u, v⟩, huv, he⟩ := List.mem_map.1 hx
      dsimp only at he
      split at he
      · simp only [List.cons.injEq, and_true] at he; exact ⟨_, huv, .inl he.symm⟩
      · simp at he
    · obtain ⟨⟨u, v⟩, huv, he⟩ := List.mem_map.1 hi
      have hx : x ∈ items := by rw [e]; simp
      dsimp only at he
      split at he
      · rw [← he] at hx; simp only [List.mem_singleton] at hx; exact ⟨_, huv, .inl hx⟩
      · rw [← he] at hx; simp only [List.mem_cons, List.not_mem_nil, or_false] at hx; exact ⟨_, huv, hx⟩
    · exact ⟨_, ((constrains_pairs ps h a x).1 ha).1, .inr rfl⟩
  · rintro ⟨⟨u, v⟩, huv, hx⟩
    dsimp only at hx
    by_cases e : u = v
    · subst e
      refine .inl (List.mem_map.2 ⟨(u, u), huv, ?_⟩)
      simp only [if_true]
      rcases hx with rfl | rfl <;> rfl
    · rcases hx with rfl | rfl
      · exact .inr (.inl ⟨[x, v], List.mem_map.2 ⟨(x, v), huv, if_neg e⟩, v, [], [], rfl⟩)
      · exact .inr (.inr ⟨u, (constrains_pairs ps h u x).2 ⟨huv, e⟩⟩)

/-- What it means for two lists of pairs to say the same: the same words, and the same ones before others, directly or through others. -/
structure SameSaid (ps ps' : List (Bytes × Bytes)) : Prop where
  words : ∀ x, (∃ p ∈ ps, x = p.1 ∨ x = p.2) ↔ ∃ p ∈ ps', x = p.1 ∨ x = p.2
  before : ∀ a b, Relation.TransGen (fun a b => (a, b) ∈ ps ∧ a ≠ b) a b ↔ Relation.TransGen (fun a b => (a, b) ∈ ps' ∧ a ≠ b) a b

theorem sameMeaning_of_said {ps ps' : List (Bytes × Bytes)} (h : SameSaid ps ps') (hh : Harmless ps) (hh' : Harmless ps') : SameMeaning (pairHist ps) (pairHist ps') := by
  have e1 : Constrains (pairHist ps) = fun a b => (a, b) ∈ ps ∧ a ≠ b := by funext a b; exact propext (constrains_pairs ps hh a b)
  have e2 : Constrains (pairHist ps') = fun a b => (a, b) ∈ ps' ∧ a ≠ b := by funext a b; exact propext (constrains_pairs ps' hh' a b)
  refine ⟨fun x => ?_, fun a b => ?_⟩
  · rw [known_pairs ps hh, known_pairs ps' hh', h.words]
  · rw [e1, e2, h.before]

theorem run_iff (input : Bytes) (ps : List (Bytes × Bytes)) (hwords : Words input (pairWords ps)) (hshort : ∀ w ∈ pairWords ps, w.length < 65534) (out : Out) :
    Run input out ↔ ∃ r m', Order (addAll [] (pairHist ps)) r m' ∧
      match r with
      | none => out = die b!"sort error!" b!"Hmm. Still items left. Ordering impossible?"
      | some l => out = { stdout := unlines l, stderr := [], exit := 0 } := by
  simp only [Run, scanWords_words hwords hshort, feed_pairs]
  rw [if_neg (by simp)]
  exact Iff.rfl

/-- **C143** (partial: expected of all inputs) Two inputs that say the same: the exit status is the same, what is printed on standard error too, and the lines
on standard output are the same lines in an order both inputs allow. The inputs must not have a word alone in one pair and first in another. -/
theorem C143_command_partial (input input' : Bytes) (ps ps' : List (Bytes × Bytes)) (hw : Words input (pairWords ps)) (hw' : Words input' (pairWords ps'))
    (hs : ∀ w ∈ pairWords ps, w.length < 65534) (hs' : ∀ w ∈ pairWords ps', w.length < 65534) (hh : Harmless ps) (hh' : Harmless ps')
    (h : SameSaid ps ps') (out out' : Out) (ho : Run input out) (ho' : Run input' out') :
    out.exit = out'.exit ∧ out.stderr = out'.stderr ∧
      ∃ l l', out.stdout = unlines l ∧ out'.stdout = unlines l' ∧ (∀ x, x ∈ l ↔ x ∈ l') ∧ l.length = l'.length ∧
        (out.exit = 0 → ∀ p ∈ ps ++ ps', p.1 ≠ p.2 → Precedes l p.1 p.2 ∧ Precedes l' p.1 p.2) := by
  obtain ⟨r, m, hr, he⟩ := (run_iff input ps hw hs out).1 ho
  obtain ⟨r', m', hr', he'⟩ := (run_iff input' ps' hw' hs' out').1 ho'
  have hm := sameMeaning_of_said h hh hh'
  have hm' : SameMeaning (pairHist ps') (pairHist ps) := ⟨fun x => (hm.items x).symm, fun a b => (hm.before a b).symm⟩
  obtain ⟨h1, h2⟩ := C143_same_meaning _ _ hm _ _ _ _ hr hr'
  obtain ⟨-, h3⟩ := C143_same_meaning _ _ hm' _ _ _ _ hr' hr
  cases r with
  | none =>
    have : r' = none := h1.1 rfl
    subst this
    dsimp only at he he'
    subst he he'
    exact ⟨rfl, rfl, [], [], rfl, rfl, by simp, rfl, by intro h; cases h⟩
  | some l =>
    cases r' with
    | none => exact absurd (h1.2 rfl) (by simp)
    | some l' =>
      dsimp only at he he'
      subst he he'
      obtain ⟨k1, k2, k3⟩ := h2 l l' rfl rfl
      obtain ⟨-, -, k4⟩ := h3 l' l rfl rfl
      refine ⟨rfl, rfl, l, l', rfl, rfl, k1, k2, fun _ p hp hne => ?_⟩
      rcases List.mem_append.1 hp with hp | hp
      · have hc := (constrains_pairs ps hh p.1 p.2).2 ⟨hp, hne⟩
        exact ⟨C18_respects_constraints _ _ _ hr _ _ hc, k4 _ _ hc⟩
      · have hc := (constrains_pairs ps' hh' p.1 p.2).2 ⟨hp, hne⟩
        exact ⟨k3 _ _ hc, C18_respects_constraints _ _ _ hr' _ _ hc⟩

/-- **C143** In particular the order of the pairs and repeated pairs do not matter, -/
theorem said_of_members {ps ps' : List (Bytes × Bytes)} (h : ∀ p, p ∈ ps ↔ p ∈ ps') : SameSaid ps ps' :=
  ⟨fun x => by simp only [h], fun a b => by simp only [h]⟩

/-- and neither do pairs that follow from others. -/
theorem said_of_implied (ps : List (Bytes × Bytes)) (a b : Bytes) (h : Relation.TransGen (fun a b => (a, b) ∈ ps ∧ a ≠ b) a b) : SameSaid (ps ++ [(a, b)]) ps := by
  have hmem : ∀ x y, Relation.TransGen (fun a b => (a, b) ∈ ps ∧ a ≠ b) x y → (∃ p ∈ ps, x = p.1 ∨ x = p.2) ∧ ∃ p ∈ ps, y = p.1 ∨ y = p.2 := by
    intro x y hxy
    induction hxy with
    | single h => exact ⟨⟨_, h.1, .inl rfl⟩, ⟨_, h.1, .inr rfl⟩⟩
    | tail _ h ih => exact ⟨ih.1, ⟨_, h.1, .inr rfl⟩⟩
  refine ⟨fun x => ⟨?_, ?_⟩, fun x y => ⟨?_, ?_⟩⟩
  · rintro ⟨p, hp, hx⟩
    rcases List.mem_append.1 hp with hp | hp
    · exact ⟨p, hp, hx⟩
    · rw [List.mem_singleton] at hp
      subst hp
      rcases hx with rfl | rfl
      · exact (hmem _ _ h).1
      · exact (hmem _ _ h).2
  · rintro ⟨p, hp, hx⟩; exact ⟨p, by simp [hp], hx⟩
  · intro hxy
    have step : ∀ u v, ((u, v) ∈ ps ++ [(a, b)] ∧ u ≠ v) → Relation.TransGen (fun a b => (a, b) ∈ ps ∧ a ≠ b) u v := by
      rintro u v ⟨huv, hne⟩
      rcases List.mem_append.1 huv with huv | huv
      · exact .single ⟨huv, hne⟩
      · simp only [List.mem_singleton, Prod.mk.injEq] at huv
        obtain ⟨rfl, rfl⟩ := huv
        exact h
    induction hxy with
    | single h => exact step _ _ h
    | tail _ h ih => exact ih.trans (step _ _ h)
  · intro hxy
    induction hxy with
    | single h => exact .single ⟨by simp [h.1], h.2⟩
    | tail _ h ih => exact ih.tail ⟨by simp [h.1], h.2⟩

/-- **C143** If the pairs leave one order only it is printed, whatever the order of the pairs and of the map. -/
theorem C143_command_forced (input : Bytes) (ps : List (Bytes × Bytes)) (hw : Words input (pairWords ps)) (hs : ∀ w ∈ pairWords ps, w.length < 65534) (l : List Bytes)
    (hf : Forced (pairHist ps) l) (out : Out) (ho : Run input out) : out = { stdout := unlines l, stderr := [], exit := 0 } := by
  obtain ⟨r, m, hr, he⟩ := (run_iff input ps hw hs out).1 ho
  have := C143_forced _ l hf r m hr
  subst this
  exact he

/-- **C143** A pair that was read before, with no pair of its first word with itself in between, changes nothing: exactly the same can be printed. -/
theorem C143_command_repeated (input input' : Bytes) (ps qs : List (Bytes × Bytes)) (a b : Bytes) (hab : a ≠ b) (hc : Constrains (pairHist ps) a b)
    (hw : Words input (pairWords (ps ++ (a, b) :: qs))) (hw' : Words input' (pairWords (ps ++ qs)))
    (hs : ∀ w ∈ pairWords (ps ++ (a, b) :: qs), w.length < 65534) (out : Out) : Run input out ↔ Run input' out := by
  have hs' : ∀ w ∈ pairWords (ps ++ qs), w.length < 65534 := by
    intro w hm
    refine hs w ?_
    simp only [pairWords, List.flatMap_append, List.flatMap_cons, List.mem_append] at hm ⊢
    rcases hm with h | h
    · exact .inl h
    · exact .inr (.inr h)
  rw [run_iff input _ hw hs, run_iff input' _ hw' hs']
  have e : addAll [] (pairHist (ps ++ (a, b) :: qs)) = addAll [] (pairHist (ps ++ qs)) := by
    have e1 : pairHist (ps ++ (a, b) :: qs) = pairHist ps ++ [a, b] :: pairHist qs := by simp [pairHist, hab]
    have e2 : pairHist (ps ++ qs) = pairHist ps ++ pairHist qs := by simp [pairHist]
    rw [e1, e2]
    refine C143_repeated _ _ _ (by simp) ?_
    rintro x y ⟨p, q, e⟩
    match p, e with
    | [], e => simp only [List.nil_append, List.cons.injEq] at e; obtain ⟨rfl, rfl, -⟩ := e; exact hc
    | [_], e => simp at e
    | _ :: _ :: p, e =>
      have := congrArg List.length e
      simp at this
  rw [e]

/-- **C143** The expected statement is false: `a a a b` prints both words, and with the pairs exchanged one of them is not printed. -/
theorem C143_counterexample : (∀ out, Run b!"a a a b" out → out = { stdout := b!"a\nb\n", stderr := [], exit := 0 }) ∧ ∀ out, Run b!"a b a a" out → out.stdout = b!"a\n" := by
  refine ⟨fun out ho => ?_, C23_self_pair_forgets⟩
  have hw : Words b!"a a a b" (pairWords [(b!"a", b!"a"), (b!"a", b!"b")]) := (fields_iff _ _).mp (by decide)
  refine C143_command_forced _ _ hw (by decide) [b!"a", b!"b"] ?_ out ho
  have hc : Constrains (pairHist [(b!"a", b!"a"), (b!"a", b!"b")]) b!"a" b!"b" := ⟨[[b!"a"]], [b!"a", b!"b"], [], rfl, ⟨[], [], rfl⟩, by simp⟩
  have honly : ∀ x y, Constrains (pairHist [(b!"a", b!"a"), (b!"a", b!"b")]) x y → x = b!"a" ∧ y = b!"b" := by
    rintro x y ⟨pre, items, post, e, ⟨p, q, hadj⟩, -⟩
    have hm : items ∈ pairHist [(b!"a", b!"a"), (b!"a", b!"b")] := by rw [e]; simp
    have hm' : items = [b!"a"] ∨ items = [b!"a", b!"b"] := by simpa [pairHist] using hm
    rcases hm' with rfl | rfl
    · have := congrArg List.length hadj
      simp at this
      omega
    · match p, hadj with
      | [], hadj => simp only [List.nil_append, List.cons.injEq] at hadj; exact ⟨hadj.1.symm, hadj.2.1.symm⟩
      | [_], hadj => simp at hadj
      | _ :: _ :: p, hadj =>
        have := congrArg List.length hadj
        simp at this
  have hgen : ∀ x y, Relation.TransGen (Constrains (pairHist [(b!"a", b!"a"), (b!"a", b!"b")])) x y → x = b!"a" ∧ y = b!"b" := by
    intro x y h
    induction h with
    | single h => exact honly _ _ h
    | tail _ h ih => exact ⟨ih.1, (honly _ _ h).2⟩
  refine ⟨by decide, fun x => ⟨?_, ?_⟩, ?_, ?_⟩
  · intro hx
    simp only [List.mem_cons, List.not_mem_nil, or_false] at hx
    rcases hx with rfl | rfl
    · exact .inl (by simp [pairHist])
    · exact .inr (.inr ⟨_, hc⟩)
  · rintro (hx | ⟨items, hi, y, p, q, hadj⟩ | ⟨y, hy⟩)
    · have : x = b!"a" := by simpa [pairHist] using hx
      simp [this]
    · have hm' : items = [b!"a"] ∨ items = [b!"a", b!"b"] := by simpa [pairHist] using hi
      have hx : x ∈ items := by rw [hadj]; simp
      rcases hm' with rfl | rfl <;> simp at hx ⊢ <;> grind
    · simp [(honly _ _ hy).2]
  · rintro x y ⟨p, q, e⟩
    match p, e with
    | [], e => simp only [List.nil_append, List.cons.injEq] at e; obtain ⟨rfl, rfl, -⟩ := e; exact .single hc
    | [_], e => simp at e
    | _ :: _ :: p, e =>
      have := congrArg List.length e
      simp at this
  · rintro ⟨x, hx⟩
    have := hgen x x hx
    rw [this.1] at this
    exact absurd this.2 (by decide)

/-- The pairs `a b`, `b c` and `a c` in two orders, one of them with a repetition. -/
example : SameSaid [(b!"a", b!"b"), (b!"b", b!"c"), (b!"a", b!"c")] [(b!"b", b!"c"), (b!"a", b!"b"), (b!"b", b!"c")] ∧
    Harmless [(b!"a", b!"b"), (b!"b", b!"c"), (b!"a", b!"c")] := by
  constructor
  · have h1 : SameSaid ([(b!"a", b!"b"), (b!"b", b!"c")] ++ [(b!"a", b!"c")]) [(b!"a", b!"b"), (b!"b", b!"c")] :=
      said_of_implied _ _ _ ((Relation.TransGen.single ⟨by simp, by decide⟩ : Relation.TransGen _ b!"a" b!"b").tail ⟨by simp, by decide⟩)
    have h2 : SameSaid [(b!"a", b!"b"), (b!"b", b!"c")] [(b!"b", b!"c"), (b!"a", b!"b"), (b!"b", b!"c")] := said_of_members (by intro p; simp; grind)
    exact ⟨fun x => (h1.words x).trans (h2.words x), fun a b => (h1.before a b).trans (h2.before a b)⟩
  · intro x hx
    have : x = b!"a" ∧ x = b!"b" ∨ x = b!"b" ∧ x = b!"c" ∨ x = b!"a" ∧ x = b!"c" := by simpa using hx
    rcases this with ⟨rfl, h⟩ | ⟨rfl, h⟩ | ⟨rfl, h⟩ <;> exact absurd h (by decide)

end TSort
