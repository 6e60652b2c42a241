import Verif.TSort.Rewritten

/-!
# C170: constraints that have nothing to do with each other

The items may fall into two groups with no constraint between them: the dependencies of two programs in one file, say. Sorting
them together is then sorting each group on its own: what comes out, read for one group only, is what can come out for that group
alone; every pair of results for the two groups can be had in one run; and sorting fails exactly if it fails for one of them.
-/

namespace TSort
open Go

section
variable {α : Type} [DecidableEq α]

/-- No call of `Add` mixes the two groups, those items with `S` and those without. -/
def Unmixed (S : α → Bool) (hist : List (List α)) : Prop := ∀ items ∈ hist, ∀ x ∈ items, ∀ y ∈ items, S x = S y

/-- The calls about the group `S`. -/
def about (S : α → Bool) (hist : List (List α)) : List (List α) := hist.filter (fun items => items.all S)

/-- The part of a sorter's state about one group. -/
def part (S : α → Bool) (m : Orderings α) : Orderings α := m.filter (fun e => S e.1)

/-- No successor is in the other group. -/
def Split (S : α → Bool) (m : Orderings α) : Prop := ∀ e ∈ m, ∀ v ∈ e.2, S v = S e.1

theorem get_part (S : α → Bool) (m : Orderings α) (k : α) (hk : S k = true) : get (part S m) k = get m k := by
  induction m with
  | nil => rfl
  | cons e m ih =>
    unfold part at ih ⊢
    rw [List.filter_cons]
    split
    · rw [get_cons, get_cons, ih]
    · next h =>
      rw [get_cons, ih, if_neg]
      rintro rfl
      exact h hk

theorem part_delete (S : α → Bool) (m : Orderings α) (k : α) : part S (delete m k) = delete (part S m) k := by
  unfold part delete
  rw [List.filter_filter, List.filter_filter]
  congr 1
  funext e
  rw [Bool.and_comm]

theorem part_delete_other (S : α → Bool) (m : Orderings α) (k : α) (hk : S k = false) : part S (delete m k) = part S m := by
  unfold part delete
  rw [List.filter_filter]
  apply List.filter_congr
  intro e _
  cases h : S e.1 with
  | false => simp
  | true =>
    have : e.1 ≠ k := by rintro rfl; rw [hk] at h; cases h
    simp [this]

theorem Split.delete {S : α → Bool} {m : Orderings α} (h : Split S m) (k : α) : Split S (delete m k) :=
  fun e he => h e (List.mem_filter.1 he).1

theorem isBlocked_part {S : α → Bool} {m : Orderings α} (h : Split S m) (u : α) (hu : S u = true) : isBlocked (part S m) u = isBlocked m u := by
  rw [Bool.eq_iff_iff]
  simp only [isBlocked, part, List.any_eq_true, List.mem_filter, decide_eq_true_eq]
  constructor
  · rintro ⟨e, ⟨he, _⟩, i, hi, rfl⟩
    exact ⟨e, he, i, hi, rfl⟩
  · rintro ⟨e, he, i, hi, rfl⟩
    exact ⟨e, ⟨he, by rw [← h e he i hi]; exact hu⟩, i, hi, rfl⟩

theorem heads_part {S : α → Bool} {m : Orderings α} (h : Split S m) : heads (part S m) = (heads m).filter S := by
  have hk : keys (part S m) = (keys m).filter S := by
    unfold keys part
    rw [List.filter_map]
    rfl
  unfold heads
  rw [hk, List.filter_filter, List.filter_filter]
  apply List.filter_congr
  intro k _
  cases hS : S k with
  | false => simp
  | true =>
    rw [Bool.and_true, Bool.true_and]
    congr 1
    rw [Bool.eq_iff_iff]
    simp only [part, List.any_eq_true, List.mem_filter, List.contains_iff_mem]
    constructor
    · rintro ⟨e, ⟨he, _⟩, hi⟩
      exact ⟨e, he, hi⟩
    · rintro ⟨e, he, hi⟩
      exact ⟨e, ⟨he, by rw [← h e he k hi]; exact hS⟩, hi⟩

theorem split_get {S : α → Bool} {m : Orderings α} (h : Split S m) {k v : α} (hv : v ∈ get m k) : S v = S k := by
  obtain ⟨vs, h1, h2⟩ := mem_of_get hv
  exact h _ h1 _ h2

/-- The loop of `Order`, watched for one group only, is the loop on that group. -/
theorem loop_part {S : α → Bool} (fuel : Nat) : ∀ (cs : List α) (m : Orderings α) (out out' : List α) (m' : Orderings α), Split S m →
    orderLoop fuel cs m out = some (out', m') →
    Split S m' ∧ ∃ fuel', orderLoop fuel' (cs.filter S) (part S m) (out.filter S) = some (out'.filter S, part S m') := by
  induction fuel with
  | zero =>
    intro cs m out out' m' hm h
    cases cs with
    | nil => simp only [orderLoop, Option.some.injEq, Prod.mk.injEq] at h; obtain ⟨rfl, rfl⟩ := h; exact ⟨hm, 0, rfl⟩
    | cons c cs => cases h
  | succ fuel ih =>
    intro cs m out out' m' hm h
    cases cs with
    | nil => simp only [orderLoop, Option.some.injEq, Prod.mk.injEq] at h; obtain ⟨rfl, rfl⟩ := h; exact ⟨hm, 0, rfl⟩
    | cons c cs =>
      simp only [orderLoop] at h
      obtain ⟨h1, f, h2⟩ := ih _ _ _ _ _ (hm.delete c) h
      refine ⟨h1, ?_⟩
      cases hc : S c with
      | true =>
        refine ⟨f + 1, ?_⟩
        rw [List.filter_cons_of_pos hc]
        simp only [orderLoop]
        rw [get_part S m c hc, ← part_delete]
        rw [List.filter_append, List.filter_append, List.filter_cons_of_pos hc, List.filter_nil, List.filter_filter] at h2
        rw [← h2]
        congr 2
        apply List.filter_congr
        intro u hu
        have : S u = true := by rw [split_get hm hu]; exact hc
        rw [this, Bool.true_and, isBlocked_part (hm.delete c) u this]
      | false =>
        refine ⟨f, ?_⟩
        rw [List.filter_cons_of_neg (by simp [hc])]
        rw [part_delete_other S m c hc, List.filter_append, List.filter_append, List.filter_cons_of_neg (by simp [hc]), List.filter_nil, List.append_nil, List.filter_filter] at h2
        rw [← h2]
        have : (get m c).filter (fun a => S a && !isBlocked (delete m c) a) = [] := by
          rw [List.filter_eq_nil_iff]
          intro u hu
          rw [split_get hm hu, hc]
          simp
        rw [this, List.append_nil]

theorem part_set (S : α → Bool) (m : Orderings α) (k : α) (v : List α) : part S (set m k v) = if S k then set (part S m) k v else part S m := by
  induction m with
  | nil => simp only [set, part, List.filter_cons, List.filter_nil]
  | cons e m ih =>
    obtain ⟨a, b⟩ := e
    unfold part at ih ⊢
    simp only [set]
    by_cases hk : a = k
    · subst hk
      simp only [if_true]
      cases hS : S a <;> simp [List.filter_cons, hS, set]
    · rw [if_neg hk]
      simp only [List.filter_cons, ih]
      cases hS : S a <;> cases hS' : S k <;> simp [set, hk]

theorem split_set {S : α → Bool} {m : Orderings α} (h : Split S m) (k : α) (v : List α) (hv : ∀ x ∈ v, S x = S k) : Split S (set m k v) := by
  induction m with
  | nil =>
    intro e he
    simp only [set, List.mem_singleton] at he
    subst he
    exact hv
  | cons x m ih =>
    obtain ⟨a, b⟩ := x
    simp only [set]
    split
    · intro e he
      rcases List.mem_cons.1 he with rfl | he
      · exact hv
      · exact h e (List.mem_cons_of_mem _ he)
    · intro e he
      rcases List.mem_cons.1 he with rfl | he
      · exact h _ (List.mem_cons_self ..)
      · exact ih (fun e he => h e (List.mem_cons_of_mem _ he)) e he

theorem part_addPairs {S : α → Bool} (items : List α) : ∀ (m : Orderings α), Split S m → (∀ x ∈ items, ∀ y ∈ items, S x = S y) →
    Split S (addPairs m items) ∧ part S (addPairs m items) = if items.all S then addPairs (part S m) items else part S m := by
  induction items with
  | nil => intro m hm _; simp [addPairs, hm]
  | cons a items ih =>
    intro m hm hs
    cases items with
    | nil => simp [addPairs, hm]
    | cons b rest =>
      simp only [addPairs]
      have hab : S b = S a := hs b (by simp) a (by simp)
      have hm1 : Split S (if (!inSlice (get m a) b) = true then set m a (get m a ++ [b]) else m) := by
        split
        · apply split_set hm
          intro x hx
          rcases List.mem_append.1 hx with hx | hx
          · exact split_get hm hx
          · rw [List.mem_singleton.1 hx]; exact hab
        · exact hm
      obtain ⟨i1, i2⟩ := ih _ hm1 (fun x hx y hy => hs x (List.mem_cons_of_mem _ hx) y (List.mem_cons_of_mem _ hy))
      refine ⟨i1, ?_⟩
      rw [i2]
      cases hS : S a with
      | false =>
        have hb : S b = false := by rw [hab, hS]
        have e1 : (b :: rest).all S = false := by rw [List.all_cons, hb, Bool.false_and]
        have e2 : (a :: b :: rest).all S = false := by rw [List.all_cons, hS, Bool.false_and]
        rw [e1, e2]
        simp only [Bool.false_eq_true, if_false]
        split
        · rw [part_set, hS]; simp
        · rfl
      | true =>
        have hb : S b = true := by rw [hab, hS]
        have e1 : (b :: rest).all S = true := by
          rw [List.all_eq_true]
          intro x hx
          rw [hs x (List.mem_cons_of_mem _ hx) a (by simp), hS]
        have e2 : (a :: b :: rest).all S = true := by rw [List.all_cons, hS, Bool.true_and, e1]
        rw [e1, e2, if_pos rfl, if_pos rfl, get_part S m a hS]
        congr 1
        split
        · rw [part_set, hS]; rfl
        · rfl

theorem part_add {S : α → Bool} (items : List α) (m : Orderings α) (hm : Split S m) (hs : ∀ x ∈ items, ∀ y ∈ items, S x = S y) :
    Split S (add m items) ∧ part S (add m items) = if items.all S then add (part S m) items else part S m := by
  match items, hs with
  | [], _ => exact ⟨hm, by simp [add]⟩
  | [x], _ =>
    refine ⟨split_set hm x [] (by simp), ?_⟩
    simp only [add, part_set, List.all_cons, List.all_nil, Bool.and_true]
  | a :: b :: rest, hs => exact part_addPairs _ _ hm hs

theorem part_addAll {S : α → Bool} (hist : List (List α)) : ∀ (m : Orderings α), Split S m → Unmixed S hist →
    Split S (addAll m hist) ∧ part S (addAll m hist) = addAll (part S m) (about S hist) := by
  induction hist with
  | nil => intro m hm _; exact ⟨hm, rfl⟩
  | cons items hist ih =>
    intro m hm hs
    obtain ⟨h1, h2⟩ := part_add items m hm (hs items (by simp))
    obtain ⟨i1, i2⟩ := ih (add m items) h1 (fun i hi => hs i (List.mem_cons_of_mem _ hi))
    refine ⟨i1, ?_⟩
    rw [show addAll m (items :: hist) = addAll (add m items) hist from rfl, i2, h2]
    unfold about
    rw [List.filter_cons]
    split <;> rfl

omit [DecidableEq α] in
theorem Split.other {S : α → Bool} {m : Orderings α} (h : Split S m) : Split (fun x => !S x) m :=
  fun e he v hv => congrArg (!·) (h e he v hv)

omit [DecidableEq α] in
theorem Unmixed.other {S : α → Bool} {hist : List (List α)} (h : Unmixed S hist) : Unmixed (fun x => !S x) hist :=
  fun i hi x hx y hy => congrArg (!·) (h i hi x hx y hy)

omit [DecidableEq α] in
theorem parts_nil {S : α → Bool} {m : Orderings α} : m = [] ↔ part S m = [] ∧ part (fun x => !S x) m = [] := by
  constructor
  · rintro rfl; exact ⟨rfl, rfl⟩
  · rintro ⟨h1, h2⟩
    cases m with
    | nil => rfl
    | cons e m =>
      unfold part at h1 h2
      cases hS : S e.1 <;> simp [List.filter_cons, hS] at h1 h2

/-- One run of `Order`, watched for one group. -/
theorem order_part {S : α → Bool} {m : Orderings α} (hm : Split S m) {hs : List α} (hh : IsHeads m hs) {fuel : Nat} {out : List α} {m' : Orderings α}
    (h : orderLoop fuel hs m [] = some (out, m')) :
    Order (part S m) (if (part S m').length > 0 then none else some (out.filter S)) (part S m') := by
  obtain ⟨_, f, h2⟩ := loop_part fuel hs m [] out m' hm h
  refine ⟨hs.filter S, f, ?_, ?_⟩
  · unfold IsHeads
    rw [heads_part hm]
    exact List.Perm.filter S hh
  · unfold orderFuel
    rw [List.filter_nil] at h2
    rw [h2]

theorem order_loop {m : Orderings α} {r : Option (List α)} {m' : Orderings α} (h : Order m r m') :
    ∃ hs fuel out, IsHeads m hs ∧ orderLoop fuel hs m [] = some (out, m') ∧ r = if m'.length > 0 then none else some out := by
  obtain ⟨hs, fuel, hh, hf⟩ := h
  unfold orderFuel at hf
  cases hl : orderLoop fuel hs m [] with
  | none => rw [hl] at hf; cases hf
  | some p =>
    obtain ⟨out, m1⟩ := p
    rw [hl] at hf
    simp only [Option.some.injEq, Prod.mk.injEq] at hf
    obtain ⟨h1, rfl⟩ := hf
    exact ⟨hs, fuel, out, hh, hl, h1.symm⟩

/-- **C170** What comes out, read for one group only, is something that can come out for that group alone. -/
theorem C170_apart (S : α → Bool) (hist : List (List α)) (hu : Unmixed S hist) (out : List α) (m' : Orderings α)
    (ho : Order (addAll [] hist) (some out) m') : Order (addAll [] (about S hist)) (some (out.filter S)) [] := by
  obtain ⟨hm, hp⟩ := part_addAll (S := S) hist [] (fun e he => by cases he) hu
  obtain ⟨hs, fuel, out', hh, hl, hr⟩ := order_loop ho
  have h := order_part hm hh hl
  have hn : m' = [] := by
    split at hr
    · cases hr
    · exact List.length_eq_zero_iff.1 (by omega)
  subst hn
  simp only [List.length_nil, gt_iff_lt, Nat.lt_irrefl, if_false, Option.some.injEq] at hr
  subst hr
  rw [hp] at h
  exact h

/-- **C170** Sorting everything fails exactly if sorting one of the groups fails. -/
theorem C170_fails (S : α → Bool) (hist : List (List α)) (hu : Unmixed S hist) :
    (∃ m', Order (addAll [] hist) none m') ↔
      (∃ m', Order (addAll [] (about S hist)) none m') ∨ ∃ m', Order (addAll [] (about (fun x => !S x) hist)) none m' := by
  obtain ⟨hm, hp⟩ := part_addAll (S := S) hist [] (fun e he => by cases he) hu
  obtain ⟨hm2, hp2⟩ := part_addAll (S := fun x => !S x) hist [] (fun e he => by cases he) hu.other
  constructor
  · rintro ⟨m', ho⟩
    obtain ⟨hs, fuel, out', hh, hl, hr⟩ := order_loop ho
    have h := order_part hm hh hl
    have h2 := order_part hm2 hh hl
    rw [hp] at h
    rw [hp2] at h2
    by_cases e1 : (part S m').length > 0
    · rw [if_pos e1] at h
      exact .inl ⟨_, h⟩
    · by_cases e2 : (part (fun x => !S x) m').length > 0
      · rw [if_pos e2] at h2
        exact .inr ⟨_, h2⟩
      · have : m' = [] := (parts_nil (S := S)).2 ⟨List.length_eq_zero_iff.1 (by omega), List.length_eq_zero_iff.1 (by omega)⟩
        subst this
        simp at hr
  · intro hf
    obtain ⟨⟨r, m', ho⟩, _⟩ := C20_fails_iff_cycle hist
    cases r with
    | none => exact ⟨m', ho⟩
    | some out =>
      exfalso
      have h1 := C170_apart S hist hu out m' ho
      have h2 := C170_apart (fun x => !S x) hist hu.other out m' ho
      rcases hf with ⟨mf, hf⟩ | ⟨mf, hf⟩
      · have := ((C20_fails_iff_cycle (about S hist)).2 _ _ h1).2 (((C20_fails_iff_cycle (about S hist)).2 _ _ hf).1 rfl)
        cases this
      · have := ((C20_fails_iff_cycle (about (fun x => !S x) hist)).2 _ _ h2).2 (((C20_fails_iff_cycle (about (fun x => !S x) hist)).2 _ _ hf).1 rfl)
        cases this

/-- **C170** Whatever can come out for the one group and whatever can come out for the other can come out together. -/
theorem C170_together (S : α → Bool) (hist : List (List α)) (hu : Unmixed S hist) (out₁ out₂ : List α) (m₁ m₂ : Orderings α)
    (h₁ : Order (addAll [] (about S hist)) (some out₁) m₁) (h₂ : Order (addAll [] (about (fun x => !S x) hist)) (some out₂) m₂) :
    ∃ out, Order (addAll [] hist) (some out) [] ∧ out.filter S = out₁ ∧ out.filter (fun x => !S x) = out₂ := by
  obtain ⟨hm, hp⟩ := part_addAll (S := S) hist [] (fun e he => by cases he) hu
  obtain ⟨hm2, hp2⟩ := part_addAll (S := fun x => !S x) hist [] (fun e he => by cases he) hu.other
  have hp' : addAll [] (about S hist) = part S (addAll [] hist) := hp.symm
  have hp2' : addAll [] (about (fun x => !S x) hist) = part (fun x => !S x) (addAll [] hist) := hp2.symm
  rw [hp'] at h₁
  rw [hp2'] at h₂
  obtain ⟨hs1, f1, o1, hh1, hl1, hr1⟩ := order_loop h₁
  obtain ⟨hs2, f2, o2, hh2, hl2, hr2⟩ := order_loop h₂
  unfold IsHeads at hh1 hh2
  rw [heads_part hm] at hh1
  rw [heads_part hm2] at hh2
  have a1 : ∀ x ∈ hs1, S x = true := fun x hx => (List.mem_filter.1 (hh1.mem_iff.1 hx)).2
  have a2 : ∀ x ∈ hs2, (!S x) = true := fun x hx => (List.mem_filter.1 (hh2.mem_iff.1 hx)).2
  have hh : IsHeads (addAll [] hist) (hs1 ++ hs2) := (List.Perm.append hh1 hh2).trans (List.filter_append_perm S _)
  obtain ⟨⟨out, m'⟩, hl⟩ := orderLoop_total ((hs1 ++ hs2).length + weight (addAll [] hist)) (hs1 ++ hs2) (addAll [] hist) [] (Nat.le_refl _)
  obtain ⟨_, g1, e1⟩ := loop_part _ _ _ _ _ _ hm hl
  obtain ⟨_, g2, e2⟩ := loop_part _ _ _ _ _ _ hm2 hl
  have b1 : (hs1 ++ hs2).filter S = hs1 := by
    rw [List.filter_append, List.filter_eq_self.2 a1, List.filter_eq_nil_iff.2, List.append_nil]
    intro x hx
    have := a2 x hx
    simpa using this
  have b2 : (hs1 ++ hs2).filter (fun x => !S x) = hs2 := by
    rw [List.filter_append, List.filter_eq_self.2 a2, List.filter_eq_nil_iff.2, List.nil_append]
    intro x hx
    simp [a1 x hx]
  rw [b1] at e1
  rw [b2] at e2
  have c1 := orderLoop_det e1 hl1
  have c2 := orderLoop_det e2 hl2
  simp only [Prod.mk.injEq] at c1 c2
  obtain ⟨c1, d1⟩ := c1
  obtain ⟨c2, d2⟩ := c2
  have z1 : m₁ = [] ∧ out₁ = o1 := by
    split at hr1
    · cases hr1
    · simp only [Option.some.injEq] at hr1
      exact ⟨List.length_eq_zero_iff.1 (by omega), hr1⟩
  have z2 : m₂ = [] ∧ out₂ = o2 := by
    split at hr2
    · cases hr2
    · simp only [Option.some.injEq] at hr2
      exact ⟨List.length_eq_zero_iff.1 (by omega), hr2⟩
  have hm' : m' = [] := parts_nil.2 ⟨by rw [d1, z1.1], by rw [d2, z2.1]⟩
  subst hm'
  refine ⟨out, ⟨hs1 ++ hs2, (hs1 ++ hs2).length + weight (addAll [] hist), hh, ?_⟩, by rw [c1, z1.2], by rw [c2, z2.2]⟩
  unfold orderFuel
  rw [hl]
  rfl

end

/-- **C170** The command: pairs of words in two groups, no pair in both. If sorting succeeds the lines of one group are what the
command can print for the pairs of that group; and it fails only if it fails, each time, on one of the two. -/
theorem C170_command (S : Bytes → Bool) (ps : List (Bytes × Bytes)) (hS : ∀ p ∈ ps, S p.1 = S p.2) (input input₁ input₂ : Bytes)
    (hshort : ∀ w ∈ pairWords ps, w.length < 65534) (hw : Words input (pairWords ps))
    (hw₁ : Words input₁ (pairWords (ps.filter (fun p => S p.1)))) (hw₂ : Words input₂ (pairWords (ps.filter (fun p => !S p.1)))) (o : Out) (ho : Run input o) :
    (o.exit = 0 → ∃ l, o.stdout = unlines l ∧ Run input₁ { stdout := unlines (l.filter S), stderr := [], exit := 0 } ∧
      Run input₂ { stdout := unlines (l.filter (fun x => !S x)), stderr := [], exit := 0 }) ∧
    (o.exit ≠ 0 → Run input₁ o ∨ Run input₂ o) := by
  have hu : Unmixed S (pairHist ps) := by
    intro items hi x hx y hy
    simp only [pairHist, List.mem_map] at hi
    obtain ⟨p, hp, rfl⟩ := hi
    have := hS p hp
    split at hx <;> split at hy <;> simp at hx hy <;> grind
  have key : ∀ T : Bytes → Bool, (∀ p ∈ ps, T p.1 = T p.2) → about T (pairHist ps) = pairHist (ps.filter (fun p => T p.1)) := by
    intro T hT
    unfold about pairHist
    rw [List.filter_map]
    congr 1
    apply List.filter_congr
    intro p hp
    have := hT p hp
    simp only [Function.comp]
    split <;> simp [← this]
  have k1 := key S hS
  have k2 := key (fun x => !S x) (fun p hp => by rw [hS p hp])
  have short : ∀ q : Bytes × Bytes → Bool, ∀ w ∈ pairWords (ps.filter q), w.length < 65534 := by
    intro q w hw
    apply hshort
    simp only [pairWords, List.mem_flatMap] at hw ⊢
    obtain ⟨p, hp, h⟩ := hw
    exact ⟨p, (List.mem_filter.1 hp).1, h⟩
  obtain ⟨r, m', hr, he⟩ := (run_iff input ps hw hshort o).1 ho
  cases r with
  | none =>
    simp only at he
    subst he
    refine ⟨fun h => absurd h (by simp [die]), fun _ => ?_⟩
    rcases (C170_fails S (pairHist ps) hu).1 ⟨m', hr⟩ with ⟨mf, h⟩ | ⟨mf, h⟩
    · rw [k1] at h
      exact .inl ((run_iff input₁ _ hw₁ (short _) _).2 ⟨none, mf, h, rfl⟩)
    · rw [k2] at h
      exact .inr ((run_iff input₂ _ hw₂ (short _) _).2 ⟨none, mf, h, rfl⟩)
  | some l =>
    simp only at he
    subst he
    refine ⟨fun _ => ⟨l, rfl, ?_, ?_⟩, fun h => absurd rfl h⟩
    · have h := C170_apart S (pairHist ps) hu l m' hr
      rw [k1] at h
      exact (run_iff input₁ _ hw₁ (short _) _).2 ⟨_, _, h, rfl⟩
    · have h := C170_apart (fun x => !S x) (pairHist ps) hu.other l m' hr
      rw [k2] at h
      exact (run_iff input₂ _ hw₂ (short _) _).2 ⟨_, _, h, rfl⟩

/-- Two groups, 1 to 4 and 10 to 12, in one sorter. -/
example : Unmixed (fun x => x < 10) [[1, 2], [10, 11], [3, 2, 4], [12, 11]] ∧
    Order (addAll [] [[1, 2], [10, 11], [3, 2, 4], [12, 11]]) (some [3, 12, 10, 1, 11, 2, 4]) [] ∧
    Order (addAll [] (about (fun x => decide (x < 10)) [[1, 2], [10, 11], [3, 2, 4], [12, 11]])) (some [3, 1, 2, 4]) [] := by
  refine ⟨by unfold Unmixed; decide, ⟨[3, 12, 10, 1], 8, ?_, by decide⟩, ⟨[3, 1], 8, ?_, by decide⟩⟩
  · unfold IsHeads; decide
  · unfold IsHeads; decide

/-- Two programs in one file of dependencies, with the words of each beginning with its letter. -/
example : (∀ p ∈ [(b!"a1", b!"a2"), (b!"b1", b!"b2"), (b!"a2", b!"a3")], (fun w : Bytes => w.head? == some 97) p.1 = (fun w : Bytes => w.head? == some 97) p.2) ∧
    (∀ w ∈ pairWords [(b!"a1", b!"a2"), (b!"b1", b!"b2"), (b!"a2", b!"a3")], w.length < 65534) ∧
    [(b!"a1", b!"a2"), (b!"b1", b!"b2"), (b!"a2", b!"a3")].filter (fun p => p.1.head? == some 97) = [(b!"a1", b!"a2"), (b!"a2", b!"a3")] := by decide

end TSort
