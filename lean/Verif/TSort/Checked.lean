import Verif.TSort.Rewritten

/-!
# C159: an order can be checked and kept

An order of all the items, given to a sorter after the constraints, settles everything: if the order is compatible with the
constraints it is what comes out, every time, and otherwise sorting fails. So an order that has been printed can be pinned,
every compatible order can be had, and tsort can be asked whether an order is compatible.
-/

namespace TSort
open Go

variable {α : Type}

/-- `l` is an order of the items known after `hist`: all of them, each once. -/
def Arranges (hist : List (List α)) (l : List α) : Prop := l.Nodup ∧ ∀ x, x ∈ l ↔ Known hist x

/-- `l` is compatible with the constraints in force after `hist`. -/
def Compatible (hist : List (List α)) (l : List α) : Prop := ∀ a b, Constrains hist a b → Precedes l a b

/-! ## Lemmas -/

theorem precedes_first {l : List α} {a b x : α} : Precedes (x :: l) a b ↔ (a = x ∧ b ∈ l) ∨ Precedes l a b := by
  constructor
  · rintro ⟨p, q, r, h⟩
    cases p with
    | nil =>
      simp only [List.nil_append, List.cons.injEq] at h
      exact .inl ⟨h.1.symm, by rw [h.2]; simp⟩
    | cons y p =>
      simp only [List.cons_append, List.cons.injEq] at h
      exact .inr ⟨p, q, r, h.2⟩
  · rintro (⟨rfl, h⟩ | ⟨p, q, r, rfl⟩)
    · obtain ⟨q, r, rfl⟩ := List.append_of_mem h
      exact ⟨[], q, r, rfl⟩
    · exact ⟨x :: p, q, r, rfl⟩

theorem Precedes.mem {l : List α} {a b : α} (h : Precedes l a b) : a ∈ l ∧ b ∈ l := by
  obtain ⟨p, q, r, rfl⟩ := h
  simp

theorem precedes_irrefl {l : List α} (hn : l.Nodup) (a : α) : ¬ Precedes l a a := by
  rintro ⟨p, q, r, rfl⟩
  rw [List.nodup_append] at hn
  have := (List.nodup_cons.1 hn.2.1).1
  simp at this

theorem adjacent_first {l : List α} {a b x : α} : Adjacent a b (x :: l) ↔ (a = x ∧ l.head? = some b) ∨ Adjacent a b l := by
  constructor
  · rintro ⟨pre, post, h⟩
    cases pre with
    | nil =>
      simp only [List.nil_append, List.cons.injEq] at h
      exact .inl ⟨h.1.symm, by rw [h.2]; rfl⟩
    | cons y pre =>
      simp only [List.cons_append, List.cons.injEq] at h
      exact .inr ⟨pre, post, h.2⟩
  · rintro (⟨rfl, h⟩ | ⟨pre, post, rfl⟩)
    · cases l with
      | nil => cases h
      | cons y l =>
        simp only [List.head?_cons, Option.some.injEq] at h
        subst h
        exact ⟨[], l, rfl⟩
    · exact ⟨x :: pre, post, rfl⟩

theorem Adjacent.precedes {l : List α} {a b : α} (h : Adjacent a b l) : Precedes l a b := by
  obtain ⟨pre, post, rfl⟩ := h
  exact ⟨pre, [], post, rfl⟩

/-- Whoever respects the neighbours of `l` respects `l`. -/
theorem precedes_of_adjacent {l m : List α} (hm : m.Nodup) (h : ∀ a b, Adjacent a b l → Precedes m a b) :
    ∀ a b, Precedes l a b → Precedes m a b := by
  induction l with
  | nil => rintro a b ⟨p, q, r, h⟩; simp at h
  | cons x l ih =>
    have ih := ih fun a b hab => h a b (adjacent_first.2 (.inr hab))
    intro a b hab
    rcases precedes_first.1 hab with ⟨rfl, hb⟩ | hab
    · cases l with
      | nil => simp at hb
      | cons y l =>
        have h1 := h a y (adjacent_first.2 (.inl ⟨rfl, rfl⟩))
        rcases List.mem_cons.1 hb with rfl | hb
        · exact h1
        · exact precedes_trans hm h1 (ih y b (precedes_first.2 (.inl ⟨rfl, hb⟩)))
    · exact ih a b hab

/-- Two orders of the same items in which the same comes before the same are equal. -/
theorem order_eq {l m : List α} (hl : l.Nodup) (hm : m.Nodup) (he : ∀ x, x ∈ l ↔ x ∈ m)
    (h : ∀ a b, Precedes l a b → Precedes m a b) : l = m := by
  induction l generalizing m with
  | nil =>
    cases m with
    | nil => rfl
    | cons y m => simpa using (he y).2 (by simp)
  | cons x l ih =>
    cases m with
    | nil => simpa using (he x).1 (by simp)
    | cons y m =>
      have hl' := List.nodup_cons.1 hl
      have hm' := List.nodup_cons.1 hm
      have hxy : x = y := by
        apply Classical.byContradiction
        intro hne
        have h1 : y ∈ l := by
          have := (he y).2 (by simp)
          rcases List.mem_cons.1 this with e | e
          · exact absurd e.symm hne
          · exact e
        rcases precedes_first.1 (h x y (precedes_first.2 (.inl ⟨rfl, h1⟩))) with ⟨e, -⟩ | e
        · exact hne e
        · exact hm'.1 e.mem.2
      subst hxy
      congr 1
      refine ih hl'.2 hm'.2 (fun z => ?_) (fun a b hab => ?_)
      · have := he z
        simp only [List.mem_cons] at this
        constructor
        · intro hz
          rcases this.1 (.inr hz) with rfl | h
          · exact absurd hz hl'.1
          · exact h
        · intro hz
          rcases this.2 (.inr hz) with rfl | h
          · exact absurd hz hm'.1
          · exact h
      · rcases precedes_first.1 (h a b (precedes_first.2 (.inr hab))) with ⟨rfl, -⟩ | e
        · exact absurd hab.mem.1 hl'.1
        · exact e

theorem not_cyclic_of_precedes {R : α → α → Prop} {l : List α} (hl : l.Nodup) (h : ∀ a b, R a b → Precedes l a b) : ¬ Cyclic R := by
  have key : ∀ a b, Relation.TransGen R a b → Precedes l a b := by
    intro a b hab
    induction hab with
    | single hab => exact h _ _ hab
    | tail _ hbc ih => exact precedes_trans hl ih (h _ _ hbc)
  rintro ⟨a, ha⟩
  exact precedes_irrefl hl a (key a a ha)

section
variable [DecidableEq α]

/-- When the constraints name the neighbours of an order and are compatible with it, it is what comes out. -/
theorem settled {hist : List (List α)} {l : List α} (hl : Arranges hist l) (hc : Compatible hist l)
    (ha : ∀ a b, Adjacent a b l → Constrains hist a b) : ∀ r m', Order (addAll [] hist) r m' → r = some l := by
  intro r m' ho
  cases r with
  | none => exact absurd (((C20_fails_iff_cycle hist).2 none m' ho).1 rfl) (not_cyclic_of_precedes hl.1 hc)
  | some out =>
    obtain ⟨h1, h2⟩ := C19_permutation hist out m' ho
    refine congrArg some (order_eq hl.1 h1 (fun x => by rw [hl.2, h2]) ?_).symm
    exact precedes_of_adjacent h1 fun a b hab => C18_respects_constraints hist out m' ho a b (ha a b hab)

end

theorem constrains_append {hist ext : List (List α)} {a b : α} (h : Constrains (hist ++ ext) a b) :
    (Constrains hist a b ∧ [a] ∉ ext) ∨ ∃ items ∈ ext, Adjacent a b items := by
  obtain ⟨pre, items, post, e, hab, hn⟩ := h
  rcases List.append_eq_append_iff.1 e with ⟨as, h1, h2⟩ | ⟨bs, h1, h2⟩
  · exact .inr ⟨items, by rw [h2]; simp, hab⟩
  · cases bs with
    | nil =>
      rw [List.nil_append] at h2
      exact .inr ⟨items, by rw [← h2]; simp, hab⟩
    | cons y bs =>
      simp only [List.cons_append, List.cons.injEq] at h2
      obtain ⟨rfl, rfl⟩ := h2
      simp only [List.mem_append, not_or] at hn
      exact .inl ⟨⟨pre, items, bs, h1, hab, hn.1⟩, hn.2⟩

theorem constrains_kept {hist ext : List (List α)} {a b : α} (h : Constrains hist a b) (hn : [a] ∉ ext) : Constrains (hist ++ ext) a b := by
  obtain ⟨pre, items, post, rfl, hab, hp⟩ := h
  exact ⟨pre, items, post ++ ext, by simp, hab, by simp [hp, hn]⟩

theorem not_adjacent_single {a b x : α} : ¬ Adjacent a b [x] := by
  rintro ⟨pre, post, h⟩
  have := congrArg List.length h
  simp at this
  omega

/-- Calls that say nothing but what `l` says: single items of `l` only if `l` is no longer, and neighbours in `l`, all of them. -/
structure Tells (ext : List (List α)) (l : List α) : Prop where
  sound : ∀ items ∈ ext, ∀ a b, Adjacent a b items → Adjacent a b l
  complete : ∀ a b, Adjacent a b l → ∃ items ∈ ext, Adjacent a b items
  single : ∀ x, [x] ∈ ext → l = [x]

theorem tells_itself (l : List α) : Tells [l] l where
  sound := by simp
  complete := fun a b h => ⟨l, by simp, h⟩
  single := fun x h => by simpa using Eq.symm (List.mem_singleton.1 h)

theorem Tells.constrains {ext : List (List α)} {l : List α} (h : Tells ext l) (hist : List (List α)) {a b : α} (hab : Adjacent a b l) :
    Constrains (hist ++ ext) a b := by
  obtain ⟨items, hi, hab'⟩ := h.complete a b hab
  obtain ⟨pre, post, rfl⟩ := List.append_of_mem hi
  refine ⟨hist ++ pre, items, post, by simp, hab', fun hx => ?_⟩
  have := h.single a (by simp [hx])
  rw [this] at hab
  exact not_adjacent_single hab

theorem adjacent_of_mem {l : List α} (hl : 2 ≤ l.length) {x : α} (hx : x ∈ l) : ∃ y, Adjacent x y l ∨ Adjacent y x l := by
  obtain ⟨p, q, rfl⟩ := List.append_of_mem hx
  cases q with
  | cons y q => exact ⟨y, .inl ⟨p, q, rfl⟩⟩
  | nil =>
    rcases List.eq_nil_or_concat p with rfl | ⟨p', y, rfl⟩
    · simp at hl
    · exact ⟨y, .inr ⟨p', [], by simp⟩⟩

/-- Nothing is added to what is known, and nothing forgotten. -/
theorem Tells.arranges {ext : List (List α)} {l : List α} (h : Tells ext l) {hist : List (List α)} (hl : Arranges hist l) : Arranges (hist ++ ext) l := by
  refine ⟨hl.1, fun x => ⟨fun hx => ?_, fun hx => ?_⟩⟩
  · by_cases h2 : 2 ≤ l.length
    · obtain ⟨y, hy | hy⟩ := adjacent_of_mem h2 hx
      · obtain ⟨items, hi, hab⟩ := h.complete _ _ hy
        exact .inr (.inl ⟨items, by simp [hi], y, hab⟩)
      · exact .inr (.inr ⟨y, h.constrains hist hy⟩)
    · have e : l = [x] := by
        match l, h2, hx with
        | [], _, hx => simp at hx
        | [y], _, hx => simp at hx; rw [hx]
        | _ :: _ :: _, h2, _ => simp at h2
      rcases (hl.2 x).1 hx with hk | ⟨items, hi, b, hb⟩ | ⟨a, ha⟩
      · exact .inl (by simp [hk])
      · exact .inr (.inl ⟨items, by simp [hi], b, hb⟩)
      · have ha' : a ∈ l := (hl.2 a).2 (by
          obtain ⟨pre, items, post, rfl, hab, -⟩ := ha
          exact .inr (.inl ⟨items, by simp, x, hab⟩))
        rw [e, List.mem_singleton] at ha'
        subst ha'
        obtain ⟨pre, items, post, rfl, hab, -⟩ := ha
        exact .inr (.inl ⟨items, by simp, a, hab⟩)
  · rcases hx with hk | ⟨items, hi, b, hb⟩ | ⟨a, ha⟩
    · rcases List.mem_append.1 hk with hk | hk
      · exact (hl.2 x).2 (.inl hk)
      · rw [h.single x hk]; simp
    · rcases List.mem_append.1 hi with hi | hi
      · exact (hl.2 x).2 (.inr (.inl ⟨items, hi, b, hb⟩))
      · exact (h.sound items hi x b hb).precedes.mem.1
    · rcases constrains_append ha with ⟨ha, -⟩ | ⟨items, hi, hab⟩
      · exact (hl.2 x).2 (.inr (.inr ⟨a, ha⟩))
      · exact (h.sound items hi a x hab).precedes.mem.2

section
variable [DecidableEq α]

/-- The order told after the constraints comes out if it is compatible with them. -/
theorem told {hist ext : List (List α)} {l : List α} (ht : Tells ext l) (hl : Arranges hist l) (hc : Compatible hist l) :
    ∀ r m', Order (addAll [] (hist ++ ext)) r m' → r = some l := by
  refine settled (ht.arranges hl) (fun a b hab => ?_) (fun a b hab => ht.constrains hist hab)
  rcases constrains_append hab with ⟨h, -⟩ | ⟨items, hi, h⟩
  · exact hc a b h
  · exact (ht.sound items hi a b h).precedes

/-- … and otherwise sorting fails, if there is more than one item. -/
theorem told_wrong {hist ext : List (List α)} {l : List α} (ht : Tells ext l) (hl : Arranges hist l) (h2 : 2 ≤ l.length)
    (hc : ¬ Compatible hist l) : ∀ r m', Order (addAll [] (hist ++ ext)) r m' → r = none := by
  intro r m' ho
  cases r with
  | none => rfl
  | some out =>
    exfalso
    apply hc
    obtain ⟨h1, h2'⟩ := C19_permutation _ out m' ho
    have hl' := ht.arranges hl
    have e : l = out := order_eq hl.1 h1 (fun x => by rw [hl'.2, h2'])
      (precedes_of_adjacent h1 fun a b hab => C18_respects_constraints _ out m' ho a b (ht.constrains hist hab))
    subst e
    intro a b hab
    refine C18_respects_constraints _ l m' ho a b (constrains_kept hab fun hx => ?_)
    rw [ht.single a hx] at h2
    simp at h2

/-! ## The sorter -/

/-- **C159** Every order of the known items that is compatible with the constraints can be had: add it, and it is what `Order` returns,
whatever the order in which maps are walked through. -/
theorem C159_can_be_had (hist : List (List α)) (l : List α) (hl : Arranges hist l) (hc : Compatible hist l) :
    (∃ m', Order (addAll [] (hist ++ [l])) (some l) m') ∧ ∀ r m', Order (addAll [] (hist ++ [l])) r m' → r = some l := by
  have h := told (tells_itself l) hl hc
  obtain ⟨r, m', ho⟩ := (C20_fails_iff_cycle (hist ++ [l])).1
  refine ⟨⟨m', ?_⟩, h⟩
  rw [← h r m' ho]
  exact ho

/-- **C159** An order that has been returned can be kept: added to the same constraints it is returned every time. -/
theorem C159_kept (hist : List (List α)) (l : List α) (m : Orderings α) (ho : Order (addAll [] hist) (some l) m) :
    ∀ r m', Order (addAll [] (hist ++ [l])) r m' → r = some l :=
  (C159_can_be_had hist l (C19_permutation hist l m ho) (C18_respects_constraints hist l m ho)).2

/-- **C159** An order can be checked: added to the constraints it makes `Order` fail exactly if it is not compatible with them. -/
theorem C159_checked (hist : List (List α)) (l : List α) (hl : Arranges hist l) (h2 : 2 ≤ l.length) :
    ∀ r m', Order (addAll [] (hist ++ [l])) r m' → (r = none ↔ ¬ Compatible hist l) := by
  intro r m' ho
  by_cases hc : Compatible hist l
  · rw [told (tells_itself l) hl hc r m' ho]
    simp [hc]
  · rw [told_wrong (tells_itself l) hl h2 hc r m' ho]
    simp [hc]

/-- **C159** An order alone is returned as it is. -/
theorem C159_alone (l : List α) (hl : l.Nodup) : ∀ r m', Order (addAll [] [l]) r m' → r = some l := by
  by_cases h2 : 2 ≤ l.length
  · have ha : ∀ {a b}, Constrains [l] a b ↔ Adjacent a b l := by
      intro a b
      constructor
      · intro h
        rcases constrains_append (hist := []) h with ⟨⟨pre, items, post, e, -⟩, -⟩ | ⟨items, hi, h⟩
        · simp at e
        · rwa [List.mem_singleton.1 hi] at h
      · intro h; exact (tells_itself l).constrains [] h
    refine settled ⟨hl, fun x => ⟨fun hx => ?_, fun hx => ?_⟩⟩ (fun a b h => (ha.1 h).precedes) (fun a b h => ha.2 h)
    · obtain ⟨y, hy | hy⟩ := adjacent_of_mem h2 hx
      · exact .inr (.inl ⟨l, by simp, y, hy⟩)
      · exact .inr (.inr ⟨y, ha.2 hy⟩)
    · rcases hx with hk | ⟨items, hi, b, hb⟩ | ⟨a, h⟩
      · rw [← List.mem_singleton.1 hk]; simp
      · rw [List.mem_singleton.1 hi] at hb; exact hb.precedes.mem.1
      · exact (ha.1 h).precedes.mem.2
  · have nc : ∀ a b, ¬ Constrains [l] a b := by
      intro a b h
      rcases constrains_append (hist := []) h with ⟨⟨pre, items, post, e, -⟩, -⟩ | ⟨items, hi, ⟨pre, post, e⟩⟩
      · simp at e
      · rw [List.mem_singleton.1 hi] at e
        rw [e] at h2
        simp at h2
        omega
    have na : ∀ a b, ¬ Adjacent a b l := by
      rintro a b ⟨pre, post, e⟩
      rw [e] at h2
      simp at h2
      omega
    refine settled ⟨hl, fun x => ⟨fun hx => ?_, fun hx => ?_⟩⟩ (fun a b h => absurd h (nc a b)) (fun a b h => absurd h (na a b))
    · refine .inl ?_
      match l, h2, hx with
      | [y], _, hx => simp at hx; simp [hx]
      | _ :: _ :: _, h2, _ => simp at h2
    · rcases hx with hk | ⟨items, hi, b, hb⟩ | ⟨a, h⟩
      · rw [← List.mem_singleton.1 hk]; simp
      · rw [List.mem_singleton.1 hi] at hb; exact absurd hb (na _ _)
      · exact absurd h (nc _ _)

end

/-! ## The command -/

/-- An order as pairs for the command: each item with the next; a single item with itself. -/
def chain : List Bytes → List (Bytes × Bytes)
  | [] => []
  | [x] => [(x, x)]
  | l => l.zip l.tail

theorem mem_zip_tail (l : List Bytes) (a b : Bytes) : (a, b) ∈ l.zip l.tail ↔ Adjacent a b l := by
  induction l with
  | nil => simp [Adjacent]
  | cons x l ih =>
    rw [adjacent_first, ← ih]
    cases l with
    | nil => simp
    | cons y l => simp [eq_comm]

theorem chain_tells (l : List Bytes) (hl : l.Nodup) : Tells (pairHist (chain l)) l := by
  match l, hl with
  | [], _ =>
    refine ⟨by simp [chain, pairHist], ?_, by simp [chain, pairHist]⟩
    rintro a b ⟨pre, post, h⟩
    simp at h
  | [x], _ => simpa [chain, pairHist] using tells_itself [x]
  | x :: y :: l, hl =>
    have hne : ∀ a b, Adjacent a b (x :: y :: l) → a ≠ b := by
      rintro a b h rfl
      exact precedes_irrefl hl a h.precedes
    have hm : ∀ items, items ∈ pairHist (chain (x :: y :: l)) ↔ ∃ a b, Adjacent a b (x :: y :: l) ∧ items = [a, b] := by
      intro items
      simp only [pairHist, chain, List.mem_map, Prod.exists]
      constructor
      · rintro ⟨a, b, h, rfl⟩
        rw [mem_zip_tail] at h
        exact ⟨a, b, h, by simp [hne a b h]⟩
      · rintro ⟨a, b, h, rfl⟩
        exact ⟨a, b, (mem_zip_tail _ a b).2 h, by simp [hne a b h]⟩
    refine ⟨fun items hi a b h => ?_, fun a b h => ⟨[a, b], (hm _).2 ⟨a, b, h, rfl⟩, ⟨[], [], rfl⟩⟩, fun z hz => ?_⟩
    · obtain ⟨a', b', h', rfl⟩ := (hm items).1 hi
      rcases adjacent_first.1 h with ⟨rfl, e⟩ | h
      · simp only [List.head?_cons, Option.some.injEq] at e
        exact e ▸ h'
      · exact absurd h not_adjacent_single
    · obtain ⟨a', b', h', e⟩ := (hm _).1 hz
      simp at e

theorem known_words {ps : List (Bytes × Bytes)} {x : Bytes} (h : Known (pairHist ps) x) : x ∈ pairWords ps := by
  have hi : ∀ items ∈ pairHist ps, ∀ y ∈ items, y ∈ pairWords ps := by
    intro items hi y hy
    obtain ⟨p, hp, rfl⟩ := List.mem_map.1 hi
    refine List.mem_flatMap.2 ⟨p, hp, ?_⟩
    split at hy <;> simp_all
  rcases h with h | ⟨items, h, b, pre, post, rfl⟩ | ⟨a, pre, items, post, e, ⟨p, q, rfl⟩, -⟩
  · exact hi _ h x (by simp)
  · exact hi _ h x (by simp)
  · exact hi (p ++ a :: x :: q) (by rw [e]; simp) x (by simp)

theorem chain_words (l : List Bytes) : ∀ w ∈ pairWords (chain l), w ∈ l := by
  intro w hw
  obtain ⟨⟨a, b⟩, hp, hw⟩ := List.mem_flatMap.1 hw
  have : a ∈ l ∧ b ∈ l := by
    match l, hp with
    | [x], hp => simpa [chain] using hp
    | x :: y :: l, hp => exact ((mem_zip_tail _ a b).1 hp).precedes.mem
  simp only [List.mem_cons, List.not_mem_nil, or_false] at hw
  rcases hw with rfl | rfl
  · exact this.1
  · exact this.2

/-- **C159** The command: pairs followed by an order of their items, written as pairs, print that order every time if it is compatible with
the pairs, and nothing otherwise. -/
theorem C159_command (input : Bytes) (ps : List (Bytes × Bytes)) (l : List Bytes) (hl : Arranges (pairHist ps) l)
    (hwords : Words input (pairWords (ps ++ chain l))) (hshort : ∀ w ∈ pairWords (ps ++ chain l), w.length < 65534) :
    (Compatible (pairHist ps) l → ∀ out, Run input out ↔ out = { stdout := unlines l, stderr := [], exit := 0 }) ∧
    (2 ≤ l.length → ¬ Compatible (pairHist ps) l → ∀ out, Run input out → out.stdout = [] ∧ out.exit = 1) := by
  have e : pairHist (ps ++ chain l) = pairHist ps ++ pairHist (chain l) := by simp [pairHist]
  have ht := chain_tells l hl.1
  refine ⟨fun hc out => ?_, fun h2 hc out ho => ?_⟩
  · have h := told ht hl hc
    rw [run_iff _ _ hwords hshort, e]
    constructor
    · rintro ⟨r, m', ho, hr⟩
      rw [h r m' ho] at hr
      exact hr
    · intro hr
      obtain ⟨r, m', ho⟩ := (C20_fails_iff_cycle (pairHist ps ++ pairHist (chain l))).1
      rw [h r m' ho] at ho
      exact ⟨_, m', ho, hr⟩
  · rw [run_iff _ _ hwords hshort, e] at ho
    obtain ⟨r, m', ho, hr⟩ := ho
    rw [told_wrong ht hl h2 hc r m' ho] at hr
    dsimp only at hr
    rw [hr]
    exact ⟨rfl, rfl⟩

/-- **C159** What the command has printed, added to its input as pairs, makes it print the same every time. -/
theorem C159_printed (input : Bytes) (ps : List (Bytes × Bytes)) (hwords : Words input (pairWords ps))
    (hshort : ∀ w ∈ pairWords ps, w.length < 65534) (out : Out) (ho : Run input out) (h0 : out.exit = 0) :
    ∃ l, out.stdout = unlines l ∧ Arranges (pairHist ps) l ∧
      ∀ input', Words input' (pairWords (ps ++ chain l)) → ∀ out', Run input' out' ↔ out' = out := by
  rw [run_iff _ _ hwords hshort] at ho
  obtain ⟨r, m, ho, hr⟩ := ho
  cases r with
  | none => rw [hr] at h0; cases h0
  | some l =>
    dsimp only at hr
    subst hr
    have hl : Arranges (pairHist ps) l := C19_permutation _ l m ho
    refine ⟨l, rfl, hl, fun input' hw' => (C159_command input' ps l hl hw' ?_).1 (C18_respects_constraints _ l m ho)⟩
    intro w hw
    simp only [pairWords, List.flatMap_append, List.mem_append] at hw
    rcases hw with hw | hw
    · exact hshort w hw
    · exact hshort w (known_words ((hl.2 w).1 (chain_words l w hw)))

theorem two_pairs : Harmless [(b!"a", b!"b"), (b!"c", b!"d")] := by
  intro x h
  simp only [List.mem_cons, Prod.mk.injEq, List.not_mem_nil, or_false] at h
  rcases h with ⟨rfl, h⟩ | ⟨rfl, h⟩ <;> exact absurd h (by decide)

/-- An order of four items that is compatible with two pairs, and one that is not. -/
example : Arranges (pairHist [(b!"a", b!"b"), (b!"c", b!"d")]) [b!"a", b!"b", b!"c", b!"d"] ∧
    Arranges (pairHist [(b!"a", b!"b"), (b!"c", b!"d")]) [b!"b", b!"a", b!"c", b!"d"] ∧
    Compatible (pairHist [(b!"a", b!"b"), (b!"c", b!"d")]) [b!"a", b!"b", b!"c", b!"d"] ∧
    ¬ Compatible (pairHist [(b!"a", b!"b"), (b!"c", b!"d")]) [b!"b", b!"a", b!"c", b!"d"] := by
  refine ⟨⟨by decide, fun x => ?_⟩, ⟨by decide, fun x => ?_⟩, fun a b h => ?_, fun h => ?_⟩
  · rw [known_pairs _ two_pairs]; simp [or_assoc]
  · rw [known_pairs _ two_pairs]; simp [or_assoc, or_left_comm]
  · rw [constrains_pairs _ two_pairs] at h
    simp only [List.mem_cons, Prod.mk.injEq, List.not_mem_nil, or_false] at h
    rcases h.1 with ⟨rfl, rfl⟩ | ⟨rfl, rfl⟩
    · exact ⟨[], [], [b!"c", b!"d"], rfl⟩
    · exact ⟨[b!"a", b!"b"], [], [], rfl⟩
  · have := h b!"a" b!"b" ((constrains_pairs _ two_pairs _ _).2 (by simp))
    rcases precedes_first.1 this with ⟨h, -⟩ | h
    · exact absurd h (by decide)
    · exact absurd (precedes_mem h).2 (by decide)

end TSort
