import Verif.TSort.Spec
import Mathlib.Tactic.Tauto

/-! # Helper lemmas for tsort -/

namespace TSort
open Go

section
variable {α : Type} [DecidableEq α]

/-- Representation invariant of a Go map with duplicate-free values. -/
structure WF (m : Orderings α) : Prop where
  nodup : (keys m).Nodup
  vals : ∀ e ∈ m, e.2.Nodup

theorem get_cons (e : α × List α) (m : Orderings α) (k : α) :
    get (e :: m) k = if k = e.1 then e.2 else get m k := by
  obtain ⟨a, b⟩ := e
  unfold get
  rw [List.lookup_cons]
  by_cases h : k = a
  · simp [h]
  · have : (k == a) = false := by simpa using h
    simp [this, h]

theorem get_of_mem {m : Orderings α} (h : (keys m).Nodup) {e : α × List α} (he : e ∈ m) :
    get m e.1 = e.2 := by
  induction m with
  | nil => simp at he
  | cons x m ih =>
    simp only [keys, List.map_cons, List.nodup_cons] at h
    rw [get_cons]
    rcases List.mem_cons.1 he with rfl | he
    · simp
    · rw [if_neg, ih h.2 he]
      intro hk
      apply h.1
      rw [← hk]
      exact List.mem_map.2 ⟨e, he, rfl⟩

theorem mem_of_get {m : Orderings α} {k b : α} (h : b ∈ get m k) : ∃ v, (k, v) ∈ m ∧ b ∈ v := by
  induction m with
  | nil => simp [get] at h
  | cons x m ih =>
    rw [get_cons] at h
    split at h
    · next hk => exact ⟨x.2, by rw [hk]; simp, h⟩
    · obtain ⟨v, h1, h2⟩ := ih h
      exact ⟨v, by simp [h1], h2⟩

theorem get_delete (m : Orderings α) (k j : α) : get (delete m k) j = if j = k then [] else get m j := by
  induction m with
  | nil => simp [delete, get]
  | cons x m ih =>
    unfold delete at ih ⊢
    rw [List.filter_cons]
    by_cases hx : x.1 = k
    · have : decide (x.1 ≠ k) = false := by simp [hx]
      rw [this]
      simp only [Bool.false_eq_true, if_false]
      rw [ih, get_cons]
      by_cases hj : j = k
      · simp [hj]
      · simp [hj, hx]
    · have : decide (x.1 ≠ k) = true := by simp [hx]
      rw [this]
      simp only [if_true]
      rw [get_cons, get_cons, ih]
      by_cases hj : j = k
      · have : j ≠ x.1 := fun e => hx (e ▸ hj)
        have hx' : ¬ k = x.1 := fun e => hx e.symm
        simp [hj, hx']
      · simp [hj]

theorem keys_delete (m : Orderings α) (k : α) : keys (delete m k) = (keys m).filter (fun x => x ≠ k) := by
  simp only [keys, delete]
  rw [List.filter_map]
  rfl

theorem WF.delete {m : Orderings α} (h : WF m) (k : α) : WF (delete m k) := by
  constructor
  · rw [keys_delete]; exact h.nodup.filter _
  · intro e he; exact h.vals e (List.mem_filter.1 he).1

theorem get_nodup {m : Orderings α} (h : WF m) (k : α) : (get m k).Nodup := by
  induction m with
  | nil => simp [get]
  | cons x m ih =>
    rw [get_cons]
    split
    · exact h.vals x (by simp)
    · exact ih ⟨by have := h.nodup; simp [keys] at this ⊢; exact this.2, fun e he => h.vals e (by simp [he])⟩

theorem isBlocked_iff {m : Orderings α} (h : (keys m).Nodup) (n : α) :
    isBlocked m n = true ↔ ∃ k, n ∈ get m k := by
  simp only [isBlocked, List.any_eq_true, decide_eq_true_eq]
  constructor
  · rintro ⟨e, he, i, hi, rfl⟩
    exact ⟨e.1, by rw [get_of_mem h he]; exact hi⟩
  · rintro ⟨k, hk⟩
    obtain ⟨v, h1, h2⟩ := mem_of_get hk
    exact ⟨(k, v), h1, n, h2, rfl⟩

theorem mem_heads_iff {m : Orderings α} (h : (keys m).Nodup) (x : α) :
    x ∈ heads m ↔ x ∈ keys m ∧ ¬ ∃ k, x ∈ get m k := by
  simp only [heads, List.mem_filter, Bool.not_eq_true', List.any_eq_false, List.contains_iff_mem]
  constructor
  · rintro ⟨h1, h2⟩
    refine ⟨h1, ?_⟩
    rintro ⟨k, hk⟩
    obtain ⟨v, g1, g2⟩ := mem_of_get hk
    exact h2 _ g1 g2
  · rintro ⟨h1, h2⟩
    refine ⟨h1, fun e he hx => h2 ⟨e.1, ?_⟩⟩
    rw [get_of_mem h he]; exact hx

theorem mem_keys_of_get {m : Orderings α} {k b : α} (h : b ∈ get m k) : k ∈ keys m := by
  obtain ⟨v, h1, _⟩ := mem_of_get h
  exact List.mem_map.2 ⟨_, h1, rfl⟩

/-- Everything the sorter knows: keys and successors. -/
def IsItem (m : Orderings α) (x : α) : Prop := x ∈ keys m ∨ ∃ k, x ∈ get m k

/-- Total number of successors stored. -/
def weight (m : Orderings α) : Nat := (m.map (·.2.length)).sum

theorem weight_delete (m : Orderings α) (k : α) : weight (delete m k) + (get m k).length ≤ weight m := by
  induction m with
  | nil => simp [weight, delete, get]
  | cons x m ih =>
    rw [get_cons]
    unfold delete weight at *
    rw [List.filter_cons]
    by_cases hx : x.1 = k
    · have : decide (x.1 ≠ k) = false := by simp [hx]
      rw [this]
      simp only [Bool.false_eq_true, if_false, hx, if_true]
      simp at ih ⊢
      omega
    · have : decide (x.1 ≠ k) = true := by simp [hx]
      rw [this]
      simp only [if_true, if_neg (fun e : k = x.1 => hx e.symm)]
      simp at ih ⊢
      omega

/-- The loop ends within `len(candidates) + number of stored successors` rounds. -/
theorem orderLoop_total (fuel : Nat) : ∀ (cs : List α) (m : Orderings α) (out : List α),
    cs.length + weight m ≤ fuel → ∃ r, orderLoop fuel cs m out = some r := by
  induction fuel with
  | zero =>
    intro cs m out h
    have : cs = [] := List.length_eq_zero_iff.1 (by omega)
    subst this
    exact ⟨_, rfl⟩
  | succ fuel ih =>
    intro cs m out h
    cases cs with
    | nil => exact ⟨_, rfl⟩
    | cons c cs =>
      simp only [orderLoop]
      apply ih
      have h1 := weight_delete m c
      have h2 := List.length_filter_le (fun u => !isBlocked (delete m c) u) (get m c)
      simp at h ⊢
      omega

theorem orderLoop_mono (fuel : Nat) : ∀ (cs : List α) (m : Orderings α) (out : List α) r,
    orderLoop fuel cs m out = some r → orderLoop (fuel + 1) cs m out = some r := by
  induction fuel with
  | zero =>
    intro cs m out r h
    cases cs with
    | nil => simpa [orderLoop] using h
    | cons c cs => simp [orderLoop] at h
  | succ fuel ih =>
    intro cs m out r h
    cases cs with
    | nil => simpa [orderLoop] using h
    | cons c cs =>
      rw [orderLoop] at h ⊢
      exact ih _ _ _ _ h

theorem orderLoop_det {f g : Nat} {cs : List α} {m : Orderings α} {out : List α} {r r'}
    (h1 : orderLoop f cs m out = some r) (h2 : orderLoop g cs m out = some r') : r = r' := by
  have mono : ∀ k f r, orderLoop f cs m out = some r → orderLoop (f + k) cs m out = some r := by
    intro k
    induction k with
    | zero => intro f r h; exact h
    | succ k ih => intro f r h; exact orderLoop_mono _ _ _ _ _ (ih f r h)
  have a := mono g f r h1
  have b := mono f g r' h2
  rw [Nat.add_comm] at a
  rw [a] at b
  exact Option.some.inj b

/-- Loop invariant of `Order`, relative to the orderings `m0` at the start. -/
structure Inv (m0 : Orderings α) (cs : List α) (m : Orderings α) (out : List α) : Prop where
  wf : WF m
  got : ∀ k, get m k = if k ∈ out then [] else get m0 k
  ks : ∀ k, k ∈ keys m ↔ k ∈ keys m0 ∧ k ∉ out
  nodup : (out ++ cs).Nodup
  free : ∀ x ∈ out ++ cs, ¬ ∃ k, x ∈ get m k
  items : ∀ x ∈ out ++ cs, IsItem m0 x
  complete : ∀ x, IsItem m0 x → (¬ ∃ k, x ∈ get m k) → x ∈ out ++ cs
  sorted : ∀ pre x post, out = pre ++ x :: post → ∀ a, x ∈ get m0 a → a ∈ pre

theorem inv_init {m : Orderings α} (h : WF m) {hs : List α} (hh : IsHeads m hs) : Inv m hs m [] := by
  have hmem : ∀ x, x ∈ hs ↔ x ∈ heads m := fun x => hh.mem_iff
  refine ⟨h, by simp, by simp, ?_, ?_, ?_, ?_, ?_⟩
  · simp only [List.nil_append]
    exact hh.nodup_iff.2 (h.nodup.filter _)
  · intro x hx
    simp only [List.nil_append, hmem, mem_heads_iff h.nodup] at hx
    exact hx.2
  · intro x hx
    simp only [List.nil_append, hmem, mem_heads_iff h.nodup] at hx
    exact .inl hx.1
  · intro x hx hb
    simp only [List.nil_append, hmem, mem_heads_iff h.nodup]
    rcases hx with hx | hx
    · exact ⟨hx, hb⟩
    · exact absurd hx hb
  · intro pre x post he
    simp at he

theorem inv_step {m0 : Orderings α} {c : α} {cs : List α} {m : Orderings α} {out : List α}
    (h : Inv m0 (c :: cs) m out) :
    Inv m0 (cs ++ (get m c).filter (fun u => !isBlocked (delete m c) u)) (delete m c) (out ++ [c]) := by
  have hwf' := h.wf.delete c
  have hcfree : ¬ ∃ k, c ∈ get m k := h.free c (by simp)
  have hnd := h.nodup
  have hnew : ∀ u, u ∈ (get m c).filter (fun u => !isBlocked (delete m c) u) ↔
      u ∈ get m c ∧ ¬ ∃ k, u ∈ get (delete m c) k := by
    intro u
    rw [List.mem_filter, ← isBlocked_iff hwf'.nodup]
    simp
  refine ⟨hwf', ?_, ?_, ?_, ?_, ?_, ?_, ?_⟩
  · intro k
    rw [get_delete, h.got k]
    by_cases hk : k = c
    · simp [hk]
    · simp [hk]
  · intro k
    rw [keys_delete]
    simp only [List.mem_filter, h.ks, List.mem_append, List.mem_singleton, decide_eq_true_eq, not_or]
    tauto
  · have e : out ++ [c] ++ (cs ++ (get m c).filter (fun u => !isBlocked (delete m c) u)) =
        (out ++ c :: cs) ++ (get m c).filter (fun u => !isBlocked (delete m c) u) := by simp
    rw [e]
    rw [List.nodup_append]
    refine ⟨hnd, (get_nodup h.wf c).filter _, ?_⟩
    intro x hx y hy hxy
    subst hxy
    exact h.free x hx ⟨c, ((hnew x).1 hy).1⟩
  · intro x hx
    have e : x ∈ out ++ c :: cs ∨ x ∈ (get m c).filter (fun u => !isBlocked (delete m c) u) := by
      simp only [List.mem_append, List.mem_cons, List.mem_singleton] at hx ⊢
      tauto
    rcases e with e | e
    · rintro ⟨k, hk⟩
      rw [get_delete] at hk
      split at hk
      · simp at hk
      · exact h.free x e ⟨k, hk⟩
    · exact ((hnew x).1 e).2
  · intro x hx
    have e : x ∈ out ++ c :: cs ∨ x ∈ (get m c).filter (fun u => !isBlocked (delete m c) u) := by
      simp only [List.mem_append, List.mem_cons, List.mem_singleton] at hx ⊢
      tauto
    rcases e with e | e
    · exact h.items x e
    · have := ((hnew x).1 e).1
      rw [h.got c] at this
      split at this
      · simp at this
      · exact .inr ⟨c, this⟩
  · intro x hx hb
    by_cases hm : ∃ k, x ∈ get m k
    · have hxc : x ∈ get m c := by
        obtain ⟨k, hk⟩ := hm
        by_cases hkc : k = c
        · exact hkc ▸ hk
        · exfalso; apply hb
          exact ⟨k, by rw [get_delete, if_neg hkc]; exact hk⟩
      have := (hnew x).2 ⟨hxc, hb⟩
      simp only [List.mem_append]
      exact .inr (.inr this)
    · have := h.complete x hx hm
      simp only [List.mem_append, List.mem_cons, List.mem_singleton] at this ⊢
      tauto
  · intro pre x post he a ha
    rcases List.eq_nil_or_concat post with rfl | ⟨post', z, rfl⟩
    · have he' : out ++ [c] = pre ++ [x] := by simpa using he
      obtain ⟨rfl, hxc⟩ := List.append_inj' he' rfl
      simp at hxc
      subst hxc
      apply Classical.byContradiction
      intro hna
      exact hcfree ⟨a, by rw [h.got a, if_neg hna]; exact ha⟩
    · have he' : out ++ [c] = (pre ++ x :: post') ++ [z] := by simpa using he
      obtain ⟨e1, _⟩ := List.append_inj' he' rfl
      exact h.sorted pre x post' e1 a ha

theorem inv_loop {m0 : Orderings α} (fuel : Nat) : ∀ (cs : List α) (m : Orderings α) (out out' : List α)
    (m' : Orderings α), Inv m0 cs m out → orderLoop fuel cs m out = some (out', m') →
    Inv m0 [] m' out' := by
  induction fuel with
  | zero =>
    intro cs m out out' m' h hr
    cases cs with
    | nil => simp [orderLoop] at hr; obtain ⟨rfl, rfl⟩ := hr; exact h
    | cons c cs => simp [orderLoop] at hr
  | succ fuel ih =>
    intro cs m out out' m' h hr
    cases cs with
    | nil => simp [orderLoop] at hr; obtain ⟨rfl, rfl⟩ := hr; exact h
    | cons c cs =>
      rw [orderLoop] at hr
      exact ih _ _ _ _ _ (inv_step h) hr

theorem order_inv {m : Orderings α} (h : WF m) {r m'} (ho : Order m r m') :
    ∃ out, Inv m [] m' out ∧ r = if m'.length > 0 then none else some out := by
  obtain ⟨hs, fuel, hh, hf⟩ := ho
  unfold orderFuel at hf
  cases hl : orderLoop fuel hs m [] with
  | none => simp [hl] at hf
  | some p =>
    obtain ⟨out, m1⟩ := p
    simp only [hl, Option.some.injEq, Prod.mk.injEq] at hf
    obtain ⟨rfl, rfl⟩ := hf
    exact ⟨out, inv_loop _ _ _ _ _ _ (inv_init h hh) hl, rfl⟩

omit [DecidableEq α] in
/-- A finite non-empty set without cycles has an element without predecessor in it. -/
theorem exists_minimal {R : α → α → Prop} (hR : ∀ a, ¬ Relation.TransGen R a a) (S : List α) (hS : S ≠ []) :
    ∃ x ∈ S, ∀ y ∈ S, ¬ Relation.TransGen R y x := by
  induction S with
  | nil => exact absurd rfl hS
  | cons x S ih =>
    by_cases hS' : S = []
    · subst hS'
      exact ⟨x, by simp, by intro y hy; simp at hy; subst hy; exact hR y⟩
    · obtain ⟨z, hz, hmin⟩ := ih hS'
      by_cases hxz : Relation.TransGen R x z
      · refine ⟨x, by simp, ?_⟩
        intro y hy
        rcases List.mem_cons.1 hy with rfl | hy
        · exact hR y
        · exact fun h => hmin y hy (h.trans hxz)
      · refine ⟨z, by simp [hz], ?_⟩
        intro y hy
        rcases List.mem_cons.1 hy with rfl | hy
        · exact hxz
        · exact hmin y hy

/-! ## `Add` -/

theorem get_set (m : Orderings α) (k : α) (v : List α) (j : α) :
    get (set m k v) j = if j = k then v else get m j := by
  induction m with
  | nil => simp [set, get_cons]
  | cons x m ih =>
    obtain ⟨a, b⟩ := x
    simp only [set]
    split
    · next h =>
      subst h
      rw [get_cons, get_cons]
      split <;> simp_all
    · next h =>
      rw [get_cons, get_cons, ih]
      by_cases hj : j = k
      · have : j ≠ a := fun e => h (e ▸ hj)
        have h' : ¬ k = a := fun e => h e.symm
        simp [hj, h']
      · simp [hj]

theorem mem_keys_set (m : Orderings α) (k : α) (v : List α) (j : α) :
    j ∈ keys (set m k v) ↔ j = k ∨ j ∈ keys m := by
  induction m with
  | nil => simp [set, keys]
  | cons x m ih =>
    obtain ⟨a, b⟩ := x
    simp only [set]
    split
    · next h => subst h; simp [keys]
    · next h =>
      simp only [keys, List.map_cons, List.mem_cons] at ih ⊢
      rw [ih]
      tauto

theorem WF.set {m : Orderings α} (h : WF m) (k : α) (v : List α) (hv : v.Nodup) : WF (set m k v) := by
  induction m with
  | nil => exact ⟨by simp [TSort.set, keys], by simp [TSort.set, hv]⟩
  | cons x m ih =>
    obtain ⟨a, b⟩ := x
    have h1 := h.nodup
    simp only [keys, List.map_cons, List.nodup_cons] at h1
    have hm : WF m := ⟨h1.2, fun e he => h.vals e (by simp [he])⟩
    simp only [TSort.set]
    split
    · next hak =>
      subst hak
      refine ⟨by simpa [keys] using h1, ?_⟩
      intro e he
      rcases List.mem_cons.1 he with rfl | he
      · exact hv
      · exact hm.vals e he
    · next hak =>
      have ih := ih hm
      refine ⟨?_, ?_⟩
      · simp only [keys, List.map_cons, List.nodup_cons]
        refine ⟨?_, ih.nodup⟩
        intro hmem
        have := (mem_keys_set m k v a).1 hmem
        rcases this with rfl | this
        · exact hak rfl
        · exact h1.1 this
      · intro e he
        rcases List.mem_cons.1 he with rfl | he
        · exact h.vals (a, b) (by simp)
        · exact ih.vals e he

theorem inSlice_iff (l : List α) (x : α) : inSlice l x = true ↔ x ∈ l := by
  simp [inSlice]

/-- One pair. -/
def addPair (m : Orderings α) (a b : α) : Orderings α :=
  if !inSlice (get m a) b then set m a (get m a ++ [b]) else m

theorem WF.addPair {m : Orderings α} (h : WF m) (a b : α) : WF (addPair m a b) := by
  unfold TSort.addPair
  split
  · next hn =>
    apply h.set
    have hb : b ∉ get m a := by
      intro hb; rw [(inSlice_iff _ _).2 hb] at hn; simp at hn
    rw [List.nodup_append]
    refine ⟨get_nodup h a, by simp, ?_⟩
    intro x hx y hy hxy
    simp at hy
    subst hy hxy
    exact hb hx
  · exact h

theorem mem_get_addPair (m : Orderings α) (a b k x : α) :
    x ∈ get (addPair m a b) k ↔ x ∈ get m k ∨ (k = a ∧ x = b) := by
  unfold addPair
  split
  · rw [get_set]
    by_cases hk : k = a
    · subst hk; simp
    · simp [hk]
  · next hn =>
    have hb : b ∈ get m a := by
      rw [← inSlice_iff]; simpa using hn
    constructor
    · exact .inl
    · rintro (h | ⟨rfl, rfl⟩)
      · exact h
      · exact hb

theorem mem_keys_addPair (m : Orderings α) (a b k : α) :
    k ∈ keys (addPair m a b) ↔ k = a ∨ k ∈ keys m := by
  unfold addPair
  split
  · exact mem_keys_set _ _ _ _
  · next hn =>
    have hb : b ∈ get m a := by
      rw [← inSlice_iff]; simpa using hn
    constructor
    · exact .inr
    · rintro (rfl | h)
      · exact mem_keys_of_get hb
      · exact h

omit [DecidableEq α] in
theorem adjacent_cons (a b x y : α) (l : List α) :
    Adjacent a b (x :: y :: l) ↔ (a = x ∧ b = y) ∨ Adjacent a b (y :: l) := by
  constructor
  · rintro ⟨pre, post, h⟩
    cases pre with
    | nil => simp at h; exact .inl ⟨h.1.symm, h.2.1.symm⟩
    | cons p pre => simp at h; exact .inr ⟨pre, post, h.2⟩
  · rintro (⟨rfl, rfl⟩ | ⟨pre, post, h⟩)
    · exact ⟨[], l, rfl⟩
    · exact ⟨x :: pre, post, by simp [h]⟩

omit [DecidableEq α] in
theorem not_adjacent_short (a b : α) (l : List α) (h : l.length ≤ 1) : ¬ Adjacent a b l := by
  rintro ⟨pre, post, rfl⟩
  simp at h
  omega

theorem addPairs_spec (items : List α) : ∀ (m : Orderings α), WF m →
    WF (addPairs m items) ∧
    (∀ k x, x ∈ get (addPairs m items) k ↔ x ∈ get m k ∨ Adjacent k x items) ∧
    (∀ k, k ∈ keys (addPairs m items) ↔ k ∈ keys m ∨ ∃ x, Adjacent k x items) := by
  induction items with
  | nil =>
    intro m h
    refine ⟨h, fun k x => ?_, fun k => ?_⟩
    · simp [addPairs, not_adjacent_short k x [] (by simp)]
    · simp [addPairs, fun x => not_adjacent_short k x [] (by simp)]
  | cons a items ih =>
    intro m h
    cases items with
    | nil =>
      refine ⟨h, fun k x => ?_, fun k => ?_⟩
      · simp [addPairs, not_adjacent_short k x [a] (by simp)]
      · simp [addPairs, fun x => not_adjacent_short k x [a] (by simp)]
    | cons b rest =>
      have e : addPairs m (a :: b :: rest) = addPairs (addPair m a b) (b :: rest) := rfl
      rw [e]
      obtain ⟨i1, i2, i3⟩ := ih (addPair m a b) (h.addPair a b)
      refine ⟨i1, fun k x => ?_, fun k => ?_⟩
      · rw [i2, mem_get_addPair, adjacent_cons]; tauto
      · rw [i3, mem_keys_addPair]
        simp only [adjacent_cons]
        constructor
        · rintro ((rfl | h) | ⟨x, h⟩)
          · exact .inr ⟨b, .inl ⟨rfl, rfl⟩⟩
          · exact .inl h
          · exact .inr ⟨x, .inr h⟩
        · rintro (h | ⟨x, ⟨rfl, _⟩ | h⟩)
          · exact .inl (.inr h)
          · exact .inl (.inl rfl)
          · exact .inr ⟨x, h⟩

theorem add_spec (items : List α) (m : Orderings α) (h : WF m) :
    WF (add m items) ∧
    (∀ k x, x ∈ get (add m items) k ↔ (x ∈ get m k ∧ items ≠ [k]) ∨ Adjacent k x items) ∧
    (∀ k, k ∈ keys (add m items) ↔ k ∈ keys m ∨ items = [k] ∨ ∃ x, Adjacent k x items) := by
  match items with
  | [] =>
    refine ⟨h, fun k x => ?_, fun k => ?_⟩
    · simp [add, not_adjacent_short k x [] (by simp)]
    · simp [add, fun x => not_adjacent_short k x [] (by simp)]
  | [y] =>
    refine ⟨h.set y [] (by simp), fun k x => ?_, fun k => ?_⟩
    · simp only [add, get_set, not_adjacent_short k x [y] (by simp), or_false]
      by_cases hk : k = y
      · subst hk; simp
      · have hk' : ¬ y = k := fun e => hk e.symm
        simp [hk, hk']
    · simp only [add, mem_keys_set, fun x => not_adjacent_short k x [y] (by simp), List.cons.injEq, and_true,
        exists_false, or_false]
      constructor
      · rintro (rfl | h)
        · exact .inr rfl
        · exact .inl h
      · rintro (h | rfl)
        · exact .inr h
        · exact .inl rfl
  | y :: z :: rest =>
    obtain ⟨i1, i2, i3⟩ := addPairs_spec (y :: z :: rest) m h
    refine ⟨i1, fun k x => ?_, fun k => ?_⟩
    · have := i2 k x
      simp only [add]
      rw [this]; simp
    · have := i3 k
      simp only [add]
      rw [this]; simp

theorem wf_nil : WF ([] : Orderings α) := ⟨by simp [keys], by simp⟩

theorem addAll_append (m : Orderings α) (h1 h2 : List (List α)) :
    addAll m (h1 ++ h2) = addAll (addAll m h1) h2 := by simp [addAll]

omit [DecidableEq α] in
theorem constrains_snoc (hist : List (List α)) (items : List α) (a b : α) :
    Constrains (hist ++ [items]) a b ↔ (Constrains hist a b ∧ items ≠ [a]) ∨ Adjacent a b items := by
  constructor
  · rintro ⟨pre, it, post, he, ha, hn⟩
    rcases List.eq_nil_or_concat post with rfl | ⟨post', z, rfl⟩
    · have he' : hist ++ [items] = pre ++ [it] := he
      obtain ⟨_, h2⟩ := List.append_inj' he' rfl
      simp at h2
      exact .inr (h2 ▸ ha)
    · have he' : hist ++ [items] = (pre ++ it :: post') ++ [z] := by simpa using he
      obtain ⟨h1, h2⟩ := List.append_inj' he' rfl
      simp at h2 hn
      exact .inl ⟨⟨pre, it, post', h1, ha, hn.1⟩, by rw [h2]; exact fun e => hn.2 e.symm⟩
  · rintro (⟨⟨pre, it, post, he, ha, hn⟩, hne⟩ | h)
    · refine ⟨pre, it, post ++ [items], by simp [he], ha, ?_⟩
      simp only [List.mem_append, List.mem_singleton, not_or]
      exact ⟨hn, fun e => hne e.symm⟩
    · exact ⟨hist, items, [], rfl, h, by simp⟩

omit [DecidableEq α] in
theorem not_constrains_nil (a b : α) : ¬ Constrains [] a b := by
  rintro ⟨pre, it, post, he, _⟩
  simp at he

theorem addAll_spec (hist : List (List α)) :
    WF (addAll [] hist) ∧
    (∀ a b, b ∈ get (addAll [] hist) a ↔ Constrains hist a b) ∧
    (∀ k, k ∈ keys (addAll [] hist) ↔ [k] ∈ hist ∨ ∃ items ∈ hist, ∃ b, Adjacent k b items) := by
  have : ∀ n (hist : List (List α)), hist.length = n → 
    WF (addAll [] hist) ∧
    (∀ a b, b ∈ get (addAll [] hist) a ↔ Constrains hist a b) ∧
    (∀ k, k ∈ keys (addAll [] hist) ↔ [k] ∈ hist ∨ ∃ items ∈ hist, ∃ b, Adjacent k b items) := by
    intro n
    induction n with
    | zero =>
      intro hist hn
      have : hist = [] := List.length_eq_zero_iff.1 hn
      subst this
      refine ⟨wf_nil, fun a b => ?_, fun k => ?_⟩
      · simp [addAll, get, not_constrains_nil]
      · simp [addAll, keys]
    | succ n ih =>
      intro hist hn
      rcases List.eq_nil_or_concat hist with rfl | ⟨hist, items, rfl⟩
      · simp at hn
      · obtain ⟨i1, i2, i3⟩ := ih hist (by simpa using hn)
        have e : addAll [] (hist ++ [items]) = add (addAll ([] : Orderings α) hist) items := by
          simp [addAll]
        rw [List.concat_eq_append, e]
        obtain ⟨j1, j2, j3⟩ := add_spec items (addAll [] hist) i1
        refine ⟨j1, fun a b => ?_, fun k => ?_⟩
        · rw [j2, constrains_snoc, i2]
        · rw [j3, i3]
          simp only [List.mem_append, List.mem_singleton]
          constructor
          · rintro ((h | ⟨it, h, b, hb⟩) | rfl | ⟨b, hb⟩)
            · exact .inl (.inl h)
            · exact .inr ⟨it, .inl h, b, hb⟩
            · exact .inl (.inr rfl)
            · exact .inr ⟨items, .inr rfl, b, hb⟩
          · rintro ((h | rfl) | ⟨it, h | rfl, b, hb⟩)
            · exact .inl (.inl h)
            · exact .inr (.inl rfl)
            · exact .inl (.inr ⟨it, h, b, hb⟩)
            · exact .inr (.inr ⟨b, hb⟩)
  exact this _ hist rfl

theorem isItem_iff_known (hist : List (List α)) (x : α) : IsItem (addAll [] hist) x ↔ Known hist x := by
  obtain ⟨_, h2, h3⟩ := addAll_spec hist
  unfold IsItem Known
  rw [h3]
  simp only [h2, or_assoc]

end

end TSort
