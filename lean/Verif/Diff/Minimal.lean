import Verif.Diff.First

/-! # How short a diff is (C108), and the diff of the files the other way round (C109) -/

namespace Diff
open Go

section
variable {α : Type} [DecidableEq α]

/-- The lines a diff keeps. -/
def keptLines (cs : List (Block α)) : List α := cs.flatMap fun c => if c.kind = .equal then c.values else []

/-- The lines a diff deletes. -/
def deletedLines (cs : List (Block α)) : List α := cs.flatMap fun c => if c.kind = .minus then c.values else []

/-- The lines a diff adds. -/
def addedLines (cs : List (Block α)) : List α := cs.flatMap fun c => if c.kind = .add then c.values else []

/-- How many lines a diff deletes or adds. -/
def changes (cs : List (Block α)) : Nat := (deletedLines cs).length + (addedLines cs).length

omit [DecidableEq α] in
theorem keptLines_append (xs ys : List (Block α)) : keptLines (xs ++ ys) = keptLines xs ++ keptLines ys := by
  simp [keptLines, List.flatMap_append]

omit [DecidableEq α] in
theorem sides_changes (cs : List (Block α)) : changes cs + 2 * (keptLines cs).length = (oldSide cs).length + (newSide cs).length := by
  induction cs with
  | nil => rfl
  | cons c cs ih =>
    obtain ⟨k, vs⟩ := c
    cases k <;> simp [changes, deletedLines, addedLines, keptLines, oldSide, newSide] at ih ⊢ <;> omega

omit [DecidableEq α] in
theorem kept_sublist (cs : List (Block α)) : (keptLines cs).Sublist (oldSide cs) ∧ (keptLines cs).Sublist (newSide cs) := by
  induction cs with
  | nil => exact ⟨.slnil, .slnil⟩
  | cons c cs ih =>
    obtain ⟨k, vs⟩ := c
    cases k
    · simp only [keptLines, oldSide, newSide, List.flatMap_cons] at ih ⊢
      exact ⟨(List.Sublist.refl vs).append ih.1, (List.Sublist.refl vs).append ih.2⟩
    · simp only [keptLines, oldSide, newSide, List.flatMap_cons] at ih ⊢
      exact ⟨by simpa using ih.1, by simpa using ih.2.trans (List.sublist_append_right vs _)⟩
    · simp only [keptLines, oldSide, newSide, List.flatMap_cons] at ih ⊢
      exact ⟨by simpa using ih.1.trans (List.sublist_append_right vs _), by simpa using ih.2⟩

/-- **C108** The kept lines are a common subsequence of the files, and each one more would make the diff two lines shorter: a diff is as short as
possible exactly if no common subsequence is longer. -/
theorem C108_size (old new : List α) : (keptLines (diff old new)).Sublist old ∧ (keptLines (diff old new)).Sublist new ∧
    changes (diff old new) + 2 * (keptLines (diff old new)).length = old.length + new.length := by
  have h1 := kept_sublist (diff old new)
  have h2 := sides_changes (diff old new)
  rw [(C11_reconstructs old new).1, (C11_reconstructs old new).2] at h1 h2
  exact ⟨h1.1, h1.2, h2⟩

theorem diff_nil_left (new : List α) : keptLines (diff [] new) = [] := by
  have := (C108_size [] new).1
  exact List.sublist_nil.1 this

theorem diff_nil_right (old : List α) : keptLines (diff old []) = [] := by
  have := (C108_size old []).2.1
  exact List.sublist_nil.1 this

/-- **C108** It is as short as possible if one file is the other with lines removed at its ends (or added there): all its lines are kept. -/
theorem C108_ends_partial (pre mid post : List α) : keptLines (diff mid (pre ++ mid ++ post)) = mid ∧ keptLines (diff (pre ++ mid ++ post) mid) = mid := by
  by_cases hm : mid = []
  · subst hm; exact ⟨diff_nil_left _, diff_nil_right _⟩
  have hpos : 0 < mid.length := List.length_pos_iff.2 hm
  obtain ⟨x, hx⟩ := List.exists_mem_of_ne_nil _ hm
  have r1 : CommonRun mid (pre ++ mid ++ post) 0 pre.length mid.length := by
    refine ⟨by omega, by simp, ?_⟩
    rw [List.append_assoc, List.drop_left, List.take_left, List.drop_zero, List.take_length]
  have r2 : CommonRun (pre ++ mid ++ post) mid pre.length 0 mid.length := ⟨r1.2.1, r1.1, r1.2.2.symm⟩
  constructor
  · obtain ⟨a, b, n, hn, hr, hmax, hd⟩ := C12_longest_anchor mid (pre ++ mid ++ post) ⟨x, hx, by simp [hx]⟩
    have := hmax _ _ _ r1
    have := hr.1
    have ha : a = 0 := by omega
    have hl : n = mid.length := by omega
    subst ha; subst hl
    rw [hd, keptLines_append, keptLines_append, List.take_zero, diff_nil_left, List.drop_eq_nil_of_le (as := mid) (i := 0 + mid.length) (by omega), diff_nil_left]
    simp [keptLines]
  · obtain ⟨a, b, n, hn, hr, hmax, hd⟩ := C12_longest_anchor (pre ++ mid ++ post) mid ⟨x, by simp [hx], hx⟩
    have := hmax _ _ _ r2
    have := hr.2.1
    have hb : b = 0 := by omega
    have hl : n = mid.length := by omega
    subst hb; subst hl
    rw [hd, keptLines_append, keptLines_append, List.take_zero, diff_nil_right, List.drop_eq_nil_of_le (as := mid) (i := 0 + mid.length) (by omega), diff_nil_right, hr.2.2]
    simp [keptLines]

/-- No line occurs twice in a file, and the lines the files have in common come in the same order. -/
def Unmoved (old new : List α) : Prop := old.Nodup ∧ new.Nodup ∧ old.filter (· ∈ new) = new.filter (· ∈ old)

omit [DecidableEq α] in
theorem nodup_split {p q p' q' m : List α} (hm : m ≠ []) (hn : (p ++ m ++ q).Nodup) (h : p ++ m ++ q = p' ++ m ++ q') : p = p' ∧ q = q' := by
  obtain ⟨x, m', rfl⟩ := List.exists_cons_of_ne_nil hm
  have key : ∀ (p p' r r' : List α), (p ++ x :: r).Nodup → p ++ x :: r = p' ++ x :: r' → p = p' := by
    intro p
    induction p with
    | nil =>
      intro p' r r' hn h
      cases p' with
      | nil => rfl
      | cons y p' =>
        simp only [List.nil_append, List.cons_append, List.cons.injEq] at h
        rw [List.nil_append, List.nodup_cons] at hn
        rw [h.2] at hn
        exact absurd (by simp) hn.1
    | cons z p ih =>
      intro p' r r' hn h
      cases p' with
      | nil =>
        simp only [List.nil_append, List.cons_append, List.cons.injEq] at h
        rw [List.cons_append, List.nodup_cons] at hn
        rw [h.1] at hn
        exact absurd (by simp) hn.1
      | cons y p' =>
        simp only [List.cons_append, List.cons.injEq] at h
        rw [List.cons_append, List.nodup_cons] at hn
        rw [h.1, ih p' r r' hn.2 h.2]
  have e : p = p' := by
    refine key p p' (m' ++ q) (m' ++ q') ?_ ?_
    · simpa [List.append_assoc] using hn
    · simpa [List.append_assoc] using h
  subst e
  rw [List.append_assoc, List.append_assoc] at h
  exact ⟨rfl, List.append_cancel_left (List.append_cancel_left h)⟩

/-- Cutting both files at a common run leaves files of the same kind. -/
theorem unmoved_split {old new : List α} (h : Unmoved old new) {a b n : Nat} (hn : 0 < n) (hr : CommonRun old new a b n) :
    Unmoved (old.take a) (new.take b) ∧ Unmoved (old.drop (a + n)) (new.drop (b + n)) ∧
    old.filter (· ∈ new) = (old.take a).filter (· ∈ new.take b) ++ (old.drop a).take n ++ (old.drop (a + n)).filter (· ∈ new.drop (b + n)) := by
  obtain ⟨h1, h2, h3⟩ := h
  obtain ⟨r1, r2, r3⟩ := hr
  have so := split_three old a n
  have sn := split_three new b n
  generalize hol : old.take a = ol at *
  generalize hor : old.drop (a + n) = orr at *
  generalize hnl : new.take b = nl at *
  generalize hnr : new.drop (b + n) = nr at *
  have hml : ((old.drop a).take n).length = n := by rw [List.length_take, List.length_drop]; omega
  rw [← r3] at sn
  generalize (old.drop a).take n = mid at *
  have hmid : mid ≠ [] := by
    rintro rfl
    simp at hml
    omega
  subst so
  subst sn
  have f1 : (ol ++ mid ++ orr).filter (· ∈ nl ++ mid ++ nr) = ol.filter (· ∈ nl ++ mid ++ nr) ++ mid ++ orr.filter (· ∈ nl ++ mid ++ nr) := by
    rw [List.filter_append, List.filter_append]
    congr 2
    rw [List.filter_eq_self]
    intro y hy
    simp [hy]
  have f2 : (nl ++ mid ++ nr).filter (· ∈ ol ++ mid ++ orr) = nl.filter (· ∈ ol ++ mid ++ orr) ++ mid ++ nr.filter (· ∈ ol ++ mid ++ orr) := by
    rw [List.filter_append, List.filter_append]
    congr 2
    rw [List.filter_eq_self]
    intro y hy
    simp [hy]
  have hnd : ((ol ++ mid ++ orr).filter (· ∈ nl ++ mid ++ nr)).Nodup := h1.sublist List.filter_sublist
  rw [f1] at hnd
  rw [f1, f2] at h3
  obtain ⟨e1, e2⟩ := nodup_split hmid hnd h3
  have el : ol.filter (· ∈ nl ++ mid ++ nr) = ol.filter (· ∈ nl) := by
    apply List.filter_congr
    intro y hy
    refine decide_eq_decide.2 ⟨fun hy' => ?_, fun hy' => by simp [hy']⟩
    have : y ∈ ol.filter (· ∈ nl ++ mid ++ nr) := List.mem_filter.2 ⟨hy, decide_eq_true hy'⟩
    rw [e1] at this
    exact (List.mem_filter.1 this).1
  have er : orr.filter (· ∈ nl ++ mid ++ nr) = orr.filter (· ∈ nr) := by
    apply List.filter_congr
    intro y hy
    refine decide_eq_decide.2 ⟨fun hy' => ?_, fun hy' => by simp [hy']⟩
    have : y ∈ orr.filter (· ∈ nl ++ mid ++ nr) := List.mem_filter.2 ⟨hy, decide_eq_true hy'⟩
    rw [e2] at this
    exact (List.mem_filter.1 this).1
  have el' : nl.filter (· ∈ ol ++ mid ++ orr) = nl.filter (· ∈ ol) := by
    apply List.filter_congr
    intro y hy
    refine decide_eq_decide.2 ⟨fun hy' => ?_, fun hy' => by simp [hy']⟩
    have : y ∈ nl.filter (· ∈ ol ++ mid ++ orr) := List.mem_filter.2 ⟨hy, decide_eq_true hy'⟩
    rw [← e1] at this
    exact (List.mem_filter.1 this).1
  have er' : nr.filter (· ∈ ol ++ mid ++ orr) = nr.filter (· ∈ orr) := by
    apply List.filter_congr
    intro y hy
    refine decide_eq_decide.2 ⟨fun hy' => ?_, fun hy' => by simp [hy']⟩
    have : y ∈ nr.filter (· ∈ ol ++ mid ++ orr) := List.mem_filter.2 ⟨hy, decide_eq_true hy'⟩
    rw [← e2] at this
    exact (List.mem_filter.1 this).1
  rw [el, el'] at e1
  rw [er, er'] at e2
  rw [List.append_assoc, List.nodup_append, List.nodup_append] at h1 h2
  refine ⟨⟨h1.1, h2.1, e1⟩, ⟨h1.2.1.2.1, h2.2.1.2.1, e2⟩, ?_⟩
  rw [f1, el, er]

/-- **C108** It is as short as possible if no line occurs twice in a file and none was moved: every line the files have in common is kept, and no common
subsequence is longer. -/
theorem C108_unmoved_partial (old new : List α) (h : Unmoved old new) :
    keptLines (diff old new) = old.filter (· ∈ new) ∧ ∀ s : List α, s.Sublist old → s.Sublist new → s.length ≤ (keptLines (diff old new)).length := by
  have key : keptLines (diff old new) = old.filter (· ∈ new) := by
    have hs := diff_shape old new
    generalize diff old new = cs at hs ⊢
    induction hs with
    | both => rfl
    | add new h => rfl
    | minus old h => simp [keptLines]
    | change old new h1 h2 h3 =>
      have : old.filter (· ∈ new) = [] := by
        rw [List.filter_eq_nil_iff]
        intro x hx hx'
        obtain ⟨i, hi, ei⟩ := List.getElem_of_mem hx
        obtain ⟨j, hj, ej⟩ := List.getElem_of_mem (of_decide_eq_true hx')
        have := h3 i j 1 (by
          rw [commonRun_iff]
          refine ⟨by omega, by omega, fun k hk => ?_⟩
          have : k = 0 := by omega
          subst this
          simp [List.getElem?_eq_getElem hi, List.getElem?_eq_getElem hj, ei, ej])
        omega
      rw [this]
      rfl
    | split old new a b n l r hn hr hmax _ _ _ _ ih1 ih2 =>
      obtain ⟨u1, u2, u3⟩ := unmoved_split h hn hr
      rw [u3, keptLines_append, keptLines_append, ih1 u1, ih2 u2, hr.2.2]
      simp [keptLines]
  refine ⟨key, fun s h1 h2 => ?_⟩
  rw [key]
  have : s = s.filter (· ∈ new) := by
    rw [eq_comm, List.filter_eq_self]
    intro x hx
    exact decide_eq_true (h2.mem hx)
  rw [this]
  exact (h1.filter _).length_le

example : Unmoved [1, 2, 3, 4] [2, 5, 4, 6] ∧ keptLines (diff [1, 2, 3, 4] [2, 5, 4, 6]) = [2, 4] := by
  have h : Unmoved [1, 2, 3, 4] [2, 5, 4, 6] := ⟨by decide, by decide, by decide⟩
  exact ⟨h, (C108_unmoved_partial _ _ h).1⟩

/-! ## Files for which it is arbitrarily longer than necessary -/

/-- `y z y z …` -/
def alternating (y z : α) : Nat → List α
  | 0 => []
  | k + 1 => y :: z :: alternating y z k

omit [DecidableEq α] in
theorem alternating_length (y z : α) (k : Nat) : (alternating y z k).length = 2 * k := by
  induction k with
  | zero => rfl
  | succ k ih => simp [alternating, ih]; omega

omit [DecidableEq α] in
theorem alternating_get (y z : α) (k : Nat) : ∀ j, j < 2 * k → (alternating y z k)[j]? = some (if j % 2 = 0 then y else z) := by
  induction k with
  | zero => intro j hj; omega
  | succ k ih =>
    intro j hj
    match j with
    | 0 => rfl
    | 1 => rfl
    | j + 2 =>
      have := ih j (by omega)
      simp only [alternating, List.getElem?_cons_succ, this]
      congr 2
      simp

omit [DecidableEq α] in
theorem replicate_sublist_alternating (y z : α) (k : Nat) : (List.replicate k y).Sublist (alternating y z k) := by
  induction k with
  | zero => exact .slnil
  | succ k ih => exact .cons_cons y (.cons z ih)

/-- **C108** The expected statement is false, and there is no bound: the files `x x y … y` and `y z … y z x x` have `k` lines `y` in common in this order,
but the diff keeps the two lines `x` only, and `3 k` lines are reported where `k + 4` would do. -/
theorem C108_counterexample (x y z : α) (hxy : x ≠ y) (hxz : x ≠ z) (hyz : y ≠ z) (k : Nat) :
    (List.replicate k y).Sublist (x :: x :: List.replicate k y) ∧ (List.replicate k y).Sublist (alternating y z k ++ [x, x]) ∧
    keptLines (diff (x :: x :: List.replicate k y) (alternating y z k ++ [x, x])) = [x, x] ∧
    changes (diff (x :: x :: List.replicate k y) (alternating y z k ++ [x, x])) = 3 * k := by
  have ho : ∀ i, 2 ≤ i → ∀ v, (x :: x :: List.replicate k y)[i]? = some v → v = y := by
    intro i hi v hv
    obtain ⟨j, rfl⟩ : ∃ j, i = j + 2 := ⟨i - 2, by omega⟩
    simp only [List.getElem?_cons_succ] at hv
    exact List.eq_of_mem_replicate (List.mem_of_getElem? hv)
  have hA : ∀ j, j < 2 * k → (alternating y z k ++ [x, x])[j]? = some (if j % 2 = 0 then y else z) := by
    intro j hj
    rw [List.getElem?_append_left (by rw [alternating_length]; omega), alternating_get y z k j hj]
  have hB : ∀ j, 2 * k ≤ j → ∀ v, (alternating y z k ++ [x, x])[j]? = some v → v = x := by
    intro j hj v hv
    rw [List.getElem?_append_right (by rw [alternating_length]; omega)] at hv
    have := List.mem_of_getElem? hv
    simpa using this
  have hlo : (x :: x :: List.replicate k y).length = k + 2 := by simp
  have hln : (alternating y z k ++ [x, x]).length = 2 * k + 2 := by simp [alternating_length]
  -- two lines in a row are common only as `x x`
  have hrun : ∀ a b n, CommonRun (x :: x :: List.replicate k y) (alternating y z k ++ [x, x]) a b n → 2 ≤ n → a = 0 ∧ b = 2 * k ∧ n = 2 := by
    intro a b n h hn
    rw [commonRun_iff, hlo, hln] at h
    obtain ⟨h1, h2, h3⟩ := h
    have g0 := h3 0 (by omega)
    have g1 := h3 1 (by omega)
    rw [Nat.add_zero, Nat.add_zero] at g0
    have n0 : a < (x :: x :: List.replicate k y).length := by rw [hlo]; omega
    have n1 : a + 1 < (x :: x :: List.replicate k y).length := by rw [hlo]; omega
    rw [List.getElem?_eq_getElem n0] at g0
    rw [List.getElem?_eq_getElem n1] at g1
    by_cases ha : 2 ≤ a
    · have v0 := ho a ha _ (List.getElem?_eq_getElem n0)
      have v1 := ho (a + 1) (by omega) _ (List.getElem?_eq_getElem n1)
      rw [v0] at g0
      rw [v1] at g1
      by_cases hb : 2 * k ≤ b + 1
      · exact absurd (hB _ hb _ g1.symm).symm hxy
      · rw [hA b (by omega)] at g0
        rw [hA (b + 1) (by omega)] at g1
        by_cases hpar : b % 2 = 0
        · rw [if_neg (by omega)] at g1
          exact absurd (Option.some.inj g1) hyz
        · rw [if_neg hpar] at g0
          exact absurd (Option.some.inj g0) hyz
    · have v0 : (x :: x :: List.replicate k y)[a] = x := by
        match a, ha with
        | 0, _ => rfl
        | 1, _ => rfl
        | a + 2, ha => exact absurd (by omega) ha
      rw [v0] at g0
      have hb : 2 * k ≤ b := by
        by_cases hb : 2 * k ≤ b
        · exact hb
        · rw [hA b (by omega)] at g0
          split at g0
          · exact absurd (Option.some.inj g0) hxy
          · exact absurd (Option.some.inj g0) hxz
      by_cases ha1 : a = 1
      · subst ha1
        have v1 := ho 2 (by omega) _ (List.getElem?_eq_getElem n1)
        rw [v1] at g1
        exact absurd (hB (b + 1) (by omega) _ g1.symm).symm hxy
      · omega
  have hcr : CommonRun (x :: x :: List.replicate k y) (alternating y z k ++ [x, x]) 0 (2 * k) 2 := by
    refine ⟨by rw [hlo]; omega, by rw [hln]; omega, ?_⟩
    rw [List.drop_left' (alternating_length y z k)]
    rfl
  have hd := C107_anchor _ _ 0 (2 * k) 2 (by decide) hcr
    (fun a b n h => by
      by_cases hn : 2 ≤ n
      · have := (hrun a b n h hn).2.2; omega
      · omega)
    (fun a b h => by have := hrun a b 2 h (by decide); omega)
  have hkept : keptLines (diff (x :: x :: List.replicate k y) (alternating y z k ++ [x, x])) = [x, x] := by
    rw [hd, keptLines_append, keptLines_append, List.take_zero, diff_nil_left, List.drop_eq_nil_of_le (as := alternating y z k ++ [x, x]) (i := 2 * k + 2) (by rw [hln]; omega),
      diff_nil_right]
    simp [keptLines]
  refine ⟨(List.sublist_cons_self _ _).trans (List.sublist_cons_self _ _), (replicate_sublist_alternating y z k).trans (List.sublist_append_left _ _), hkept, ?_⟩
  have hz := (C108_size (x :: x :: List.replicate k y) (alternating y z k ++ [x, x])).2.2
  rw [hkept, hlo, hln] at hz
  simp at hz
  omega

end
/-- Ten lines in common, two kept. -/
example : (List.replicate 10 b!"y").Sublist (alternating b!"y" b!"z" 10 ++ [b!"x", b!"x"]) ∧
    keptLines (diff (b!"x" :: b!"x" :: List.replicate 10 b!"y") (alternating b!"y" b!"z" 10 ++ [b!"x", b!"x"])) = [b!"x", b!"x"] :=
  ⟨(C108_counterexample b!"x" b!"y" b!"z" (by decide) (by decide) (by decide) 10).2.1, (C108_counterexample b!"x" b!"y" b!"z" (by decide) (by decide) (by decide) 10).2.2.1⟩

/-- Two lines added in front and one behind. -/
example : keptLines (diff [1, 2, 1] [7, 1, 1, 2, 1, 8]) = [1, 2, 1] := (C108_ends_partial [7, 1] [1, 2, 1] [8]).1

end Diff
