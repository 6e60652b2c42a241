import Verif.Diff.First

/-! # C142: a file edited in one place

Some lines of a file are replaced by lines that are new: is that what `diff` reports? -/

namespace Diff
open Go

section
variable {α : Type} [DecidableEq α]

/-! ## Specification -/

/-- A block, if there is anything in it. -/
def blk (k : Kind) (l : List α) : List (Block α) := if l = [] then [] else [⟨k, l⟩]

/-- The report of one edit: the lines before, those removed, those put in, the lines after. -/
def oneEdit (before gone come after : List α) : List (Block α) := blk .equal before ++ blk .minus gone ++ blk .add come ++ blk .equal after

/-- The lines removed and those put in occur nowhere else. -/
structure NewLines (before gone come after : List α) : Prop where
  goneNew : ∀ x ∈ gone, x ∉ before ∧ x ∉ come ∧ x ∉ after
  comeNew : ∀ x ∈ come, x ∉ before ∧ x ∉ after
  any : gone ≠ [] ∨ come ≠ []

/-- The lines `after` stand in `before ++ after` earlier than at the end. -/
def Earlier (before after : List α) : Prop := ∃ a, a < before.length ∧ ((before ++ after).drop a).take after.length = after

instance (before after : List α) : Decidable (Earlier before after) :=
  decidable_of_iff (∃ a ∈ List.range before.length, ((before ++ after).drop a).take after.length = after) (by simp [Earlier])

/-! ## Runs -/

omit [DecidableEq α] in
theorem middle_mem (P X S : List α) (i : Nat) (h1 : P.length ≤ i) (h2 : i < P.length + X.length) : ∃ x ∈ X, (P ++ X ++ S)[i]? = some x := by
  refine ⟨X[i - P.length]'(by omega), List.getElem_mem _, ?_⟩
  rw [List.getElem?_append_left (by rw [List.length_append]; omega), List.getElem?_append_right h1]
  exact List.getElem?_eq_getElem _

omit [DecidableEq α] in
theorem run_old {P X S new : List α} {a b n : Nat} (hX : X ≠ []) (hn : 0 < n) (h : CommonRun (P ++ X ++ S) new a b n) (hf : ∀ x ∈ X, x ∉ new) :
    a + n ≤ P.length ∨ P.length + X.length ≤ a := by
  obtain ⟨h1, h2, h3⟩ := (commonRun_iff _ _ _ _ _).1 h
  have hx := List.length_pos_iff.2 hX
  rcases Nat.lt_or_ge P.length (a + n) with hlt | hge
  · rcases Nat.lt_or_ge a (P.length + X.length) with hl2 | hg2
    · exfalso
      obtain ⟨k, hk, hk1, hk2⟩ : ∃ k, k < n ∧ P.length ≤ a + k ∧ a + k < P.length + X.length := by
        rcases Nat.le_total a P.length with h | h
        · exact ⟨P.length - a, by omega, by omega, by omega⟩
        · exact ⟨0, by omega, by omega, by omega⟩
      obtain ⟨x, hxm, hxe⟩ := middle_mem P X S (a + k) hk1 hk2
      have := h3 k hk
      rw [hxe] at this
      exact hf x hxm (List.mem_of_getElem? this.symm)
    · exact .inr hg2
  · exact .inl hge

omit [DecidableEq α] in
theorem run_symm {old new : List α} {a b n : Nat} (h : CommonRun old new a b n) : CommonRun new old b a n := ⟨h.2.1, h.1, h.2.2.symm⟩

omit [DecidableEq α] in
theorem run_new {P Y S old : List α} {a b n : Nat} (hY : Y ≠ []) (hn : 0 < n) (h : CommonRun old (P ++ Y ++ S) a b n) (hf : ∀ y ∈ Y, y ∉ old) :
    b + n ≤ P.length ∨ P.length + Y.length ≤ b := run_old hY hn (run_symm h) hf

section
variable {P X Y S : List α} (hf : NewLines P X Y S)
include hf

omit [DecidableEq α] in
theorem gone_not (x : α) (hx : x ∈ X) : x ∉ P ++ Y ++ S := by
  obtain ⟨h1, h2, h3⟩ := hf.goneNew x hx
  simp [h1, h2, h3]

omit [DecidableEq α] in
theorem come_not (y : α) (hy : y ∈ Y) : y ∉ P ++ X ++ S := by
  obtain ⟨h1, h2⟩ := hf.comeNew y hy
  have : y ∉ X := fun h => (hf.goneNew y h).2.1 hy
  simp [h1, h2, this]

omit [DecidableEq α] in
theorem run_le {a b n : Nat} (h : CommonRun (P ++ X ++ S) (P ++ Y ++ S) a b n) : n ≤ P.length ∨ n ≤ S.length := by
  have h1 := h.1
  have h2 := h.2.1
  simp only [List.length_append] at h1 h2
  rcases Nat.eq_zero_or_pos n with h0 | HP
  · omega
  rcases hf.any with hX | hY
  · rcases run_old hX HP h (gone_not hf) with h | h <;> omega
  · rcases run_new hY HP h (come_not hf) with h | h <;> omega

omit [DecidableEq α] in
theorem first_before (hP : P ≠ []) (hl : S.length ≤ P.length) : FirstLongest (P ++ X ++ S) (P ++ Y ++ S) 0 0 P.length := by
  refine ⟨List.length_pos_iff.2 hP, ?_, ?_, ?_⟩
  · exact ⟨by simp, by simp, by simp [List.append_assoc, List.take_left]⟩
  · intro a' b' n' h
    rcases run_le hf h with h | h <;> omega
  · intro a' b' _; omega

omit hf [DecidableEq α] in
theorem run_after (P X Y S : List α) : CommonRun (P ++ X ++ S) (P ++ Y ++ S) (P.length + X.length) (P.length + Y.length) S.length := by
  have e1 : P.length + X.length = (P ++ X).length := by simp
  have e2 : P.length + Y.length = (P ++ Y).length := by simp
  refine ⟨by simp; omega, by simp; omega, ?_⟩
  rw [e1, e2, List.drop_left, List.drop_left]

omit [DecidableEq α] in
theorem first_after (hS : S ≠ []) (hl : P.length < S.length ∨ P = []) (he : (X ≠ [] ∧ Y ≠ []) ∨ ¬ Earlier P S) :
    FirstLongest (P ++ X ++ S) (P ++ Y ++ S) (P.length + X.length) (P.length + Y.length) S.length := by
  have hp := List.length_pos_iff.2 hS
  have hl : P.length < S.length := by
    rcases hl with h | h
    · exact h
    · subst h; simpa using hp
  refine ⟨hp, run_after P X Y S, ?_, ?_⟩
  · intro a' b' n' h
    rcases run_le hf h with h | h <;> omega
  · intro a' b' h
    have h1 := h.1
    have h2 := h.2.1
    simp only [List.length_append] at h1 h2
    by_cases hX : X = []
    · have hY : Y ≠ [] := by rcases hf.any with h | h; exact absurd hX h; exact h
      have hb := run_new hY hp h (come_not hf)
      have hE : ¬ Earlier P S := by rcases he with h | h; exact absurd hX h.1; exact h
      rcases Nat.lt_or_ge a' P.length with hlt | hge
      · exfalso
        refine hE ⟨a', hlt, ?_⟩
        have h3 := h.2.2
        have hb' : b' = P.length + Y.length := by omega
        have e2 : P.length + Y.length = (P ++ Y).length := by simp
        rw [hb', e2, List.drop_left, List.take_length] at h3
        rw [hX, List.append_nil] at h3
        exact h3
      · subst hX; simp only [List.length_nil] at *; omega
    · have ha := run_old hX hp h (gone_not hf)
      by_cases hY : Y = []
      · have hE : ¬ Earlier P S := by rcases he with h | h; exact absurd hY h.2; exact h
        rcases Nat.lt_or_ge b' P.length with hlt | hge
        · exfalso
          refine hE ⟨b', hlt, ?_⟩
          have h3 := h.2.2
          have ha' : a' = P.length + X.length := by omega
          have e2 : P.length + X.length = (P ++ X).length := by simp
          rw [ha', e2, List.drop_left, List.take_length] at h3
          rw [hY, List.append_nil] at h3
          exact h3.symm
        · subst hY; simp only [List.length_nil] at *; omega
      · have hb := run_new hY hp h (come_not hf)
        omega

theorem isDiff_middle : IsDiff X Y (blk .minus X ++ blk .add Y) := by
  unfold blk
  split
  · next hX =>
    subst hX
    split
    · next hY => subst hY; exact .both
    · next hY => exact .add Y hY
  · next hX =>
    split
    · next hY => subst hY; exact .minus X hX
    · next hY => exact .change X Y hX hY (fun x hx => (hf.goneNew x hx).2.1)

theorem isDiff_head : IsDiff (P ++ X) (P ++ Y) (blk .equal P ++ blk .minus X ++ blk .add Y) := by
  by_cases hP : P = []
  · subst hP
    simpa [blk] using isDiff_middle hf
  · have hf' : NewLines P X Y [] := ⟨fun x hx => ⟨(hf.goneNew x hx).1, (hf.goneNew x hx).2.1, by simp⟩, fun y hy => ⟨(hf.comeNew y hy).1, by simp⟩, hf.any⟩
    have h1 := first_before hf' hP (by simp)
    simp only [List.append_nil] at h1
    have h2 := IsDiff.split (P ++ X) (P ++ Y) 0 0 P.length [] (blk .minus X ++ blk .add Y) h1 (by simpa using IsDiff.both)
      (by simpa [List.drop_left] using isDiff_middle hf)
    have e : blk .equal P = [⟨.equal, P⟩] := if_neg hP
    simpa [e, List.take_left] using h2

theorem isDiff_tail : IsDiff (X ++ S) (Y ++ S) (blk .minus X ++ blk .add Y ++ blk .equal S) := by
  by_cases hS : S = []
  · subst hS
    simpa [blk] using isDiff_middle hf
  · have hf' : NewLines [] X Y S := ⟨fun x hx => ⟨by simp, (hf.goneNew x hx).2⟩, fun y hy => ⟨by simp, (hf.comeNew y hy).2⟩, hf.any⟩
    have h1 := first_after hf' hS (.inr rfl) (.inr (by rintro ⟨a, ha, -⟩; simp at ha))
    simp only [List.nil_append, List.length_nil, Nat.zero_add] at h1
    have h2 := IsDiff.split (X ++ S) (Y ++ S) X.length Y.length S.length (blk .minus X ++ blk .add Y) [] h1
      (by simpa [List.take_left] using isDiff_middle hf)
      (by rw [← List.length_append, ← List.length_append, List.drop_length, List.drop_length]; exact .both)
    have e : blk .equal S = [⟨.equal, S⟩] := if_neg hS
    simpa [e, List.drop_left] using h2

/-! ## Theorems -/

/-- The edit is reported as such if lines were replaced, or the lines after it are no more than those before it, or they do not stand
earlier in the file. -/
theorem diff_oneEdit (he : (X ≠ [] ∧ Y ≠ []) ∨ S.length ≤ P.length ∨ ¬ Earlier P S) : diff (P ++ X ++ S) (P ++ Y ++ S) = oneEdit P X Y S := by
  refine ((C107_exact _ _ _).1 ?_).symm
  by_cases hS : S = []
  · subst hS
    simpa [oneEdit, blk] using isDiff_head hf
  by_cases hl : S.length ≤ P.length
  · have hP : P ≠ [] := by
      rintro rfl
      exact hS (List.length_eq_zero_iff.1 (Nat.le_zero.1 hl))
    have h2 := IsDiff.split (P ++ X ++ S) (P ++ Y ++ S) 0 0 P.length [] (blk .minus X ++ blk .add Y ++ blk .equal S) (first_before hf hP hl)
      (by simpa using IsDiff.both) (by simpa [List.append_assoc, List.drop_left] using isDiff_tail hf)
    have e : blk .equal P = [⟨.equal, P⟩] := if_neg hP
    simpa [oneEdit, e, List.append_assoc, List.take_left] using h2
  · have he' : (X ≠ [] ∧ Y ≠ []) ∨ ¬ Earlier P S := by
      rcases he with h | h | h
      · exact .inl h
      · exact absurd h hl
      · exact .inr h
    have e1 : P.length + X.length = (P ++ X).length := by simp
    have e2 : P.length + Y.length = (P ++ Y).length := by simp
    have h2 := IsDiff.split (P ++ X ++ S) (P ++ Y ++ S) (P.length + X.length) (P.length + Y.length) S.length (blk .equal P ++ blk .minus X ++ blk .add Y) []
      (first_after hf hS (.inl (by omega)) he') (by rw [e1, e2, List.take_left, List.take_left]; exact isDiff_head hf)
      (by
        rw [e1, e2, ← List.length_append, ← List.length_append, List.drop_length, List.drop_length]
        exact .both)
    rw [e1, List.drop_left, List.take_length, List.append_nil] at h2
    have e : blk .equal S = [⟨.equal, S⟩] := if_neg hS
    simpa [oneEdit, e] using h2

/-- **C142** Lines replaced by new ones are reported as exactly that, whatever the rest of the file is. -/
theorem C142_replaced (hX : X ≠ []) (hY : Y ≠ []) : diff (P ++ X ++ S) (P ++ Y ++ S) = oneEdit P X Y S := diff_oneEdit hf (.inl ⟨hX, hY⟩)

omit hf [DecidableEq α] in
theorem least {p : Nat → Prop} {n : Nat} (h : ∃ a, a < n ∧ p a) : ∃ a, a < n ∧ p a ∧ ∀ b, b < a → ¬ p b := by
  obtain ⟨a, ha, hp⟩ := h
  induction a using Nat.strongRecOn with
  | ind a ih =>
    by_cases hq : ∃ b, b < a ∧ p b
    · obtain ⟨b, hb, hpb⟩ := hq
      exact ih b hb (by omega) hpb
    · exact ⟨a, ha, hp, fun b hb hpb => hq ⟨b, hb, hpb⟩⟩

/-- **C142** (partial: expected of every edit) Exactly when an edit of one place is reported as what it is: lines were replaced, or the lines
after the place are no more than those before it, or they do not stand earlier in the file as well. -/
theorem C142_reported_iff_partial : diff (P ++ X ++ S) (P ++ Y ++ S) = oneEdit P X Y S ↔ (X ≠ [] ∧ Y ≠ []) ∨ S.length ≤ P.length ∨ ¬ Earlier P S := by
  refine ⟨fun h => ?_, diff_oneEdit hf⟩
  apply Classical.byContradiction
  intro hc
  have hl : P.length < S.length := by
    apply Nat.lt_of_not_le
    intro hle
    exact hc (.inr (.inl hle))
  have hE : Earlier P S := Classical.byContradiction fun he => hc (.inr (.inr he))
  have hXY : ¬ (X ≠ [] ∧ Y ≠ []) := fun hxy => hc (.inl hxy)
  have hS : S ≠ [] := by rintro rfl; simp at hl
  have hp := List.length_pos_iff.2 hS
  have hlast : (oneEdit P X Y S).getLast? = some ⟨.equal, S⟩ := by
    have e : blk .equal S = [⟨.equal, S⟩] := if_neg hS
    rw [oneEdit, e, List.getLast?_append]
    rfl
  obtain ⟨a, ha, hpa, hmin⟩ := least hE
  by_cases hX : X = []
  · have hY : Y ≠ [] := by rcases hf.any with h | h; exact absurd hX h; exact h
    subst hX
    have hfl : FirstLongest (P ++ [] ++ S) (P ++ Y ++ S) a (P.length + Y.length) S.length := by
      have e2 : P.length + Y.length = (P ++ Y).length := by simp
      refine ⟨hp, ⟨by simp; omega, by simp; omega, ?_⟩, ?_, ?_⟩
      · rw [e2, List.drop_left, List.take_length, List.append_nil]; exact hpa
      · intro a' b' n' h
        rcases run_le hf h with h | h <;> omega
      · intro a' b' h
        have h2 := h.2.1
        simp only [List.length_append] at h2
        have hb := run_new hY hp h (come_not hf)
        have hb' : b' = P.length + Y.length := by omega
        have h3 := h.2.2
        rw [hb', e2, List.drop_left, List.take_length, List.append_nil] at h3
        have : ¬ a' < a := fun hlt => hmin a' hlt h3
        omega
    rw [C107_anchor _ _ a (P.length + Y.length) S.length hfl.1 hfl.2.1 hfl.2.2.1 hfl.2.2.2] at h
    have hd : (P ++ Y ++ S).drop (P.length + Y.length + S.length) = [] := by
      rw [← List.length_append, ← List.length_append, List.drop_length]
    have ho : (P ++ [] ++ S).drop (a + S.length) ≠ [] := by
      intro e
      have := congrArg List.length e
      simp at this
      omega
    rw [hd, ← (C107_exact _ _ _).1 (IsDiff.minus _ ho)] at h
    rw [← h, List.getLast?_append] at hlast
    simp at hlast
  · have hY : Y = [] := Classical.byContradiction fun hY => hXY ⟨hX, hY⟩
    subst hY
    have hfl : FirstLongest (P ++ X ++ S) (P ++ [] ++ S) (P.length + X.length) a S.length := by
      have e2 : P.length + X.length = (P ++ X).length := by simp
      refine ⟨hp, ⟨by simp; omega, by simp; omega, ?_⟩, ?_, ?_⟩
      · rw [e2, List.drop_left, List.take_length, List.append_nil]; exact hpa.symm
      · intro a' b' n' h
        rcases run_le hf h with h | h <;> omega
      · intro a' b' h
        have h1 := h.1
        simp only [List.length_append] at h1
        have hb := run_old hX hp h (gone_not hf)
        have ha' : a' = P.length + X.length := by omega
        have h3 := h.2.2
        rw [ha', e2, List.drop_left, List.take_length, List.append_nil] at h3
        have : ¬ b' < a := fun hlt => hmin b' hlt h3.symm
        omega
    rw [C107_anchor _ _ (P.length + X.length) a S.length hfl.1 hfl.2.1 hfl.2.2.1 hfl.2.2.2] at h
    have hd : (P ++ X ++ S).drop (P.length + X.length + S.length) = [] := by
      rw [← List.length_append, ← List.length_append, List.drop_length]
    have ho : (P ++ [] ++ S).drop (a + S.length) ≠ [] := by
      intro e
      have := congrArg List.length e
      simp at this
      omega
    rw [hd, ← (C107_exact _ _ _).1 (IsDiff.add _ ho)] at h
    rw [← h, List.getLast?_append] at hlast
    simp at hlast

end

/-- **C142** If no line occurs twice in the file, every edit of one place is reported as what it is. -/
theorem C142_no_repeats {P X Y S : List α} (hf : NewLines P X Y S) (hn : (P ++ S).Nodup) : diff (P ++ X ++ S) (P ++ Y ++ S) = oneEdit P X Y S := by
  refine diff_oneEdit hf (.inr ?_)
  by_cases hS : S = []
  · subst hS; exact .inl (by simp)
  · refine .inr ?_
    rintro ⟨a, ha, e⟩
    have hp := List.length_pos_iff.2 hS
    have h0 : (((P ++ S).drop a).take S.length)[0]? = S[0]? := by rw [e]
    rw [List.getElem?_take_of_lt hp, List.getElem?_drop, Nat.add_zero, List.getElem?_append_left ha] at h0
    rw [List.getElem?_eq_getElem ha, List.getElem?_eq_getElem hp] at h0
    have h1 := List.getElem_mem ha
    have h2 := List.getElem_mem hp
    rw [Option.some.inj h0] at h1
    exact (List.nodup_append.1 hn).2.2 _ h1 _ h2 rfl

/-- **C142** The expected statement is false, without bound: a line `y` put into a file of `2 k + 1` lines `s` in front of the last `k + 1`, and `diff`
reports `k + 1` lines added at the beginning and `k` deleted at the end. -/
theorem C142_counterexample (s y : α) (h : s ≠ y) (k : Nat) (hk : 0 < k) :
    diff (List.replicate k s ++ List.replicate (k + 1) s) (List.replicate k s ++ [y] ++ List.replicate (k + 1) s) =
      [⟨.add, List.replicate k s ++ [y]⟩, ⟨.equal, List.replicate (k + 1) s⟩, ⟨.minus, List.replicate k s⟩] := by
  have hf : NewLines (List.replicate k s) [] [y] (List.replicate (k + 1) s) := by
    refine ⟨by simp, ?_, by simp⟩
    intro x hx
    rw [List.mem_singleton] at hx
    subst hx
    exact ⟨fun hm => h (List.eq_of_mem_replicate hm).symm, fun hm => h (List.eq_of_mem_replicate hm).symm⟩
  have hs : List.replicate k s ++ [] ++ List.replicate (k + 1) s = List.replicate (k + 1) s ++ List.replicate k s := by
    rw [List.append_nil, List.replicate_append_replicate, List.replicate_append_replicate, Nat.add_comm]
  have e2 : k + 1 = (List.replicate k s ++ [y]).length := by simp
  have hfl : FirstLongest (List.replicate k s ++ [] ++ List.replicate (k + 1) s) (List.replicate k s ++ [y] ++ List.replicate (k + 1) s) 0 (k + 1) (k + 1) := by
    refine ⟨by omega, ⟨by simp, by simp; omega, ?_⟩, ?_, ?_⟩
    · rw [hs]
      conv => rhs; rw [show List.drop (k + 1) (List.replicate k s ++ [y] ++ List.replicate (k + 1) s) = List.replicate (k + 1) s by
        conv => lhs; arg 1; rw [e2]
        rw [List.drop_left]]
      simp
    · intro a' b' n' h
      have := run_le hf h
      simp only [List.length_replicate] at this
      omega
    · intro a' b' h
      have h2 := h.2.1
      have hb := run_new (by simp) (by omega) h (come_not hf)
      simp only [List.length_append, List.length_replicate, List.length_singleton] at h2 hb
      omega
  have := C107_anchor _ _ 0 (k + 1) (k + 1) hfl.1 hfl.2.1 hfl.2.2.1 hfl.2.2.2
  have t1 : (List.replicate k s ++ [y] ++ List.replicate (k + 1) s).take (k + 1) = List.replicate k s ++ [y] := by
    conv => lhs; arg 1; rw [e2]
    rw [List.take_left]
  have t2 : (List.replicate k s ++ [y] ++ List.replicate (k + 1) s).drop (k + 1 + (k + 1)) = [] := by
    rw [List.drop_eq_nil_iff]; simp; omega
  have t3 : (List.replicate (k + 1) s ++ List.replicate k s).drop (0 + (k + 1)) = List.replicate k s := by
    conv => lhs; arg 1; rw [show 0 + (k + 1) = (List.replicate (k + 1) s).length by simp]
    rw [List.drop_left]
  have t4 : ((List.replicate (k + 1) s ++ List.replicate k s).drop 0).take (k + 1) = List.replicate (k + 1) s := by
    conv => lhs; arg 1; rw [show k + 1 = (List.replicate (k + 1) s).length by simp]
    rw [List.drop_zero, List.take_left]
  rw [t1, t2] at this
  rw [hs, t3, t4, List.take_zero] at this
  rw [List.append_nil] at hs
  rw [hs, this, ← (C107_exact _ _ _).1 (IsDiff.add (List.replicate k s ++ [y]) (by simp)),
    ← (C107_exact _ _ _).1 (IsDiff.minus (List.replicate k s) (by simp; omega))]
  rfl

end

/-! ## What is printed -/

/-- The numbers of `n` lines after the first `i`. -/
def lineNumbers (i n : Nat) : Bytes := if n = 1 then itoa (i + 1) else itoa (i + 1) ++ b!"," ++ itoa (i + n)

theorem fmtRange_numbers (i n : Nat) (hn : 0 < n) : fmtRange i n = lineNumbers i n := by
  unfold fmtRange lineNumbers
  by_cases h : n = 1
  · subst h; rfl
  · rw [if_pos (by omega), if_neg h]
    congr 2
    omega

/-- **C142** What is printed when lines were replaced by new ones: one hunk with their numbers. -/
theorem C142_printed (P X Y S : List Bytes) (hf : NewLines P X Y S) (hX : X ≠ []) (hY : Y ≠ []) : format (diff (P ++ X ++ S) (P ++ Y ++ S)) =
    join [nl] ((lineNumbers P.length X.length ++ b!"c" ++ lineNumbers P.length Y.length) :: X.map (b!"< " ++ ·) ++ [b!"---"] ++ Y.map (b!"> " ++ ·)) := by
  rw [C142_replaced hf hX hY, format, oneEdit]
  have e1 : blk .minus X = [⟨.minus, X⟩] := if_neg hX
  have e2 : blk .add Y = [⟨.add, Y⟩] := if_neg hY
  have hend : ∀ i j, outputLoop i j (blk .equal S) = [] := by
    intro i j
    unfold blk
    split <;> rfl
  have hmid : ∀ i, outputLoop i i (⟨.minus, X⟩ :: ⟨.add, Y⟩ :: blk .equal S) =
      (fmtRange i X.length ++ b!"c" ++ fmtRange i Y.length) :: lt X ++ [b!"---"] ++ gt Y := by
    intro i
    rw [outputLoop, hend, List.append_nil]
  have hall : outputLoop 0 0 (blk .equal P ++ (⟨.minus, X⟩ :: ⟨.add, Y⟩ :: blk .equal S)) = outputLoop P.length P.length (⟨.minus, X⟩ :: ⟨.add, Y⟩ :: blk .equal S) := by
    unfold blk
    by_cases hP : P = []
    · subst hP; rfl
    · rw [if_neg hP, List.singleton_append, outputLoop]
      simp
  have hsh : blk .equal P ++ blk .minus X ++ blk .add Y ++ blk .equal S = blk .equal P ++ (⟨.minus, X⟩ :: ⟨.add, Y⟩ :: blk .equal S) := by
    rw [e1, e2, List.append_assoc, List.append_assoc]
    rfl
  rw [hsh, hall, hmid, fmtRange_numbers _ _ (List.length_pos_iff.2 hX), fmtRange_numbers _ _ (List.length_pos_iff.2 hY)]
  simp [lt, gt]

example : format (diff [b!"a", b!"a", b!"b", b!"a"] [b!"a", b!"a", b!"x", b!"y", b!"a"]) = b!"3c3,4\n< b\n---\n> x\n> y" := by
  have := C142_printed [b!"a", b!"a"] [b!"b"] [b!"x", b!"y"] [b!"a"] ⟨by decide, by decide, .inl (by decide)⟩ (by decide) (by decide)
  simp only [List.cons_append, List.nil_append] at this
  rw [this]
  decide +kernel

-- a blank line put in before the last two of three equal lines
example : format (diff [b!"}", b!"}", b!"}"] [b!"}", b!"", b!"}", b!"}"]) = b!"0a1,2\n> }\n> \n3d4\n< }" := by
  have := C142_counterexample b!"}" b!"" (by decide) 1 (by decide)
  simp only [List.replicate] at this
  simp only [List.cons_append, List.nil_append] at this
  rw [this]
  decide +kernel

end Diff
