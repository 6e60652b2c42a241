import Verif.Diff.Minimal

/-! # The diff of the files the other way round (C109) -/

namespace Diff
open Go

section
variable {α : Type}

/-- The same changes undone: what was deleted is added and the other way round; in a change the deletion still comes first. -/
def mirror : List (Block α) → List (Block α)
  | ⟨.minus, vs⟩ :: ⟨.add, ws⟩ :: cs => ⟨.minus, ws⟩ :: ⟨.add, vs⟩ :: mirror cs
  | ⟨.minus, vs⟩ :: cs => ⟨.add, vs⟩ :: mirror cs
  | ⟨.add, vs⟩ :: cs => ⟨.minus, vs⟩ :: mirror cs
  | ⟨.equal, vs⟩ :: cs => ⟨.equal, vs⟩ :: mirror cs
  | [] => []

theorem mirror_append (l r : List (Block α)) (vs : List α) : mirror (l ++ ⟨.equal, vs⟩ :: r) = mirror l ++ ⟨.equal, vs⟩ :: mirror r := by
  induction l using mirror.induct with
  | case1 us ws cs ih => simp only [List.cons_append, mirror, ih]
  | case2 us cs hne ih =>
    cases cs with
    | nil => simp [mirror]
    | cons c cs =>
      obtain ⟨k, ws⟩ := c
      cases k
      · simp only [List.cons_append, mirror] at ih ⊢; rw [ih]
      · exact absurd rfl (hne ws cs)
      · have e1 : mirror (⟨.minus, us⟩ :: (⟨.minus, ws⟩ :: cs)) = ⟨.add, us⟩ :: mirror (⟨.minus, ws⟩ :: cs) := by rw [mirror]; simp
        have e2 : mirror (⟨.minus, us⟩ :: (⟨.minus, ws⟩ :: (cs ++ ⟨.equal, vs⟩ :: r))) = ⟨.add, us⟩ :: mirror (⟨.minus, ws⟩ :: (cs ++ ⟨.equal, vs⟩ :: r)) := by
          rw [mirror]; simp
        rw [e1, List.cons_append, List.cons_append, e2]
        rw [List.cons_append] at ih
        rw [ih]; rfl
  | case3 us cs ih => simp only [List.cons_append, mirror, ih]
  | case4 us cs ih => simp only [List.cons_append, mirror, ih]
  | case5 => simp [mirror]

theorem commonRun_symm {old new : List α} {a b n : Nat} (h : CommonRun old new a b n) : CommonRun new old b a n := ⟨h.2.1, h.1, h.2.2.symm⟩

/-- At every step there is one longest common run only (or none). -/
inductive Unambiguous : List α → List α → Prop
  | none (old new : List α) : (∀ x ∈ old, x ∉ new) → Unambiguous old new
  | split (old new : List α) (a b n : Nat) : 0 < n → CommonRun old new a b n →
      (∀ a' b' n', CommonRun old new a' b' n' → n' < n ∨ (a' = a ∧ b' = b ∧ n' = n)) →
      Unambiguous (old.take a) (new.take b) → Unambiguous (old.drop (a + n)) (new.drop (b + n)) → Unambiguous old new

variable [DecidableEq α]

theorem diff_add (new : List α) (h : new ≠ []) : diff [] new = [⟨.add, new⟩] := by
  cases new with
  | nil => exact absurd rfl h
  | cons x xs => simp [diff, diffFuel]

theorem diff_minus (old : List α) (h : old ≠ []) : diff old [] = [⟨.minus, old⟩] := by
  cases old with
  | nil => exact absurd rfl h
  | cons x xs => simp [diff, diffFuel]

/-- **C109** Where the longest common run is unique at every step, exchanging the files exchanges additions and deletions. -/
theorem C109_unambiguous_partial {old new : List α} (h : Unambiguous old new) : diff new old = mirror (diff old new) := by
  induction h with
  | none old new h =>
    by_cases h1 : old = []
    · subst h1
      by_cases h2 : new = []
      · subst h2; rfl
      · rw [diff_add new h2, diff_minus new h2]; rfl
    · by_cases h2 : new = []
      · subst h2; rw [diff_add old h1, diff_minus old h1]; rfl
      · rw [C12_nothing_in_common old new h1 h2 h, C12_nothing_in_common new old h2 h1 (fun x hx hx' => h x hx' hx)]; rfl
  | split old new a b n hn hr hu _ _ ih1 ih2 =>
    have e1 := C107_anchor old new a b n hn hr (fun a' b' n' h => by have := hu a' b' n' h; omega)
      (fun a' b' h => by have := hu a' b' n h; omega)
    have e2 := C107_anchor new old b a n hn (commonRun_symm hr) (fun a' b' n' h => by have := hu b' a' n' (commonRun_symm h); omega)
      (fun a' b' h => by have := hu b' a' n (commonRun_symm h); omega)
    rw [e1, e2, ih1, ih2, List.append_assoc, List.append_assoc]
    simp only [List.singleton_append]
    rw [mirror_append, hr.2.2]

end

section
variable {α : Type}

theorem normal_tail {c : Block α} {cs : List (Block α)} (h : Normal (c :: cs)) : Normal cs :=
  ⟨fun d hd => h.1 d (List.mem_cons_of_mem _ hd), fun pre d e post he => h.2 (c :: pre) d e post (by rw [he]; rfl)⟩

/-- Deleted lines do not occur in `N`, added ones not in `O`, kept ones in both. -/
def Apart (O N : α → Prop) (cs : List (Block α)) : Prop :=
  ∀ c ∈ cs, ∀ x ∈ c.values, (c.kind = .minus → ¬ N x) ∧ (c.kind = .add → ¬ O x) ∧ (c.kind = .equal → O x ∧ N x)

theorem apart_tail {O N : α → Prop} {c : Block α} {cs : List (Block α)} (h : Apart O N (c :: cs)) : Apart O N cs :=
  fun d hd => h d (List.mem_cons_of_mem _ hd)

theorem head_of_append {xs ys : List α} {x : α} {zs : List α} (hx : xs ≠ []) (h : xs ++ ys = x :: zs) : x ∈ xs := by
  cases xs with
  | nil => exact absurd rfl hx
  | cons a as => simp at h; simp [h.1]

/-- After a deletion the next old line is a kept one. -/
theorem old_after_minus {O N : α → Prop} {vs : List α} {cs : List (Block α)} (hn : Normal (⟨.minus, vs⟩ :: cs)) (ha : Apart O N cs)
    {x : α} {xs : List α} (h : oldSide cs = x :: xs) : N x := by
  match cs, hn, ha, h with
  | [], _, _, h => simp [oldSide] at h
  | ⟨.minus, ws⟩ :: cs, hn, _, _ => exact absurd rfl (hn.2 [] _ _ cs rfl).1
  | ⟨.equal, ws⟩ :: cs, hn, ha, h =>
    have hw : ws ≠ [] := hn.1 ⟨.equal, ws⟩ (by simp)
    have : ws ++ oldSide cs = x :: xs := by simpa [oldSide] using h
    exact ((ha ⟨.equal, ws⟩ (by simp) x (head_of_append hw this)).2.2 rfl).2
  | ⟨.add, us⟩ :: [], _, _, h => simp [oldSide] at h
  | ⟨.add, us⟩ :: ⟨.add, ws⟩ :: cs, hn, _, _ => exact absurd rfl ((normal_tail hn).2 [] _ _ cs rfl).1
  | ⟨.add, us⟩ :: ⟨.minus, ws⟩ :: cs, hn, _, _ => exact absurd ⟨rfl, rfl⟩ ((normal_tail hn).2 [] _ _ cs rfl).2
  | ⟨.add, us⟩ :: ⟨.equal, ws⟩ :: cs, hn, ha, h =>
    have hw : ws ≠ [] := hn.1 ⟨.equal, ws⟩ (by simp)
    have : ws ++ oldSide cs = x :: xs := by simpa [oldSide] using h
    exact ((ha ⟨.equal, ws⟩ (by simp) x (head_of_append hw this)).2.2 rfl).2

/-- After an addition the next line is a kept one, in both files. -/
theorem after_add {O N : α → Prop} {vs : List α} {cs : List (Block α)} (hn : Normal (⟨.add, vs⟩ :: cs)) (ha : Apart O N cs) {x : α} {xs : List α} :
    (newSide cs = x :: xs → O x) ∧ (oldSide cs = x :: xs → N x) := by
  match cs, hn, ha with
  | [], _, _ => exact ⟨fun h => by simp [newSide] at h, fun h => by simp [oldSide] at h⟩
  | ⟨.minus, ws⟩ :: cs, hn, _ => exact absurd ⟨rfl, rfl⟩ (hn.2 [] _ _ cs rfl).2
  | ⟨.add, ws⟩ :: cs, hn, _ => exact absurd rfl (hn.2 [] _ _ cs rfl).1
  | ⟨.equal, ws⟩ :: cs, hn, ha =>
    have hw : ws ≠ [] := hn.1 ⟨.equal, ws⟩ (by simp)
    refine ⟨fun h => ?_, fun h => ?_⟩
    · have : ws ++ newSide cs = x :: xs := by simpa [newSide] using h
      exact ((ha ⟨.equal, ws⟩ (by simp) x (head_of_append hw this)).2.2 rfl).1
    · have : ws ++ oldSide cs = x :: xs := by simpa [oldSide] using h
      exact ((ha ⟨.equal, ws⟩ (by simp) x (head_of_append hw this)).2.2 rfl).2

/-- After kept lines the next lines of the two files are not the same line of both. -/
theorem after_equal {O N : α → Prop} {vs : List α} {cs : List (Block α)} (hn : Normal (⟨.equal, vs⟩ :: cs)) (ha : Apart O N cs)
    {x : α} {xs ys : List α} (h1 : oldSide cs = x :: xs) (h2 : newSide cs = x :: ys) (hO : O x) (hN : N x) : False := by
  match cs, hn, ha, h1, h2 with
  | [], _, _, h, _ => simp [oldSide] at h
  | ⟨.equal, ws⟩ :: cs, hn, _, _, _ => exact absurd rfl (hn.2 [] _ _ cs rfl).1
  | ⟨.minus, ws⟩ :: cs, hn, ha, h, _ =>
    have hw : ws ≠ [] := hn.1 ⟨.minus, ws⟩ (by simp)
    have : ws ++ oldSide cs = x :: xs := by simpa [oldSide] using h
    exact (ha ⟨.minus, ws⟩ (by simp) x (head_of_append hw this)).1 rfl hN
  | ⟨.add, ws⟩ :: cs, hn, ha, _, h =>
    have hw : ws ≠ [] := hn.1 ⟨.add, ws⟩ (by simp)
    have : ws ++ newSide cs = x :: ys := by simpa [newSide] using h
    exact (ha ⟨.add, ws⟩ (by simp) x (head_of_append hw this)).2.1 rfl hO

theorem append_cases {xs ys us vs : List α} (h : xs ++ us = ys ++ vs) :
    (xs = ys ∧ us = vs) ∨ (∃ z zs, ys = xs ++ z :: zs ∧ us = z :: zs ++ vs) ∨ (∃ z zs, xs = ys ++ z :: zs ∧ vs = z :: zs ++ us) := by
  rcases List.append_eq_append_iff.1 h with ⟨as, h1, h2⟩ | ⟨as, h1, h2⟩
  · cases as with
    | nil => exact Or.inl ⟨by simpa using h1.symm, by simpa using h2⟩
    | cons z zs => exact Or.inr (Or.inl ⟨z, zs, h1, h2⟩)
  · cases as with
    | nil => exact Or.inl ⟨by simpa using h1, by simpa using h2.symm⟩
    | cons z zs => exact Or.inr (Or.inr ⟨z, zs, h1, h2⟩)

/-- A normal form in which no line occurs as deleted or added that is in the other file is determined by the files. -/
theorem normal_unique {O N : α → Prop} : ∀ cs ds : List (Block α), Normal cs → Normal ds → Apart O N cs → Apart O N ds →
    oldSide cs = oldSide ds → newSide cs = newSide ds → cs = ds := by
  have nil_case : ∀ ds : List (Block α), Normal ds → oldSide ds = [] → newSide ds = [] → ds = [] := by
    intro ds hn h1 h2
    cases ds with
    | nil => rfl
    | cons d ds =>
      obtain ⟨k, vs⟩ := d
      have hv : vs ≠ [] := hn.1 ⟨k, vs⟩ (by simp)
      cases k <;> simp [oldSide, newSide, hv] at h1 h2
  intro cs
  induction cs with
  | nil =>
    intro ds _ hn _ _ h1 h2
    exact (nil_case ds hn h1.symm h2.symm).symm
  | cons c cs ih =>
    intro ds hc hd ac ad h1 h2
    cases ds with
    | nil => exact nil_case _ hc h1 h2
    | cons d ds =>
      obtain ⟨k, vs⟩ := c
      obtain ⟨k', ws⟩ := d
      have hv : vs ≠ [] := hc.1 ⟨k, vs⟩ (by simp)
      have hw : ws ≠ [] := hd.1 ⟨k', ws⟩ (by simp)
      have pv := ac ⟨k, vs⟩ (by simp)
      have pw := ad ⟨k', ws⟩ (by simp)
      obtain ⟨x, xs, rfl⟩ := List.exists_cons_of_ne_nil hv
      obtain ⟨y, ys, rfl⟩ := List.exists_cons_of_ne_nil hw
      have px := pv x (by simp)
      have py := pw y (by simp)
      change (if k = .add then [] else x :: xs) ++ oldSide cs = (if k' = .add then [] else y :: ys) ++ oldSide ds at h1
      change (if k = .minus then [] else x :: xs) ++ newSide cs = (if k' = .minus then [] else y :: ys) ++ newSide ds at h2
      cases k <;> cases k'
      · -- equal, equal
        simp only [reduceCtorEq, if_false] at h1 h2
        rcases append_cases h1 with ⟨e, h1'⟩ | ⟨z, zs, e, h1'⟩ | ⟨z, zs, e, h1'⟩
        · rw [e] at h2 ⊢
          rw [ih ds (normal_tail hc) (normal_tail hd) (apart_tail ac) (apart_tail ad) h1' (List.append_cancel_left h2)]
        · rw [e, List.append_assoc] at h2
          have hz := (pw z (by simp [e])).2.2 rfl
          exact absurd (after_equal hc (apart_tail ac) h1' (List.append_cancel_left h2) hz.1 hz.2) id
        · rw [e, List.append_assoc] at h2
          have hz := (pv z (by simp [e])).2.2 rfl
          exact absurd (after_equal hd (apart_tail ad) h1' (List.append_cancel_left h2).symm hz.1 hz.2) id
      · -- equal, add
        simp only [reduceCtorEq, if_false, List.cons_append] at h2
        have := (List.cons.inj h2).1
        subst this
        exact absurd (px.2.2 rfl).1 (py.2.1 rfl)
      · -- equal, minus
        simp only [reduceCtorEq, if_false, List.cons_append] at h1
        have := (List.cons.inj h1).1
        subst this
        exact absurd (px.2.2 rfl).2 (py.1 rfl)
      · -- add, equal
        simp only [reduceCtorEq, if_false, List.cons_append] at h2
        have := (List.cons.inj h2).1
        subst this
        exact absurd (py.2.2 rfl).1 (px.2.1 rfl)
      · -- add, add
        simp only [reduceCtorEq, if_false, if_true, List.nil_append] at h1 h2
        rcases append_cases h2 with ⟨e, h2'⟩ | ⟨z, zs, e, h2'⟩ | ⟨z, zs, e, h2'⟩
        · rw [e, ih ds (normal_tail hc) (normal_tail hd) (apart_tail ac) (apart_tail ad) h1 h2']
        · exact absurd ((after_add hc (apart_tail ac)).1 h2') ((pw z (by simp [e])).2.1 rfl)
        · exact absurd ((after_add hd (apart_tail ad)).1 h2') ((pv z (by simp [e])).2.1 rfl)
      · -- add, minus
        simp only [reduceCtorEq, if_false, if_true, List.nil_append, List.cons_append] at h1
        exact absurd ((after_add hc (apart_tail ac)).2 h1) (py.1 rfl)
      · -- minus, equal
        simp only [reduceCtorEq, if_false, List.cons_append] at h1
        have := (List.cons.inj h1).1
        subst this
        exact absurd (py.2.2 rfl).2 (px.1 rfl)
      · -- minus, add
        simp only [reduceCtorEq, if_false, if_true, List.nil_append, List.cons_append] at h1
        exact absurd ((after_add hd (apart_tail ad)).2 h1.symm) (px.1 rfl)
      · -- minus, minus
        simp only [reduceCtorEq, if_false, if_true, List.nil_append] at h1 h2
        rcases append_cases h1 with ⟨e, h1'⟩ | ⟨z, zs, e, h1'⟩ | ⟨z, zs, e, h1'⟩
        · rw [e, ih ds (normal_tail hc) (normal_tail hd) (apart_tail ac) (apart_tail ad) h1' h2]
        · exact absurd (old_after_minus hc (apart_tail ac) h1') ((pw z (by simp [e])).1 rfl)
        · exact absurd (old_after_minus hd (apart_tail ad) h1') ((pv z (by simp [e])).1 rfl)

/-! ### What `mirror` does to the sides and to normal forms -/

theorem mirror_facts (cs : List (Block α)) (hn : Normal cs) :
    oldSide (mirror cs) = newSide cs ∧ newSide (mirror cs) = oldSide cs ∧ (∀ O N : α → Prop, Apart O N cs → Apart N O (mirror cs)) ∧ Normal (mirror cs) ∧
    (∀ d ds, mirror cs = d :: ds → ∃ c cs', cs = c :: cs' ∧ (c.kind = .equal ↔ d.kind = .equal)) := by
  induction cs using mirror.induct with
  | case1 vs ws cs ih =>
    have hn' := normal_tail (normal_tail hn)
    obtain ⟨i1, i2, i3, i4, i5⟩ := ih hn'
    rw [mirror]
    refine ⟨by simpa [oldSide, newSide] using i1, by simpa [oldSide, newSide] using i2, ?_, ?_, ?_⟩
    · intro O N ha c hc x hx
      rcases List.mem_cons.1 hc with rfl | hc
      · have := ha ⟨.add, ws⟩ (by simp) x hx
        exact ⟨fun _ => this.2.1 rfl, fun h => (by cases h), fun h => (by cases h)⟩
      · rcases List.mem_cons.1 hc with rfl | hc
        · have := ha ⟨.minus, vs⟩ (by simp) x hx
          exact ⟨fun h => (by cases h), fun _ => this.1 rfl, fun h => (by cases h)⟩
        · exact i3 O N (apart_tail (apart_tail ha)) c hc x hx
    · have h1 : Normal [(⟨.minus, ws⟩ : Block α), ⟨.add, vs⟩] := by
        refine ⟨?_, ?_⟩
        · intro c hc
          simp only [List.mem_cons, List.not_mem_nil, or_false] at hc
          rcases hc with rfl | rfl
          · exact hn.1 ⟨.add, ws⟩ (by simp)
          · exact hn.1 ⟨.minus, vs⟩ (by simp)
        · intro pre c d post he
          cases pre with
          | nil => simp at he; obtain ⟨rfl, rfl, _⟩ := he; simp [MayFollow]
          | cons x pre => have := congrArg List.length he; simp at this; omega
      refine normal_append (l := [⟨.minus, ws⟩, ⟨.add, vs⟩]) h1 i4 ?_
      intro l' c d r' e1 e2
      have hc : c = ⟨.add, vs⟩ := by
        have := congrArg List.getLast? e1
        simp at this
        exact this.symm
      subst hc
      obtain ⟨c0, cs0, e, k1⟩ := i5 d r' e2
      subst e
      have hf := (normal_tail hn).2 [] _ _ cs0 rfl
      have hk : c0.kind = .equal := by
        obtain ⟨k, us⟩ := c0
        cases k
        · rfl
        · exact absurd rfl hf.1
        · exact absurd ⟨rfl, rfl⟩ hf.2
      have := k1.1 hk
      simp [MayFollow, this]
    · intro d ds he
      simp only [List.cons.injEq] at he
      obtain ⟨rfl, -⟩ := he
      exact ⟨_, _, rfl, by simp⟩
  | case2 vs cs hne ih =>
    obtain ⟨i1, i2, i3, i4, i5⟩ := ih (normal_tail hn)
    have hm : mirror (⟨.minus, vs⟩ :: cs) = ⟨.add, vs⟩ :: mirror cs := by
      rw [mirror]
      exact hne
    rw [hm]
    refine ⟨by simpa [oldSide, newSide] using i1, by simpa [oldSide, newSide] using i2, ?_, ?_, ?_⟩
    · intro O N ha c hc x hx
      rcases List.mem_cons.1 hc with rfl | hc
      · have := ha ⟨.minus, vs⟩ (by simp) x hx
        exact ⟨fun h => (by cases h), fun _ => this.1 rfl, fun h => (by cases h)⟩
      · exact i3 O N (apart_tail ha) c hc x hx
    · have h1 : Normal [(⟨.add, vs⟩ : Block α)] := by
        refine ⟨?_, ?_⟩
        · intro c hc
          simp only [List.mem_singleton] at hc
          subst hc
          exact hn.1 ⟨.minus, vs⟩ (by simp)
        · intro pre c d post he
          have := congrArg List.length he; simp at this; omega
      refine normal_append (l := [⟨.add, vs⟩]) h1 i4 ?_
      intro l' c d r' e1 e2
      have hc : c = ⟨.add, vs⟩ := by
        have := congrArg List.getLast? e1
        simp at this
        exact this.symm
      subst hc
      obtain ⟨c0, cs0, e, k1⟩ := i5 d r' e2
      subst e
      have hf := hn.2 [] _ _ cs0 rfl
      have hk : c0.kind = .equal := by
        obtain ⟨k, us⟩ := c0
        cases k
        · rfl
        · exact absurd rfl (hne us cs0)
        · exact absurd rfl hf.1
      have := k1.1 hk
      simp [MayFollow, this]
    · intro d ds he
      simp only [List.cons.injEq] at he
      obtain ⟨rfl, -⟩ := he
      exact ⟨_, _, rfl, by simp⟩
  | case3 vs cs ih =>
    obtain ⟨i1, i2, i3, i4, i5⟩ := ih (normal_tail hn)
    rw [mirror]
    refine ⟨by simpa [oldSide, newSide] using i1, by simpa [oldSide, newSide] using i2, ?_, ?_, ?_⟩
    · intro O N ha c hc x hx
      rcases List.mem_cons.1 hc with rfl | hc
      · have := ha ⟨.add, vs⟩ (by simp) x hx
        exact ⟨fun _ => this.2.1 rfl, fun h => (by cases h), fun h => (by cases h)⟩
      · exact i3 O N (apart_tail ha) c hc x hx
    · have h1 : Normal [(⟨.minus, vs⟩ : Block α)] := by
        refine ⟨?_, ?_⟩
        · intro c hc
          simp only [List.mem_singleton] at hc
          subst hc
          exact hn.1 ⟨.add, vs⟩ (by simp)
        · intro pre c d post he
          have := congrArg List.length he; simp at this; omega
      refine normal_append (l := [⟨.minus, vs⟩]) h1 i4 ?_
      intro l' c d r' e1 e2
      have hc : c = ⟨.minus, vs⟩ := by
        have := congrArg List.getLast? e1
        simp at this
        exact this.symm
      subst hc
      obtain ⟨c0, cs0, e, k1⟩ := i5 d r' e2
      subst e
      have hf := hn.2 [] _ _ cs0 rfl
      have hk : c0.kind = .equal := by
        obtain ⟨k, us⟩ := c0
        cases k
        · rfl
        · exact absurd rfl hf.1
        · exact absurd ⟨rfl, rfl⟩ hf.2
      have := k1.1 hk
      simp [MayFollow, this]
    · intro d ds he
      simp only [List.cons.injEq] at he
      obtain ⟨rfl, -⟩ := he
      exact ⟨_, _, rfl, by simp⟩
  | case4 vs cs ih =>
    obtain ⟨i1, i2, i3, i4, i5⟩ := ih (normal_tail hn)
    rw [mirror]
    refine ⟨by simpa [oldSide, newSide] using i1, by simpa [oldSide, newSide] using i2, ?_, ?_, ?_⟩
    · intro O N ha c hc x hx
      rcases List.mem_cons.1 hc with rfl | hc
      · have := ha ⟨.equal, vs⟩ (by simp) x hx
        exact ⟨fun h => (by cases h), fun h => (by cases h), fun _ => ⟨(this.2.2 rfl).2, (this.2.2 rfl).1⟩⟩
      · exact i3 O N (apart_tail ha) c hc x hx
    · have h1 : Normal [(⟨.equal, vs⟩ : Block α)] := by
        refine ⟨?_, ?_⟩
        · intro c hc
          simp only [List.mem_singleton] at hc
          subst hc
          exact hn.1 ⟨.equal, vs⟩ (by simp)
        · intro pre c d post he
          have := congrArg List.length he; simp at this; omega
      refine normal_append (l := [⟨.equal, vs⟩]) h1 i4 ?_
      intro l' c d r' e1 e2
      have hc : c = ⟨.equal, vs⟩ := by
        have := congrArg List.getLast? e1
        simp at this
        exact this.symm
      subst hc
      obtain ⟨c0, cs0, e, k1⟩ := i5 d r' e2
      subst e
      have hf := hn.2 [] _ _ cs0 rfl
      refine ⟨fun h => hf.1 (k1.2 h.symm).symm, by simp⟩
    · intro d ds he
      simp only [List.cons.injEq] at he
      obtain ⟨rfl, -⟩ := he
      exact ⟨_, _, rfl, by simp⟩
  | case5 => exact ⟨rfl, rfl, fun _ _ _ c hc => (by simp [mirror] at hc), hn, by intro d ds h; simp [mirror] at h⟩

theorem old_perm (cs : List (Block α)) : (keptLines cs ++ deletedLines cs).Perm (oldSide cs) := by
  induction cs with
  | nil => exact .refl _
  | cons c cs ih =>
    obtain ⟨k, vs⟩ := c
    cases k
    · simp only [keptLines, deletedLines, oldSide, List.flatMap_cons] at ih ⊢
      simpa [List.append_assoc] using ih.append_left vs
    · simpa [keptLines, deletedLines, oldSide] using ih
    · simp only [keptLines, deletedLines, oldSide, List.flatMap_cons] at ih ⊢
      simp only [reduceCtorEq, if_false, if_true, List.nil_append]
      refine List.Perm.trans ?_ (ih.append_left vs)
      rw [← List.append_assoc, ← List.append_assoc]
      exact List.perm_append_comm.append_right _

theorem new_perm (cs : List (Block α)) : (keptLines cs ++ addedLines cs).Perm (newSide cs) := by
  induction cs with
  | nil => exact .refl _
  | cons c cs ih =>
    obtain ⟨k, vs⟩ := c
    cases k
    · simp only [keptLines, addedLines, newSide, List.flatMap_cons] at ih ⊢
      simpa [List.append_assoc] using ih.append_left vs
    · simp only [keptLines, addedLines, newSide, List.flatMap_cons] at ih ⊢
      simp only [reduceCtorEq, if_false, if_true, List.nil_append]
      refine List.Perm.trans ?_ (ih.append_left vs)
      rw [← List.append_assoc, ← List.append_assoc]
      exact List.perm_append_comm.append_right _
    · simpa [keptLines, addedLines, newSide] using ih

variable [DecidableEq α]

theorem unmoved_symm {old new : List α} (h : Unmoved old new) : Unmoved new old := ⟨h.2.1, h.1, h.2.2.symm⟩

theorem unmoved_apart {old new : List α} (h : Unmoved old new) : Apart (· ∈ old) (· ∈ new) (diff old new) := by
  have hk := (C108_unmoved_partial old new h).1
  have p1 := old_perm (diff old new)
  have p2 := new_perm (diff old new)
  rw [(C11_reconstructs old new).1] at p1
  rw [(C11_reconstructs old new).2] at p2
  have n1 := p1.nodup_iff.2 h.1
  have n2 := p2.nodup_iff.2 h.2.1
  rw [List.nodup_append] at n1 n2
  intro c hc x hx
  refine ⟨fun hm hN => ?_, fun hm hO => ?_, fun hm => ?_⟩
  · have hdel : x ∈ deletedLines (diff old new) := List.mem_flatMap.2 ⟨c, hc, by rw [if_pos hm]; exact hx⟩
    have hold : x ∈ old := p1.mem_iff.1 (List.mem_append.2 (Or.inr hdel))
    have hkept : x ∈ keptLines (diff old new) := by rw [hk]; exact List.mem_filter.2 ⟨hold, decide_eq_true hN⟩
    exact n1.2.2 x hkept x hdel rfl
  · have hadd : x ∈ addedLines (diff old new) := List.mem_flatMap.2 ⟨c, hc, by rw [if_pos hm]; exact hx⟩
    have hnew : x ∈ new := p2.mem_iff.1 (List.mem_append.2 (Or.inr hadd))
    have hkept : x ∈ keptLines (diff old new) := by rw [hk]; exact List.mem_filter.2 ⟨hO, decide_eq_true hnew⟩
    exact n2.2.2 x hkept x hadd rfl
  · have hkept : x ∈ keptLines (diff old new) := List.mem_flatMap.2 ⟨c, hc, by rw [if_pos hm]; exact hx⟩
    exact ⟨p1.mem_iff.1 (List.mem_append.2 (Or.inl hkept)), p2.mem_iff.1 (List.mem_append.2 (Or.inl hkept))⟩

/-- **C109** The same for files without repeated or moved lines. -/
theorem C109_unmoved_partial (old new : List α) (h : Unmoved old new) : diff new old = mirror (diff old new) := by
  obtain ⟨m1, m2, m3, m4, -⟩ := mirror_facts (diff old new) (C13_normal_form old new)
  refine normal_unique (O := (· ∈ new)) (N := (· ∈ old)) _ _ (C13_normal_form new old) m4 (unmoved_apart (unmoved_symm h)) (m3 _ _ (unmoved_apart h)) ?_ ?_
  · rw [m1, (C11_reconstructs old new).2, (C11_reconstructs new old).1]
  · rw [m2, (C11_reconstructs old new).1, (C11_reconstructs new old).2]

/-- **C109** The expected statement is false: exchanging the files can give other changes, and more of them (kept are two lines in one direction and one in
the other). -/
theorem C109_counterexample (x y z : α) (hxy : x ≠ y) (hxz : x ≠ z) (hyz : y ≠ z) :
    diff [x, y, x] [y, z, x] = [⟨.minus, [x]⟩, ⟨.equal, [y]⟩, ⟨.add, [z]⟩, ⟨.equal, [x]⟩] ∧
    diff [y, z, x] [x, y, x] = [⟨.minus, [y, z]⟩, ⟨.equal, [x]⟩, ⟨.add, [y, x]⟩] := by
  constructor
  · simp [diff, diffFuel, findBest, outerLoop, buildIndices, innerStep, slice, hxy, hxz, hyz, hxy.symm, hxz.symm, hyz.symm]
  · simp [diff, diffFuel, findBest, outerLoop, buildIndices, innerStep, slice, hxy, hxz, hyz, hxy.symm, hxz.symm, hyz.symm]

end

example : diff [2, 5, 4, 6] [1, 2, 3, 4] = [⟨.add, [1]⟩, ⟨.equal, [2]⟩, ⟨.minus, [5]⟩, ⟨.add, [3]⟩, ⟨.equal, [4]⟩, ⟨.minus, [6]⟩] := by
  rw [C109_unmoved_partial [1, 2, 3, 4] [2, 5, 4, 6] ⟨by decide, by decide, by decide⟩]
  decide

/-- A moved line: the run of two is the only longest one. -/
example : diff [3, 1, 2] [1, 2, 3] = mirror (diff [1, 2, 3] [3, 1, 2]) := by
  refine C109_unambiguous_partial (.split _ _ 0 1 2 (by decide) ⟨by decide, by decide, by decide⟩ ?_ (.none _ _ (by decide)) (.none _ _ (by decide)))
  intro a b n h
  rw [commonRun_iff] at h
  obtain ⟨h1, h2, h3⟩ := h
  simp only [List.length_cons, List.length_nil] at h1 h2
  by_cases hn : n < 2
  · exact Or.inl hn
  · have g0 := h3 0 (by omega)
    have g1 := h3 1 (by omega)
    have hn3 : n = 2 ∨ n = 3 := by omega
    have ha : a = 0 ∨ a = 1 := by omega
    have hb : b = 0 ∨ b = 1 := by omega
    rcases ha with rfl | rfl <;> rcases hb with rfl | rfl <;> simp at g0 g1 <;> omega

/-- The lines `one`, `two`, `one` against `two`, `new`, `one`. -/
example : (changes (diff [b!"one", b!"two", b!"one"] [b!"two", b!"new", b!"one"]), changes (diff [b!"two", b!"new", b!"one"] [b!"one", b!"two", b!"one"])) = (2, 4) := by
  rw [(C109_counterexample b!"one" b!"two" b!"new" (by decide) (by decide) (by decide)).1, (C109_counterexample b!"one" b!"two" b!"new" (by decide) (by decide) (by decide)).2]
  rfl

end Diff
