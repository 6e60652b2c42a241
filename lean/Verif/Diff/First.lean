import Verif.Diff.Props

/-! # Which of several longest common runs `Diff` takes (C107) -/

namespace Diff
open Go

section
variable {α : Type} [DecidableEq α]

theorem buildIndices_sorted (ks : List α) : ∀ (i : Nat) (m : α → List Nat) (x : α), (∀ y, (m y).Pairwise (· < ·)) → (∀ y, ∀ j ∈ m y, j < i) →
    (buildIndices i m ks x).Pairwise (· < ·) := by
  induction ks with
  | nil => intro i m x h _; exact h x
  | cons k ks ih =>
    intro i m x h hb
    rw [buildIndices]
    refine ih _ _ _ ?_ ?_
    · intro y
      split
      · rw [List.pairwise_append]
        refine ⟨h k, List.pairwise_singleton _ _, ?_⟩
        intro a ha b hb'
        rw [List.mem_singleton] at hb'
        subst hb'
        exact hb k a ha
      · exact h y
    · intro y j
      split
      · intro hj
        rcases List.mem_append.1 hj with hj | hj
        · have := hb k j hj; omega
        · rw [List.mem_singleton] at hj; omega
      · intro hj
        have := hb y j hj
        omega

/-- The run ends before `(j, i)` in the order of the loops, or there. -/
def Best.Before (b : Best) (i j : Nat) : Prop :=
  b.subStartNew + b.subLen - 1 < j ∨ (b.subStartNew + b.subLen - 1 = j ∧ b.subStartOld + b.subLen - 1 ≤ i)

/-- No run that was looked at is longer, and among the longest the selected one ends first. -/
def Best.First (old new : List α) (seen : Nat → Nat → Prop) (b : Best) : Prop :=
  ∀ i j, seen i j → (suf old new i j : Int) ≤ b.subLen ∧ (0 < suf old new i j → (suf old new i j : Int) = b.subLen → b.Before i j)

theorem innerFold_first (old new : List α) (m : Nat) (overlap : Int → Int)
    (ho : ∀ k : Nat, overlap k = prevOverlap old new m k) (is : List Nat) :
    ∀ (acc : (Int → Int) × Best) (seen : Nat → Nat → Prop), acc.2.First old new seen →
      (∀ i ∈ is, i < old.length ∧ old[i]? = new[m]?) → is.Pairwise (· < ·) →
      (acc.2.subLen = 0 ∨ ∀ i ∈ is, acc.2.Before i m) → 0 ≤ acc.2.subLen →
      (is.foldl (innerStep overlap m) acc).2.First old new (fun i j => seen i j ∨ (j = m ∧ i ∈ is)) ∧ 0 ≤ (is.foldl (innerStep overlap m) acc).2.subLen ∧
      ((is.foldl (innerStep overlap m) acc).2.subLen = 0 ∨ (is.foldl (innerStep overlap m) acc).2 = acc.2 ∨
        (is.foldl (innerStep overlap m) acc).2.subStartNew + (is.foldl (innerStep overlap m) acc).2.subLen - 1 = m) := by
  induction is with
  | nil =>
    intro acc seen hf _ _ _ h0
    refine ⟨?_, h0, Or.inr (Or.inl rfl)⟩
    intro i j hs
    refine hf i j ?_
    simpa using hs
  | cons i is ih =>
    intro acc seen hf hm hp hb h0
    have hval := innerStep_value old new m i overlap ho (hm i (by simp))
    have hpos := (suf_pos_iff old new i m).2 (hm i (by simp))
    have hstep : innerStep overlap m acc i =
        (fun k => if k = (i : Int) then (suf old new i m : Int) else acc.1 k,
          if (suf old new i m : Int) > acc.2.subLen then
            ⟨i - suf old new i m + 1, m - suf old new i m + 1, suf old new i m⟩ else acc.2) := by
      simp only [innerStep, hval]
    rw [List.pairwise_cons] at hp
    have key : (innerStep overlap m acc i).2.First old new (fun i' j => seen i' j ∨ (j = m ∧ i' = i)) ∧ 0 ≤ (innerStep overlap m acc i).2.subLen ∧
        ((innerStep overlap m acc i).2.subLen = 0 ∨ ∀ i' ∈ is, (innerStep overlap m acc i).2.Before i' m) ∧
        ((innerStep overlap m acc i).2 = acc.2 ∨ (innerStep overlap m acc i).2.subStartNew + (innerStep overlap m acc i).2.subLen - 1 = m) := by
      rw [hstep]
      dsimp only
      by_cases hgt : (suf old new i m : Int) > acc.2.subLen
      · rw [if_pos hgt]
        refine ⟨?_, by dsimp only; omega, Or.inr ?_, Or.inr (by dsimp only; omega)⟩
        · rintro i' j (hs | ⟨rfl, rfl⟩)
          · have := (hf i' j hs).1
            exact ⟨by dsimp only; omega, fun _ h => by dsimp only at h; omega⟩
          · refine ⟨by dsimp only; omega, fun _ _ => Or.inr ⟨by dsimp only; omega, by dsimp only; omega⟩⟩
        · intro i' hi'
          have := hp.1 i' hi'
          exact Or.inr ⟨by dsimp only; omega, by dsimp only; omega⟩
      · rw [if_neg hgt]
        refine ⟨?_, h0, ?_, Or.inl rfl⟩
        · rintro i' j (hs | ⟨rfl, rfl⟩)
          · exact hf i' j hs
          · refine ⟨by omega, fun _ h => ?_⟩
            rcases hb with hb | hb
            · omega
            · exact hb i' (by simp)
        · rcases hb with hb | hb
          · exact Or.inl hb
          · exact Or.inr (fun i' hi' => hb i' (by simp [hi']))
    obtain ⟨k1, k2, k3, k4⟩ := key
    obtain ⟨r1, r2, r3⟩ := ih (innerStep overlap m acc i) _ k1 (fun k hk => hm k (by simp [hk])) hp.2 k3 k2
    rw [List.foldl_cons]
    refine ⟨?_, r2, ?_⟩
    · intro i' j hs
      refine r1 i' j ?_
      rcases hs with hs | ⟨hj, hi⟩
      · exact Or.inl (Or.inl hs)
      · rcases List.mem_cons.1 hi with hi | hi
        · exact Or.inl (Or.inr ⟨hj, hi⟩)
        · exact Or.inr ⟨hj, hi⟩
    · rcases r3 with r3 | r3 | r3
      · exact Or.inl r3
      · rw [r3]
        exact Or.inr k4
      · exact Or.inr (Or.inr r3)

theorem outerLoop_first (old new : List α) (rest : List α) : ∀ (m : Nat) (overlap : Int → Int)
    (best : Best), rest = new.drop m →
    (∀ k : Nat, overlap k = prevOverlap old new m k) → best.Valid old new → 0 ≤ best.subLen →
    (best.subLen = 0 ∨ best.subStartNew + best.subLen - 1 < m) → best.First old new (fun _ j => j < m) →
    (outerLoop (buildIndices 0 (fun _ => []) old) m overlap best rest).First old new (fun _ j => j < new.length) := by
  induction rest with
  | nil =>
    intro m overlap best hr _ _ _ _ hs
    intro i j hj
    have : new.length ≤ m := by
      have := congrArg List.length hr
      simp at this; omega
    exact hs i j (by omega)
  | cons val rest ih =>
    intro m overlap best hr ho hv h0 hb hs
    have hlen : m < new.length := by
      have := congrArg List.length hr
      simp at this; omega
    have hval : new[m]? = some val := by
      have := congrArg (fun l => l[0]?) hr
      simp only [List.getElem?_cons_zero, List.getElem?_drop] at this
      simpa using this.symm
    have hmem : ∀ i, i ∈ buildIndices 0 (fun _ => []) old val ↔ i < old.length ∧ old[i]? = new[m]? := by
      intro i
      rw [buildIndices_mem]
      simp only [List.not_mem_nil, false_or, Nat.zero_le, true_and, Nat.sub_zero, hval]
      constructor
      · intro h; exact ⟨(List.getElem?_eq_some_iff.1 h).1, h⟩
      · exact fun h => h.2
    obtain ⟨r1, r2, r3, r4⟩ := innerFold old new m overlap ho (buildIndices 0 (fun _ => []) old val)
      (fun _ => 0, best) hv h0 (fun i hi => (hmem i).1 hi)
    obtain ⟨f1, f2, f3⟩ := innerFold_first old new m overlap ho (buildIndices 0 (fun _ => []) old val)
      (fun _ => 0, best) _ hs (fun i hi => (hmem i).1 hi) (buildIndices_sorted old 0 _ val (fun _ => List.Pairwise.nil) (by simp))
      (by rcases hb with hb | hb
          · exact Or.inl hb
          · exact Or.inr (fun i _ => Or.inl hb)) h0
    simp only [outerLoop]
    have hcast : ((m : Int) + 1) = ((m + 1 : Nat) : Int) := by omega
    rw [hcast]
    refine ih (m + 1) _ _ ?_ ?_ r1 f2 ?_ ?_
    · have := congrArg List.tail hr
      simpa [List.tail_drop] using this
    · intro k
      rw [r3 k]
      simp only [prevOverlap]
      split
      · rfl
      · next hk =>
        have : ¬ 0 < suf old new k m := fun hp => hk ((hmem k).2 ((suf_pos_iff old new k m).1 hp))
        omega
    · rcases f3 with f3 | f3 | f3
      · exact Or.inl f3
      · rw [f3]
        rcases hb with hb | hb
        · exact Or.inl hb
        · right; dsimp only; omega
      · right; omega
    · intro i j hj
      by_cases hjm : j < m
      · exact f1 i j (Or.inl hjm)
      · have : j = m := by omega
        subst this
        by_cases hp : 0 < suf old new i j
        · exact f1 i j (Or.inr ⟨rfl, (hmem i).2 ((suf_pos_iff old new i j).1 hp)⟩)
        · exact ⟨by omega, fun h => absurd h hp⟩

/-- The run selected by the two loops. -/
theorem findBest_first (old new : List α) (a b n : Nat) (hn : 0 < n) (h : CommonRun old new a b n) (hmax : ∀ a' b' n', CommonRun old new a' b' n' → n' ≤ n)
    (hfst : ∀ a' b', CommonRun old new a' b' n → b < b' ∨ (b = b' ∧ a ≤ a')) : findBest old new = ⟨a, b, n⟩ := by
  obtain ⟨hv, h0, hm⟩ := findBest_spec old new
  have hf := outerLoop_first old new new 0 (fun _ => 0) ⟨0, 0, 0⟩ (by simp) (by intro k; simp [prevOverlap]) (.inl rfl) (by simp) (Or.inl rfl)
    (by intro i j hj; exact absurd hj (by omega))
  change (findBest old new).First old new _ at hf
  have hlen := hm a b n h
  rcases hv with hv | ⟨a', b', n', he, hn', hr⟩
  · omega
  · rw [he] at hlen hf
    have hnn : n' = n := by
      have := hmax a' b' n' hr
      dsimp only at hlen
      omega
    subst hnn
    have h1 := hfst a' b' hr
    have h2 := hf (a + n' - 1) (b + n' - 1) (by have := h.2.1; omega)
    have h3 := suf_of_commonRun h hn
    have h4 := h2.1
    dsimp only at h4
    have h5 := h2.2 (by omega) (by dsimp only; omega)
    simp only [Best.Before] at h5
    rw [he]
    have e1 : a' = a := by omega
    have e2 : b' = b := by omega
    rw [e1, e2]

/-- **C107** `Diff` splits at the longest common run that comes first in the new file and, among several occurrences of it in the old file, at
the first: whatever run has these properties, what is before and after it is compared separately. With `C12_nothing_in_common` and the empty
files this determines the result. -/
theorem C107_anchor (old new : List α) (a b n : Nat) (hn : 0 < n) (h : CommonRun old new a b n) (hmax : ∀ a' b' n', CommonRun old new a' b' n' → n' ≤ n)
    (hfst : ∀ a' b', CommonRun old new a' b' n → b < b' ∨ (b = b' ∧ a ≤ a')) :
    diff old new = diff (old.take a) (new.take b) ++ [⟨.equal, (old.drop a).take n⟩] ++ diff (old.drop (a + n)) (new.drop (b + n)) := by
  have hb := findBest_first old new a b n hn h hmax hfst
  have h1 := h.1
  have h2 := h.2.1
  have e := diffFuel_eq (old.length + 1) old new (by omega)
  have e1 := diffFuel_eq old.length (old.take a) (new.take b) (by rw [List.length_take]; omega)
  have e2 := diffFuel_eq old.length (old.drop (a + n)) (new.drop (b + n)) (by rw [List.length_drop]; omega)
  rw [diffFuel, if_neg (by omega), if_neg (by omega)] at e
  dsimp only at e
  rw [hb, if_neg (by dsimp only; omega)] at e
  dsimp only at e
  have s1 : slice old 0 (a : Int) = .ok (old.take a) := by
    have := slice_ok old 0 a (by omega) (by omega)
    simpa using this
  have s2 : slice new 0 (b : Int) = .ok (new.take b) := by
    have := slice_ok new 0 b (by omega) (by omega)
    simpa using this
  have s3 : slice new (b : Int) ((b : Int) + n) = .ok ((new.drop b).take n) := by
    have := slice_ok new b (b + n) (by omega) (by omega)
    rw [Int.natCast_add] at this
    rw [this, List.drop_take]
    congr 2; omega
  have s4 : slice old ((a : Int) + n) old.length = .ok (old.drop (a + n)) := by
    have := slice_ok old (a + n) old.length (by omega) (by omega)
    rw [Int.natCast_add] at this
    rw [this, List.take_length]
  have s5 : slice new ((b : Int) + n) new.length = .ok (new.drop (b + n)) := by
    have := slice_ok new (b + n) new.length (by omega) (by omega)
    rw [Int.natCast_add] at this
    rw [this, List.take_length]
  rw [s1, s2, s3, s4, s5] at e
  simp only [e1, e2] at e
  have := Option.some.inj e
  have := Except.ok.inj this
  rw [← this, h.2.2]

/-- The longest common run that comes first in the new file, then in the old one: `n` lines from `a` and from `b`. -/
def FirstLongest (old new : List α) (a b n : Nat) : Prop :=
  0 < n ∧ CommonRun old new a b n ∧ (∀ a' b' n', CommonRun old new a' b' n' → n' ≤ n) ∧
    ∀ a' b', CommonRun old new a' b' n → b < b' ∨ (b = b' ∧ a ≤ a')

/-- What a diff has to be, without loops or tables: nothing in common is a deletion and an addition (as far as there are lines), and otherwise the
first longest common run is kept and what is before and after it is compared. -/
inductive IsDiff : List α → List α → List (Block α) → Prop
  | both : IsDiff [] [] []
  | add (new : List α) : new ≠ [] → IsDiff [] new [⟨.add, new⟩]
  | minus (old : List α) : old ≠ [] → IsDiff old [] [⟨.minus, old⟩]
  | change (old new : List α) : old ≠ [] → new ≠ [] → (∀ x ∈ old, x ∉ new) → IsDiff old new [⟨.minus, old⟩, ⟨.add, new⟩]
  | split (old new : List α) (a b n : Nat) (l r : List (Block α)) : FirstLongest old new a b n → IsDiff (old.take a) (new.take b) l →
      IsDiff (old.drop (a + n)) (new.drop (b + n)) r → IsDiff old new (l ++ [⟨.equal, (old.drop a).take n⟩] ++ r)

theorem findBest_firstLongest (old new : List α) (h : ∃ x, x ∈ old ∧ x ∈ new) : ∃ a b n, FirstLongest old new a b n := by
  obtain ⟨hv, h0, hm⟩ := findBest_spec old new
  have hf := outerLoop_first old new new 0 (fun _ => 0) ⟨0, 0, 0⟩ (by simp) (by intro k; simp [prevOverlap]) (.inl rfl) (by simp) (Or.inl rfl)
    (by intro i j hj; exact absurd hj (by omega))
  change (findBest old new).First old new _ at hf
  obtain ⟨a0, b0, n0, hn0, hr0, -⟩ := C12_longest_anchor old new h
  have hp := hm a0 b0 n0 hr0
  rcases hv with hv | ⟨a, b, n, he, hn, hr⟩
  · omega
  · rw [he] at hm hf
    refine ⟨a, b, n, hn, hr, fun a' b' n' h' => by have := hm a' b' n' h'; dsimp only at this; omega, fun a' b' h' => ?_⟩
    have h2 := hf (a' + n - 1) (b' + n - 1) (by have := h'.2.1; omega)
    have h3 := suf_of_commonRun h' hn
    have h4 := h2.1
    dsimp only at h4
    have h5 := h2.2 (by omega) (by dsimp only; omega)
    simp only [Best.Before] at h5
    omega

theorem isDiff_diff (N : Nat) : ∀ old new : List α, old.length < N → IsDiff old new (diff old new) := by
  induction N with
  | zero => intro old new h; omega
  | succ N ih =>
    intro old new hlen
    by_cases hx : ∃ x, x ∈ old ∧ x ∈ new
    · obtain ⟨a, b, n, hf⟩ := findBest_firstLongest old new hx
      have h1 := hf.2.1.1
      have h0 := hf.1
      rw [C107_anchor old new a b n hf.1 hf.2.1 hf.2.2.1 hf.2.2.2]
      exact .split old new a b n _ _ hf (ih _ _ (by rw [List.length_take]; omega)) (ih _ _ (by rw [List.length_drop]; omega))
    · have hs := diff_shape old new
      generalize hd : diff old new = d at hs
      cases hs with
      | both => exact .both
      | add _ h => exact .add _ h
      | minus _ h => exact .minus _ h
      | change _ _ h1 h2 _ => exact .change _ _ h1 h2 (fun x h3 h4 => hx ⟨x, h3, h4⟩)
      | split _ _ a b n l r hn hr hmax _ _ _ _ =>
        refine absurd ?_ hx
        have h0 := ((commonRun_iff old new a b n).1 hr).2.2 0 hn
        have := hr.1
        simp only [Nat.add_zero] at h0
        rw [List.getElem?_eq_getElem (by omega)] at h0
        exact ⟨_, List.getElem_mem _, List.mem_of_getElem? h0.symm⟩

omit [DecidableEq α] in
theorem firstLongest_unique {old new : List α} {a b n a' b' n' : Nat} (h : FirstLongest old new a b n) (h' : FirstLongest old new a' b' n') :
    a = a' ∧ b = b' ∧ n = n' := by
  obtain ⟨h0, h1, h2, h3⟩ := h
  obtain ⟨h0', h1', h2', h3'⟩ := h'
  have hn : n = n' := by
    have := h2 _ _ _ h1'
    have := h2' _ _ _ h1
    omega
  subst hn
  have := h3 _ _ h1'
  have := h3' _ _ h1
  omega

omit [DecidableEq α] in
theorem firstLongest_shares {old new : List α} {a b n : Nat} (h : FirstLongest old new a b n) : ∃ x, x ∈ old ∧ x ∈ new := by
  have h0 := ((commonRun_iff old new a b n).1 h.2.1).2.2 0 h.1
  have := h.2.1.1
  have := h.1
  simp only [Nat.add_zero] at h0
  rw [List.getElem?_eq_getElem (by omega)] at h0
  exact ⟨_, List.getElem_mem _, List.mem_of_getElem? h0.symm⟩

/-- **C107** `Diff` returns exactly the diff so described. -/
theorem C107_exact (old new : List α) (cs : List (Block α)) : IsDiff old new cs ↔ cs = diff old new := by
  refine ⟨?_, fun h => h ▸ isDiff_diff (old.length + 1) old new (by omega)⟩
  intro h
  have hd := isDiff_diff (old.length + 1) old new (by omega)
  generalize diff old new = ds at hd ⊢
  induction h generalizing ds with
  | both =>
    cases hd with
    | both => rfl
    | add _ h => exact absurd rfl h
    | minus _ h => exact absurd rfl h
    | change _ _ h => exact absurd rfl h
    | split _ _ a b n l r h => obtain ⟨x, hx, -⟩ := firstLongest_shares h; simp at hx
  | add new hne =>
    cases hd with
    | both => exact absurd rfl hne
    | add _ h => rfl
    | minus _ h => exact absurd rfl h
    | change _ _ h => exact absurd rfl h
    | split _ _ a b n l r h => obtain ⟨x, hx, -⟩ := firstLongest_shares h; simp at hx
  | minus old hne =>
    cases hd with
    | both => exact absurd rfl hne
    | add _ h => exact absurd rfl h
    | minus _ h => rfl
    | change _ _ _ h => exact absurd rfl h
    | split _ _ a b n l r h => obtain ⟨x, -, hx⟩ := firstLongest_shares h; simp at hx
  | change old new h1 h2 h3 =>
    cases hd with
    | both => exact absurd rfl h1
    | add _ h => exact absurd rfl h1
    | minus _ h => exact absurd rfl h2
    | change _ _ _ h => rfl
    | split _ _ a b n l r h => obtain ⟨x, hx, hy⟩ := firstLongest_shares h; exact absurd hy (h3 x hx)
  | split old new a b n l r hf _ _ ih1 ih2 =>
    have hsh := firstLongest_shares hf
    generalize hO : old = old' at hd
    generalize hN : new = new' at hd
    cases hd with
    | both => subst hO; obtain ⟨x, hx, -⟩ := hsh; simp at hx
    | add _ h => subst hO; obtain ⟨x, hx, -⟩ := hsh; simp at hx
    | minus _ h => subst hN; obtain ⟨x, -, hx⟩ := hsh; simp at hx
    | change _ _ _ _ h => subst hO; subst hN; obtain ⟨x, hx, hy⟩ := hsh; exact absurd hy (h x hx)
    | split _ _ a' b' n' l' r' hf' g1 g2 =>
      subst hO; subst hN
      obtain ⟨rfl, rfl, rfl⟩ := firstLongest_unique hf hf'
      rw [ih1 _ g1, ih2 _ g2]

end

/-- Two candidates: `x` is first in the new file, so `x` is kept. -/
example : FirstLongest [1, 2] [2, 1] 1 0 1 ∧ diff [1, 2] [2, 1] = [⟨.minus, [1]⟩, ⟨.equal, [2]⟩, ⟨.add, [1]⟩] := by
  refine ⟨⟨by decide, ⟨by decide, by decide, by decide⟩, ?_, ?_⟩, by decide⟩
  · intro a b n h
    rw [commonRun_iff] at h
    obtain ⟨h1, h2, h3⟩ := h
    by_cases hn : n ≤ 1
    · exact hn
    · simp at h1 h2
      obtain ⟨rfl, rfl, rfl⟩ : a = 0 ∧ b = 0 ∧ n = 2 := by omega
      simpa using h3 0 (by decide)
  · intro a b h
    rw [commonRun_iff] at h
    obtain ⟨h1, h2, h3⟩ := h
    simp at h1 h2
    have := h3 0 (by decide)
    by_cases hb : b = 0
    · subst hb
      by_cases ha : a = 0
      · subst ha; simp at this
      · omega
    · omega

/-- A second occurrence in the old file is not used. -/
example : diff [1, 2, 1] [1] = [⟨.equal, [1]⟩, ⟨.minus, [2, 1]⟩] := by decide

end Diff
