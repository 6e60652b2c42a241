import Verif.Diff.First

/-!
# How much work comparing is (C127)

`Diff` (pkg/diff/diff.go) with a count of its work: one step for every call, for every line of the old file put into the
table, for every line of the new file looked up and for every pair of equal lines found. (The lines are compared through
their hash; copying the result is not counted.) The count is at most cubic, and there are files for which it is.
-/

namespace Diff
open Go

section
variable {α : Type} [DecidableEq α]

/-- diff.go:45-70: the steps of one level: the lines of `old`, the lines of `new`, and for each of these the
places in `old` where it occurs. -/
def levelCost (old new : List α) : Nat :=
  old.length + (new.map fun val => 1 + (buildIndices 0 (fun _ => []) old val).length).sum

/-- diff.go:34-91 `Diff` as in `diffFuel`, with the number of steps. -/
def diffRun : Nat → List α → List α → Option (M (List (Block α))) × Nat
  | 0, _, _ => (none, 0)
  | fuel + 1, old, new =>
    if old.length = 0 then
      if old.length = new.length then (some (.ok []), 1)
      else (some (.ok [{ kind := .add, values := new }]), 1)
    else if new.length = 0 then (some (.ok [{ kind := .minus, values := old }]), 1)
    else
      let b := findBest old new
      if b.subLen = 0 then
        (some (.ok [{ kind := .minus, values := old }, { kind := .add, values := new }]), 1 + levelCost old new)
      else
        match slice old 0 b.subStartOld, slice new 0 b.subStartNew,
          slice new b.subStartNew (b.subStartNew + b.subLen),
          slice old (b.subStartOld + b.subLen) old.length,
          slice new (b.subStartNew + b.subLen) new.length with
        | .ok ol, .ok nl, .ok mid, .ok or, .ok nr =>
          (match (diffRun fuel ol nl).1, (diffRun fuel or nr).1 with
            | some (.ok l), some (.ok r) => some (.ok (l ++ [{ kind := .equal, values := mid }] ++ r))
            | some (.error e), _ => some (.error e)
            | _, some (.error e) => some (.error e)
            | _, _ => none,
           1 + levelCost old new + (diffRun fuel ol nl).2 + (diffRun fuel or nr).2)
        | _, _, _, _, _ => (some (.error .index), 1 + levelCost old new)

/-- The work of `Diff`; there is always fuel enough (`C11_terminates`). -/
def steps (old new : List α) : Nat := (diffRun (old.length + 1) old new).2

/-- C127: counting does not change what is computed. -/
theorem C127_diff_result (fuel : Nat) : ∀ old new : List α, (diffRun fuel old new).1 = diffFuel fuel old new := by
  induction fuel with
  | zero => intro old new; rfl
  | succ fuel ih =>
    intro old new
    rw [diffRun, diffFuel]
    split
    · split <;> rfl
    · split
      · rfl
      · dsimp only
        split
        · rfl
        · generalize slice old 0 _ = x1
          generalize slice new 0 _ = x2
          generalize slice new (findBest old new).subStartNew _ = x3
          generalize slice old _ (old.length : Int) = x4
          generalize slice new _ (new.length : Int) = x5
          rcases x1 with _ | x1 <;> try rfl
          rcases x2 with _ | x2 <;> try rfl
          rcases x3 with _ | x3 <;> try rfl
          rcases x4 with _ | x4 <;> try rfl
          rcases x5 with _ | x5 <;> try rfl
          simp only [ih]
          rcases diffFuel fuel x1 x2 with _ | _ | l <;> rcases diffFuel fuel x4 x5 with _ | _ | r <;> rfl

theorem buildIndices_length (ks : List α) : ∀ (i : Nat) (m : α → List Nat) (x : α),
    (buildIndices i m ks x).length = (m x).length + ks.count x := by
  induction ks with
  | nil => intro i m x; simp [buildIndices]
  | cons k ks ih =>
    intro i m x
    rw [buildIndices, ih]
    by_cases h : x = k
    · subst h; simp; omega
    · simp [h, List.count_cons, Ne.symm h]

/-- The steps of a level, as a number of equal pairs. -/
theorem levelCost_eq (old new : List α) : levelCost old new = old.length + new.length + (new.map fun v => old.count v).sum := by
  have : ∀ new : List α, (new.map fun val => 1 + (buildIndices 0 (fun _ => []) old val).length).sum = new.length + (new.map fun v => old.count v).sum := by
    intro new
    induction new with
    | nil => rfl
    | cons v vs ih => rw [List.map_cons, List.sum_cons, ih, buildIndices_length, List.map_cons, List.sum_cons, List.length_cons, List.length_nil]; omega
  rw [levelCost, this]; omega

theorem sum_count_le (old : List α) : ∀ new : List α, (new.map fun v => old.count v).sum ≤ old.length * new.length
  | [] => by simp
  | v :: vs => by
    have := sum_count_le old vs
    have := List.count_le_length (a := v) (l := old)
    simp only [List.map_cons, List.sum_cons, List.length_cons, Nat.mul_add, Nat.mul_one]
    omega

theorem levelCost_le (old new : List α) : 1 + levelCost old new ≤ (old.length + 1) * (new.length + 1) := by
  have := sum_count_le old new
  rw [levelCost_eq, Nat.add_mul, Nat.mul_add, Nat.one_mul, Nat.mul_one]
  omega

/-- The two remaining problems are smaller rectangles side by side. -/
theorem rectangles (a b m k : Nat) (ha : a ≤ m) (hb : b ≤ k) : (a + 1) * (b + 1) + (m - a) * (k - b) ≤ (m + 1) * (k + 1) := by
  obtain ⟨x, rfl⟩ := Nat.exists_eq_add_of_le ha
  obtain ⟨y, rfl⟩ := Nat.exists_eq_add_of_le hb
  simp only [Nat.add_sub_cancel_left]
  rw [show a + x + 1 = (a + 1) + x by omega, show b + y + 1 = (b + 1) + y by omega]
  generalize a + 1 = A
  generalize b + 1 = B
  rw [Nat.add_mul, Nat.mul_add, Nat.mul_add]
  omega

theorem diffRun_split (fuel : Nat) (old new : List α) (ho : old ≠ []) (hn : new ≠ []) (a b n : Nat) (hn0 : 0 < n)
    (hb : findBest old new = ⟨a, b, n⟩) (h1 : a + n ≤ old.length) (h2 : b + n ≤ new.length) :
    (diffRun (fuel + 1) old new).2 = 1 + levelCost old new + (diffRun fuel (old.take a) (new.take b)).2 +
      (diffRun fuel (old.drop (a + n)) (new.drop (b + n))).2 := by
  have s1 : slice old 0 (a : Int) = .ok (old.take a) := by
    have := slice_ok old 0 a (by omega) (by omega)
    simpa using this
  have s2 : slice new 0 (b : Int) = .ok (new.take b) := by
    have := slice_ok new 0 b (by omega) (by omega)
    simpa using this
  have s3 : slice new (b : Int) ((b : Int) + n) = .ok ((new.drop b).take n) := by
    have := slice_ok new b (b + n) (by omega) (by omega)
    rw [Int.natCast_add] at this
    rw [this, List.drop_take]
    congr 2; omega
  have s4 : slice old ((a : Int) + n) old.length = .ok (old.drop (a + n)) := by
    have := slice_ok old (a + n) old.length (by omega) (by omega)
    rw [Int.natCast_add] at this
    rw [this, List.take_length]
  have s5 : slice new ((b : Int) + n) new.length = .ok (new.drop (b + n)) := by
    have := slice_ok new (b + n) new.length (by omega) (by omega)
    rw [Int.natCast_add] at this
    rw [this, List.take_length]
  have l1 : old.length ≠ 0 := fun h => ho (List.length_eq_zero_iff.1 h)
  have l2 : new.length ≠ 0 := fun h => hn (List.length_eq_zero_iff.1 h)
  rw [diffRun, if_neg l1, if_neg l2]
  dsimp only
  rw [hb, if_neg (by dsimp only; omega)]
  dsimp only
  rw [s1, s2, s3, s4, s5]

theorem diffRun_le (fuel : Nat) : ∀ old new : List α,
    (diffRun fuel old new).2 ≤ (old.length + 1) * (new.length + 1) * (min old.length new.length + 1) := by
  induction fuel with
  | zero => intro old new; simp [diffRun]
  | succ fuel ih =>
    intro old new
    have hlevel := levelCost_le old new
    have hone : 1 ≤ (old.length + 1) * (new.length + 1) := Nat.mul_pos (by omega) (by omega)
    have hsmall : ∀ x, x ≤ (old.length + 1) * (new.length + 1) →
        x ≤ (old.length + 1) * (new.length + 1) * (min old.length new.length + 1) := fun x hx =>
      Nat.le_trans hx (Nat.le_mul_of_pos_right _ (by omega))
    by_cases ho : old = []
    · subst ho
      rw [diffRun]
      simp only [List.length_nil, if_true]
      split <;> exact hsmall 1 hone
    · by_cases hn : new = []
      · subst hn
        rw [diffRun, if_neg (fun h => ho (List.length_eq_zero_iff.1 h))]
        exact hsmall 1 hone
      · obtain ⟨hv, -, -⟩ := findBest_spec old new
        by_cases hz : (findBest old new).subLen = 0
        · rw [diffRun, if_neg (fun h => ho (List.length_eq_zero_iff.1 h)), if_neg (fun h => hn (List.length_eq_zero_iff.1 h))]
          dsimp only
          rw [if_pos hz]
          exact hsmall _ hlevel
        · rcases hv with hv | ⟨a, b, n, he, hn0, hr⟩
          · exact absurd hv hz
          · have h1 := hr.1
            have h2 := hr.2.1
            rw [diffRun_split fuel old new ho hn a b n hn0 he h1 h2]
            have i1 := ih (old.take a) (new.take b)
            have i2 := ih (old.drop (a + n)) (new.drop (b + n))
            rw [List.length_take, List.length_take, Nat.min_eq_left (by omega), Nat.min_eq_left (by omega)] at i1
            rw [List.length_drop, List.length_drop] at i2
            have k1 : (a + 1) * (b + 1) * (min a b + 1) ≤ (a + 1) * (b + 1) * min old.length new.length := Nat.mul_le_mul_left _ (by omega)
            have k2 : (old.length - (a + n) + 1) * (new.length - (b + n) + 1) * (min (old.length - (a + n)) (new.length - (b + n)) + 1) ≤
                (old.length - a) * (new.length - b) * min old.length new.length :=
              Nat.mul_le_mul (Nat.mul_le_mul (by omega) (by omega)) (by omega)
            have k3 : ((a + 1) * (b + 1) + (old.length - a) * (new.length - b)) * min old.length new.length ≤
                (old.length + 1) * (new.length + 1) * min old.length new.length :=
              Nat.mul_le_mul_right _ (rectangles a b _ _ (by omega) (by omega))
            rw [Nat.add_mul] at k3
            rw [Nat.mul_add, Nat.mul_one]
            omega

/-- C127: comparing files of `m` and `k` lines takes at most `(m + 1) (k + 1) (min m k + 1)` steps. -/
theorem C127_diff_bound (old new : List α) : steps old new ≤ (old.length + 1) * (new.length + 1) * (min old.length new.length + 1) :=
  diffRun_le _ old new

/-- C127: files without a common line, whatever their size, take one pass through each. -/
theorem C127_diff_disjoint (old new : List α) (h : ∀ x ∈ old, x ∉ new) : steps old new ≤ 1 + old.length + new.length := by
  have hz : (findBest old new).subLen = 0 := by
    obtain ⟨hv, -, -⟩ := findBest_spec old new
    rcases hv with hv | ⟨a, b, n, he, hn0, hr⟩
    · exact hv
    · exfalso
      rw [commonRun_iff] at hr
      obtain ⟨h1, h2, h3⟩ := hr
      have := h3 0 hn0
      simp only [Nat.add_zero] at this
      rw [List.getElem?_eq_getElem (by omega), List.getElem?_eq_getElem (by omega), Option.some.injEq] at this
      exact h old[a] (List.getElem_mem (by omega)) (this ▸ List.getElem_mem (n := b) (by omega))
  have hs : ∀ l : List α, (∀ x ∈ l, x ∉ old) → (l.map fun v => old.count v).sum = 0 := by
    intro l
    induction l with
    | nil => intro _; rfl
    | cons v vs ih =>
      intro hl
      rw [List.map_cons, List.sum_cons, ih (fun x hx => hl x (by simp [hx])), List.count_eq_zero.2 (hl v (by simp))]
  have hlev : levelCost old new = old.length + new.length := by
    rw [levelCost_eq, hs new (fun x h1 h2 => h x h2 h1)]; rfl
  rw [steps, diffRun]
  split
  · split <;> (dsimp only; omega)
  · split
    · dsimp only; omega
    · rw [if_pos hz, hlev]
      dsimp only; omega

/-- C127: a file compared with itself is done in one pass over the equal pairs. -/
theorem C127_diff_same (l : List α) (h : l ≠ []) : steps l l ≤ 3 + levelCost l l := by
  have hlen : 0 < l.length := List.length_pos_iff.2 h
  have hb : findBest l l = ⟨0, 0, l.length⟩ := by
    have := findBest_first l l 0 0 l.length hlen ⟨by omega, by omega, rfl⟩ (fun a' b' n' h' => by have := h'.1; omega)
      (fun a' b' h' => by have := h'.1; have := h'.2.1; omega)
    simpa using this
  rw [steps, diffRun_split _ l l h h 0 0 l.length hlen (by simpa using hb) (by omega) (by omega)]
  have : ∀ fuel, (diffRun fuel ([] : List α) []).2 ≤ 1 := by
    intro fuel
    cases fuel with
    | zero => simp [diffRun]
    | succ fuel => simp [diffRun]
  have h1 := this l.length
  simp only [Nat.zero_add, List.take_zero, List.drop_length]
  omega

end

/-! ## Files for which the work is cubic -/

/-- Lines `x y x y ...`, `n` times. -/
def oneZero : Nat → List Nat
  | 0 => []
  | n + 1 => 1 :: 0 :: oneZero n

theorem oneZero_length : ∀ n, (oneZero n).length = 2 * n
  | 0 => rfl
  | n + 1 => by simp only [oneZero, List.length_cons, oneZero_length n]; omega

theorem oneZero_get : ∀ n i, i < 2 * n → (oneZero n)[i]? = some (if i % 2 = 0 then 1 else 0)
  | n + 1, 0, _ => rfl
  | n + 1, 1, _ => rfl
  | n + 1, i + 2, h => by
    rw [oneZero, List.getElem?_cons_succ, List.getElem?_cons_succ, oneZero_get n i (by omega)]
    congr 1
    rw [show (i + 2) % 2 = i % 2 by omega]

theorem oneZero_count : ∀ n, (oneZero n).count 0 = n
  | 0 => rfl
  | n + 1 => by simp [oneZero, oneZero_count n]

theorem oneZero_best (n : Nat) : findBest (oneZero (n + 1)) (List.replicate (n + 1) 0) = ⟨1, 0, 1⟩ := by
  have hlen := oneZero_length (n + 1)
  have hget : ∀ a b k, CommonRun (oneZero (n + 1)) (List.replicate (n + 1) 0) a b k → ∀ j, j < k → (a + j) % 2 = 1 := by
    intro a b k h j hj
    rw [commonRun_iff, hlen, List.length_replicate] at h
    have := h.2.2 j hj
    rw [oneZero_get (n + 1) (a + j) (by omega), List.getElem?_replicate, if_pos (show b + j < n + 1 by omega)] at this
    split at this
    · cases this
    · omega
  refine findBest_first _ _ 1 0 1 (by omega) ?_ ?_ ?_
  · rw [commonRun_iff, hlen, List.length_replicate]
    refine ⟨by omega, by omega, fun k hk => ?_⟩
    have : k = 0 := by omega
    subst this
    rfl
  · intro a b k h
    by_cases hk : k ≤ 1
    · exact hk
    · have h0 := hget a b k h 0 (by omega)
      have h1 := hget a b k h 1 (by omega)
      omega
  · intro a b h
    have h0 := hget a b 1 h 0 (by omega)
    omega

theorem oneZero_run : ∀ (n fuel : Nat), n < fuel → n ^ 3 ≤ 3 * (diffRun fuel (oneZero n) (List.replicate n 0)).2
  | 0, _, _ => by simp
  | n + 1, 0, h => absurd h (by omega)
  | n + 1, fuel + 1, h => by
    have hlen := oneZero_length (n + 1)
    have ih := oneZero_run n fuel (by omega)
    rw [diffRun_split fuel _ _ (by simp [oneZero]) (by simp) 1 0 1 (by omega) (oneZero_best n) (by omega) (by simp)]
    have e1 : (oneZero (n + 1)).drop (1 + 1) = oneZero n := rfl
    have e2 : (List.replicate (n + 1) (0 : Nat)).drop (0 + 1) = List.replicate n 0 := by simp
    have e3 : ((List.replicate (n + 1) 0).map fun v => (oneZero (n + 1)).count v).sum = (n + 1) * (n + 1) := by
      rw [List.map_replicate, oneZero_count, List.sum_replicate_nat]
    rw [e1, e2, levelCost_eq, hlen, List.length_replicate, e3]
    have e4 : (n + 1) ^ 3 = n ^ 3 + 3 * ((n + 1) * (n + 1)) - 3 * n - 2 := by
      have a1 : (n + 1) ^ 3 = n ^ 3 + 3 * (n * n) + 3 * n + 1 := by
        simp only [Nat.pow_succ, Nat.pow_zero, Nat.one_mul, Nat.add_mul, Nat.mul_add, Nat.mul_one]; omega
      have a2 : (n + 1) * (n + 1) = n * n + 2 * n + 1 := by
        simp only [Nat.add_mul, Nat.mul_add, Nat.mul_one, Nat.one_mul]; omega
      omega
    omega

/-- C127: the bound is tight: on files of `2n` and `n` lines `Diff` may take `n³ / 3` steps. -/
theorem C127_diff_cubic (n : Nat) : (oneZero n).length = 2 * n ∧ n ^ 3 ≤ 3 * steps (oneZero n) (List.replicate n 0) :=
  ⟨oneZero_length n, oneZero_run n _ (by rw [oneZero_length]; omega)⟩

example : steps [1, 2, 3, 4] [1, 3, 4, 5] = 20 := by decide +kernel
example : steps [b!"a", b!"b"] [b!"c"] ≤ 4 := C127_diff_disjoint [b!"a", b!"b"] [b!"c"] (by decide)

end Diff
