import Verif.TSort.Props

/-!
# How much work sorting is (C127)

`Add` and `Order` (pkg/tsort/tsort.go) with a count of their work: one step for every item of a list and every entry of the
map looked at, for every call of `Add`, every candidate and every successor. (Map reads and writes count as one step. The
order in which a map is gone through is arbitrary; the bounds hold for each.) The work is at most quadratic in the number of
words, and there are inputs for which it is.
-/

namespace TSort
open Go

section
variable {α : Type} [DecidableEq α]

/-- The items a loop over a list looks at until it finds one. -/
def scanCost (p : α → Bool) : List α → Nat
  | [] => 0
  | x :: xs => if p x then 1 else 1 + scanCost p xs

/-- tsort.go:29-33: the loop of `Add`. -/
def addPairsCost (m : Orderings α) : List α → Nat
  | a :: b :: rest =>
    1 + scanCost (fun j => b = j) (get m a) +
      addPairsCost (if !inSlice (get m a) b then set m a (get m a ++ [b]) else m) (b :: rest)
  | _ => 0

/-- tsort.go:18-34 `Add`. -/
def addCost (m : Orderings α) (items : List α) : Nat :=
  match items with
  | [] => 1
  | [_] => 1
  | _ => 1 + addPairsCost m items

/-- A sequence of `Add` calls. -/
def addAllCost (m : Orderings α) : List (List α) → Nat
  | [] => 0
  | items :: hist => addCost m items + addAllCost (add m items) hist

/-- tsort.go:36-54 `heads`: the keys, the entries with their items, the candidates left. -/
def headsCost (m : Orderings α) : Nat := m.length + (m.length + (m.map (·.2.length)).sum) + (heads m).length

/-- tsort.go:56-65 `isBlocked`. -/
def blockedCost (n : α) : Orderings α → Nat
  | [] => 0
  | e :: rest => 1 + scanCost (fun i => i = n) e.2 + if e.2.any (fun i => i = n) then 0 else blockedCost n rest

/-- tsort.go:70-81: the loop of `Order` as in `orderLoop`, with the number of steps. -/
def orderRun : Nat → List α → Orderings α → List α → Option (List α × Orderings α) × Nat
  | _, [], m, out => (some (out, m), 0)
  | 0, _ :: _, _, _ => (none, 0)
  | fuel + 1, head :: candidates, m, out =>
    let unblocked := get m head
    let m' := delete m head
    let r := orderRun fuel (candidates ++ unblocked.filter (fun u => !isBlocked m' u)) m' (out ++ [head])
    (r.1, 1 + (unblocked.map fun u => 1 + blockedCost u m').sum + r.2)

/-- C127: counting does not change what is computed. -/
theorem C127_tsort_result (fuel : Nat) : ∀ (cs : List α) (m : Orderings α) (out : List α),
    (orderRun fuel cs m out).1 = orderLoop fuel cs m out := by
  induction fuel with
  | zero => intro cs m out; cases cs <;> rfl
  | succ fuel ih =>
    intro cs m out
    cases cs with
    | nil => rfl
    | cons c cs => exact ih _ _ _

omit [DecidableEq α] in
theorem scanCost_le (p : α → Bool) : ∀ l : List α, scanCost p l ≤ l.length
  | [] => Nat.le_refl _
  | x :: xs => by
    have := scanCost_le p xs
    rw [scanCost, List.length_cons]
    split <;> omega

theorem blockedCost_le (n : α) : ∀ m : Orderings α, blockedCost n m ≤ m.length + weight m
  | [] => Nat.zero_le _
  | e :: rest => by
    have h1 := blockedCost_le n rest
    have h2 := scanCost_le (fun i => decide (i = n)) e.2
    rw [blockedCost, List.length_cons, weight, List.map_cons, List.sum_cons]
    rw [weight] at h1
    split <;> omega

omit [DecidableEq α] in
theorem sum_map_le (f : α → Nat) (B : Nat) (h : ∀ x, f x ≤ B) : ∀ l : List α, (l.map f).sum ≤ l.length * B
  | [] => by simp
  | x :: xs => by
    have := sum_map_le f B h xs
    have := h x
    rw [List.map_cons, List.sum_cons, List.length_cons, Nat.add_mul, Nat.one_mul]
    omega

/-- C127: the loop of `Order`, from any state of the sorter: with `w` successors in `k` entries at most
`w (k + w + 2)` steps and one for every candidate it starts with. -/
theorem C127_tsort_order (B fuel : Nat) : ∀ (cs : List α) (m : Orderings α) (out : List α), m.length + weight m ≤ B →
    (orderRun fuel cs m out).2 ≤ cs.length + weight m * (B + 2) := by
  induction fuel with
  | zero => intro cs m out _; cases cs <;> simp [orderRun]
  | succ fuel ih =>
    intro cs m out hB
    cases cs with
    | nil => simp [orderRun]
    | cons c cs =>
      have hw := weight_delete m c
      have hl : (delete m c).length ≤ m.length := List.length_filter_le _ _
      have hf := List.length_filter_le (fun u => !isBlocked (delete m c) u) (get m c)
      have hs := sum_map_le (fun u => 1 + blockedCost u (delete m c)) (B + 1)
        (fun x => by have := blockedCost_le x (delete m c); omega) (get m c)
      have h := ih (cs ++ (get m c).filter (fun u => !isBlocked (delete m c) u)) (delete m c) (out ++ [c]) (by omega)
      rw [List.length_append] at h
      have hm : (weight (delete m c) + (get m c).length) * (B + 2) ≤ weight m * (B + 2) := Nat.mul_le_mul_right _ hw
      rw [Nat.add_mul] at hm
      have he : (get m c).length * (B + 2) = (get m c).length * (B + 1) + (get m c).length := by
        rw [show B + 2 = (B + 1) + 1 by omega, Nat.mul_add, Nat.mul_one]
      simp only [orderRun, List.length_cons]
      omega

/-! ## Adding -/

theorem weight_set (k : α) (v : List α) : ∀ m : Orderings α, weight (set m k v) + (get m k).length = weight m + v.length
  | [] => by simp [set, weight, get]
  | (k', v') :: rest => by
    have ih := weight_set k v rest
    rw [set, get_cons]
    by_cases h : k' = k
    · simp [h, weight]; omega
    · simp only [if_neg h, if_neg (Ne.symm h), weight, List.map_cons, List.sum_cons] at ih ⊢
      omega

omit [DecidableEq α] in
theorem length_set [DecidableEq α] (k : α) (v : List α) : ∀ m : Orderings α, (set m k v).length ≤ m.length + 1
  | [] => by simp [set]
  | (k', v') :: rest => by
    have ih := length_set k v rest
    rw [set]
    split
    · simp
    · simp only [List.length_cons]; omega

theorem get_le_weight (m : Orderings α) (k : α) : (get m k).length ≤ weight m := by
  have := weight_delete m k
  omega

theorem addPairs_cost (N : Nat) : ∀ (items : List α) (m : Orderings α), weight m + (items.length - 1) ≤ N →
    addPairsCost m items ≤ (items.length - 1) * (N + 1) ∧ weight (addPairs m items) ≤ weight m + (items.length - 1) ∧
      (addPairs m items).length ≤ m.length + (items.length - 1)
  | [], m, _ => by simp [addPairsCost, addPairs]
  | [_], m, _ => by simp [addPairsCost, addPairs]
  | a :: b :: rest, m, h => by
    simp only [List.length_cons, Nat.add_sub_cancel] at h
    have hg := get_le_weight m a
    have hc := scanCost_le (fun j => decide (b = j)) (get m a)
    have hw : weight (if !inSlice (get m a) b then set m a (get m a ++ [b]) else m) ≤ weight m + 1 ∧
        (if !inSlice (get m a) b then set m a (get m a ++ [b]) else m).length ≤ m.length + 1 := by
      split
      · have := weight_set a (get m a ++ [b]) m
        have := length_set a (get m a ++ [b]) m
        simp only [List.length_append, List.length_singleton] at *
        omega
      · omega
    have ih := addPairs_cost N (b :: rest) (if !inSlice (get m a) b then set m a (get m a ++ [b]) else m)
      (by simp only [List.length_cons, Nat.add_sub_cancel]; omega)
    simp only [List.length_cons, Nat.add_sub_cancel] at ih ⊢
    rw [addPairsCost, addPairs, Nat.add_mul, Nat.one_mul]
    omega

theorem add_cost (N : Nat) (items : List α) (m : Orderings α) (h : weight m + items.length ≤ N) :
    addCost m items ≤ 1 + items.length * (N + 1) ∧ weight (add m items) ≤ weight m + items.length ∧
      (add m items).length ≤ m.length + items.length := by
  match items, h with
  | [], h => simp [addCost, add]
  | [x], h =>
    have h1 := weight_set x [] m
    have h2 := length_set x [] m
    simp only [addCost, add, List.length_singleton, List.length_nil] at *
    omega
  | a :: b :: rest, h =>
    have := addPairs_cost N (a :: b :: rest) m (by omega)
    have hm : ((a :: b :: rest).length - 1) * (N + 1) ≤ (a :: b :: rest).length * (N + 1) := Nat.mul_le_mul_right _ (by omega)
    simp only [addCost, add]
    omega

/-- The number of words in a sequence of `Add` calls. -/
def words (hist : List (List α)) : Nat := (hist.map List.length).sum

theorem addAll_cost (N : Nat) : ∀ (hist : List (List α)) (m : Orderings α), weight m + words hist ≤ N →
    addAllCost m hist ≤ hist.length + words hist * (N + 1) ∧ weight (addAll m hist) ≤ weight m + words hist ∧
      (addAll m hist).length ≤ m.length + words hist
  | [], m, _ => by simp [addAllCost, addAll, words]
  | items :: hist, m, h => by
    rw [words, List.map_cons, List.sum_cons] at h
    have ha := add_cost N items m (by omega)
    have ih := addAll_cost N hist (add m items) (by rw [words]; omega)
    simp only [words] at ih
    simp only [words, List.map_cons, List.sum_cons, List.length_cons, addAllCost, addAll, List.foldl_cons] at ih ⊢
    rw [Nat.add_mul]
    omega

/-- The work of a sequence of `Add` calls followed by `Order`, which finds its heads in the order `hs`. -/
def sortSteps (hist : List (List α)) (hs : List α) : Nat :=
  addAllCost [] hist + headsCost (addAll [] hist) +
    (orderRun (hs.length + weight (addAll [] hist)) hs (addAll [] hist) []).2

/-- C127: sorting takes at most quadratic time: `c` calls of `Add` with `n` words in all and one `Order` take at most
`c + 3n² + 8n` steps, in whatever order the map is gone through. The loop of `Order` has come to its end by then. -/
theorem C127_tsort_bound (hist : List (List α)) (hs : List α) (hh : IsHeads (addAll [] hist) hs) :
    sortSteps hist hs ≤ hist.length + 3 * (words hist * words hist) + 8 * words hist ∧
    ∃ r, (orderRun (hs.length + weight (addAll [] hist)) hs (addAll [] hist) []).1 = some r := by
  obtain ⟨h1, h2, h3⟩ := addAll_cost (words hist) hist [] (by simp [weight])
  have hw0 : weight ([] : Orderings α) = 0 := rfl
  rw [hw0, Nat.zero_add] at h2
  rw [List.length_nil, Nat.zero_add] at h3
  have ho := C127_tsort_order (2 * words hist) (hs.length + weight (addAll [] hist)) hs (addAll [] hist) [] (by omega)
  have hl : hs.length = (heads (addAll [] hist)).length := hh.length_eq
  have hk : (heads (addAll [] hist)).length ≤ (addAll [] hist).length := by
    rw [heads]
    exact Nat.le_trans (List.length_filter_le _ _) (by simp [keys])
  have hm : weight (addAll [] hist) * (2 * words hist + 2) ≤ words hist * (2 * words hist + 2) := Nat.mul_le_mul_right _ h2
  have e1 : words hist * (2 * words hist + 2) = 2 * (words hist * words hist) + 2 * words hist := by
    rw [Nat.mul_add, Nat.mul_left_comm, Nat.mul_comm (words hist) 2]
  have e2 : words hist * (words hist + 1) = words hist * words hist + words hist := by rw [Nat.mul_add, Nat.mul_one]
  refine ⟨?_, ?_⟩
  · simp only [sortSteps, headsCost]
    change addAllCost [] hist + ((addAll [] hist).length + ((addAll [] hist).length + weight (addAll [] hist)) + _) + _ ≤ _
    omega
  · obtain ⟨r, hr⟩ := orderLoop_total (hs.length + weight (addAll [] hist)) hs (addAll [] hist) [] (Nat.le_refl _)
    exact ⟨r, by rw [C127_tsort_result, hr]⟩

end

/-! ## Inputs for which the work is quadratic -/

/-- One item before `n` others. -/
def star (n : Nat) : List (List Nat) := (List.range n).map fun i => [0, i + 1]

theorem scanCost_none (b : Nat) : ∀ l : List Nat, b ∉ l → scanCost (fun j => b = j) l = l.length
  | [], _ => rfl
  | x :: xs, h => by
    rw [scanCost, if_neg (by simp at h ⊢; exact h.1), scanCost_none b xs (by simp at h; exact h.2), List.length_cons]
    omega

theorem addAllCost_append (m : Orderings Nat) : ∀ (h1 h2 : List (List Nat)),
    addAllCost m (h1 ++ h2) = addAllCost m h1 + addAllCost (addAll m h1) h2
  | [], h2 => by simp [addAllCost, addAll]
  | x :: h1, h2 => by
    rw [List.cons_append, addAllCost, addAllCost, addAllCost_append _ h1 h2, addAll, addAll, List.foldl_cons]
    omega

theorem star_state : ∀ n, addAll [] (star (n + 1)) = [(0, (List.range (n + 1)).map (· + 1))]
  | 0 => by decide
  | n + 1 => by
    have ih := star_state n
    rw [star, List.range_succ, List.map_append, addAll, List.foldl_append]
    rw [star, addAll] at ih
    rw [ih]
    have hb : inSlice ((List.range (n + 1)).map (· + 1)) (n + 1 + 1) = false := by
      rw [Bool.eq_false_iff]
      intro h
      rw [inSlice_iff] at h
      simp at h
    have hg : get [(0, (List.range (n + 1)).map (· + 1))] 0 = (List.range (n + 1)).map (· + 1) := by simp [get]
    simp only [List.map_cons, List.map_nil, List.foldl_cons, List.foldl_nil, add, addPairs, hg, hb, Bool.not_false, if_true]
    simp [set]

/-- C127: the bound is tight: one item given before each of `n` others, `2n` words in all, takes at least `n (n - 1) / 2` steps. -/
theorem C127_tsort_quadratic : ∀ n, words (star n) = 2 * n ∧ n * (n - 1) ≤ 2 * addAllCost [] (star n)
  | 0 => by decide
  | 1 => by decide
  | n + 2 => by
    obtain ⟨h1, h2⟩ := C127_tsort_quadratic (n + 1)
    have hs : star (n + 2) = star (n + 1) ++ [[0, n + 2]] := by
      rw [star, List.range_succ, List.map_append]; rfl
    have hg : get [(0, (List.range (n + 1)).map (· + 1))] 0 = (List.range (n + 1)).map (· + 1) := by simp [get]
    have hnot : n + 2 ∉ (List.range (n + 1)).map (· + 1) := by simp
    constructor
    · rw [hs, words, List.map_append, List.sum_append]
      rw [words] at h1
      rw [h1]
      simp; omega
    · rw [hs, addAllCost_append, star_state]
      simp only [addAllCost, addCost, addPairsCost, hg, scanCost_none _ _ hnot, List.length_map, List.length_range]
      have e : (n + 2) * (n + 2 - 1) = (n + 1) * (n + 1 - 1) + 2 * (n + 1) := by
        simp only [Nat.add_sub_cancel, show n + 2 - 1 = n + 1 by omega]
        rw [show n + 2 = n + 1 + 1 by omega, Nat.add_mul, Nat.one_mul, Nat.mul_add, Nat.mul_one]
        omega
      omega

/-- Sorting `a b`, `b c`, `d d`, the map gone through backwards. -/
example : sortSteps [[1, 2], [2, 3], [4]] [4, 1] ≤ 3 + 3 * 25 + 40 :=
  (C127_tsort_bound [[1, 2], [2, 3], [4]] [4, 1] (by unfold IsHeads; decide)).1

end TSort
