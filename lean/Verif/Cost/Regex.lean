import Verif.Regex.Props

/-!
# How much work matching is (C127)

`Matches` (pkg/regexes/bre_evaluate.go) with a count of its work: one step for every call of `elementsMatch` and one for every
character compared with an element. (A comparison with a bracket expression counts once, however many characters are in
it.) The instrumented functions compute the results of the model; the count is bounded for all patterns and texts, by a
polynomial whose degree is the number of elements with a variable repetition. It is not bounded by a polynomial in the
length of the pattern and the text: there are patterns that take exponential time.
-/

namespace Regex
open Go

/-! ## The functions with a count -/

/-- bre_evaluate.go:44-51: how many characters the counting loop compares. -/
def countCost (e : Elem) (i matched : Nat) : List Nat → Nat
  | [] => 0
  | r :: rs =>
    if i < e.count.max then
      if e.atom.matches r then 1 + countCost e (i + 1) (matched + 1) rs
      else if matched < e.count.min then 1
      else 1 + countCost e (i + 1) matched rs
    else 0

/-- bre_evaluate.go:54-60: the backtracking loop; `f` gives the result of the other elements and its cost. -/
def backtrackRun (f : List Nat → (Bool × Nat) × Nat) (min : Nat) (rs : List Nat) : Nat → (Bool × Nat) × Nat
  | 0 => if min = 0 then (if (f rs).1.1 then (true, (f rs).1.2) else (false, 0), (f rs).2) else ((false, 0), 0)
  | i + 1 =>
    if i + 1 < min then ((false, 0), 0)
    else if (f (rs.drop (i + 1))).1.1 then ((true, (f (rs.drop (i + 1))).1.2 + (i + 1)), (f (rs.drop (i + 1))).2)
    else ((backtrackRun f min rs i).1, (f (rs.drop (i + 1))).2 + (backtrackRun f min rs i).2)

/-- bre_evaluate.go:33-61 `elementsMatch`: its result and its cost. -/
def elementsRun : List Elem → List Nat → (Bool × Nat) × Nat
  | [], rs => ((true, rs.length), 1)
  | e :: es, rs =>
    match countLoop e 0 0 rs with
    | none => ((false, 0), 1 + countCost e 0 0 rs)
    | some matched =>
      ((backtrackRun (elementsRun es) e.count.min rs matched).1,
        1 + countCost e 0 0 rs + (backtrackRun (elementsRun es) e.count.min rs matched).2)

/-- bre_evaluate.go:18-27: the loop over start positions. -/
def searchRun (b : Bre) : List Nat → Bool × Nat
  | [] => (false, 0)
  | r :: rs =>
    if (elementsRun b.elements (r :: rs)).1.1 = true ∧ ¬ (b.anchorRight = true ∧ (elementsRun b.elements (r :: rs)).1.2 ≠ (r :: rs).length)
    then (true, (elementsRun b.elements (r :: rs)).2)
    else ((searchRun b rs).1, (elementsRun b.elements (r :: rs)).2 + (searchRun b rs).2)

/-- bre_evaluate.go:4-30 `Matches`: its result and its cost. -/
def Bre.run (b : Bre) (input : Bytes) : Bool × Nat :=
  if b.anchorLeft = true ∨ input.length = 0 then
    (if (elementsRun b.elements (runes input)).1.1 = false then false
      else if b.anchorRight then decide ((elementsRun b.elements (runes input)).1.2 = (runes input).length) else true,
     (elementsRun b.elements (runes input)).2)
  else searchRun b (runes input)

/-- The work of `Matches`. -/
def Bre.steps (b : Bre) (input : Bytes) : Nat := (b.run input).2

/-! ## The count does not change the result -/

theorem backtrackRun_fst (f : List Nat → (Bool × Nat) × Nat) (g : List Nat → Bool × Nat) (h : ∀ rs, (f rs).1 = g rs)
    (min : Nat) (rs : List Nat) : ∀ i, (backtrackRun f min rs i).1 = backtrack g min rs i
  | 0 => by
    simp only [backtrackRun, backtrack, h]
    by_cases h0 : min = 0 <;> simp [h0]
  | i + 1 => by
    simp only [backtrackRun, backtrack, h, ← backtrackRun_fst f g h min rs i]
    by_cases h1 : i + 1 < min
    · simp [h1]
    · by_cases h2 : (g (rs.drop (i + 1))).1 = true <;> simp [h1, h2]

theorem elementsRun_fst : ∀ (es : List Elem) (rs : List Nat), (elementsRun es rs).1 = elementsMatch es rs
  | [], rs => rfl
  | e :: es, rs => by
    simp only [elementsRun, elementsMatch]
    cases countLoop e 0 0 rs with
    | none => rfl
    | some m => exact backtrackRun_fst _ _ (elementsRun_fst es) _ _ _

theorem searchRun_fst (b : Bre) : ∀ rs, (searchRun b rs).1 = searchLoop b rs
  | [] => rfl
  | r :: rs => by
    simp only [searchRun, searchLoop, elementsRun_fst, ← searchRun_fst b rs]
    by_cases h : (elementsMatch b.elements (r :: rs)).1 = true ∧ ¬ (b.anchorRight = true ∧ (elementsMatch b.elements (r :: rs)).2 ≠ (r :: rs).length)
    · rw [if_pos h, if_pos h]
    · rw [if_neg h, if_neg h]

/-- C127: counting does not change what is computed. -/
theorem C127_regex_result (b : Bre) (s : Bytes) : (b.run s).1 = b.matches s := by
  simp only [Bre.run, Bre.matches, elementsRun_fst]
  by_cases h : b.anchorLeft = true ∨ s.length = 0
  · rw [if_pos h, if_pos h]
  · rw [if_neg h, if_neg h]; exact searchRun_fst b _

/-! ## The bound -/

/-- The number of elements with a variable repetition. -/
def variable_ (es : List Elem) : Nat := (es.filter (fun e => e.count.min ≠ e.count.max)).length

theorem countCost_le (e : Elem) : ∀ (rs : List Nat) (i m : Nat), countCost e i m rs ≤ rs.length
  | [], _, _ => by simp [countCost]
  | r :: rs, i, m => by
    have h1 := countCost_le e rs (i + 1) (m + 1)
    have h2 := countCost_le e rs (i + 1) m
    simp only [countCost, List.length_cons]
    split
    · split
      · omega
      · split <;> omega
    · omega

theorem countLoop_le (e : Elem) : ∀ (rs : List Nat) (i m k : Nat), countLoop e i m rs = some k → k ≤ m + rs.length
  | [], _, _, _, h => by simp only [countLoop, Option.some.injEq] at h; simp; omega
  | r :: rs, i, m, k, h => by
    simp only [countLoop] at h
    simp only [List.length_cons]
    split at h
    · split at h
      · have := countLoop_le e rs _ _ _ h; omega
      · split at h
        · cases h
        · have := countLoop_le e rs _ _ _ h; omega
    · cases h; omega

theorem countLoop_le_max (e : Elem) : ∀ (rs : List Nat) (i m k : Nat), m ≤ i → countLoop e i m rs = some k → k ≤ max m e.count.max
  | [], _, _, _, _, h => by simp only [countLoop, Option.some.injEq] at h; omega
  | r :: rs, i, m, k, hm, h => by
    simp only [countLoop] at h
    split at h
    · split at h
      · have := countLoop_le_max e rs _ _ _ (by omega) h; omega
      · split at h
        · cases h
        · have := countLoop_le_max e rs _ _ _ (by omega) h; omega
    · cases h; omega

/-- The loop tries at most the lengths from the minimum to the number of characters counted. -/
theorem backtrackRun_le (f : List Nat → (Bool × Nat) × Nat) (B min : Nat) (rs : List Nat) (h : ∀ i, (f (rs.drop i)).2 ≤ B) :
    ∀ i, (backtrackRun f min rs i).2 ≤ (i + 1 - min) * B
  | 0 => by
    simp only [backtrackRun]
    split
    · next h0 => subst h0; simpa using h 0
    · simp
  | i + 1 => by
    simp only [backtrackRun]
    split
    · simp
    · next h1 =>
      have hd := h (i + 1)
      have ih := backtrackRun_le f B min rs h i
      have e : (i + 1 + 1 - min) * B = (i + 1 - min) * B + B := by
        rw [show i + 1 + 1 - min = (i + 1 - min) + 1 by omega, Nat.add_mul, Nat.one_mul]
      rw [e]
      split
      · exact Nat.le_trans hd (Nat.le_add_left _ _)
      · simp only; omega

theorem elementsRun_le : ∀ (es : List Elem) (rs : List Nat) (n : Nat), rs.length ≤ n →
    (elementsRun es rs).2 ≤ (es.length + 1) * (n + 2) ^ (variable_ es + 1)
  | [], rs, n, _ => by simp [elementsRun, variable_]
  | e :: es, rs, n, hn => by
    have hc := countCost_le e rs 0 0
    have hpow : ∀ k, 1 ≤ (n + 2) ^ k := fun k => Nat.one_le_pow _ _ (by omega)
    have hB : ∀ i, (elementsRun es (rs.drop i)).2 ≤ (es.length + 1) * (n + 2) ^ (variable_ es + 1) := fun i =>
      elementsRun_le es _ n (by simp; omega)
    have hfirst : n + 2 ≤ (n + 2) ^ (variable_ (e :: es) + 1) := by
      rw [Nat.pow_succ]; exact Nat.le_mul_of_pos_left _ (hpow _)
    have hgrow : (List.length (e :: es) + 1) * (n + 2) ^ (variable_ (e :: es) + 1) =
        (es.length + 1) * (n + 2) ^ (variable_ (e :: es) + 1) + (n + 2) ^ (variable_ (e :: es) + 1) := by
      rw [List.length_cons, Nat.add_mul (es.length + 1) 1, Nat.one_mul]
    simp only [elementsRun]
    cases hl : countLoop e 0 0 rs with
    | none => simp only; omega
    | some m =>
      simp only
      have hm := countLoop_le e rs 0 0 m hl
      have hx := countLoop_le_max e rs 0 0 m (Nat.le_refl _) hl
      have hb := backtrackRun_le (elementsRun es) _ e.count.min rs hB m
      by_cases hv : e.count.min = e.count.max
      · have ev : variable_ (e :: es) = variable_ es := by simp [variable_, hv]
        rw [ev] at hfirst hgrow ⊢
        have : (m + 1 - e.count.min) * ((es.length + 1) * (n + 2) ^ (variable_ es + 1)) ≤ 1 * ((es.length + 1) * (n + 2) ^ (variable_ es + 1)) :=
          Nat.mul_le_mul_right _ (by omega)
        rw [Nat.one_mul] at this
        omega
      · have ev : variable_ (e :: es) = variable_ es + 1 := by simp [variable_, hv]
        rw [ev] at hfirst hgrow ⊢
        have h1 : (m + 1 - e.count.min) * ((es.length + 1) * (n + 2) ^ (variable_ es + 1)) ≤ (n + 1) * ((es.length + 1) * (n + 2) ^ (variable_ es + 1)) :=
          Nat.mul_le_mul_right _ (by omega)
        have h2 : (es.length + 1) * (n + 2) ^ (variable_ es + 1 + 1) = (n + 1) * ((es.length + 1) * (n + 2) ^ (variable_ es + 1)) + (es.length + 1) * (n + 2) ^ (variable_ es + 1) := by
          rw [Nat.pow_succ (n + 2) (variable_ es + 1)]
          generalize (n + 2) ^ (variable_ es + 1) = P
          rw [Nat.mul_comm P, Nat.mul_left_comm, show n + 2 = (n + 1) + 1 by omega, Nat.add_mul, Nat.one_mul]
        omega

theorem searchRun_le (b : Bre) (n : Nat) : ∀ rs : List Nat, rs.length ≤ n →
    (searchRun b rs).2 ≤ rs.length * ((b.elements.length + 1) * (n + 2) ^ (variable_ b.elements + 1))
  | [], _ => by simp [searchRun]
  | r :: rs, h => by
    have h1 := elementsRun_le b.elements (r :: rs) n h
    have h2 := searchRun_le b n rs (by simp at h; omega)
    simp only [searchRun, List.length_cons, Nat.add_mul, Nat.one_mul]
    simp only [Nat.add_mul, Nat.one_mul] at h1 h2
    split
    · simp only; omega
    · simp only; omega

/-- C127: the work of matching is bounded, for every expression and every text: with `k` elements, `v` of them with a variable
repetition, on a text of `n` characters it is at most `(k + 1) (n + 2)^(v + 2)` steps. In particular an expression without
repetitions takes at most quadratic time, and a fixed expression polynomial time. -/
theorem C127_regex_bound_partial (b : Bre) (s : Bytes) :
    b.steps s ≤ (b.elements.length + 1) * ((runes s).length + 2) ^ (variable_ b.elements + 2) := by
  have key : ∀ m, m ≤ (runes s).length + 2 → ∀ x, x ≤ m * ((b.elements.length + 1) * ((runes s).length + 2) ^ (variable_ b.elements + 1)) →
      x ≤ (b.elements.length + 1) * ((runes s).length + 2) ^ (variable_ b.elements + 2) := by
    intro m hm x hx
    refine Nat.le_trans hx (Nat.le_trans (Nat.mul_le_mul_right _ hm) ?_)
    rw [Nat.pow_succ ((runes s).length + 2) (variable_ b.elements + 1), Nat.mul_comm (_ ^ _) ((runes s).length + 2), Nat.mul_left_comm]
    exact Nat.le_refl _
  simp only [Bre.steps, Bre.run]
  split
  · refine key 1 (by omega) _ ?_
    rw [Nat.one_mul]
    exact elementsRun_le _ _ _ (Nat.le_refl _)
  · exact key (runes s).length (by omega) _ (searchRun_le b _ _ (Nat.le_refl _))

/-! ## Exponential time -/

/-- `a*` -/
def aStar : Elem := ⟨.plain 97, ⟨0, maxInt⟩⟩
/-- `b` -/
def oneB : Elem := ⟨.plain 98, ⟨1, 1⟩⟩
/-- `a*a*...a*b` -/
def slow (k : Nat) : List Elem := List.replicate k aStar ++ [oneB]

theorem countLoop_as : ∀ (n i m : Nat), i + n ≤ maxInt → countLoop aStar i m (List.replicate n 97) = some (m + n)
  | 0, _, _, _ => by simp [countLoop]
  | n + 1, i, m, h => by
    rw [List.replicate_succ, countLoop, if_pos (by show i < maxInt; omega), if_pos (by decide +kernel),
      countLoop_as n _ _ (by omega)]
    congr 1; omega

/-- The pattern does not match a text of `a` only. -/
theorem slow_fails : ∀ (k n : Nat), n ≤ maxInt → (elementsRun (slow k) (List.replicate n 97)).1.1 = false
  | 0, 0, _ => by decide +kernel
  | 0, n + 1, _ => by
    simp only [slow, List.replicate_zero, List.nil_append, elementsRun, List.replicate_succ, countLoop]
    rw [if_pos (by decide), if_neg (by decide), if_pos (by decide)]
  | k + 1, n, h => by
    have hs : slow (k + 1) = aStar :: slow k := by simp [slow, List.replicate_succ]
    have hb : ∀ i, i ≤ n → (backtrackRun (elementsRun (slow k)) aStar.count.min (List.replicate n 97) i).1.1 = false := by
      intro i
      induction i with
      | zero =>
        intro _
        simp only [backtrackRun, slow_fails k n h]
        simp [aStar]
      | succ i ih =>
        intro hi
        simp only [backtrackRun, List.drop_replicate, slow_fails k (n - (i + 1)) (by omega), Bool.false_eq_true, if_false]
        rw [if_neg (by simp [aStar])]
        exact ih (by omega)
    rw [hs]
    simp only [elementsRun, countLoop_as n 0 0 (by omega)]
    exact hb _ (by omega)

/-- The cost of the loop: all lengths are tried. -/
theorem slow_loop (k n : Nat) (h : n ≤ maxInt) : ∀ i, i ≤ n →
    (backtrackRun (elementsRun (slow k)) 0 (List.replicate n 97) i).2 =
      ((List.range (i + 1)).map fun j => (elementsRun (slow k) (List.replicate (n - j) 97)).2).sum
  | 0, _ => by simp [backtrackRun]
  | i + 1, hi => by
    have f := slow_fails k (n - (i + 1)) (by omega)
    have ih := slow_loop k n h i (by omega)
    rw [List.range_succ, List.map_append, List.sum_append, ← ih]
    simp only [backtrackRun, List.drop_replicate, f, Bool.false_eq_true, if_false]
    rw [if_neg (by omega)]
    simp [Nat.add_comm]

theorem slow_step (k n : Nat) (h : n ≤ maxInt) :
    (elementsRun (slow (k + 1)) (List.replicate n 97)).2 =
      1 + countCost aStar 0 0 (List.replicate n 97) +
        ((List.range (n + 1)).map fun j => (elementsRun (slow k) (List.replicate (n - j) 97)).2).sum := by
  have hs : slow (k + 1) = aStar :: slow k := by simp [slow, List.replicate_succ]
  rw [hs]
  simp only [elementsRun, countLoop_as n 0 0 (by omega), Nat.zero_add]
  rw [← slow_loop k n h n (Nat.le_refl _)]
  rfl

theorem sum_range_succ' (f : Nat → Nat) (n : Nat) : ((List.range (n + 1)).map f).sum = f 0 + ((List.range n).map fun j => f (j + 1)).sum := by
  rw [List.range_succ_eq_map, List.map_cons, List.sum_cons, List.map_map]; rfl

theorem slow_one (k n : Nat) (h : n ≤ maxInt) : 1 ≤ (elementsRun (slow k) (List.replicate n 97)).2 := by
  cases hk : slow k with
  | nil => simp [slow] at hk
  | cons e es =>
    simp only [elementsRun]
    cases countLoop e 0 0 (List.replicate n 97) <;> simp only <;> omega

theorem countCost_as : ∀ (n i m : Nat), i + n ≤ maxInt → countCost aStar i m (List.replicate n 97) = n
  | 0, _, _, _ => by simp [countCost]
  | n + 1, i, m, h => by
    rw [List.replicate_succ, countCost, if_pos (by show i < maxInt; omega), if_pos (by decide +kernel), countCost_as n _ _ (by omega)]
    omega

/-- The recurrence of the binomial coefficients. -/
theorem slow_rec (k n : Nat) (h : n + 1 ≤ maxInt) :
    (elementsRun (slow (k + 1)) (List.replicate n 97)).2 + (elementsRun (slow k) (List.replicate (n + 1) 97)).2 ≤
      (elementsRun (slow (k + 1)) (List.replicate (n + 1) 97)).2 := by
  rw [slow_step k n (by omega), slow_step k (n + 1) h, sum_range_succ' _ (n + 1), countCost_as _ _ _ (by omega), countCost_as _ _ _ (by omega)]
  simp only [Nat.sub_zero, Nat.add_sub_add_right]
  omega

theorem slow_ge : ∀ (k n : Nat), n ≤ maxInt → 2 ^ min k n ≤ (elementsRun (slow k) (List.replicate n 97)).2
  | 0, n, h => by simpa using slow_one 0 n h
  | k + 1, 0, h => by simpa using slow_one (k + 1) 0 h
  | k + 1, n + 1, h => by
    have h1 := slow_ge (k + 1) n (by omega)
    have h2 := slow_ge k (n + 1) h
    have hr := slow_rec k n h
    have e : 2 ^ min (k + 1) (n + 1) = 2 ^ min k n + 2 ^ min k n := by
      rw [Nat.succ_min_succ, Nat.pow_succ]; omega
    have a1 : 2 ^ min k n ≤ 2 ^ min (k + 1) n := Nat.pow_le_pow_right (by omega) (by omega)
    have a2 : 2 ^ min k n ≤ 2 ^ min k (n + 1) := Nat.pow_le_pow_right (by omega) (by omega)
    omega

/-- The text of the slow pattern. -/
def slowText (k : Nat) : Bytes := (List.replicate k [97, 42]).flatten ++ [98]

theorem parse_slow : ∀ k, parseElems ((List.replicate k [97, 42]).flatten ++ [98]) = .ok (slow k)
  | 0 => by
    simp only [List.replicate_zero, List.flatten_nil, List.nil_append]
    rw [parseElems]
    simp [parseAtom, parseCount, parseElems, slow, oneB]
  | k + 1 => by
    have ih := parse_slow k
    rw [List.replicate_succ, List.flatten_cons]
    show parseElems (97 :: 42 :: ((List.replicate k [97, 42]).flatten ++ [98])) = _
    rw [parseElems]
    simp [parseAtom, parseCount, ih, slow, aStar, List.replicate_succ]

theorem runes_ascii : ∀ s : Bytes, (∀ b ∈ s, b < 0x80) → runes s = s.map UInt8.toNat
  | [], _ => rfl
  | b :: s, h => by
    have ih := runes_ascii s (fun x hx => h x (by simp [hx]))
    rw [runes] at ih ⊢
    rw [chunks_cons_ascii b s (h b (by simp)), List.map_cons, List.map_cons, ih]

theorem runes_slowText (k : Nat) : runes (slowText k) = (List.replicate k [97, 42]).flatten ++ [98] := by
  rw [runes_ascii]
  · simp only [slowText, List.map_append, List.map_flatten, List.map_replicate]
    rfl
  · intro b hb
    simp only [slowText, List.mem_append, List.mem_flatten, List.mem_replicate] at hb
    rcases hb with ⟨l, ⟨_, rfl⟩, hb⟩ | hb
    · revert b; decide
    · revert b; decide

theorem parseBre_slow (k : Nat) : parseBre (slowText k) = .ok { elements := slow k } := by
  have hl : ((List.replicate k [97, 42]).flatten ++ [98]).getLast? = some 98 := by simp
  have key : parseRight false ((List.replicate k [97, 42]).flatten ++ [98]) = .ok { elements := slow k } := by
    rw [parseRight, if_neg (by simp)]
    simp [hl, parse_slow]
  rw [parseBre, runes_slowText]
  cases k with
  | zero => simpa using key
  | succ k =>
    rw [List.replicate_succ, List.flatten_cons] at key ⊢
    simpa using key

/-- C127 fails for expressions: `a*a*...a*b`, with `k` times `a*`, takes at least `2^k` steps on a text of `k` times `a`. -/
theorem C127_regex_exponential (k : Nat) (hk : k < 2 ^ 63) :
    (slowText k).length = 2 * k + 1 ∧ ∃ b, parseBre (slowText k) = .ok b ∧ b.matches (List.replicate k 97) = false ∧
      2 ^ k ≤ b.steps (List.replicate k 97) := by
  have hm : k ≤ maxInt := by rw [maxInt]; omega
  have hr : runes (List.replicate k 97) = List.replicate k 97 := by
    rw [runes_ascii _ (by intro b hb; rw [List.eq_of_mem_replicate hb]; decide), List.map_replicate]; rfl
  have hge := slow_ge k k hm
  rw [Nat.min_self] at hge
  refine ⟨by simp [slowText, Nat.mul_comm], _, parseBre_slow k, ?_, ?_⟩
  · rw [← C127_regex_result]
    have hs : ∀ j, j ≤ maxInt → (searchRun { elements := slow k } (List.replicate j 97)).1 = false := by
      intro j
      induction j with
      | zero => intro _; rfl
      | succ j ih =>
        intro hj
        have f := slow_fails k (j + 1) hj
        rw [List.replicate_succ] at f ⊢
        rw [searchRun]
        simp only [f, Bool.false_eq_true, false_and, if_false]
        exact ih (by omega)
    simp only [Bre.run, hr, slow_fails k k hm, if_true]
    split
    · rfl
    · exact hs k hm
  · simp only [Bre.steps, Bre.run, hr]
    split
    · exact hge
    · next h =>
      cases k with
      | zero => simp at h
      | succ j =>
        have f := slow_fails (j + 1) (j + 1) hm
        rw [List.replicate_succ] at f hge ⊢
        rw [searchRun]
        simp only [f, Bool.false_eq_true, false_and, if_false]
        omega

/-- Sixty characters of pattern and thirty of text are enough for 2^30 steps. -/
example : (slowText 30).length = 61 ∧ ∃ b, parseBre (slowText 30) = .ok b ∧ 2 ^ 30 ≤ b.steps (List.replicate 30 97) := by
  obtain ⟨h1, b, h2, _, h3⟩ := C127_regex_exponential 30 (by decide)
  exact ⟨h1, b, h2, h3⟩

/-- An expression without repetitions: quadratic. -/
example : ∃ b, parseBre b!"abc" = .ok b ∧ variable_ b.elements = 0 ∧ b.elements.length = 3 ∧ b.steps b!"xabxabc" = 19 := by
  refine ⟨{ elements := [⟨.plain 97, ⟨1, 1⟩⟩, ⟨.plain 98, ⟨1, 1⟩⟩, ⟨.plain 99, ⟨1, 1⟩⟩] }, ?_, ?_⟩
  · have : runes b!"abc" = [97, 98, 99] := by decide +kernel
    rw [parseBre, this]
    simp [parseRight, parseElems, parseAtom, parseCount]
  · decide +kernel

end Regex
