import Verif.Diff.Spec

/-! # Helper lemmas for diff -/

namespace Diff
open Go

section
variable {α : Type} [DecidableEq α]

theorem buildIndices_mem (ks : List α) : ∀ (i : Nat) (m : α → List Nat) (x : α) (j : Nat),
    j ∈ buildIndices i m ks x ↔ j ∈ m x ∨ (i ≤ j ∧ ks[j - i]? = some x) := by
  induction ks with
  | nil => intro i m x j; simp [buildIndices]
  | cons k ks ih =>
    intro i m x j
    simp only [buildIndices, ih]
    by_cases hxk : x = k
    · subst hxk
      simp only [if_true, List.mem_append, List.mem_singleton]
      constructor
      · rintro ((h | h) | ⟨h1, h2⟩)
        · exact .inl h
        · subst h; right; simp
        · right
          refine ⟨by omega, ?_⟩
          have : j - i = (j - (i + 1)) + 1 := by omega
          rw [this]; simpa using h2
      · rintro (h | ⟨h1, h2⟩)
        · exact .inl (.inl h)
        · by_cases hj : j = i
          · exact .inl (.inr hj)
          · right
            have : j - i = (j - (i + 1)) + 1 := by omega
            rw [this] at h2
            exact ⟨by omega, by simpa using h2⟩
    · simp only [if_neg hxk]
      constructor
      · rintro (h | ⟨h1, h2⟩)
        · exact .inl h
        · right
          refine ⟨by omega, ?_⟩
          have : j - i = (j - (i + 1)) + 1 := by omega
          rw [this]; simpa using h2
      · rintro (h | ⟨h1, h2⟩)
        · exact .inl h
        · right
          by_cases hj : j = i
          · subst hj
            simp at h2
            exact absurd h2.symm hxk
          · have : j - i = (j - (i + 1)) + 1 := by omega
            rw [this] at h2
            exact ⟨by omega, by simpa using h2⟩

/-- Length of the longest common run ending at positions `i`, `j`. -/
def suf (old new : List α) : Nat → Nat → Nat
  | 0, j => if 0 < old.length ∧ old[0]? = new[j]? then 1 else 0
  | i + 1, 0 => if i + 1 < old.length ∧ old[i + 1]? = new[0]? then 1 else 0
  | i + 1, j + 1 =>
    if i + 1 < old.length ∧ old[i + 1]? = new[j + 1]? then suf old new i j + 1 else 0

/-- `suf` is positive exactly when the lines match. -/
theorem suf_pos_iff (old new : List α) (i j : Nat) :
    0 < suf old new i j ↔ i < old.length ∧ old[i]? = new[j]? := by
  cases i with
  | zero => simp only [suf]; split <;> simp only [*] <;> simp
  | succ i => cases j with
    | zero => simp only [suf]; split <;> simp only [*] <;> simp
    | succ j => simp only [suf]; split <;> simp only [*] <;> simp

theorem le_suf_iff (old new : List α) : ∀ (i j n : Nat), n ≤ suf old new i j ↔
    n ≤ i + 1 ∧ n ≤ j + 1 ∧ ∀ k, k < n → i - k < old.length ∧ old[i - k]? = new[j - k]? := by
  intro i
  induction i with
  | zero =>
    intro j n
    simp only [suf]
    split
    · next h =>
      constructor
      · intro hn
        refine ⟨hn, by omega, ?_⟩
        intro k hk
        have : k = 0 := by omega
        subst this; simpa using h
      · exact fun h => h.1
    · next h =>
      constructor
      · intro hn
        have : n = 0 := by omega
        subst this
        exact ⟨by omega, by omega, fun k hk => by omega⟩
      · rintro ⟨h1, h2, h3⟩
        apply Classical.byContradiction
        intro hn
        exact h (by simpa using h3 0 (by omega))
  | succ i ih =>
    intro j n
    cases j with
    | zero =>
      simp only [suf]
      split
      · next h =>
        constructor
        · intro hn
          refine ⟨by omega, by omega, ?_⟩
          intro k hk
          have : k = 0 := by omega
          subst this; simpa using h
        · exact fun h => by omega
      · next h =>
        constructor
        · intro hn
          have : n = 0 := by omega
          subst this
          exact ⟨by omega, by omega, fun k hk => by omega⟩
        · rintro ⟨h1, h2, h3⟩
          apply Classical.byContradiction
          intro hn
          exact h (by simpa using h3 0 (by omega))
    | succ j =>
      simp only [suf]
      split
      · next h =>
        constructor
        · intro hn
          cases n with
          | zero => exact ⟨by omega, by omega, fun k hk => by omega⟩
          | succ n =>
            obtain ⟨h1, h2, h3⟩ := (ih j n).1 (by omega)
            refine ⟨by omega, by omega, ?_⟩
            intro k hk
            cases k with
            | zero => simpa using h
            | succ k =>
              have e1 : i + 1 - (k + 1) = i - k := by omega
              have e2 : j + 1 - (k + 1) = j - k := by omega
              rw [e1, e2]
              exact h3 k (by omega)
        · rintro ⟨h1, h2, h3⟩
          cases n with
          | zero => omega
          | succ n =>
            have := (ih j n).2 ⟨by omega, by omega, fun k hk => by
              have := h3 (k + 1) (by omega)
              have e1 : i + 1 - (k + 1) = i - k := by omega
              have e2 : j + 1 - (k + 1) = j - k := by omega
              rwa [e1, e2] at this⟩
            omega
      · next h =>
        constructor
        · intro hn
          have : n = 0 := by omega
          subst this
          exact ⟨by omega, by omega, fun k hk => by omega⟩
        · rintro ⟨h1, h2, h3⟩
          apply Classical.byContradiction
          intro hn
          exact h (by simpa using h3 0 (by omega))

omit [DecidableEq α] in
theorem commonRun_iff (old new : List α) (a b n : Nat) : CommonRun old new a b n ↔
    a + n ≤ old.length ∧ b + n ≤ new.length ∧ ∀ k, k < n → old[a + k]? = new[b + k]? := by
  unfold CommonRun
  constructor
  · rintro ⟨h1, h2, h3⟩
    refine ⟨h1, h2, fun k hk => ?_⟩
    have := congrArg (fun l => l[k]?) h3
    simpa [List.getElem?_take, hk] using this
  · rintro ⟨h1, h2, h3⟩
    refine ⟨h1, h2, ?_⟩
    apply List.ext_getElem?
    intro k
    by_cases hk : k < n
    · simpa [List.getElem?_take, hk] using h3 k hk
    · simp [List.getElem?_take, hk]

/-- A common run is visible in `suf` at its last position. -/
theorem suf_of_commonRun {old new : List α} {a b n : Nat} (h : CommonRun old new a b n)
    (hn : 0 < n) : n ≤ suf old new (a + n - 1) (b + n - 1) := by
  rw [commonRun_iff] at h
  obtain ⟨h1, h2, h3⟩ := h
  rw [le_suf_iff]
  refine ⟨by omega, by omega, fun k hk => ⟨by omega, ?_⟩⟩
  have := h3 (n - 1 - k) (by omega)
  have e1 : a + n - 1 - k = a + (n - 1 - k) := by omega
  have e2 : b + n - 1 - k = b + (n - 1 - k) := by omega
  rw [e1, e2]
  exact this

/-- `suf` describes a common run. -/
theorem commonRun_of_suf (old new : List α) (i j : Nat) :
    let n := suf old new i j
    n ≤ i + 1 ∧ n ≤ j + 1 ∧ (0 < n → CommonRun old new (i + 1 - n) (j + 1 - n) n) := by
  intro n
  have h := (le_suf_iff old new i j n).1 (Nat.le_refl _)
  refine ⟨h.1, h.2.1, fun hn => ?_⟩
  rw [commonRun_iff]
  have h0 := h.2.2 0 hn
  have hj : j < new.length := by
    have h1 := h0.2
    simp only [Nat.sub_zero] at h1 h0
    rw [List.getElem?_eq_getElem h0.1] at h1
    exact (List.getElem?_eq_some_iff.1 h1.symm).1
  refine ⟨by omega, by omega, fun k hk => ?_⟩
  have := (h.2.2 (n - 1 - k) (by omega)).2
  have e1 : i - (n - 1 - k) = i + 1 - n + k := by omega
  have e2 : j - (n - 1 - k) = j + 1 - n + k := by omega
  rwa [e1, e2] at this

/-- The selected run is a real one (or none). -/
def Best.Valid (old new : List α) (b : Best) : Prop :=
  b.subLen = 0 ∨ ∃ a c n : Nat, b = ⟨a, c, n⟩ ∧ 0 < n ∧ CommonRun old new a c n

/-- What the inner loop must read as previous overlap. -/
def prevOverlap (old new : List α) (m : Nat) (i : Nat) : Int :=
  match m with
  | 0 => 0
  | m + 1 => suf old new i m

theorem innerStep_value (old new : List α) (m i : Nat) (overlap : Int → Int)
    (ho : ∀ k : Nat, overlap k = prevOverlap old new m k)
    (hm : i < old.length ∧ old[i]? = new[m]?) :
    (if i = 0 then (1 : Int) else overlap ((i : Int) - 1) + 1) = suf old new i m := by
  cases i with
  | zero => rw [if_pos rfl, suf, if_pos hm]; rfl
  | succ i =>
    rw [if_neg (by omega)]
    have : ((i + 1 : Nat) : Int) - 1 = (i : Nat) := by omega
    rw [this, ho i]
    cases m with
    | zero => rw [suf, if_pos hm]; simp [prevOverlap]
    | succ m => rw [suf, if_pos hm]; simp [prevOverlap]

theorem innerFold (old new : List α) (m : Nat) (overlap : Int → Int)
    (ho : ∀ k : Nat, overlap k = prevOverlap old new m k) (is : List Nat) :
    ∀ (acc : (Int → Int) × Best), acc.2.Valid old new → 0 ≤ acc.2.subLen →
      (∀ i ∈ is, i < old.length ∧ old[i]? = new[m]?) →
      let r := is.foldl (innerStep overlap m) acc
      r.2.Valid old new ∧ acc.2.subLen ≤ r.2.subLen ∧
      (∀ k : Nat, r.1 k = if k ∈ is then (suf old new k m : Int) else acc.1 k) ∧
      (∀ i ∈ is, (suf old new i m : Int) ≤ r.2.subLen) := by
  induction is with
  | nil =>
    intro acc hv h0 _
    exact ⟨hv, by simp, by simp, by simp⟩
  | cons i is ih =>
    intro acc hv h0 hm
    have hval := innerStep_value old new m i overlap ho (hm i (by simp))
    have hpos := (suf_pos_iff old new i m).2 (hm i (by simp))
    obtain ⟨c1, c2, c3⟩ := commonRun_of_suf old new i m
    have hstep : innerStep overlap m acc i =
        (fun k => if k = (i : Int) then (suf old new i m : Int) else acc.1 k,
          if (suf old new i m : Int) > acc.2.subLen then
            ⟨i - suf old new i m + 1, m - suf old new i m + 1, suf old new i m⟩ else acc.2) := by
      simp only [innerStep, hval]
    have hv' : (innerStep overlap m acc i).2.Valid old new := by
      rw [hstep]
      simp only
      split
      · right
        refine ⟨i + 1 - suf old new i m, m + 1 - suf old new i m, suf old new i m, ?_, hpos, c3 hpos⟩
        congr 1 <;> omega
      · exact hv
    have hle : acc.2.subLen ≤ (innerStep overlap m acc i).2.subLen ∧
        (suf old new i m : Int) ≤ (innerStep overlap m acc i).2.subLen := by
      rw [hstep]
      simp only
      split
      · constructor <;> simp only <;> omega
      · constructor <;> omega
    obtain ⟨r1, r2, r3, r4⟩ := ih (innerStep overlap m acc i) hv' (by omega)
      (fun k hk => hm k (by simp [hk]))
    simp only [List.foldl_cons]
    refine ⟨r1, by omega, ?_, ?_⟩
    · intro k
      rw [r3 k, hstep]
      simp only [List.mem_cons]
      by_cases hk : k ∈ is
      · simp [hk]
      · by_cases hki : k = i
        · subst hki; simp
        · have : (k : Int) ≠ i := by omega
          simp [hk, hki, this]
    · intro k hk
      rcases List.mem_cons.1 hk with rfl | hk
      · omega
      · exact r4 k hk

theorem outerLoop_spec (old new : List α) (rest : List α) : ∀ (m : Nat) (overlap : Int → Int)
    (best : Best), rest = new.drop m →
    (∀ k : Nat, overlap k = prevOverlap old new m k) → best.Valid old new → 0 ≤ best.subLen →
    (∀ i j : Nat, j < m → (suf old new i j : Int) ≤ best.subLen) →
    let r := outerLoop (buildIndices 0 (fun _ => []) old) m overlap best rest
    r.Valid old new ∧ 0 ≤ r.subLen ∧
      ∀ i j : Nat, j < new.length → (suf old new i j : Int) ≤ r.subLen := by
  induction rest with
  | nil =>
    intro m overlap best hr _ hv h0 hs
    refine ⟨hv, h0, ?_⟩
    intro i j hj
    have : new.length ≤ m := by
      have := congrArg List.length hr
      simp at this; omega
    exact hs i j (by omega)
  | cons val rest ih =>
    intro m overlap best hr ho hv h0 hs
    have hlen : m < new.length := by
      have := congrArg List.length hr
      simp at this; omega
    have hval : new[m]? = some val := by
      have := congrArg (fun l => l[0]?) hr
      simp only [List.getElem?_cons_zero, List.getElem?_drop] at this
      simpa using this.symm
    have hmem : ∀ i, i ∈ buildIndices 0 (fun _ => []) old val ↔ i < old.length ∧ old[i]? = new[m]? := by
      intro i
      rw [buildIndices_mem]
      simp only [List.not_mem_nil, false_or, Nat.zero_le, true_and, Nat.sub_zero, hval]
      constructor
      · intro h; exact ⟨(List.getElem?_eq_some_iff.1 h).1, h⟩
      · exact fun h => h.2
    obtain ⟨r1, r2, r3, r4⟩ := innerFold old new m overlap ho (buildIndices 0 (fun _ => []) old val)
      (fun _ => 0, best) hv h0 (fun i hi => (hmem i).1 hi)
    simp only [outerLoop]
    have hcast : ((m : Int) + 1) = ((m + 1 : Nat) : Int) := by omega
    rw [hcast]
    refine ih (m + 1) _ _ ?_ ?_ r1 (by simp only at r2; omega) ?_
    · have := congrArg List.tail hr
      simpa [List.tail_drop] using this
    · intro k
      rw [r3 k]
      simp only [prevOverlap]
      split
      · rfl
      · next hk =>
        have : ¬ 0 < suf old new k m := fun hp => hk ((hmem k).2 ((suf_pos_iff old new k m).1 hp))
        omega
    · intro i j hj
      by_cases hjm : j < m
      · have := hs i j hjm
        simp only at r2
        omega
      · have : j = m := by omega
        subst this
        by_cases hp : 0 < suf old new i j
        · exact r4 i ((hmem i).2 ((suf_pos_iff old new i j).1 hp))
        · simp only at r2; omega

/-- The run selected by the two loops is a longest common run. -/
theorem findBest_spec (old new : List α) :
    (findBest old new).Valid old new ∧ 0 ≤ (findBest old new).subLen ∧
    ∀ a b n : Nat, CommonRun old new a b n → (n : Int) ≤ (findBest old new).subLen := by
  obtain ⟨h1, h2, h3⟩ := outerLoop_spec old new new 0 (fun _ => 0) ⟨0, 0, 0⟩ (by simp)
    (by intro k; simp [prevOverlap]) (.inl rfl) (by simp) (by intro i j hj; omega)
  refine ⟨h1, h2, ?_⟩
  intro a b n hr
  by_cases hn : n = 0
  · subst hn; exact h2
  · have := suf_of_commonRun hr (by omega)
    have := h3 (a + n - 1) (b + n - 1) (by have := hr.2.1; omega)
    simp only [findBest] at this ⊢
    simp only [Int.ofNat_zero] at this
    omega

/-- How one level of `Diff` looks. -/
inductive DiffStep (old new : List α) (fuel : Nat) : Option (M (List (Block α))) → Prop
  | both : old = [] → new = [] → DiffStep old new fuel (some (.ok []))
  | add : old = [] → new ≠ [] → DiffStep old new fuel (some (.ok [⟨.add, new⟩]))
  | minus : old ≠ [] → new = [] → DiffStep old new fuel (some (.ok [⟨.minus, old⟩]))
  | change : old ≠ [] → new ≠ [] → (∀ a b n, CommonRun old new a b n → n = 0) →
      DiffStep old new fuel (some (.ok [⟨.minus, old⟩, ⟨.add, new⟩]))
  | split (a b n : Nat) (r : Option (M (List (Block α)))) :
      0 < n → CommonRun old new a b n →
      (∀ a' b' n', CommonRun old new a' b' n' → n' ≤ n) →
      (∀ l r', diffFuel fuel (old.take a) (new.take b) = some (.ok l) →
        diffFuel fuel (old.drop (a + n)) (new.drop (b + n)) = some (.ok r') →
        r = some (.ok (l ++ [⟨.equal, (new.drop b).take n⟩] ++ r'))) →
      DiffStep old new fuel r

theorem diffFuel_step (fuel : Nat) (old new : List α) :
    DiffStep old new fuel (diffFuel (fuel + 1) old new) := by
  simp only [diffFuel]
  split
  · next h =>
    have ho : old = [] := List.length_eq_zero_iff.1 h
    split
    · next h' => exact .both ho (List.length_eq_zero_iff.1 (by omega))
    · next h' => exact .add ho (by rintro rfl; simp at h'; exact h' (by omega))
  · next h =>
    have ho : old ≠ [] := by rintro rfl; simp at h
    split
    · next h' => exact .minus ho (List.length_eq_zero_iff.1 h')
    · next h' =>
      have hn : new ≠ [] := by rintro rfl; simp at h'
      obtain ⟨hv, h0, hmax⟩ := findBest_spec old new
      split
      · next hz =>
        refine .change ho hn (fun a b n hr => ?_)
        have := hmax a b n hr
        omega
      · next hz =>
        rcases hv with hv | ⟨a, b, n, he, hn0, hr⟩
        · exact absurd hv hz
        · rw [he] at hmax ⊢
          simp only
          have hr' := hr
          obtain ⟨r1, r2, r3⟩ := hr'
          have s1 : slice old 0 (a : Int) = .ok (old.take a) := by
            have := slice_ok old 0 a (by omega) (by omega)
            simpa using this
          have s2 : slice new 0 (b : Int) = .ok (new.take b) := by
            have := slice_ok new 0 b (by omega) (by omega)
            simpa using this
          have s3 : slice new (b : Int) ((b : Int) + n) = .ok ((new.drop b).take n) := by
            have := slice_ok new b (b + n) (by omega) (by omega)
            rw [Int.natCast_add] at this
            rw [this, List.drop_take]
            congr 2; omega
          have s4 : slice old ((a : Int) + n) old.length = .ok (old.drop (a + n)) := by
            have := slice_ok old (a + n) old.length (by omega) (by omega)
            rw [Int.natCast_add] at this
            rw [this, List.take_length]
          have s5 : slice new ((b : Int) + n) new.length = .ok (new.drop (b + n)) := by
            have := slice_ok new (b + n) new.length (by omega) (by omega)
            rw [Int.natCast_add] at this
            rw [this, List.take_length]
          rw [s1, s2, s3, s4, s5]
          refine .split a b n _ hn0 hr (fun a' b' n' h => ?_) ?_
          · have := hmax a' b' n' h
            simp only at this
            omega
          · intro l r' e1 e2
            simp only [e1, e2]

/-- With enough fuel `Diff` returns, without panicking, always the same blocks. -/
theorem diffFuel_ok (fuel : Nat) : ∀ (old new : List α), old.length < fuel →
    ∃ cs, diffFuel fuel old new = some (.ok cs) := by
  induction fuel with
  | zero => intro old new h; omega
  | succ fuel ih =>
    intro old new h
    have := diffFuel_step fuel old new
    generalize hd : diffFuel (fuel + 1) old new = d at this
    cases this with
    | both => exact ⟨_, rfl⟩
    | add => exact ⟨_, rfl⟩
    | minus => exact ⟨_, rfl⟩
    | change => exact ⟨_, rfl⟩
    | split a b n _ hn hr _ hs =>
      have := hr.1
      obtain ⟨l, e1⟩ := ih (old.take a) (new.take b) (by simp; omega)
      obtain ⟨r, e2⟩ := ih (old.drop (a + n)) (new.drop (b + n)) (by simp; omega)
      exact ⟨_, hs l r e1 e2⟩

theorem diffFuel_mono (fuel : Nat) : ∀ (old new : List α) cs, diffFuel fuel old new = some (.ok cs) →
    diffFuel (fuel + 1) old new = some (.ok cs) := by
  induction fuel with
  | zero => intro old new cs h; simp [diffFuel] at h
  | succ fuel ih =>
    intro old new cs h
    rw [diffFuel] at h ⊢
    split
    · next h1 => rw [if_pos h1] at h; exact h
    · next h1 =>
      rw [if_neg h1] at h
      split
      · next h2 => rw [if_pos h2] at h; exact h
      · next h2 =>
        rw [if_neg h2] at h
        dsimp only at h ⊢
        split
        · next h3 => rw [if_pos h3] at h; exact h
        · next h3 =>
          rw [if_neg h3] at h
          split
          · next e1 e2 e3 e4 e5 =>
            simp only [e1, e2, e3, e4, e5] at h
            split at h
            · next hl hr => rw [ih _ _ _ hl, ih _ _ _ hr]; exact h
            · cases h
            · cases h
            · cases h
          · next hn =>
            split at h
            · next e1 e2 e3 e4 e5 => exact absurd e5 (hn _ _ _ _ _ e1 e2 e3 e4)
            · cases h

theorem diffFuel_eq (fuel : Nat) (old new : List α) (h : old.length < fuel) :
    diffFuel fuel old new = some (.ok (diff old new)) := by
  obtain ⟨cs, e⟩ := diffFuel_ok (old.length + 1) old new (by omega)
  have hd : diff old new = cs := by simp [diff, e]
  rw [hd]
  have : ∀ k, diffFuel (old.length + 1 + k) old new = some (.ok cs) := by
    intro k
    induction k with
    | zero => exact e
    | succ k ih => exact diffFuel_mono _ _ _ _ ih
  have := this (fuel - (old.length + 1))
  rwa [Nat.add_sub_cancel' (by omega)] at this

/-- Induction principle: the shape of `diff`. -/
inductive Shape : List α → List α → List (Block α) → Prop
  | both : Shape [] [] []
  | add (new : List α) : new ≠ [] → Shape [] new [⟨.add, new⟩]
  | minus (old : List α) : old ≠ [] → Shape old [] [⟨.minus, old⟩]
  | change (old new : List α) : old ≠ [] → new ≠ [] → (∀ a b n, CommonRun old new a b n → n = 0) →
      Shape old new [⟨.minus, old⟩, ⟨.add, new⟩]
  | split (old new : List α) (a b n : Nat) (l r : List (Block α)) :
      0 < n → CommonRun old new a b n → (∀ a' b' n', CommonRun old new a' b' n' → n' ≤ n) →
      l = diff (old.take a) (new.take b) → r = diff (old.drop (a + n)) (new.drop (b + n)) →
      Shape (old.take a) (new.take b) l → Shape (old.drop (a + n)) (new.drop (b + n)) r →
      Shape old new (l ++ [⟨.equal, (new.drop b).take n⟩] ++ r)

theorem shape_diff (N : Nat) : ∀ (old new : List α), old.length < N → Shape old new (diff old new) := by
  induction N with
  | zero => intro old new h; omega
  | succ N ih =>
    intro old new h
    have := diffFuel_step old.length old new
    rw [diffFuel_eq _ _ _ (by omega)] at this
    generalize hd : diff old new = d at this
    generalize ho : (some (Except.ok d) : Option (M (List (Block α)))) = o at this
    cases this with
    | both h1 h2 => cases ho; subst h1 h2; exact .both
    | add h1 h2 => cases ho; subst h1; exact .add new h2
    | minus h1 h2 => cases ho; subst h2; exact .minus old h1
    | change h1 h2 h3 => cases ho; exact .change old new h1 h2 h3
    | split a b n _ hn hr hmax hs =>
      have h1 := hr.1
      have := hs _ _ (diffFuel_eq _ (old.take a) (new.take b) (by simp; omega))
        (diffFuel_eq _ (old.drop (a + n)) (new.drop (b + n)) (by simp; omega))
      rw [this] at ho
      cases ho
      exact .split old new a b n _ _ hn hr hmax rfl rfl
        (ih _ _ (by simp; omega)) (ih _ _ (by simp; omega))

theorem diff_shape (old new : List α) : Shape old new (diff old new) :=
  shape_diff (old.length + 1) old new (by omega)

omit [DecidableEq α] in
theorem oldSide_append (xs ys : List (Block α)) : oldSide (xs ++ ys) = oldSide xs ++ oldSide ys := by
  simp [oldSide]

omit [DecidableEq α] in
theorem newSide_append (xs ys : List (Block α)) : newSide (xs ++ ys) = newSide xs ++ newSide ys := by
  simp [newSide]

omit [DecidableEq α] in
theorem split_three (xs : List α) (a n : Nat) : xs.take a ++ (xs.drop a).take n ++ xs.drop (a + n) = xs := by
  rw [List.append_assoc, ← List.drop_drop, List.take_append_drop, List.take_append_drop]

end

end Diff
