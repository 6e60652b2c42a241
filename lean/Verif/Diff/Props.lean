import Verif.Diff.Lemmas
import Verif.Go.Strings

/-!
# C11–C14: what `Diff` returns
-/

namespace Diff
open Go

section
variable {α : Type} [DecidableEq α]

/-- C11 (termination and safety): for every recursion budget above `len(old)`, `Diff` returns, no
slice expression is out of bounds, and the result does not depend on the budget. -/
theorem C11_terminates (old new : List α) :
    ∀ fuel, old.length < fuel → diffFuel fuel old new = some (.ok (diff old new)) :=
  fun fuel h => diffFuel_eq fuel old new h

/-- C11: kept and deleted lines are the old file, kept and added lines are the new file. -/
theorem C11_reconstructs (old new : List α) :
    oldSide (diff old new) = old ∧ newSide (diff old new) = new := by
  have hs := diff_shape old new
  generalize diff old new = cs at hs ⊢
  induction hs with
  | both => exact ⟨rfl, rfl⟩
  | add new h => simp [oldSide, newSide]
  | minus old h => simp [oldSide, newSide]
  | change old new h1 h2 h3 => simp [oldSide, newSide]
  | split old new a b n l r hn hr hmax _ _ _ _ ih1 ih2 =>
    refine ⟨?_, ?_⟩
    · rw [oldSide_append, oldSide_append, ih1.1, ih2.1]
      have : oldSide [⟨.equal, (new.drop b).take n⟩] = (old.drop a).take n := by
        simp [oldSide, hr.2.2]
      rw [this, split_three]
    · rw [newSide_append, newSide_append, ih1.2, ih2.2]
      have : newSide [⟨.equal, (new.drop b).take n⟩] = (new.drop b).take n := by
        simp [newSide]
      rw [this, split_three]

/-- C11, as the code's own fuzz target checks it (fuzz.go:9-26): `assembleChanges` gives back both
inputs. -/
theorem C11_assembleChanges (old new : List α) : assembleChanges (diff old new) = (old, new) := by
  have : ∀ cs : List (Block α), assembleChanges cs = (oldSide cs, newSide cs) := by
    intro cs
    induction cs with
    | nil => rfl
    | cons c cs ih =>
      obtain ⟨k, vs⟩ := c
      cases k <;> simp [assembleChanges, ih, oldSide, newSide]
  rw [this, (C11_reconstructs old new).1, (C11_reconstructs old new).2]

example : diff [1, 2, 3, 4] [0, 2, 3, 5] =
    [⟨.minus, [1]⟩, ⟨.add, [0]⟩, ⟨.equal, [2, 3]⟩, ⟨.minus, [4]⟩, ⟨.add, [5]⟩] := by decide

/-- C12: if the files share a line, `Diff` splits at a common run than which no common run is
longer, and what is before and after it is the diff of what is before and after that run. -/
theorem C12_longest_anchor (old new : List α) (h : ∃ x, x ∈ old ∧ x ∈ new) :
    ∃ a b n, 0 < n ∧ CommonRun old new a b n ∧ (∀ a' b' n', CommonRun old new a' b' n' → n' ≤ n) ∧
      diff old new = diff (old.take a) (new.take b) ++ [⟨.equal, (old.drop a).take n⟩] ++
        diff (old.drop (a + n)) (new.drop (b + n)) := by
  obtain ⟨x, h1, h2⟩ := h
  obtain ⟨i, hi, ei⟩ := List.getElem_of_mem h1
  obtain ⟨j, hj, ej⟩ := List.getElem_of_mem h2
  have hrun : CommonRun old new i j 1 := by
    rw [commonRun_iff]
    refine ⟨by omega, by omega, fun k hk => ?_⟩
    have : k = 0 := by omega
    subst this
    simp [List.getElem?_eq_getElem hi, List.getElem?_eq_getElem hj, ei, ej]
  have hs := diff_shape old new
  generalize hd : diff old new = d at hs
  cases hs with
  | both => simp at h1
  | add _ _ => simp at h1
  | minus _ _ => simp at h2
  | change _ _ _ _ h3 => have := h3 _ _ _ hrun; omega
  | split _ _ a b n l r hn hr hmax el er _ _ =>
    refine ⟨a, b, n, hn, hr, hmax, ?_⟩
    rw [← el, ← er, hr.2.2]

/-- C12: files without a common line are reported as one deletion and one addition. -/
theorem C12_nothing_in_common (old new : List α) (ho : old ≠ []) (hn : new ≠ [])
    (h : ∀ x ∈ old, x ∉ new) : diff old new = [⟨.minus, old⟩, ⟨.add, new⟩] := by
  have hs := diff_shape old new
  generalize hd : diff old new = d at hs
  cases hs with
  | both => exact absurd rfl ho
  | add _ _ => exact absurd rfl ho
  | minus _ _ => exact absurd rfl hn
  | change _ _ _ _ h3 => rfl
  | split _ _ a b n l r hn hr hmax el er _ _ =>
    have h1 := hr.1
    have hx : old[a]'(by omega) ∈ new := by
      have := ((commonRun_iff old new a b n).1 hr).2.2 0 hn
      simp only [Nat.add_zero] at this
      rw [List.getElem?_eq_getElem (by omega)] at this
      exact List.mem_of_getElem? this.symm
    exact absurd hx (h _ (List.getElem_mem _))

/-- C12, on the whole output: some kept block is at least as long as every common run. -/
theorem C12_keeps_longest (old new : List α) (a b n : Nat) (h : CommonRun old new a b n) (hn : 0 < n) :
    ∃ c ∈ diff old new, c.kind = .equal ∧ n ≤ c.values.length := by
  have h' := (commonRun_iff old new a b n).1 h
  have hx : ∃ x, x ∈ old ∧ x ∈ new := by
    have h0 := h'.2.2 0 hn
    simp only [Nat.add_zero] at h0
    rw [List.getElem?_eq_getElem (by omega)] at h0
    exact ⟨_, List.getElem_mem _, List.mem_of_getElem? h0.symm⟩
  obtain ⟨a', b', n', hn', hr, hmax, hd⟩ := C12_longest_anchor old new hx
  refine ⟨⟨.equal, (old.drop a').take n'⟩, by rw [hd]; simp, rfl, ?_⟩
  have := hr.1
  have := hmax a b n h
  simp
  omega

example : CommonRun [1, 2, 3, 4] [0, 2, 3, 5] 1 1 2 ∧ (∃ x, x ∈ [1, 2, 3, 4] ∧ x ∈ [0, 2, 3, 5]) := by
  refine ⟨⟨by decide, by decide, by decide⟩, 2, by decide, by decide⟩

omit [DecidableEq α] in
theorem normal_append {l r : List (Block α)} (hl : Normal l) (hr : Normal r)
    (h : ∀ l' c d r', l = l' ++ [c] → r = d :: r' → MayFollow c d) : Normal (l ++ r) := by
  refine ⟨?_, ?_⟩
  · intro c hc
    rcases List.mem_append.1 hc with hc | hc
    · exact hl.1 c hc
    · exact hr.1 c hc
  · intro pre c d post he
    rcases List.append_eq_append_iff.1 he with ⟨as, h1, h2⟩ | ⟨bs, h1, h2⟩
    · exact hr.2 as c d post h2
    · cases bs with
      | nil => exact hr.2 [] c d post (by simpa using h2.symm)
      | cons x bs =>
        cases bs with
        | nil =>
          simp only [List.cons_append, List.nil_append, List.cons.injEq] at h2
          obtain ⟨rfl, h2⟩ := h2
          exact h pre c d post h1 h2.symm
        | cons y bs =>
          simp only [List.cons_append, List.cons.injEq] at h2
          obtain ⟨rfl, rfl, h2⟩ := h2
          exact hl.2 pre c d bs h1

/-- C13: no empty block, neighbouring blocks differ in kind, additions never directly precede
deletions. -/
theorem C13_normal_form (old new : List α) : Normal (diff old new) := by
  have hs := diff_shape old new
  generalize diff old new = cs at hs ⊢
  induction hs with
  | both => exact ⟨by simp, by simp⟩
  | add new h =>
    refine ⟨by simpa using h, ?_⟩
    intro pre c d post he
    have := congrArg List.length he
    simp at this; omega
  | minus old h =>
    refine ⟨by simpa using h, ?_⟩
    intro pre c d post he
    have := congrArg List.length he
    simp at this; omega
  | change old new h1 h2 h3 =>
    refine ⟨by simpa using ⟨h1, h2⟩, ?_⟩
    intro pre c d post he
    cases pre with
    | nil => simp at he; obtain ⟨rfl, rfl, _⟩ := he; simp [MayFollow]
    | cons x pre =>
      have := congrArg List.length he
      simp at this; omega
  | split old new a b n l r hn hr hmax el er _ _ ih1 ih2 =>
    have hb1 := hr.1
    have hb2 := hr.2.1
    have hrun := ((commonRun_iff old new a b n).1 hr).2.2
    have hmid : Normal [(⟨.equal, (new.drop b).take n⟩ : Block α)] := by
      refine ⟨?_, ?_⟩
      · intro c hc
        simp only [List.mem_singleton] at hc
        subst hc
        intro he
        have := congrArg List.length he
        simp at this
        omega
      · intro pre c d post he
        have := congrArg List.length he
        simp at this; omega
    refine normal_append (normal_append ih1 hmid ?_) ih2 ?_
    · intro l' c d r' e1 e2
      simp only [List.cons.injEq] at e2
      obtain ⟨rfl, _⟩ := e2
      refine ⟨fun hk => ?_, by simp⟩
      -- the run could be extended to the left
      obtain ⟨k, vs⟩ := c
      simp only at hk
      subst hk
      have hv := ih1.1 ⟨.equal, vs⟩ (by simp [e1])
      have hv' : 0 < vs.length := List.length_pos_iff.2 hv
      obtain ⟨p1, p2⟩ := C11_reconstructs (old.take a) (new.take b)
      rw [← el, e1] at p1 p2
      rw [oldSide_append] at p1
      rw [newSide_append] at p2
      have q1 : oldSide l' ++ vs = old.take a := by simpa [oldSide] using p1
      have q2 : newSide l' ++ vs = new.take b := by simpa [newSide] using p2
      have l1 := congrArg List.length q1
      have l2 := congrArg List.length q2
      simp only [List.length_append, List.length_take] at l1 l2
      have hext : CommonRun old new (a - vs.length) (b - vs.length) (vs.length + n) := by
        rw [commonRun_iff]
        refine ⟨by omega, by omega, fun k hk => ?_⟩
        by_cases hkv : k < vs.length
        · have g1 : old[a - vs.length + k]? = vs[k]? := by
            have := congrArg (fun l => l[a - vs.length + k]?) q1
            simp only [List.getElem?_take] at this
            rw [if_pos (by omega), List.getElem?_append_right (by omega)] at this
            rw [← this]; congr 1; omega
          have g2 : new[b - vs.length + k]? = vs[k]? := by
            have := congrArg (fun l => l[b - vs.length + k]?) q2
            simp only [List.getElem?_take] at this
            rw [if_pos (by omega), List.getElem?_append_right (by omega)] at this
            rw [← this]; congr 1; omega
          rw [g1, g2]
        · have := hrun (k - vs.length) (by omega)
          have f1 : a - vs.length + k = a + (k - vs.length) := by omega
          have f2 : b - vs.length + k = b + (k - vs.length) := by omega
          rw [f1, f2, this]
      have := hmax _ _ _ hext
      omega
    · intro l' c d r' e1 e2
      have : c = ⟨.equal, (new.drop b).take n⟩ := by
        have := congrArg List.getLast? e1
        simp at this
        exact this.symm
      subst this
      refine ⟨fun hk => ?_, by simp⟩
      obtain ⟨k, vs⟩ := d
      simp only at hk
      subst hk
      have hv := ih2.1 ⟨.equal, vs⟩ (by simp [e2])
      have hv' : 0 < vs.length := List.length_pos_iff.2 hv
      obtain ⟨p1, p2⟩ := C11_reconstructs (old.drop (a + n)) (new.drop (b + n))
      rw [← er, e2] at p1 p2
      have q1 : vs ++ oldSide r' = old.drop (a + n) := by simpa [oldSide] using p1
      have q2 : vs ++ newSide r' = new.drop (b + n) := by simpa [newSide] using p2
      have l1 := congrArg List.length q1
      have l2 := congrArg List.length q2
      simp only [List.length_append, List.length_drop] at l1 l2
      have hext : CommonRun old new a b (n + vs.length) := by
        rw [commonRun_iff]
        refine ⟨by omega, by omega, fun k hk => ?_⟩
        by_cases hkn : k < n
        · exact hrun k hkn
        · have g1 : old[a + k]? = vs[k - n]? := by
            have := congrArg (fun l => l[k - n]?) q1
            simp only [List.getElem?_drop] at this
            rw [List.getElem?_append_left (by omega)] at this
            rw [this]; congr 1; omega
          have g2 : new[b + k]? = vs[k - n]? := by
            have := congrArg (fun l => l[k - n]?) q2
            simp only [List.getElem?_drop] at this
            rw [List.getElem?_append_left (by omega)] at this
            rw [this]; congr 1; omega
          rw [g1, g2]
      have := hmax _ _ _ hext
      omega

/-- C14, structural form: the diff of a file with itself is one kept block. -/
theorem diff_self (l : List α) (h : l ≠ []) : diff l l = [⟨.equal, l⟩] := by
  have hx : ∃ x, x ∈ l ∧ x ∈ l := by
    cases l with
    | nil => exact absurd rfl h
    | cons x l => exact ⟨x, by simp, by simp⟩
  obtain ⟨a, b, n, hn, hr, hmax, hd⟩ := C12_longest_anchor l l hx
  have h1 := hmax 0 0 l.length ⟨by omega, by omega, rfl⟩
  have := hr.1
  have := hr.2.1
  have ha : a = 0 := by omega
  have hb : b = 0 := by omega
  have hn' : n = l.length := by omega
  subst ha hb hn'
  rw [hd]
  have : diff ([] : List α) [] = [] := by simp [diff, diffFuel]
  simp [this]

end

theorem join_nil_iff (l : Bytes) (ls : List Bytes) (h : l ≠ []) : join [nl] (l :: ls) ≠ [] := by
  cases ls with
  | nil => simpa [join] using h
  | cons m ls => simp [join, h]

theorem fmtRange_ne_nil (a n : Nat) : fmtRange a n ≠ [] := by
  have hd := (natToDec_spec (a + 1)).1
  have : itoa ((a : Int) + 1) = natToDec (a + 1) := by
    unfold itoa; rw [if_neg (by omega)]; congr 1
  unfold fmtRange
  split <;> simp [this, hd]

theorem outputLoop_nil (cs : List (Block Bytes)) : ∀ o n, join [nl] (outputLoop o n cs) = [] →
    ∀ c ∈ cs, c.kind = .equal := by
  induction cs with
  | nil => intro o n _ c hc; simp at hc
  | cons c cs ih =>
    intro o n h
    obtain ⟨k, vs⟩ := c
    cases k with
    | equal =>
      simp only [outputLoop] at h
      have := ih _ _ h
      simpa using this
    | add =>
      simp only [outputLoop, List.cons_append] at h
      exact absurd h (join_nil_iff _ _ (by simp [fmtRange_ne_nil]))
    | minus =>
      exfalso
      rw [outputLoop.eq_def] at h
      split at h
      · simp_all
      · simp_all
      · simp_all
      · simp only [List.cons_append] at h
        exact absurd h (join_nil_iff _ _ (by simp [fmtRange_ne_nil]))
      · simp only [List.cons_append] at h
        exact absurd h (join_nil_iff _ _ (by simp [fmtRange_ne_nil]))

/-- C14: the printed diff is empty exactly when the files are equal. -/
theorem C14_empty_iff_equal (old new : List Bytes) : format (diff old new) = [] ↔ old = new := by
  constructor
  · intro h
    have hk := outputLoop_nil (diff old new) 0 0 h
    obtain ⟨h1, h2⟩ := C11_reconstructs old new
    have : ∀ cs : List (Block Bytes), (∀ c ∈ cs, c.kind = .equal) → oldSide cs = newSide cs := by
      intro cs
      induction cs with
      | nil => intro _; rfl
      | cons c cs ih =>
        intro hc
        have := hc c (by simp)
        have := ih (fun d hd => hc d (by simp [hd]))
        simp_all [oldSide, newSide]
    exact h1.symm.trans ((this _ hk).trans h2)
  · rintro rfl
    by_cases h : old = []
    · subst h
      have : diff ([] : List Bytes) [] = [] := by simp [diff, diffFuel]
      rw [this]; rfl
    · rw [diff_self old h]
      simp [format, outputLoop, join]

example : format (diff [b!"a", b!"b"] [b!"a", b!"c"]) = b!"2c2\n< b\n---\n> c" := by decide

/-! ## The fuzz target -/

/-- fuzz.go:27-37 `areIdentical`. -/
def areIdentical (expected actual : List Bytes) : Bool :=
  if expected.length ≠ actual.length then false
  else (expected.zip actual).all fun p => p.1 = p.2

/-- fuzz.go:40-59 `Fuzz`. -/
def fuzz (data : Bytes) : M Int :=
  match split data b!"\n==========\n" with
  | [i0, i1] =>
    let old := split i0 b!"\n"
    let new := split i1 b!"\n"
    match diffFuel (old.length + 1) old new with
    | some (.ok changes) =>
      let r := assembleChanges changes
      if !areIdentical old r.1 then .error .explicit
      else if !areIdentical new r.2 then .error .explicit
      else .ok 1
    | some (.error e) => .error e
    | none => .error .explicit
  | _ => .ok (-1)

theorem areIdentical_self (l : List Bytes) : areIdentical l l = true := by
  unfold areIdentical
  simp only [ne_eq, not_true_eq_false, if_false]
  induction l with
  | nil => rfl
  | cons x l ih => simp [ih]

/-- C11: the repository's fuzz target never panics, on any input. -/
theorem C11_fuzz_never_panics (data : Bytes) : fuzz data = .ok 1 ∨ fuzz data = .ok (-1) := by
  unfold fuzz
  split
  · next i0 i1 _ =>
    left
    simp only [C11_terminates (split i0 b!"\n") (split i1 b!"\n") _ (Nat.lt_succ_self _),
      C11_assembleChanges, areIdentical_self]
    simp
  · exact .inr rfl

example : fuzz b!"a\nb\n==========\nb\nc" = .ok 1 := by decide

end Diff
