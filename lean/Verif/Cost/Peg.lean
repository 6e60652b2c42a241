import Verif.Ed.PegTreeProps

/-!
# How much work parsing is (C127)

The parser of ed (pkg/ed/ed.peg.go) with a count of its work: one step for every test of a rune, for every rule, choice,
repetition, look-ahead and capture entered, for every round of a repetition and for every token added. (Copying the array
when it is full is not counted.) Going back after a failure, the parser reads the same runes again; nevertheless the count
is linear in the length of the text.
-/

namespace Ed
open Go

namespace Gr

/-- The loop of `p*` as in `loop`, with the number of steps. -/
def loopRun (p : PState → R (Bool × PState) × Nat) : Nat → PState → R (Bool × PState) × Nat
  | 0, _ => (.error .hang, 0)
  | n + 1, s =>
    match p s with
    | (.error e, k) => (.error e, 1 + k)
    | (.ok (true, s1), k) => ((loopRun p n s1).1, 1 + k + (loopRun p n s1).2)
    | (.ok (false, s1), k) => (.ok (true, s1.restore s), 1 + k)

/-- ed.peg.go:604-2583: what the code of a rule does, as in `run`, with the number of steps. -/
def runRun (buf : List Nat) : Gr → PState → R (Bool × PState) × Nat
  | cls f, s => (run buf (cls f) s, 1)
  | dot, s => (run buf dot s, 1)
  | seq p q, s =>
    match runRun buf p s with
    | (.error e, k) => (.error e, 1 + k)
    | (.ok (true, s1), k) => ((runRun buf q s1).1, 1 + k + (runRun buf q s1).2)
    | (.ok (false, s1), k) => (.ok (false, s1), 1 + k)
  | alt p q, s =>
    match runRun buf p s with
    | (.error e, k) => (.error e, 1 + k)
    | (.ok (true, s1), k) => (.ok (true, s1), 1 + k)
    | (.ok (false, s1), k) => ((runRun buf q (s1.restore s)).1, 1 + k + (runRun buf q (s1.restore s)).2)
  | opt p, s =>
    match runRun buf p s with
    | (.error e, k) => (.error e, 1 + k)
    | (.ok (true, s1), k) => (.ok (true, s1), 1 + k)
    | (.ok (false, s1), k) => (.ok (true, s1.restore s), 1 + k)
  | star p, s => ((loopRun (runRun buf p) (buf.length + 1) s).1, 1 + (loopRun (runRun buf p) (buf.length + 1) s).2)
  | notP p, s =>
    match runRun buf p s with
    | (.error e, k) => (.error e, 1 + k)
    | (.ok (true, s1), k) => (.ok (false, s1), 1 + k)
    | (.ok (false, s1), k) => (.ok (true, s1.restore s), 1 + k)
  | capture p, s =>
    match runRun buf p s with
    | (.error e, k) => (.error e, 1 + k)
    | (.ok (false, s1), k) => (.ok (false, s1), 1 + k)
    | (.ok (true, s1), k) =>
      match s1.add .pegText s.position with
      | .error e => (.error e, 2 + k)
      | .ok s2 => (.ok (true, s2), 2 + k)
  | rule name p, s =>
    match runRun buf p s with
    | (.error e, k) => (.error e, 1 + k)
    | (.ok (false, s1), k) => (.ok (false, s1.restore s), 1 + k)
    | (.ok (true, s1), k) =>
      match s1.add (.named name) s.position with
      | .error e => (.error e, 2 + k)
      | .ok s2 => (.ok (true, s2), 2 + k)
  | act n, s => (run buf (act n) s, 1)

end Gr

theorem loopRun_result (p : PState → R (Bool × PState) × Nat) (q : PState → R (Bool × PState)) (h : ∀ s, (p s).1 = q s) (n : Nat) :
    ∀ s, (Gr.loopRun p n s).1 = Gr.loop q n s := by
  induction n with
  | zero => intro s; rfl
  | succ n ih =>
    intro s
    have h1 := h s
    simp only [Gr.loopRun, Gr.loop]
    rcases hp : p s with ⟨e | ⟨b, s1⟩, k⟩ <;> rw [hp] at h1 <;> simp only at h1 <;> rw [← h1]
    cases b
    · rfl
    · exact ih s1

/-- **C127** counting does not change what is computed. -/
theorem C127_peg_result (buf : List Nat) (g : Gr) : ∀ s, (g.runRun buf s).1 = g.run buf s := by
  induction g with
  | cls f => intro s; rfl
  | dot => intro s; rfl
  | act n => intro s; rfl
  | seq p q hp hq =>
    intro s
    have h1 := hp s
    simp only [Gr.runRun, Gr.run]
    rcases hr : p.runRun buf s with ⟨e | ⟨b, s1⟩, k⟩ <;> rw [hr] at h1 <;> simp only at h1 <;> rw [← h1]
    cases b
    · rfl
    · exact hq s1
  | alt p q hp hq =>
    intro s
    have h1 := hp s
    simp only [Gr.runRun, Gr.run]
    rcases hr : p.runRun buf s with ⟨e | ⟨b, s1⟩, k⟩ <;> rw [hr] at h1 <;> simp only at h1 <;> rw [← h1]
    cases b
    · exact hq _
    · rfl
  | star p hp => intro s; exact loopRun_result _ _ hp _ s
  | opt p hp =>
    intro s
    have h1 := hp s
    simp only [Gr.runRun, Gr.run]
    rcases hr : p.runRun buf s with ⟨e | ⟨b, s1⟩, k⟩ <;> rw [hr] at h1 <;> simp only at h1 <;> rw [← h1]
    cases b <;> rfl
  | notP p hp =>
    intro s
    have h1 := hp s
    simp only [Gr.runRun, Gr.run]
    rcases hr : p.runRun buf s with ⟨e | ⟨b, s1⟩, k⟩ <;> rw [hr] at h1 <;> simp only at h1 <;> rw [← h1]
    cases b <;> rfl
  | capture p hp =>
    intro s
    have h1 := hp s
    simp only [Gr.runRun, Gr.run]
    rcases hr : p.runRun buf s with ⟨e | ⟨b, s1⟩, k⟩ <;> rw [hr] at h1 <;> simp only at h1 <;> rw [← h1]
    cases b
    · rfl
    · simp only
      cases s1.add .pegText s.position <;> rfl
  | rule name p hp =>
    intro s
    have h1 := hp s
    simp only [Gr.runRun, Gr.run]
    rcases hr : p.runRun buf s with ⟨e | ⟨b, s1⟩, k⟩ <;> rw [hr] at h1 <;> simp only at h1 <;> rw [← h1]
    cases b
    · rfl
    · simp only
      cases s1.add (.named name) s.position <;> rfl

/-! ## What a rule leaves, and the work, from the text alone -/

namespace Gr

/-- `p*` for a bounded number of rounds. -/
def restStar (p : List Nat → Option (List Nat)) : Nat → List Nat → List Nat
  | 0, rs => rs
  | n + 1, rs =>
    match p rs with
    | none => rs
    | some rs1 => restStar p n rs1

/-- What a rule leaves of the text. -/
def rest : Gr → List Nat → Option (List Nat)
  | cls _, [] => none
  | cls f, c :: rs => if f c then some rs else none
  | dot, [] => none
  | dot, _ :: rs => some rs
  | seq p q, rs =>
    match rest p rs with
    | none => none
    | some rs1 => rest q rs1
  | alt p q, rs =>
    match rest p rs with
    | some r => some r
    | none => rest q rs
  | opt p, rs => some ((rest p rs).getD rs)
  | star p, rs => some (restStar (rest p) (rs.length + 1) rs)
  | notP p, rs =>
    match rest p rs with
    | some _ => none
    | none => some rs
  | capture p, rs => rest p rs
  | rule _ p, rs => rest p rs
  | act _, rs => some rs

/-- The work of `p*`. -/
def workStar (p : List Nat → Option (List Nat)) (w : List Nat → Nat) : Nat → List Nat → Nat
  | 0, _ => 0
  | n + 1, rs =>
    match p rs with
    | none => 1 + w rs
    | some rs1 => 1 + w rs + workStar p w n rs1

/-- The work of a rule on a text. -/
def work : Gr → List Nat → Nat
  | cls _, _ => 1
  | dot, _ => 1
  | seq p q, rs =>
    match p.rest rs with
    | none => 1 + p.work rs
    | some rs1 => 1 + p.work rs + q.work rs1
  | alt p q, rs =>
    match p.rest rs with
    | some _ => 1 + p.work rs
    | none => 1 + p.work rs + q.work rs
  | opt p, rs => 1 + p.work rs
  | star p, rs => 1 + workStar p.rest p.work (rs.length + 1) rs
  | notP p, rs => 1 + p.work rs
  | capture p, rs =>
    match p.rest rs with
    | none => 1 + p.work rs
    | some _ => 2 + p.work rs
  | rule _ p, rs =>
    match p.rest rs with
    | none => 1 + p.work rs
    | some _ => 2 + p.work rs
  | act _, _ => 1

end Gr

theorem rest_derive (g : Gr) : ∀ pos rs, (g.derive pos rs).map (fun x => x.2.1) = g.rest rs := by
  induction g with
  | cls f =>
    intro pos rs
    cases rs with
    | nil => rfl
    | cons c rs => simp only [Gr.derive, Gr.rest]; split <;> rfl
  | dot => intro pos rs; cases rs <;> rfl
  | seq p q hp hq =>
    intro pos rs
    have h1 := hp pos rs
    simp only [Gr.derive, Gr.rest]
    rcases hd : p.derive pos rs with _ | ⟨pos1, rs1, t1⟩ <;> rw [hd] at h1 <;> rw [← h1]
    · rfl
    · have h2 := hq pos1 rs1
      simp only [Option.map_some]
      rcases hd2 : q.derive pos1 rs1 with _ | ⟨pos2, rs2, t2⟩ <;> rw [hd2] at h2 <;> rw [← h2] <;> rfl
  | alt p q hp hq =>
    intro pos rs
    have h1 := hp pos rs
    simp only [Gr.derive, Gr.rest]
    rcases hd : p.derive pos rs with _ | ⟨pos1, rs1, t1⟩ <;> rw [hd] at h1 <;> rw [← h1]
    · exact hq pos rs
    · rfl
  | opt p hp =>
    intro pos rs
    have h1 := hp pos rs
    simp only [Gr.derive, Gr.rest]
    rcases hd : p.derive pos rs with _ | ⟨pos1, rs1, t1⟩ <;> rw [hd] at h1 <;> rw [← h1] <;> rfl
  | notP p hp =>
    intro pos rs
    have h1 := hp pos rs
    simp only [Gr.derive, Gr.rest]
    rcases hd : p.derive pos rs with _ | ⟨pos1, rs1, t1⟩ <;> rw [hd] at h1 <;> rw [← h1] <;> rfl
  | capture p hp =>
    intro pos rs
    have h1 := hp pos rs
    simp only [Gr.derive, Gr.rest]
    rcases hd : p.derive pos rs with _ | ⟨pos1, rs1, t1⟩ <;> rw [hd] at h1 <;> rw [← h1] <;> rfl
  | rule name p hp =>
    intro pos rs
    have h1 := hp pos rs
    simp only [Gr.derive, Gr.rest]
    rcases hd : p.derive pos rs with _ | ⟨pos1, rs1, t1⟩ <;> rw [hd] at h1 <;> rw [← h1] <;> rfl
  | act n => intro pos rs; rfl
  | star p hp =>
    intro pos rs
    simp only [Gr.derive, Gr.rest, Option.map_some, Option.some.injEq]
    generalize rs.length + 1 = n
    induction n generalizing pos rs with
    | zero => rfl
    | succ n ih =>
      have h1 := hp pos rs
      simp only [Gr.deriveStar, Gr.restStar]
      rcases hd : p.derive pos rs with _ | ⟨pos1, rs1, t1⟩ <;> rw [hd] at h1 <;> rw [← h1]
      · rfl
      · exact ih pos1 rs1

/-- What `ran` says of success, with what remains. -/
theorem ran_rest (rs : List Nat) (hrs : ∀ r ∈ rs, r ≠ endSymbol) (g : Gr) (hg : g.wf = true) (s : PState)
    (h1 : s.position ≤ rs.length) (h2 : s.tokenIndex ≤ s.tree.length) (h3 : 0 < s.tree.length) :
    (∃ s1, g.run (rs ++ [endSymbol]) s = .ok (true, s1) ∧ g.rest (rs.drop s.position) = some (rs.drop s1.position) ∧
      s1.position ≤ rs.length ∧ s1.tokenIndex ≤ s1.tree.length ∧ 0 < s1.tree.length ∧ s.position ≤ s1.position ∧
      (g.takes = true → s.position < s1.position)) ∨
    (∃ s1, g.run (rs ++ [endSymbol]) s = .ok (false, s1) ∧ g.rest (rs.drop s.position) = none ∧ s.tokenIndex ≤ s1.tree.length ∧
      0 < s1.tree.length) := by
  have hr := ran rs hrs g hg s h1 h2 h3
  have hd' := rest_derive g s.position (rs.drop s.position)
  cases hd : g.derive s.position (rs.drop s.position) with
  | none =>
    rw [hd] at hd'
    obtain ⟨pos', i', tree', a1, a2⟩ := hr.fails hd
    exact .inr ⟨_, a1, hd'.symm, Nat.le_trans h2 a2.1, Nat.lt_of_lt_of_le h3 a2.1⟩
  | some x =>
    rw [hd] at hd'
    obtain ⟨tree', a1, a2⟩ := hr.succeeds x hd
    obtain ⟨b1, b2, b3, -, b5⟩ := derive_moves g rs s.position _ h1 hd
    refine .inl ⟨_, a1, ?_, b2, a2.2.1, Nat.lt_of_lt_of_le h3 a2.1, b1, b5⟩
    rw [← hd', ← b3]; rfl

theorem loopRun_work (rs : List Nat) (hrs : ∀ r ∈ rs, r ≠ endSymbol) (p : Gr) (hp : p.wf = true) (ht : p.takes = true)
    (ih : ∀ s : PState, s.position ≤ rs.length → s.tokenIndex ≤ s.tree.length → 0 < s.tree.length →
      (p.runRun (rs ++ [endSymbol]) s).2 = p.work (rs.drop s.position)) :
    ∀ (n m : Nat) (s : PState), s.position ≤ rs.length → s.tokenIndex ≤ s.tree.length → 0 < s.tree.length →
    rs.length - s.position < n → rs.length - s.position < m →
    (Gr.loopRun (p.runRun (rs ++ [endSymbol])) n s).2 = Gr.workStar p.rest p.work m (rs.drop s.position) := by
  intro n
  induction n with
  | zero => intro m s _ _ _ h; omega
  | succ n ihn =>
    intro m s h1 h2 h3 h4 h5
    obtain ⟨m, rfl⟩ : ∃ k, m = k + 1 := ⟨m - 1, by omega⟩
    have hw := ih s h1 h2 h3
    have hr := C127_peg_result (rs ++ [endSymbol]) p s
    simp only [Gr.loopRun, Gr.workStar]
    rcases ran_rest rs hrs p hp s h1 h2 h3 with ⟨s1, a1, a2, a3, a4, a5, a6, a7⟩ | ⟨s1, a1, a2, a3, a4⟩
    · have a8 := a7 ht
      rw [a2]
      rcases hx : p.runRun (rs ++ [endSymbol]) s with ⟨r, k⟩
      rw [hx] at hw hr
      simp only at hw hr
      rw [a1] at hr
      subst hr
      simp only
      rw [ihn m s1 a3 a4 a5 (by omega) (by omega), hw]
    · rw [a2]
      rcases hx : p.runRun (rs ++ [endSymbol]) s with ⟨r, k⟩
      rw [hx] at hw hr
      simp only at hw hr
      rw [a1] at hr
      subst hr
      simp only
      rw [hw]

/-- The count is the work as computed from the text. -/
theorem run_work (rs : List Nat) (hrs : ∀ r ∈ rs, r ≠ endSymbol) (g : Gr) (hg : g.wf = true) :
    ∀ s : PState, s.position ≤ rs.length → s.tokenIndex ≤ s.tree.length → 0 < s.tree.length →
    (g.runRun (rs ++ [endSymbol]) s).2 = g.work (rs.drop s.position) := by
  induction g with
  | cls f => intro s _ _ _; rfl
  | dot => intro s _ _ _; rfl
  | act n => intro s _ _ _; rfl
  | seq p q hp hq =>
    intro s h1 h2 h3
    simp only [Gr.wf, Bool.and_eq_true] at hg
    have hw := hp hg.1 s h1 h2 h3
    have hr := C127_peg_result (rs ++ [endSymbol]) p s
    simp only [Gr.runRun, Gr.work]
    rcases hx : p.runRun (rs ++ [endSymbol]) s with ⟨r, k⟩
    rw [hx] at hw hr
    simp only at hw hr
    rcases ran_rest rs hrs p hg.1 s h1 h2 h3 with ⟨s1, a1, a2, a3, a4, a5, a6, a7⟩ | ⟨s1, a1, a2, a3, a4⟩ <;>
      rw [a2] <;> rw [a1] at hr <;> subst hr <;> simp only
    · rw [hq hg.2 s1 a3 a4 a5, hw]
    · rw [hw]
  | alt p q hp hq =>
    intro s h1 h2 h3
    simp only [Gr.wf, Bool.and_eq_true] at hg
    have hw := hp hg.1 s h1 h2 h3
    have hr := C127_peg_result (rs ++ [endSymbol]) p s
    simp only [Gr.runRun, Gr.work]
    rcases hx : p.runRun (rs ++ [endSymbol]) s with ⟨r, k⟩
    rw [hx] at hw hr
    simp only at hw hr
    rcases ran_rest rs hrs p hg.1 s h1 h2 h3 with ⟨s1, a1, a2, a3, a4, a5, a6, a7⟩ | ⟨s1, a1, a2, a3, a4⟩ <;>
      rw [a2] <;> rw [a1] at hr <;> subst hr <;> simp only
    · rw [hw]
    · rw [hq hg.2 (s1.restore s) h1 a3 a4, hw]; rfl
  | star p hp =>
    intro s h1 h2 h3
    simp only [Gr.wf, Bool.and_eq_true] at hg
    simp only [Gr.runRun, Gr.work]
    rw [loopRun_work rs hrs p hg.1 hg.2 (hp hg.1) _ ((rs.drop s.position).length + 1) s h1 h2 h3
      (by rw [List.length_append]; omega) (by rw [List.length_drop]; omega)]
  | opt p hp =>
    intro s h1 h2 h3
    have hw := hp hg s h1 h2 h3
    have hr := C127_peg_result (rs ++ [endSymbol]) p s
    simp only [Gr.runRun, Gr.work]
    rcases hx : p.runRun (rs ++ [endSymbol]) s with ⟨r, k⟩
    rw [hx] at hw hr
    simp only at hw hr
    rcases ran_rest rs hrs p hg s h1 h2 h3 with ⟨s1, a1, a2, a3, a4, a5, a6, a7⟩ | ⟨s1, a1, a2, a3, a4⟩ <;>
      rw [a1] at hr <;> subst hr <;> simp only <;> rw [hw]
  | notP p hp =>
    intro s h1 h2 h3
    have hw := hp hg s h1 h2 h3
    have hr := C127_peg_result (rs ++ [endSymbol]) p s
    simp only [Gr.runRun, Gr.work]
    rcases hx : p.runRun (rs ++ [endSymbol]) s with ⟨r, k⟩
    rw [hx] at hw hr
    simp only at hw hr
    rcases ran_rest rs hrs p hg s h1 h2 h3 with ⟨s1, a1, a2, a3, a4, a5, a6, a7⟩ | ⟨s1, a1, a2, a3, a4⟩ <;>
      rw [a1] at hr <;> subst hr <;> simp only <;> rw [hw]
  | capture p hp =>
    intro s h1 h2 h3
    have hw := hp hg s h1 h2 h3
    have hr := C127_peg_result (rs ++ [endSymbol]) p s
    simp only [Gr.runRun, Gr.work]
    rcases hx : p.runRun (rs ++ [endSymbol]) s with ⟨r, k⟩
    rw [hx] at hw hr
    simp only at hw hr
    rcases ran_rest rs hrs p hg s h1 h2 h3 with ⟨s1, a1, a2, a3, a4, a5, a6, a7⟩ | ⟨s1, a1, a2, a3, a4⟩ <;>
      rw [a2] <;> rw [a1] at hr <;> subst hr <;> simp only
    · cases s1.add .pegText s.position <;> simp only <;> rw [hw]
    · rw [hw]
  | rule name p hp =>
    intro s h1 h2 h3
    have hw := hp hg s h1 h2 h3
    have hr := C127_peg_result (rs ++ [endSymbol]) p s
    simp only [Gr.runRun, Gr.work]
    rcases hx : p.runRun (rs ++ [endSymbol]) s with ⟨r, k⟩
    rw [hx] at hw hr
    simp only at hw hr
    rcases ran_rest rs hrs p hg s h1 h2 h3 with ⟨s1, a1, a2, a3, a4, a5, a6, a7⟩ | ⟨s1, a1, a2, a3, a4⟩ <;>
      rw [a2] <;> rw [a1] at hr <;> subst hr <;> simp only
    · cases s1.add (.named name) s.position <;> simp only <;> rw [hw]
    · rw [hw]

/-! ## Bounds that follow from the shape of a rule -/

namespace Gr

/-- The constant of the bounds below. -/
def coef : Gr → Nat
  | cls _ => 1
  | dot => 1
  | seq p q => 1 + p.coef + q.coef
  | alt p q => 1 + p.coef + q.coef
  | opt p => 1 + p.coef
  | star p => 2 * p.coef + 2
  | notP p => 1 + p.coef
  | capture p => 2 + p.coef
  | rule _ p => 2 + p.coef
  | act _ => 1

/-- No repetition: a constant number of steps. -/
def starFree : Gr → Bool
  | cls _ => true
  | dot => true
  | seq p q => p.starFree && q.starFree
  | alt p q => p.starFree && q.starFree
  | opt p => p.starFree
  | star _ => false
  | notP p => p.starFree
  | capture p => p.starFree
  | rule _ p => p.starFree
  | act _ => true

/-- A rule that cannot fail. -/
def total : Gr → Bool
  | seq p q => p.total && q.total
  | opt _ => true
  | star _ => true
  | capture p => p.total
  | rule _ p => p.total
  | act _ => true
  | _ => false

/-- A rule whose steps are paid for by the runes it takes: failing takes a constant number of steps. -/
def paid : Gr → Bool
  | cls _ => true
  | dot => true
  | seq p q => (p.starFree && q.starFree) || (p.paid && q.paid && q.total)
  | alt p q => p.starFree && q.starFree
  | opt p => p.paid
  | star p => p.paid && p.takes
  | notP p => p.starFree
  | capture p => p.paid
  | rule _ p => p.paid
  | act _ => true

/-- A rule that succeeds at a newline. -/
def atNewline : Gr → Bool
  | cls f => f 10
  | alt p _ => p.atNewline
  | rule _ p => p.atNewline
  | _ => false

def isDot : Gr → Bool
  | dot => true
  | _ => false

/-- A look-ahead that fails at a newline. -/
def guards : Gr → Bool
  | notP p => p.atNewline
  | _ => false

/-- A rule that does not take a newline. -/
def inline : Gr → Bool
  | cls f => !f 10
  | dot => false
  | seq p q => (p.inline && q.inline) || (p.guards && q.isDot)
  | alt p q => p.inline && q.inline
  | opt p => p.inline
  | star p => p.inline
  | notP _ => true
  | capture p => p.inline
  | rule _ p => p.inline
  | act _ => true

/-- Linear in the length of the line. -/
def lin : Gr → Bool
  | cls _ => true
  | dot => true
  | seq p q => p.lin && p.inline && q.lin
  | alt p q => p.lin && q.lin
  | opt p => p.lin
  | star p => p.paid && p.takes && p.inline
  | notP p => p.lin
  | capture p => p.lin
  | rule _ p => p.lin
  | act _ => true

/-- Linear in the length of the text. -/
def linText : Gr → Bool
  | cls _ => true
  | dot => true
  | seq p q => p.linText && q.linText
  | alt p q => p.linText && q.linText
  | opt p => p.linText
  | star p => p.paid && p.takes
  | notP p => p.linText
  | capture p => p.linText
  | rule _ p => p.linText
  | act _ => true

end Gr

/-- The length of the first line, without its newline. -/
def lineLen : List Nat → Nat
  | [] => 0
  | c :: rs => if c = 10 then 0 else lineLen rs + 1

theorem lineLen_le : ∀ rs, lineLen rs ≤ rs.length
  | [] => Nat.le_refl _
  | c :: rs => by
    have := lineLen_le rs
    simp only [lineLen, List.length_cons]
    split <;> omega

theorem lineLen_drop : ∀ (k : Nat) (rs : List Nat), k ≤ lineLen rs → lineLen (rs.drop k) = lineLen rs - k
  | 0, rs, _ => rfl
  | k + 1, [], h => by simp [lineLen] at h
  | k + 1, c :: rs, h => by
    simp only [lineLen] at h ⊢
    split at h
    · omega
    · next hc =>
      rw [if_neg hc, List.drop_succ_cons, lineLen_drop k rs (by omega)]; omega

theorem rest_moves (g : Gr) (rs rs1 : List Nat) (h : g.rest rs = some rs1) :
    ∃ k, k ≤ rs.length ∧ rs1 = rs.drop k ∧ (g.takes = true → 1 ≤ k) := by
  have h1 := rest_derive g 0 rs
  rw [h] at h1
  cases hd : g.derive 0 rs with
  | none => rw [hd] at h1; cases h1
  | some x =>
    rw [hd] at h1
    simp only [Option.map_some, Option.some.injEq] at h1
    obtain ⟨-, b2, b3, -, b5⟩ := derive_moves g rs 0 x (Nat.zero_le _) hd
    exact ⟨x.1, b2, by rw [← h1, b3], fun ht => b5 ht⟩

theorem rest_length (g : Gr) (rs rs1 : List Nat) (h : g.rest rs = some rs1) :
    rs1.length ≤ rs.length ∧ (g.takes = true → rs1.length < rs.length) := by
  obtain ⟨k, h1, h2, h3⟩ := rest_moves g rs rs1 h
  rw [h2, List.length_drop]
  refine ⟨Nat.sub_le _ _, fun ht => ?_⟩
  have := h3 ht
  omega

theorem total_rest (g : Gr) (h : g.total = true) : ∀ rs, g.rest rs ≠ none := by
  induction g with
  | cls f => cases h
  | dot => cases h
  | alt p q _ _ => cases h
  | notP p _ => cases h
  | seq p q hp hq =>
    intro rs
    simp only [Gr.total, Bool.and_eq_true] at h
    simp only [Gr.rest]
    cases hr : p.rest rs with
    | none => exact absurd hr (hp h.1 rs)
    | some rs1 => exact hq h.2 rs1
  | opt p _ => intro rs; simp [Gr.rest]
  | star p _ => intro rs; simp [Gr.rest]
  | capture p hp => exact hp h
  | rule n p hp => exact hp h
  | act n => intro rs; simp [Gr.rest]

theorem starFree_work (g : Gr) (h : g.starFree = true) : ∀ rs, g.work rs ≤ g.coef := by
  induction g with
  | cls f => intro rs; exact Nat.le_refl _
  | dot => intro rs; exact Nat.le_refl _
  | act n => intro rs; exact Nat.le_refl _
  | star p _ => cases h
  | seq p q hp hq =>
    intro rs
    simp only [Gr.starFree, Bool.and_eq_true] at h
    have h1 := hp h.1 rs
    simp only [Gr.work, Gr.coef]
    split
    · omega
    · next rs1 _ => have h2 := hq h.2 rs1; omega
  | alt p q hp hq =>
    intro rs
    simp only [Gr.starFree, Bool.and_eq_true] at h
    have h1 := hp h.1 rs
    have h2 := hq h.2 rs
    simp only [Gr.work, Gr.coef]
    split <;> omega
  | opt p hp => intro rs; have := hp h rs; simp only [Gr.work, Gr.coef]; omega
  | notP p hp => intro rs; have := hp h rs; simp only [Gr.work, Gr.coef]; omega
  | capture p hp => intro rs; have := hp h rs; simp only [Gr.work, Gr.coef]; split <;> omega
  | rule n p hp => intro rs; have := hp h rs; simp only [Gr.work, Gr.coef]; split <;> omega

theorem workStar_paid (p : Gr) (a : Nat) (ht : p.takes = true)
    (hp : ∀ rs, (p.rest rs = none → p.work rs ≤ a) ∧ ∀ rs1, p.rest rs = some rs1 → p.work rs ≤ a * (rs.length - rs1.length + 1)) :
    ∀ n rs, (Gr.restStar p.rest n rs).length ≤ rs.length ∧
      Gr.workStar p.rest p.work n rs ≤ (2 * a + 1) * (rs.length - (Gr.restStar p.rest n rs).length) + a + 1 := by
  intro n
  induction n with
  | zero => intro rs; simp [Gr.restStar, Gr.workStar]
  | succ n ih =>
    intro rs
    obtain ⟨h1, h2⟩ := hp rs
    simp only [Gr.restStar, Gr.workStar]
    cases hr : p.rest rs with
    | none => have := h1 hr; simp only; omega
    | some rs1 =>
      have h3 := h2 rs1 hr
      obtain ⟨h4, h5⟩ := ih rs1
      have h6 := (rest_length p rs rs1 hr).2 ht
      simp only
      generalize (Gr.restStar p.rest n rs1).length = z at *
      generalize Gr.workStar p.rest p.work n rs1 = w at *
      refine ⟨by omega, ?_⟩
      obtain ⟨c1, hc1⟩ : ∃ c1, rs.length - rs1.length = c1 + 1 := ⟨rs.length - rs1.length - 1, by omega⟩
      have hc2 : rs.length - z = c1 + 1 + (rs1.length - z) := by omega
      rw [hc2]
      rw [hc1] at h3
      generalize rs1.length - z = c2 at *
      have e1 : a * (c1 + 1 + 1) = a * c1 + 2 * a := by rw [Nat.mul_add, Nat.mul_add]; omega
      have e2 : (2 * a + 1) * (c1 + 1 + c2) = 2 * (a * c1) + c1 + 2 * a + 1 + (2 * a + 1) * c2 := by
        rw [Nat.mul_add, Nat.mul_add, Nat.add_mul, Nat.mul_assoc]; omega
      omega

/-- What the steps of a rule that is paid for come to. -/
theorem paid_work (g : Gr) (h : g.paid = true) : ∀ rs, (g.rest rs = none → g.work rs ≤ g.coef) ∧
    ∀ rs1, g.rest rs = some rs1 → g.work rs ≤ g.coef * (rs.length - rs1.length + 1) := by
  have free : ∀ q : Gr, q.starFree = true → ∀ rs, (q.rest rs = none → q.work rs ≤ q.coef) ∧
      ∀ rs1, q.rest rs = some rs1 → q.work rs ≤ q.coef * (rs.length - rs1.length + 1) := by
    intro q hq rs
    have := starFree_work q hq rs
    refine ⟨fun _ => this, fun rs1 _ => ?_⟩
    rw [Nat.mul_add]; omega
  induction g with
  | cls f => exact free _ rfl
  | dot => exact free _ rfl
  | act n => exact free _ rfl
  | alt p q _ _ => exact free (.alt p q) h
  | notP p _ => exact free (.notP p) h
  | seq p q hp hq =>
    simp only [Gr.paid, Bool.or_eq_true] at h
    rcases h with h | h
    · exact free (.seq p q) h
    · simp only [Bool.and_eq_true] at h
      intro rs
      obtain ⟨h1, h2⟩ := hp h.1.1 rs
      simp only [Gr.rest, Gr.work, Gr.coef]
      cases hr : p.rest rs with
      | none =>
        have := h1 hr
        exact ⟨fun _ => by simp only; omega, fun rs1 h => by cases h⟩
      | some rs1 =>
        refine ⟨fun hn => absurd hn (total_rest q h.2 rs1), fun rs2 hs => ?_⟩
        simp only at hs ⊢
        have h3 := h2 rs1 hr
        have h4 := (hq h.1.2 rs1).2 rs2 hs
        have h5 := (rest_length p rs rs1 hr).1
        have h6 := (rest_length q rs1 rs2 hs).1
        have h7 : p.coef * (rs.length - rs1.length + 1) ≤ p.coef * (rs.length - rs2.length + 1) :=
          Nat.mul_le_mul_left _ (by omega)
        have h8 : q.coef * (rs1.length - rs2.length + 1) ≤ q.coef * (rs.length - rs2.length + 1) :=
          Nat.mul_le_mul_left _ (by omega)
        rw [Nat.add_mul, Nat.add_mul]
        omega
  | opt p hp =>
    intro rs
    obtain ⟨h1, h2⟩ := hp h rs
    refine ⟨fun hn => by simp [Gr.rest] at hn, fun rs1 hs => ?_⟩
    simp only [Gr.rest, Option.some.injEq] at hs
    simp only [Gr.work, Gr.coef]
    cases hr : p.rest rs with
    | none =>
      have := h1 hr
      rw [Nat.mul_add]; omega
    | some r =>
      rw [hr] at hs
      simp only [Option.getD_some] at hs
      subst hs
      have := h2 r hr
      rw [Nat.add_mul]; omega
  | star p hp =>
    simp only [Gr.paid, Bool.and_eq_true] at h
    intro rs
    refine ⟨fun hn => by simp [Gr.rest] at hn, fun rs1 hs => ?_⟩
    simp only [Gr.rest, Option.some.injEq] at hs
    obtain ⟨h3, h4⟩ := workStar_paid p p.coef h.2 (hp h.1) (rs.length + 1) rs
    rw [hs] at h3 h4
    simp only [Gr.work, Gr.coef]
    generalize rs.length - rs1.length = c at *
    have e1 : (2 * p.coef + 2) * (c + 1) = (2 * p.coef + 1) * c + c + 2 * p.coef + 2 := by
      rw [Nat.mul_add, show 2 * p.coef + 2 = 2 * p.coef + 1 + 1 from rfl, Nat.add_mul (2 * p.coef + 1) 1]; omega
    omega
  | capture p hp =>
    intro rs
    obtain ⟨h1, h2⟩ := hp h rs
    simp only [Gr.rest, Gr.work, Gr.coef]
    cases hr : p.rest rs with
    | none => have := h1 hr; exact ⟨fun _ => by simp only; omega, fun rs1 h => by cases h⟩
    | some r =>
      refine ⟨fun hn => (by cases hn), fun rs1 hs => ?_⟩
      cases hs
      have := h2 r hr
      simp only
      rw [Nat.add_mul]; omega
  | rule n p hp =>
    intro rs
    obtain ⟨h1, h2⟩ := hp h rs
    simp only [Gr.rest, Gr.work, Gr.coef]
    cases hr : p.rest rs with
    | none => have := h1 hr; exact ⟨fun _ => by simp only; omega, fun rs1 h => by cases h⟩
    | some r =>
      refine ⟨fun hn => (by cases hn), fun rs1 hs => ?_⟩
      cases hs
      have := h2 r hr
      simp only
      rw [Nat.add_mul]; omega

theorem atNewline_rest (g : Gr) (h : g.atNewline = true) (rs : List Nat) : g.rest (10 :: rs) ≠ none := by
  induction g with
  | cls f => simp only [Gr.atNewline] at h; simp [Gr.rest, h]
  | alt p q hp _ =>
    simp only [Gr.rest]
    cases hr : p.rest (10 :: rs) with
    | none => exact absurd hr (hp h)
    | some r => simp
  | rule n p hp => exact hp h
  | _ => cases h

/-- A rule that does not take a newline stays in the line. -/
theorem inline_rest (g : Gr) (h : g.inline = true) : ∀ rs rs1, g.rest rs = some rs1 → ∃ k, k ≤ lineLen rs ∧ rs1 = rs.drop k := by
  induction g with
  | cls f =>
    intro rs rs1 hr
    simp only [Gr.inline, Bool.not_eq_true'] at h
    cases rs with
    | nil => cases hr
    | cons c rs =>
      simp only [Gr.rest] at hr
      split at hr
      · next hc =>
        cases hr
        have : c ≠ 10 := by intro hc'; subst hc'; rw [h] at hc; cases hc
        exact ⟨1, by simp [lineLen, this], rfl⟩
      · cases hr
  | dot => cases h
  | seq p q hp hq =>
    intro rs rs2 hr
    simp only [Gr.inline, Bool.or_eq_true, Bool.and_eq_true] at h
    simp only [Gr.rest] at hr
    cases hr1 : p.rest rs with
    | none => rw [hr1] at hr; cases hr
    | some rs1 =>
      rw [hr1] at hr
      simp only at hr
      rcases h with h | h
      · obtain ⟨k, h1, rfl⟩ := hp h.1 rs rs1 hr1
        obtain ⟨j, h2, rfl⟩ := hq h.2 _ rs2 hr
        rw [lineLen_drop k rs h1] at h2
        exact ⟨k + j, by omega, by rw [List.drop_drop]⟩
      · cases p with
        | notP p' =>
          cases q with
          | dot =>
            simp only [Gr.rest] at hr1
            cases hr2 : p'.rest rs with
            | some _ => rw [hr2] at hr1; cases hr1
            | none =>
              rw [hr2] at hr1
              cases hr1
              cases rs with
              | nil => cases hr
              | cons c rs =>
                cases hr
                have : c ≠ 10 := by intro hc; subst hc; exact atNewline_rest p' h.1 _ hr2
                exact ⟨1, by simp [lineLen, this], rfl⟩
          | _ => simp [Gr.isDot] at h
        | _ => simp [Gr.guards] at h
  | alt p q hp hq =>
    intro rs rs1 hr
    simp only [Gr.inline, Bool.and_eq_true] at h
    simp only [Gr.rest] at hr
    cases hr1 : p.rest rs with
    | none => rw [hr1] at hr; exact hq h.2 rs rs1 hr
    | some r => rw [hr1] at hr; cases hr; exact hp h.1 rs _ hr1
  | opt p hp =>
    intro rs rs1 hr
    simp only [Gr.rest, Option.some.injEq] at hr
    cases hr1 : p.rest rs with
    | none => rw [hr1] at hr; exact ⟨0, Nat.zero_le _, hr.symm⟩
    | some r => rw [hr1] at hr; cases hr; exact hp h rs _ hr1
  | star p hp =>
    intro rs rs1 hr
    simp only [Gr.rest, Option.some.injEq] at hr
    subst hr
    generalize rs.length + 1 = n
    induction n generalizing rs with
    | zero => exact ⟨0, Nat.zero_le _, rfl⟩
    | succ n ih =>
      simp only [Gr.restStar]
      cases hr1 : p.rest rs with
      | none => exact ⟨0, Nat.zero_le _, rfl⟩
      | some r =>
        obtain ⟨k, h1, rfl⟩ := hp h rs r hr1
        obtain ⟨j, h2, h3⟩ := ih (rs.drop k)
        rw [lineLen_drop k rs h1] at h2
        exact ⟨k + j, by omega, by simp only; rw [h3, List.drop_drop]⟩
  | notP p _ =>
    intro rs rs1 hr
    simp only [Gr.rest] at hr
    cases hr1 : p.rest rs with
    | some _ => rw [hr1] at hr; cases hr
    | none => rw [hr1] at hr; cases hr; exact ⟨0, Nat.zero_le _, rfl⟩
  | capture p hp => exact hp h
  | rule n p hp => exact hp h
  | act n => intro rs rs1 hr; cases hr; exact ⟨0, Nat.zero_le _, rfl⟩

/-- The steps of a rule are linear in the length of the line. -/
theorem lin_work (g : Gr) (h : g.lin = true) : ∀ rs, g.work rs ≤ g.coef * (lineLen rs + 1) := by
  induction g with
  | cls f => intro rs; simp [Gr.work, Gr.coef]
  | dot => intro rs; simp [Gr.work, Gr.coef]
  | act n => intro rs; simp [Gr.work, Gr.coef]
  | star p _ =>
    intro rs
    simp only [Gr.lin, Bool.and_eq_true] at h
    have h1 := (paid_work (.star p) (by simp [Gr.paid, h.1]) rs).2 _ rfl
    obtain ⟨k, h2, h3⟩ := inline_rest (.star p) h.2 rs _ rfl
    refine Nat.le_trans h1 (Nat.mul_le_mul_left _ ?_)
    rw [h3, List.length_drop]
    omega
  | seq p q hp hq =>
    intro rs
    simp only [Gr.lin, Bool.and_eq_true] at h
    have h1 := hp h.1.1 rs
    simp only [Gr.work, Gr.coef]
    rw [Nat.add_mul, Nat.add_mul]
    cases hr : p.rest rs with
    | none => simp only; omega
    | some rs1 =>
      obtain ⟨k, h2, h3⟩ := inline_rest p h.1.2 rs rs1 hr
      have h4 := hq h.2 rs1
      have h5 : q.coef * (lineLen rs1 + 1) ≤ q.coef * (lineLen rs + 1) := by
        refine Nat.mul_le_mul_left _ ?_
        rw [h3, lineLen_drop k rs h2]; omega
      simp only; omega
  | alt p q hp hq =>
    intro rs
    simp only [Gr.lin, Bool.and_eq_true] at h
    have h1 := hp h.1 rs
    have h2 := hq h.2 rs
    simp only [Gr.work, Gr.coef]
    rw [Nat.add_mul, Nat.add_mul]
    split <;> omega
  | opt p hp => intro rs; have := hp h rs; simp only [Gr.work, Gr.coef]; rw [Nat.add_mul]; omega
  | notP p hp => intro rs; have := hp h rs; simp only [Gr.work, Gr.coef]; rw [Nat.add_mul]; omega
  | capture p hp => intro rs; have := hp h rs; simp only [Gr.work, Gr.coef]; rw [Nat.add_mul]; split <;> omega
  | rule n p hp => intro rs; have := hp h rs; simp only [Gr.work, Gr.coef]; rw [Nat.add_mul]; split <;> omega

/-- The steps of a rule are linear in the length of the text. -/
theorem linText_work (g : Gr) (h : g.linText = true) : ∀ rs, g.work rs ≤ g.coef * (rs.length + 1) := by
  induction g with
  | cls f => intro rs; simp [Gr.work, Gr.coef]
  | dot => intro rs; simp [Gr.work, Gr.coef]
  | act n => intro rs; simp [Gr.work, Gr.coef]
  | star p _ =>
    intro rs
    have h1 := (paid_work (.star p) h rs).2 _ rfl
    exact Nat.le_trans h1 (Nat.mul_le_mul_left _ (by omega))
  | seq p q hp hq =>
    intro rs
    simp only [Gr.linText, Bool.and_eq_true] at h
    have h1 := hp h.1 rs
    simp only [Gr.work, Gr.coef]
    rw [Nat.add_mul, Nat.add_mul]
    cases hr : p.rest rs with
    | none => simp only; omega
    | some rs1 =>
      have h4 := hq h.2 rs1
      have h5 : q.coef * (rs1.length + 1) ≤ q.coef * (rs.length + 1) :=
        Nat.mul_le_mul_left _ (by have := (rest_length p rs rs1 hr).1; omega)
      simp only; omega
  | alt p q hp hq =>
    intro rs
    simp only [Gr.linText, Bool.and_eq_true] at h
    have h1 := hp h.1 rs
    have h2 := hq h.2 rs
    simp only [Gr.work, Gr.coef]
    rw [Nat.add_mul, Nat.add_mul]
    split <;> omega
  | opt p hp => intro rs; have := hp h rs; simp only [Gr.work, Gr.coef]; rw [Nat.add_mul]; omega
  | notP p hp => intro rs; have := hp h rs; simp only [Gr.work, Gr.coef]; rw [Nat.add_mul]; omega
  | capture p hp => intro rs; have := hp h rs; simp only [Gr.work, Gr.coef]; rw [Nat.add_mul]; split <;> omega
  | rule n p hp => intro rs; have := hp h rs; simp only [Gr.work, Gr.coef]; rw [Nat.add_mul]; split <;> omega

example : Gr.e.linText = true ∧ Gr.range.lin = true ∧ Gr.range.inline = true ∧ Gr.text.linText = true := by decide +kernel

/-! ## The commands -/

/-- Only the texts of `a`, `i` and `c` go beyond the line. -/
theorem line_commands : (Gr.bareCmd.lin && Gr.bareCmd.inline && Gr.paramCmd.lin && Gr.paramCmd.inline && Gr.rangeCmd.lin && Gr.rangeCmd.inline &&
    Gr.addrCmd.lin && Gr.addrCmd.inline && Gr.markCmd.lin && Gr.markCmd.inline && Gr.destCmd.lin && Gr.destCmd.inline && Gr.readCmd.lin &&
    Gr.readCmd.inline && Gr.writeCmd.lin && Gr.writeCmd.inline && Gr.shellCmd.lin && Gr.shellCmd.inline && Gr.nullCmd.lin &&
    Gr.nullCmd.inline && Gr.range.lin && Gr.range.inline && Gr.startAddr.lin && Gr.startAddr.inline) = true := by decide +kernel

/-- What a text is charged for: what is taken, what is left of the line then, and one. -/
def charge (rs rs1 : List Nat) : Nat := rs.length - rs1.length + lineLen rs1 + 1

theorem charge_line (rs : List Nat) (k : Nat) (h : k ≤ lineLen rs) : charge rs (rs.drop k) = lineLen rs + 1 := by
  have := lineLen_le rs
  simp only [charge]
  rw [lineLen_drop k rs h, List.length_drop]; omega

theorem charge_ge (g : Gr) (rs rs1 : List Nat) (h : g.rest rs = some rs1) : lineLen rs + 1 ≤ charge rs rs1 := by
  obtain ⟨k, h1, rfl, -⟩ := rest_moves g rs rs1 h
  rcases Nat.le_total k (lineLen rs) with h2 | h2
  · exact Nat.le_of_eq (charge_line rs k h2).symm
  · simp only [charge]; rw [List.length_drop]; omega

/-- What follows a command up to the end of its line. -/
def lineEnd : Gr := .seq (.star .sp) .newLine

/-- If the rule succeeds and the command can end there, the steps are paid for by what is taken. -/
def Pays (c : Nat) (g : Gr) (rs : List Nat) : Prop :=
  ∀ rs1, g.rest rs = some rs1 → lineEnd.rest rs1 ≠ none → g.work rs ≤ c * charge rs rs1

theorem pays_line (g : Gr) (rs : List Nat) (h1 : g.lin = true) (h2 : g.inline = true) : Pays g.coef g rs := by
  intro rs1 hr _
  obtain ⟨k, h3, rfl⟩ := inline_rest g h2 rs rs1 hr
  rw [charge_line rs k h3]
  exact lin_work g h1 rs

theorem pays_alt (p q : Gr) (c : Nat) (rs : List Nat) (h1 : p.lin = true) (h2 : p.inline = true) (h3 : Pays c q rs) :
    Pays (1 + p.coef + c) (.alt p q) rs := by
  intro rs1 hr hl
  have h4 := lin_work p h1 rs
  have h5 := charge_ge _ rs rs1 hr
  have h6 : p.coef * (lineLen rs + 1) ≤ p.coef * charge rs rs1 := Nat.mul_le_mul_left _ h5
  simp only [Gr.rest] at hr
  simp only [Gr.work]
  rw [Nat.add_mul, Nat.add_mul]
  cases hp : p.rest rs with
  | some r => simp only; omega
  | none =>
    rw [hp] at hr
    simp only at hr ⊢
    have := h3 rs1 hr hl
    omega

/-- The end of a line of which nothing is left. -/
theorem lineEnd_head (c : Nat) (rs : List Nat) (h1 : c ≠ 10) (h2 : c ≠ 32) (h3 : c ≠ 9) : lineEnd.rest (c :: rs) = none := by
  simp [lineEnd, Gr.rest, Gr.restStar, Gr.sp, Gr.plus, Gr.newLine, Gr.chr, h1, h2, h3]

/-- A command with a text: what it does before the text, and what the text does. -/
theorem textCmd_work (n : Bytes) (p q t : Gr) (rs : List Nat) (hp1 : p.lin = true) (hp2 : p.inline = true) (hq1 : q.lin = true)
    (hq2 : q.inline = true) (g : Gr) (hg : g = .rule n (.seq p (.seq q (.seq .newLine t)))) :
    (g.rest rs = none ∧ g.work rs ≤ (p.coef + q.coef + 8) * (lineLen rs + 1)) ∨
    ∃ r1 r, p.rest rs = some r1 ∧ q.rest r1 = some (10 :: r) ∧ r = rs.drop (lineLen rs + 1) ∧ lineLen rs + 1 ≤ rs.length ∧
      g.rest rs = t.rest r ∧ g.work rs ≤ (p.coef + q.coef + 8) * (lineLen rs + 1) + t.work r := by
  subst hg
  have h1 := lin_work p hp1 rs
  simp only [Gr.rest, Gr.work]
  rw [Nat.add_mul, Nat.add_mul]
  cases hr1 : p.rest rs with
  | none => exact .inl ⟨rfl, by simp only; omega⟩
  | some r1 =>
    obtain ⟨k, a1, a2⟩ := inline_rest p hp2 rs r1 hr1
    have h2 := lin_work q hq1 r1
    have h2' : q.coef * (lineLen r1 + 1) ≤ q.coef * (lineLen rs + 1) := by
      refine Nat.mul_le_mul_left _ ?_
      rw [a2, lineLen_drop k rs a1]; omega
    simp only
    cases hr2 : q.rest r1 with
    | none => exact .inl ⟨rfl, by simp only; omega⟩
    | some r2 =>
      obtain ⟨j, b1, b2⟩ := inline_rest q hq2 r1 r2 hr2
      simp only
      have h3 : ∀ x, Gr.newLine.work x ≤ 3 := by intro x; simp only [Gr.newLine, Gr.work, Gr.chr]; split <;> omega
      have h3 := h3 r2
      cases hr3 : Gr.newLine.rest r2 with
      | none => exact .inl ⟨rfl, by simp only; omega⟩
      | some r3 =>
        have hr2' : r2 = 10 :: r3 := by
          cases r2 with
          | nil => cases hr3
          | cons c r =>
            simp only [Gr.newLine, Gr.rest, Gr.chr] at hr3
            split at hr3
            · next hc => cases hr3; simp at hc; rw [hc]
            · cases hr3
        subst hr2'
        simp only
        have e1 : lineLen rs = k + j := by
          have : lineLen (rs.drop (k + j)) = 0 := by rw [← List.drop_drop, ← a2, ← b2]; rfl
          rw [a2, lineLen_drop k rs a1] at b1
          rw [lineLen_drop (k + j) rs (by omega)] at this
          omega
        have e2 : rs.drop (k + j) = 10 :: r3 := by rw [← List.drop_drop, ← a2, ← b2]
        have e3 : rs.drop (lineLen rs + 1) = r3 := by rw [e1, ← List.drop_drop, e2]; rfl
        have e4 : lineLen rs + 1 ≤ rs.length := by
          have := congrArg List.length e2
          simp only [List.length_drop, List.length_cons] at this
          omega
        refine .inr ⟨r1, r3, rfl, hr2, e3.symm, e4, rfl, ?_⟩
        cases t.rest r3 <;> simp only <;> omega

/-- The steps of a text: paid for if its end is found. -/
theorem text_work (rs rs1 : List Nat) (h : Gr.text.rest rs = some rs1) :
    Gr.text.work rs ≤ Gr.text.coef * (rs.length - rs1.length + 1) := by
  generalize hc : Gr.capture (.star (.seq (.notP .textTerm) .dot)) = c
  have hd : Gr.text = .rule b!"text" (.seq c (.seq .textTerm (.act 8))) := by rw [← hc]; rfl
  have hp : c.paid = true := by rw [← hc]; decide +kernel
  rw [hd] at h ⊢
  simp only [Gr.rest, Gr.work, Gr.coef] at h ⊢
  cases hr : c.rest rs with
  | none => rw [hr] at h; cases h
  | some r =>
    rw [hr] at h
    simp only at h ⊢
    have h1 := (paid_work c hp rs).2 r hr
    have h2 := starFree_work .textTerm (by decide +kernel) r
    have h5 := (rest_length _ _ _ hr).1
    cases hr2 : Gr.textTerm.rest r with
    | none => rw [hr2] at h; cases h
    | some r2 =>
      rw [hr2] at h
      cases h
      have h6 := (rest_length _ _ _ hr2).1
      have h7 : c.coef * (rs.length - r.length + 1) ≤ c.coef * (rs.length - rs1.length + 1) :=
        Nat.mul_le_mul_left _ (by omega)
      have e1 : (2 + (1 + c.coef + (1 + Gr.textTerm.coef + 1))) * (rs.length - rs1.length + 1) =
          c.coef * (rs.length - rs1.length + 1) + (Gr.textTerm.coef + 5) * (rs.length - rs1.length + 1) := by
        rw [← Nat.add_mul]; congr 1; omega
      have e2 : Gr.textTerm.coef + 5 ≤ (Gr.textTerm.coef + 5) * (rs.length - rs1.length + 1) := by rw [Nat.mul_add]; omega
      simp only
      omega

/-- A choice whose first command has a text. If the text has no end, the others must not take the line. -/
theorem pays_text (n : Bytes) (p q g : Gr) (alts : Gr) (c : Nat) (rs : List Nat) (hp1 : p.lin = true) (hp2 : p.inline = true)
    (hq1 : q.lin = true) (hq2 : q.inline = true) (hg : g = .rule n (.seq p (.seq q (.seq .newLine .text)))) (h3 : Pays c alts rs)
    (h4 : ∀ r1 r, p.rest rs = some r1 → q.rest r1 = some (10 :: r) → ∀ rs1, alts.rest rs = some rs1 → lineEnd.rest rs1 = none) :
    Pays (p.coef + q.coef + 9 + Gr.text.coef + c) (.alt g alts) rs := by
  intro rs1 hr hl
  have h5 := charge_ge _ rs rs1 hr
  simp only [Gr.rest] at hr
  simp only [Gr.work]
  generalize hm : p.coef + q.coef + 8 = m
  have e0 : p.coef + q.coef + 9 + Gr.text.coef + c = 1 + m + Gr.text.coef + c := by omega
  rw [e0]
  have h6 : m * (lineLen rs + 1) ≤ m * charge rs rs1 := Nat.mul_le_mul_left _ h5
  rw [Nat.add_mul, Nat.add_mul, Nat.add_mul]
  rcases textCmd_work n p q .text rs hp1 hp2 hq1 hq2 g hg with ⟨a1, a2⟩ | ⟨r1, r, a1, a2, a3, a4, a5, a6⟩
  · rw [hm] at a2
    rw [a1] at hr ⊢
    simp only at hr ⊢
    have := h3 rs1 hr hl
    omega
  · rw [hm] at a6
    rw [a5] at hr ⊢
    cases ht : Gr.text.rest r with
    | none =>
      rw [ht] at hr
      simp only at hr
      exact absurd (h4 r1 r a1 a2 rs1 hr) hl
    | some r2 =>
      rw [ht] at hr
      cases hr
      have b1 := text_work r rs1 ht
      have b2 := (rest_length _ _ _ ht).1
      have b3 : Gr.text.coef * (r.length - rs1.length + 1) ≤ Gr.text.coef * charge rs rs1 := by
        refine Nat.mul_le_mul_left _ ?_
        have : r.length ≤ rs.length := by rw [a3, List.length_drop]; omega
        simp only [charge]; omega
      simp only
      omega

/-! ## An address or range before a command -/

/-- What an address leaves, if there is one. -/
def afterAddr (rs : List Nat) : List Nat := (Gr.startAddr.rest rs).getD rs

/-- What a range leaves, if there is one. -/
def afterRange (rs : List Nat) : List Nat := (Gr.range.rest rs).getD rs

theorem startAddr_44 (t : List Nat) : Gr.startAddr.rest (44 :: t) = none := rfl
theorem startAddr_59 (t : List Nat) : Gr.startAddr.rest (59 :: t) = none := rfl
theorem startAddr_33 (t : List Nat) : Gr.startAddr.rest (33 :: t) = none := rfl

theorem chr_seq (c : Nat) (q : Gr) (rs : List Nat) (h : rs.head? ≠ some c) : (Gr.seq (.chr c) q).rest rs = none := by
  cases rs with
  | nil => rfl
  | cons d t =>
    have : d ≠ c := by intro hd; subst hd; exact h rfl
    simp [Gr.rest, Gr.chr, this]

/-- The range of an address that is not followed by `,` or `;`. -/
theorem range_addr (rs r1 : List Nat) (h : Gr.startAddr.rest rs = some r1) (h1 : r1.head? ≠ some 44) (h2 : r1.head? ≠ some 59) :
    Gr.range.rest rs = some r1 := by
  have h3 : rs.head? ≠ some 44 := by
    cases rs with
    | nil => simp
    | cons d t => intro hd; cases hd; rw [startAddr_44] at h; cases h
  have h4 : rs.head? ≠ some 59 := by
    cases rs with
    | nil => simp
    | cons d t => intro hd; cases hd; rw [startAddr_59] at h; cases h
  have e1 : ∀ q, (Gr.seq .startAddr q).rest rs = q.rest r1 := by intro q; simp only [Gr.rest, h]
  have a1 : ∀ p q, Gr.rest (.alt p q) rs = (p.rest rs).or (q.rest rs) := by
    intro p q; simp only [Gr.rest]; cases p.rest rs <;> rfl
  show Gr.rest (.alt _ (.alt _ (.alt _ (.alt _ (.alt _ (.alt _ (.alt _ (.alt _ _)))))))) rs = _
  simp only [a1]
  rw [e1, chr_seq 44 _ r1 h1, e1, chr_seq 44 _ r1 h1, chr_seq 44 _ rs h3, e1, chr_seq 59 _ r1 h2, e1, chr_seq 59 _ r1 h2,
    chr_seq 59 _ rs h4, e1]
  rfl

/-- No range. -/
theorem range_none (rs : List Nat) (h : Gr.startAddr.rest rs = none) (h3 : rs.head? ≠ some 44) (h4 : rs.head? ≠ some 59) :
    Gr.range.rest rs = none := by
  have e1 : ∀ q, (Gr.seq .startAddr q).rest rs = none := by intro q; simp only [Gr.rest, h]
  have a1 : ∀ p q, Gr.rest (.alt p q) rs = (p.rest rs).or (q.rest rs) := by
    intro p q; simp only [Gr.rest]; cases p.rest rs <;> rfl
  show Gr.rest (.alt _ (.alt _ (.alt _ (.alt _ (.alt _ (.alt _ (.alt _ (.alt _ _)))))))) rs = _
  simp only [a1]
  rw [e1, e1, chr_seq 44 _ rs h3, e1, e1, chr_seq 59 _ rs h4, e1, chr_seq 44 _ rs h3, chr_seq 59 _ rs h4]
  rfl

/-- Address and range leave the same, unless the address is followed by `,` or `;`. -/
theorem afterRange_eq (rs : List Nat) (h1 : (afterAddr rs).head? ≠ some 44) (h2 : (afterAddr rs).head? ≠ some 59) :
    afterRange rs = afterAddr rs := by
  simp only [afterRange, afterAddr] at *
  cases h : Gr.startAddr.rest rs with
  | none => rw [h] at h1 h2; rw [range_none rs h h1 h2]
  | some r1 => rw [h] at h1 h2; rw [range_addr rs r1 h h1 h2]

theorem opt_seq (p q : Gr) (rs : List Nat) : (Gr.seq (.opt p) q).rest rs = q.rest ((p.rest rs).getD rs) := rfl

/-- The commands after `a` and `i` do not take a line whose command is another letter. -/
theorem others_none (rs : List Nat) (c : Nat) (ha : (afterAddr rs).head? = some c) (hc : c ≠ 107 ∧ c ≠ 114 ∧ c ≠ 33)
    (hr : (afterRange rs).head? ≠ some 109 ∧ (afterRange rs).head? ≠ some 116 ∧ (afterRange rs).head? ≠ some 119) :
    Gr.markCmd.rest rs = none ∧ Gr.destCmd.rest rs = none ∧ Gr.readCmd.rest rs = none ∧ Gr.writeCmd.rest rs = none ∧
    Gr.shellCmd.rest rs = none ∧ Gr.nullCmd.rest rs = some (afterAddr rs) := by
  have hh : ∀ d, c ≠ d → (afterAddr rs).head? ≠ some d := by intro d hd h; rw [ha] at h; cases h; exact hd rfl
  have a1 : ∀ p q rs, Gr.rest (.alt p q) rs = (p.rest rs).or (q.rest rs) := by
    intro p q rs; simp only [Gr.rest]; cases p.rest rs <;> rfl
  refine ⟨?_, ?_, ?_, ?_, ?_, rfl⟩
  · show Gr.rest (.seq (.opt .startAddr) (.seq (.chr 107) _)) rs = none
    rw [opt_seq]; exact chr_seq 107 _ _ (hh 107 hc.1)
  · show Gr.rest (.seq (.opt .range) (.seq .destC _)) rs = none
    rw [opt_seq]
    have : Gr.destC.rest (afterRange rs) = none := by
      show Gr.rest (.alt (.seq (.chr 109) _) (.seq (.chr 116) _)) _ = none
      rw [a1, chr_seq 109 _ _ hr.1, chr_seq 116 _ _ hr.2.1]; rfl
    simp only [afterRange] at this
    simp only [Gr.rest, this]
  · show Gr.rest (.seq (.opt .startAddr) (.seq (.chr 114) _)) rs = none
    rw [opt_seq]; exact chr_seq 114 _ _ (hh 114 hc.2.1)
  · show Gr.rest (.alt (.seq (.opt .range) (.seq (.chr 119) _)) (.seq (.opt .range) (.seq (.chr 119) _))) rs = none
    rw [a1, opt_seq, opt_seq]
    have := fun q => chr_seq 119 q (afterRange rs) hr.2.2
    simp only [afterRange] at this
    rw [this, this]; rfl
  · show Gr.rest (.seq (.chr 33) _) rs = none
    refine chr_seq 33 _ rs ?_
    intro h
    cases rs with
    | nil => cases h
    | cons d t =>
      cases h
      simp only [afterAddr, startAddr_33, Option.getD_none] at ha
      cases ha
      exact hc.2.2 rfl

/-- The choice after `c` and after `a` and `i`. -/
def Gr.afterText : Gr := .alt .markCmd (.alt .destCmd (.alt .readCmd (.alt .writeCmd (.alt .shellCmd .nullCmd))))

theorem afterText_rest (rs : List Nat) (c : Nat) (ha : (afterAddr rs).head? = some c) (hc : c ≠ 107 ∧ c ≠ 114 ∧ c ≠ 33)
    (hr : (afterRange rs).head? ≠ some 109 ∧ (afterRange rs).head? ≠ some 116 ∧ (afterRange rs).head? ≠ some 119) :
    Gr.afterText.rest rs = some (afterAddr rs) := by
  obtain ⟨h1, h2, h3, h4, h5, h6⟩ := others_none rs c ha hc hr
  simp only [Gr.afterText, Gr.rest, h1, h2, h3, h4, h5, h6]

theorem lineEnd_addr (rs : List Nat) (c : Nat) (ha : (afterAddr rs).head? = some c) (hc : c ≠ 10 ∧ c ≠ 32 ∧ c ≠ 9) :
    lineEnd.rest (afterAddr rs) = none := by
  cases h : afterAddr rs with
  | nil => rw [h] at ha; cases ha
  | cons d t => rw [h] at ha; cases ha; exact lineEnd_head _ t hc.1 hc.2.1 hc.2.2

theorem chr_rule (r1 r : List Nat) (h : Gr.newLine.rest r1 = some r) : r1 = 10 :: r := by
  cases r1 with
  | nil => cases h
  | cons d t =>
    simp only [Gr.newLine, Gr.rest, Gr.chr] at h
    split at h
    · next hd => cases h; simp at hd; rw [hd]
    · cases h

theorem chr_act (c n : Nat) (name : Bytes) (r1 r : List Nat) (h : (Gr.rule name (.seq (.chr c) (.act n))).rest r1 = some r) :
    r1 = c :: r := by
  cases r1 with
  | nil => cases h
  | cons d t =>
    simp only [Gr.rest, Gr.chr] at h
    split at h
    · cases h
    · next hx =>
      split at hx
      · next hd => cases hx; cases h; simp at hd; rw [hd]
      · cases hx

/-- `a` or `i` without an end of the text: no other command takes the line. -/
theorem add_unended (rs r1 r : List Nat) (h1 : (Gr.opt .startAddr).rest rs = some r1) (h2 : Gr.addTextC.rest r1 = some (10 :: r)) :
    ∀ rs1, Gr.afterText.rest rs = some rs1 → lineEnd.rest rs1 = none := by
  simp only [Gr.rest, Option.some.injEq] at h1
  change afterAddr rs = r1 at h1
  have h3 : r1.head? = some 97 ∨ r1.head? = some 105 := by
    by_cases ha : r1.head? = some 97
    · exact .inl ha
    · by_cases hb : r1.head? = some 105
      · exact .inr hb
      · exfalso
        have : Gr.addTextC.rest r1 = none := by
          show Gr.rest (.alt (.seq (.chr 97) _) (.seq (.chr 105) _)) _ = none
          simp only [Gr.rest.eq_def (.alt _ _), chr_seq 97 _ _ ha, chr_seq 105 _ _ hb]
        rw [this] at h2; cases h2
  rw [← h1] at h3
  intro rs1 hr
  rcases h3 with h3 | h3 <;>
  · have e : afterRange rs = afterAddr rs := afterRange_eq rs (by rw [h3]; decide) (by rw [h3]; decide)
    rw [afterText_rest rs _ h3 (by decide) (by rw [e, h3]; decide)] at hr
    cases hr
    exact lineEnd_addr rs _ h3 (by decide)

/-- `c` without an end of the text: no other command takes the line. -/
theorem change_unended (rs r1 r : List Nat) (h1 : (Gr.opt .range).rest rs = some r1) (h2 : Gr.changeTextC.rest r1 = some (10 :: r)) :
    ∀ rs1, (Gr.alt .addTextCmd .afterText).rest rs = some rs1 → lineEnd.rest rs1 = none := by
  simp only [Gr.rest, Option.some.injEq] at h1
  change afterRange rs = r1 at h1
  have h3 := chr_act 99 37 _ r1 _ h2
  rw [h3] at h1
  obtain ⟨c, hc, hm⟩ : ∃ c, (afterAddr rs).head? = some c ∧ (c = 99 ∨ c = 44 ∨ c = 59) := by
    by_cases ha : (afterAddr rs).head? = some 44
    · exact ⟨44, ha, by decide⟩
    · by_cases hb : (afterAddr rs).head? = some 59
      · exact ⟨59, hb, by decide⟩
      · have := afterRange_eq rs ha hb
        rw [h1] at this
        exact ⟨99, by rw [← this]; rfl, by decide⟩
  intro rs1 hr
  have hadd : Gr.addTextCmd.rest rs = none := by
    show Gr.rest (.seq (.opt .startAddr) (.seq .addTextC _)) rs = none
    rw [opt_seq]
    have : Gr.addTextC.rest (afterAddr rs) = none := by
      show Gr.rest (.alt (.seq (.chr 97) _) (.seq (.chr 105) _)) _ = none
      simp only [Gr.rest.eq_def (.alt _ _)]
      rw [chr_seq 97 _ _ (by rw [hc]; rcases hm with rfl | rfl | rfl <;> decide)]
      simp only
      rw [chr_seq 105 _ _ (by rw [hc]; rcases hm with rfl | rfl | rfl <;> decide)]
    simp only [afterAddr] at this
    simp only [Gr.rest, this]
  have hx : Gr.afterText.rest rs = some rs1 := by
    simp only [Gr.rest.eq_def (.alt _ _), hadd] at hr
    exact hr
  rw [afterText_rest rs c hc (by rcases hm with rfl | rfl | rfl <;> decide) (by rw [h1]; simp)] at hx
  cases hx
  exact lineEnd_addr rs c hc (by rcases hm with rfl | rfl | rfl <;> decide)

/-! ## The whole -/

theorem cmd_def : Gr.cmd = .rule b!"cmd" (.alt .bareCmd (.alt .paramCmd (.alt .rangeCmd (.alt .addrCmd
    (.alt .changeTextCmd (.alt .addTextCmd .afterText)))))) := rfl

/-- A command that is accepted is paid for. -/
theorem cmd_pays (rs : List Nat) : Pays 9700 .cmd rs := by
  have hl := line_commands
  simp only [Bool.and_eq_true] at hl
  obtain ⟨⟨⟨⟨⟨⟨⟨⟨⟨⟨⟨⟨⟨⟨⟨⟨⟨⟨⟨⟨⟨⟨⟨b1, b2⟩, p1⟩, p2⟩, r1⟩, r2⟩, a1⟩, a2⟩, m1⟩, m2⟩, d1⟩, d2⟩, e1⟩, e2⟩, w1⟩, w2⟩, s1⟩, s2⟩, n1⟩, n2⟩, g1⟩, g2⟩, t1⟩, t2⟩ := hl
  have h1 := pays_alt _ _ _ rs m1 m2 (pays_alt _ _ _ rs d1 d2 (pays_alt _ _ _ rs e1 e2 (pays_alt _ _ _ rs w1 w2
    (pays_alt _ _ _ rs s1 s2 (pays_line _ rs n1 n2)))))
  have h2 := pays_text b!"addTextCmd" (.opt .startAddr) .addTextC .addTextCmd .afterText _ rs t1 t2 (by decide +kernel) (by decide +kernel) rfl h1
    (add_unended rs)
  have h3 := pays_text b!"changeTextCmd" (.opt .range) .changeTextC .changeTextCmd (.alt .addTextCmd .afterText) _ rs g1 g2 (by decide +kernel)
    (by decide +kernel) rfl h2 (change_unended rs)
  have h4 := pays_alt _ _ _ rs b1 b2 (pays_alt _ _ _ rs p1 p2 (pays_alt _ _ _ rs r1 r2 (pays_alt _ _ _ rs a1 a2 h3)))
  intro rs1 hr hle
  rw [cmd_def] at hr ⊢
  simp only [Gr.work.eq_def (.rule _ _)]
  have h5 := h4 rs1 hr hle
  have h6 : 1 ≤ charge rs rs1 := by simp only [charge]; omega
  refine Nat.le_trans (m := 2 + _) ?_ (Nat.le_trans (Nat.add_le_add_left h5 2) ?_)
  · split <;> omega
  · refine Nat.le_trans (m := 2 * charge rs rs1 + _) (Nat.add_le_add_right (by omega) _) ?_
    rw [← Nat.add_mul]
    exact Nat.mul_le_mul_right _ (by decide +kernel)

/-- A command with its newline is paid for by its runes. -/
theorem e_paid (rs rs1 : List Nat) (h : Gr.e.rest rs = some rs1) : rs1.length < rs.length ∧ Gr.e.work rs ≤ 9800 * (rs.length - rs1.length) := by
  refine ⟨(rest_length _ _ _ h).2 (by decide +kernel), ?_⟩
  have sp1 : (Gr.star .sp).lin = true := by decide +kernel
  have sp2 : (Gr.star .sp).inline = true := by decide +kernel
  have sp3 : (Gr.star .sp).coef = 18 := by decide +kernel
  have hd : Gr.e = .rule b!"e" (.seq (.star .sp) (.seq .cmd (.seq (.star .sp) (.seq .newLine (.act 1))))) := rfl
  rw [hd] at h ⊢
  simp only [Gr.rest.eq_def (.rule _ _), Gr.rest.eq_def (.seq _ _), Gr.work.eq_def (.rule _ _), Gr.work.eq_def (.seq _ _)] at h ⊢
  cases h0 : (Gr.star .sp).rest rs with
  | none => rw [h0] at h; cases h
  | some r0 =>
    rw [h0] at h
    simp only at h ⊢
    have w0 := lin_work _ sp1 rs
    obtain ⟨k0, a1, a2⟩ := inline_rest _ sp2 rs r0 h0
    cases hc : Gr.cmd.rest r0 with
    | none => rw [hc] at h; cases h
    | some r1 =>
      rw [hc] at h
      simp only at h ⊢
      have w2 := lin_work _ sp1 r1
      cases h2 : (Gr.star .sp).rest r1 with
      | none => rw [h2] at h; cases h
      | some r2 =>
        rw [h2] at h
        simp only at h ⊢
        obtain ⟨k2, c1, c2⟩ := inline_rest _ sp2 r1 r2 h2
        cases h3 : Gr.newLine.rest r2 with
        | none => rw [h3] at h; cases h
        | some r3 =>
          rw [h3] at h
          cases h
          have h3' := chr_rule r2 rs1 h3
          have w1 := cmd_pays r0 r1 hc (by simp only [lineEnd, Gr.rest.eq_def (.seq _ _), h2, h3]; simp)
          have l0 := lineLen_drop k0 rs a1
          rw [← a2] at l0
          have l2 := lineLen_drop k2 r1 c1
          rw [← c2, h3'] at l2
          have l2' : lineLen r1 = k2 := by simp [lineLen] at l2; omega
          have n0 := congrArg List.length a2
          have n2 := congrArg List.length c2
          rw [h3'] at n2
          simp only [List.length_drop, List.length_cons] at n0 n2
          have n1 := (rest_length _ _ _ hc).1
          have g0 := charge_ge _ r0 r1 hc
          have hch : charge r0 r1 + k0 = rs.length - rs1.length := by
            have := lineLen_le rs
            simp only [charge]; omega
          have w3 : Gr.newLine.work r2 ≤ 3 := starFree_work .newLine (by decide +kernel) r2
          rw [sp3] at w0 w2
          have : (1 : Nat) ≤ rs.length - rs1.length := by omega
          simp only [Gr.work.eq_def (.act _), Gr.rest.eq_def (.act _)]
          omega

/-- The steps of all commands of a text: those that are accepted are paid for, and the first that is not ends it. -/
theorem workStar_e : ∀ (n : Nat) (rs : List Nat), Gr.workStar Gr.e.rest Gr.e.work n rs ≤ 9801 * rs.length + 9801 := by
  intro n
  induction n with
  | zero => intro rs; exact Nat.zero_le _
  | succ n ih =>
    intro rs
    simp only [Gr.workStar]
    cases hr : Gr.e.rest rs with
    | none =>
      have h1 := linText_work .e (by decide +kernel) rs
      have h2 : Gr.e.coef * (rs.length + 1) ≤ 9800 * (rs.length + 1) := Nat.mul_le_mul_right _ (by decide +kernel)
      simp only
      omega
    | some rs1 =>
      obtain ⟨h1, h2⟩ := e_paid rs rs1 hr
      have h3 := ih rs1
      simp only
      generalize Gr.workStar Gr.e.rest Gr.e.work n rs1 = w at *
      omega

theorem first_work (rs : List Nat) : Gr.first.work rs ≤ 9820 * (rs.length + 1) := by
  have h1 := workStar_e (rs.length + 1) rs
  have hd : Gr.first = .rule b!"first" (.seq (.star .e) (.seq (.notP .dot) (.act 0))) := rfl
  rw [hd]
  simp only [Gr.work.eq_def (.rule _ _), Gr.work.eq_def (.seq _ _), Gr.work.eq_def (.star _), Gr.work.eq_def (.notP _),
    Gr.work.eq_def (.dot), Gr.work.eq_def (.act _), Gr.rest.eq_def (.star _)]
  generalize Gr.workStar Gr.e.rest Gr.e.work (rs.length + 1) rs = w at *
  repeat' split
  all_goals omega

/-- The steps of `Parse` by a parser with a given text, after `Init` or `Reset`. -/
def Parser.steps (p : Parser) : Nat := (Gr.first.runRun p.reset.runes p.reset.state).2

theorem steps_bound (p : Parser) (h : 0 < p.state.tree.length) : p.steps ≤ 9820 * ((Go.runes p.buffer).length + 1) := by
  have h1 := run_work (Go.runes p.buffer) (runes_no_end _) .first wf_first p.reset.state (Nat.zero_le _) (Nat.zero_le _) h
  have h2 := first_work (Go.runes p.buffer)
  simp only [Parser.steps]
  rw [show p.reset.runes = Go.runes p.buffer ++ [endSymbol] from rfl, h1]
  exact h2

/-- **C127** (the commands of ed) Parsing is linear: a text of `n` runes, whatever it is, takes at most `9820 (n + 1)` steps,
although every choice that fails reads its part of the text again. So it is with a parser that is used again. -/
theorem C127_peg_bound (text : Bytes) : (Parser.init text).steps ≤ 9820 * ((Go.runes text).length + 1) ∧
    ∀ p : Parser, 0 < p.state.tree.length → ({ p with buffer := text } : Parser).steps ≤ 9820 * ((Go.runes text).length + 1) :=
  ⟨steps_bound (Parser.init text) (init_pos text), fun p h => steps_bound { p with buffer := text } h⟩

/-- `1,2p`, and a text that is never ended: `c`, newline, `x`. -/
example : Gr.first.work [49, 44, 50, 112, 10] = 1532 ∧ Gr.first.work [99, 10, 120, 10] = 1387 := by decide +kernel

end Ed
