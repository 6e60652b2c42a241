import Verif.Ed.PegMachine
import Verif.Ed.PegMaxProps
import Verif.Go.QuoteProps

/-! # The parser as it runs does what the rules say, and keeps the tokens of its derivation -/

namespace Ed
open Go

/-! ## What a rule derives -/

/-- The trees of one list of trees, then those of another. -/
def Node.append : Node → Node → Node
  | .nil, m => m
  | .node t up next, m => .node t up (next.append m)

/-- The tokens of a list of trees, those below a node before the node's own. -/
def Node.post : Node → List Token
  | .nil => []
  | .node t up next => up.post ++ t :: next.post

namespace Gr

/-- `p*` for a bounded number of rounds. -/
def deriveStar (p : Nat → List Nat → Option (Nat × List Nat × Node)) : Nat → Nat → List Nat → Nat × List Nat × Node
  | 0, pos, rs => (pos, rs, .nil)
  | n + 1, pos, rs =>
    match p pos rs with
    | none => (pos, rs, .nil)
    | some (pos1, rs1, t1) => ((deriveStar p n pos1 rs1).1, (deriveStar p n pos1 rs1).2.1, t1.append (deriveStar p n pos1 rs1).2.2)

/-- Specification: what a rule of a parsing expression grammar derives from the text `rs` at `pos`: where it ends, what
remains, and the derivation trees. Every use of a rule (and of `<p>`) is a node with the uses inside it below. -/
def derive : Gr → Nat → List Nat → Option (Nat × List Nat × Node)
  | cls _, _, [] => none
  | cls f, pos, c :: rs => if f c then some (pos + 1, rs, .nil) else none
  | dot, _, [] => none
  | dot, pos, _ :: rs => some (pos + 1, rs, .nil)
  | seq p q, pos, rs =>
    match derive p pos rs with
    | none => none
    | some (pos1, rs1, t1) =>
      match derive q pos1 rs1 with
      | none => none
      | some (pos2, rs2, t2) => some (pos2, rs2, t1.append t2)
  | alt p q, pos, rs =>
    match derive p pos rs with
    | some r => some r
    | none => derive q pos rs
  | opt p, pos, rs =>
    match derive p pos rs with
    | some r => some r
    | none => some (pos, rs, .nil)
  | star p, pos, rs => some (deriveStar (derive p) (rs.length + 1) pos rs)
  | notP p, pos, rs =>
    match derive p pos rs with
    | some _ => none
    | none => some (pos, rs, .nil)
  | capture p, pos, rs =>
    match derive p pos rs with
    | none => none
    | some (pos1, rs1, t) => some (pos1, rs1, .node ⟨.pegText, pos, pos1⟩ t .nil)
  | rule name p, pos, rs =>
    match derive p pos rs with
    | none => none
    | some (pos1, rs1, t) => some (pos1, rs1, .node ⟨.named name, pos, pos1⟩ t .nil)
  | act n, pos, rs => some (pos, rs, .node ⟨.action n, pos, pos⟩ .nil .nil)

/-- The rule as in `PegMax.lean`. -/
def pm : Gr → PM
  | cls f => PM.cls f
  | dot => PM.dot
  | seq p q => PM.seq p.pm q.pm
  | alt p q => PM.alt p.pm q.pm
  | opt p => PM.opt p.pm
  | star p => PM.star p.pm
  | notP p => PM.notP p.pm
  | capture p => PM.capture p.pm
  | rule name p => PM.rule name p.pm
  | act n => PM.act n

/-- A rule that cannot succeed without taking a rune. -/
def takes : Gr → Bool
  | cls _ => true
  | dot => true
  | seq p q => p.takes || q.takes
  | alt p q => p.takes && q.takes
  | opt _ => false
  | star _ => false
  | notP _ => false
  | capture p => p.takes
  | rule _ p => p.takes
  | act _ => false

/-- No class has `endSymbol`, and what is under a star takes something. -/
def wf : Gr → Bool
  | cls f => !f endSymbol
  | dot => true
  | seq p q => p.wf && q.wf
  | alt p q => p.wf && q.wf
  | opt p => p.wf
  | star p => p.wf && p.takes
  | notP p => p.wf
  | capture p => p.wf
  | rule _ p => p.wf
  | act _ => true

end Gr

/-- The grammar as data is the grammar of `PegMax.lean`. -/
theorem pm_first : Gr.first.pm = PM.first := rfl

theorem wf_first : Gr.first.wf = true := by decide +kernel

theorem post_append (a b : Node) : (a.append b).post = a.post ++ b.post := by
  induction a with
  | nil => rfl
  | node t up next _ ih => simp only [Node.append, Node.post, ih, List.append_assoc, List.cons_append]

/-- The tokens for `Execute` of a derivation. -/
def Node.toks (n : Node) : List Tok := n.post.flatMap Token.tok

theorem toks_append (a b : Node) : (a.append b).toks = a.toks ++ b.toks := by
  simp only [Node.toks, post_append, List.flatMap_append]

/-- The result of a rule of `PegMax.lean` from the derivation. -/
def erase (x : Nat × List Nat × Node) : Nat × List Nat × List Tok := (x.1, x.2.1, x.2.2.toks)

theorem pm_derive (g : Gr) : ∀ pos rs m, (g.pm pos rs m).1 = (g.derive pos rs).map erase := by
  induction g with
  | cls f =>
    intro pos rs m
    cases rs with
    | nil => rfl
    | cons c rs => simp only [Gr.pm, PM.cls, cls, Gr.derive]; split <;> rfl
  | dot =>
    intro pos rs m
    cases rs with
    | nil => rfl
    | cons c rs => rfl
  | seq p q hp hq =>
    intro pos rs m
    have h1 := hp pos rs m
    simp only [Gr.pm, PM.seq, Gr.derive]
    rcases hr : p.pm pos rs m with ⟨r, m1⟩
    rw [hr] at h1
    simp only at h1
    subst h1
    rcases p.derive pos rs with _ | ⟨pos1, rs1, t1⟩
    · rfl
    · have h2 := hq pos1 rs1 m1
      simp only [Option.map_some, erase]
      rcases hr2 : q.pm pos1 rs1 m1 with ⟨r2, m2⟩
      rw [hr2] at h2
      simp only at h2
      subst h2
      rcases q.derive pos1 rs1 with _ | ⟨pos2, rs2, t2⟩
      · rfl
      · simp only [Option.map_some, erase, toks_append]
  | alt p q hp hq =>
    intro pos rs m
    have h1 := hp pos rs m
    simp only [Gr.pm, PM.alt, Gr.derive]
    rcases hr : p.pm pos rs m with ⟨r, m1⟩
    rw [hr] at h1
    simp only at h1
    subst h1
    rcases p.derive pos rs with _ | x
    · exact hq pos rs m1
    · rfl
  | opt p hp =>
    intro pos rs m
    have h1 := hp pos rs m
    simp only [Gr.pm, PM.opt, Gr.derive]
    rcases hr : p.pm pos rs m with ⟨r, m1⟩
    rw [hr] at h1
    simp only at h1
    subst h1
    rcases p.derive pos rs with _ | x <;> rfl
  | star p hp =>
    intro pos rs m
    simp only [Gr.pm, PM.star, Gr.derive, Option.map_some, Option.some.injEq]
    generalize rs.length + 1 = n
    induction n generalizing pos rs m with
    | zero => rfl
    | succ n ih =>
      have h1 := hp pos rs m
      simp only [PM.starAux, Gr.deriveStar]
      rcases hr : p.pm pos rs m with ⟨r, m1⟩
      rw [hr] at h1
      simp only at h1
      subst h1
      rcases p.derive pos rs with _ | ⟨pos1, rs1, t1⟩
      · rfl
      · simp only [Option.map_some, erase]
        rw [ih]
        simp only [erase, toks_append]
  | notP p hp =>
    intro pos rs m
    have h1 := hp pos rs m
    simp only [Gr.pm, PM.notP, Gr.derive]
    rcases hr : p.pm pos rs m with ⟨r, m1⟩
    rw [hr] at h1
    simp only at h1
    subst h1
    rcases p.derive pos rs with _ | x <;> rfl
  | capture p hp =>
    intro pos rs m
    have h1 := hp pos rs m
    simp only [Gr.pm, PM.capture, Gr.derive]
    rcases hr : p.pm pos rs m with ⟨r, m1⟩
    rw [hr] at h1
    simp only at h1
    subst h1
    rcases p.derive pos rs with _ | ⟨pos1, rs1, t1⟩
    · rfl
    · simp only [Option.map_some, erase, Node.toks, Node.post, List.flatMap_append]
      simp [Token.tok]
  | rule name p hp =>
    intro pos rs m
    have h1 := hp pos rs m
    simp only [Gr.pm, PM.rule, Gr.derive]
    rcases hr : p.pm pos rs m with ⟨r, m1⟩
    rw [hr] at h1
    simp only at h1
    subst h1
    rcases p.derive pos rs with _ | ⟨pos1, rs1, t1⟩
    · rfl
    · simp only [Option.map_some, erase, Node.toks, Node.post, List.flatMap_append]
      simp [Token.tok]
  | act n => intro pos rs m; rfl

/-! ## A derivation keeps to the text -/

/-- The trees lie between `p` and `q`, one after another, and those below a node lie in it. -/
def Node.Within : Nat → Nat → Node → Prop
  | p, q, .nil => p ≤ q
  | p, q, .node t up next => p ≤ t.b ∧ Node.Within t.b t.e up ∧ Node.Within t.e q next

theorem within_le : ∀ {n : Node} {p q : Nat}, n.Within p q → p ≤ q := by
  intro n
  induction n with
  | nil => intro p q h; exact h
  | node t up next h1 h2 =>
    intro p q h
    have := h1 h.2.1
    have := h2 h.2.2
    have := h.1
    omega

theorem within_append : ∀ {a b : Node} {p q r : Nat}, a.Within p q → b.Within q r → (a.append b).Within p r := by
  intro a
  induction a with
  | nil =>
    intro b p q r h1 h2
    cases b with
    | nil => exact Nat.le_trans h1 h2
    | node t up next => exact ⟨Nat.le_trans h1 h2.1, h2.2⟩
  | node t up next _ ih => intro b p q r h1 h2; exact ⟨h1.1, h1.2.1, ih h1.2.2 h2⟩

theorem within_self (p : Nat) : Node.nil.Within p p := Nat.le_refl p

/-- Where a derivation ends, and that it moves forward if the rule takes something. -/
theorem derive_moves (g : Gr) : ∀ (rs : List Nat) pos x, pos ≤ rs.length → g.derive pos (rs.drop pos) = some x →
    pos ≤ x.1 ∧ x.1 ≤ rs.length ∧ x.2.1 = rs.drop x.1 ∧ x.2.2.Within pos x.1 ∧ (g.takes = true → pos < x.1) := by
  induction g with
  | cls f =>
    intro rs pos x hp h
    rcases Nat.lt_or_ge pos rs.length with hlt | hge
    · rw [List.drop_eq_getElem_cons hlt] at h
      simp only [Gr.derive] at h
      split at h
      · cases h; exact ⟨Nat.le_succ _, hlt, rfl, Nat.le_succ _, fun _ => Nat.lt_succ_self _⟩
      · cases h
    · rw [List.drop_eq_nil_of_le hge] at h; cases h
  | dot =>
    intro rs pos x hp h
    rcases Nat.lt_or_ge pos rs.length with hlt | hge
    · rw [List.drop_eq_getElem_cons hlt] at h
      simp only [Gr.derive] at h
      cases h; exact ⟨Nat.le_succ _, hlt, rfl, Nat.le_succ _, fun _ => Nat.lt_succ_self _⟩
    · rw [List.drop_eq_nil_of_le hge] at h; cases h
  | seq p q hp hq =>
    intro rs pos x hpos h
    simp only [Gr.derive] at h
    cases h1 : p.derive pos (rs.drop pos) with
    | none => rw [h1] at h; cases h
    | some y =>
      obtain ⟨pos1, rs1, t1⟩ := y
      obtain ⟨a1, a2, a3, a4, a5⟩ := hp rs pos _ hpos h1
      simp only at a1 a2 a3 a4 a5
      subst a3
      rw [h1] at h
      simp only at h
      cases h2 : q.derive pos1 (rs.drop pos1) with
      | none => rw [h2] at h; cases h
      | some z =>
        obtain ⟨b1, b2, b3, b4, b5⟩ := hq rs pos1 _ a2 h2
        rw [h2] at h
        cases h
        refine ⟨Nat.le_trans a1 b1, b2, b3, within_append a4 b4, ?_⟩
        simp only [Gr.takes, Bool.or_eq_true]
        rintro (ht | ht)
        · exact Nat.lt_of_lt_of_le (a5 ht) b1
        · exact Nat.lt_of_le_of_lt a1 (b5 ht)
  | alt p q hp hq =>
    intro rs pos x hpos h
    simp only [Gr.derive] at h
    cases h1 : p.derive pos (rs.drop pos) with
    | none =>
      rw [h1] at h
      obtain ⟨a1, a2, a3, a4, a5⟩ := hq rs pos x hpos h
      refine ⟨a1, a2, a3, a4, fun ht => a5 ?_⟩
      simp only [Gr.takes, Bool.and_eq_true] at ht; exact ht.2
    | some y =>
      rw [h1] at h; cases h
      obtain ⟨a1, a2, a3, a4, a5⟩ := hp rs pos _ hpos h1
      refine ⟨a1, a2, a3, a4, fun ht => a5 ?_⟩
      simp only [Gr.takes, Bool.and_eq_true] at ht; exact ht.1
  | opt p hp =>
    intro rs pos x hpos h
    simp only [Gr.derive] at h
    cases h1 : p.derive pos (rs.drop pos) with
    | none => rw [h1] at h; cases h; exact ⟨Nat.le_refl _, hpos, rfl, within_self _, fun ht => (by cases ht)⟩
    | some y =>
      rw [h1] at h; cases h
      obtain ⟨a1, a2, a3, a4, a5⟩ := hp rs pos _ hpos h1
      exact ⟨a1, a2, a3, a4, fun ht => (by cases ht)⟩
  | star p hp =>
    intro rs pos x hpos h
    simp only [Gr.derive] at h
    generalize (rs.drop pos).length + 1 = n at h
    cases h
    refine (fun h => ⟨h.1, h.2.1, h.2.2.1, h.2.2.2, fun ht => (by cases ht)⟩) (?_ : _ ∧ _ ∧ _ ∧ _)
    induction n generalizing pos with
    | zero => exact ⟨Nat.le_refl _, hpos, rfl, within_self _⟩
    | succ n ih =>
      simp only [Gr.deriveStar]
      cases h1 : p.derive pos (rs.drop pos) with
      | none => exact ⟨Nat.le_refl _, hpos, rfl, within_self _⟩
      | some y =>
        obtain ⟨pos1, rs1, t1⟩ := y
        obtain ⟨a1, a2, a3, a4, a5⟩ := hp rs pos _ hpos h1
        simp only at a1 a2 a3 a4 a5
        subst a3
        obtain ⟨b1, b2, b3, b4⟩ := ih pos1 a2
        exact ⟨Nat.le_trans a1 b1, b2, b3, within_append a4 b4⟩
  | notP p hp =>
    intro rs pos x hpos h
    simp only [Gr.derive] at h
    cases h1 : p.derive pos (rs.drop pos) with
    | none => rw [h1] at h; cases h; exact ⟨Nat.le_refl _, hpos, rfl, within_self _, fun ht => (by cases ht)⟩
    | some y => rw [h1] at h; cases h
  | capture p hp =>
    intro rs pos x hpos h
    simp only [Gr.derive] at h
    cases h1 : p.derive pos (rs.drop pos) with
    | none => rw [h1] at h; cases h
    | some y =>
      obtain ⟨pos1, rs1, t1⟩ := y
      obtain ⟨a1, a2, a3, a4, a5⟩ := hp rs pos _ hpos h1
      rw [h1] at h; cases h
      exact ⟨a1, a2, a3, ⟨Nat.le_refl _, a4, Nat.le_refl _⟩, fun ht => a5 ht⟩
  | rule name p hp =>
    intro rs pos x hpos h
    simp only [Gr.derive] at h
    cases h1 : p.derive pos (rs.drop pos) with
    | none => rw [h1] at h; cases h
    | some y =>
      obtain ⟨pos1, rs1, t1⟩ := y
      obtain ⟨a1, a2, a3, a4, a5⟩ := hp rs pos _ hpos h1
      rw [h1] at h; cases h
      exact ⟨a1, a2, a3, ⟨Nat.le_refl _, a4, Nat.le_refl _⟩, fun ht => a5 ht⟩
  | act n =>
    intro rs pos x hpos h
    cases h
    exact ⟨Nat.le_refl _, hpos, rfl, ⟨Nat.le_refl _, Nat.le_refl _, Nat.le_refl _⟩, fun ht => (by cases ht)⟩


/-! ## The state -/

theorem treeAdd_ok (tree : List Token) (t : Token) (index : Nat) (h : index ≤ tree.length) (hne : 0 < tree.length) :
    ∃ tree', treeAdd tree t index = .ok tree' ∧ tree.length ≤ tree'.length ∧ index + 1 ≤ tree'.length ∧
      tree'.take (index + 1) = tree.take index ++ [t] := by
  have key : ∀ l : List Token, index < l.length → (l.set index t).take (index + 1) = l.take index ++ [t] := by
    intro l hl
    rw [List.take_add_one, List.take_set_of_le (Nat.le_refl _)]
    simp [hl]
  simp only [treeAdd]
  by_cases hc : index ≥ tree.length
  · have he : index = tree.length := Nat.le_antisymm h hc
    rw [if_pos hc]
    have hl : index < (tree ++ List.replicate tree.length ({} : Token)).length := by
      rw [List.length_append, List.length_replicate]; omega
    rw [if_pos hl]
    refine ⟨_, rfl, ?_, ?_, ?_⟩
    · rw [List.length_set, List.length_append]; omega
    · rw [List.length_set]; omega
    · rw [key _ hl, List.take_append_of_le_length h]
  · rw [if_neg hc]
    have hl : index < tree.length := by omega
    rw [if_pos hl]
    exact ⟨_, rfl, by rw [List.length_set]; exact Nat.le_refl _, by rw [List.length_set]; omega, key _ hl⟩

/-- `l'` is at least as long as `l` and begins with the same `n` tokens. -/
def KeepsToks (n : Nat) (l l' : List Token) : Prop := l.length ≤ l'.length ∧ l'.take n = l.take n

theorem KeepsToks.trans {n k : Nat} {a b c : List Token} (h1 : KeepsToks n a b) (h2 : KeepsToks k b c) (h : n ≤ k) : KeepsToks n a c := by
  refine ⟨Nat.le_trans h1.1 h2.1, ?_⟩
  have h3 := congrArg (List.take n) h2.2
  rw [List.take_take, List.take_take, Nat.min_eq_left h] at h3
  rw [h3, h1.2]

/-- The array after a rule has added the tokens `ts` at index `n`. -/
def Added (n : Nat) (ts : List Token) (l l' : List Token) : Prop :=
  l.length ≤ l'.length ∧ n + ts.length ≤ l'.length ∧ l'.take (n + ts.length) = l.take n ++ ts

theorem Added.keeps {n : Nat} {ts l l' : List Token} (h : Added n ts l l') (hn : n ≤ l.length) : KeepsToks n l l' := by
  refine ⟨h.1, ?_⟩
  have h3 := congrArg (List.take n) h.2.2
  rw [List.take_take, Nat.min_eq_left (by omega), List.take_append_of_le_length (by rw [List.length_take]; omega), List.take_take,
    Nat.min_self] at h3
  exact h3

theorem Added.nil (n : Nat) (l : List Token) (h : n ≤ l.length) : Added n [] l l := ⟨Nat.le_refl _, h, by simp⟩

theorem Added.trans {n : Nat} {ts us a b c : List Token} (h1 : Added n ts a b) (h2 : Added (n + ts.length) us b c) : Added n (ts ++ us) a c := by
  refine ⟨Nat.le_trans h1.1 h2.1, ?_, ?_⟩
  · have := h2.2.1
    rw [List.length_append]; omega
  · have := h2.2.2
    rw [List.length_append, ← Nat.add_assoc, this, h1.2.2, List.append_assoc]

theorem KeepsToks.added {n : Nat} {ts a b c : List Token} (h1 : KeepsToks n a b) (h2 : Added n ts b c) : Added n ts a c :=
  ⟨Nat.le_trans h1.1 h2.1, h2.2.1, by rw [h2.2.2, h1.2]⟩

/-- What running a rule does, from the derivation. -/
structure Ran (rs : List Nat) (g : Gr) (s : PState) : Prop where
  succeeds : ∀ x, g.derive s.position (rs.drop s.position) = some x → ∃ tree',
    g.run (rs ++ [endSymbol]) s =
      .ok (true, ⟨x.1, s.tokenIndex + x.2.2.post.length, tree', (g.pm s.position (rs.drop s.position) s.max).2⟩) ∧
    Added s.tokenIndex x.2.2.post s.tree tree'
  fails : g.derive s.position (rs.drop s.position) = none → ∃ pos' i' tree',
    g.run (rs ++ [endSymbol]) s = .ok (false, ⟨pos', i', tree', (g.pm s.position (rs.drop s.position) s.max).2⟩) ∧
    KeepsToks s.tokenIndex s.tree tree'

theorem add_ok (s : PState) (rule : RuleId) (b : Nat) (h : s.tokenIndex ≤ s.tree.length) (hne : 0 < s.tree.length) :
    ∃ tree', s.add rule b = .ok ⟨s.position, s.tokenIndex + 1, tree', s.max.add rule.name b s.position⟩ ∧
      Added s.tokenIndex [⟨rule, b, s.position⟩] s.tree tree' := by
  obtain ⟨tree', h1, h2, h3, h4⟩ := treeAdd_ok s.tree ⟨rule, b, s.position⟩ s.tokenIndex h hne
  refine ⟨tree', ?_, h2, h3, h4⟩
  simp only [PState.add]
  rw [h1]

theorem get_end (rs : List Nat) (pos : Nat) (h : pos ≤ rs.length) :
    (rs ++ [endSymbol])[pos]? = some ((rs.drop pos).headD endSymbol) := by
  rcases Nat.lt_or_ge pos rs.length with hlt | hge
  · rw [List.drop_eq_getElem_cons hlt, List.getElem?_append_left hlt]
    simp [hlt]
  · have : pos = rs.length := Nat.le_antisymm h hge
    subst this
    simp

theorem run_loop (rs : List Nat) (p : Gr) (hp : ∀ s, s.position ≤ rs.length → s.tokenIndex ≤ s.tree.length → 0 < s.tree.length → Ran rs p s)
    (ht : p.takes = true) : ∀ (n m : Nat) (s : PState), s.position ≤ rs.length → s.tokenIndex ≤ s.tree.length → 0 < s.tree.length →
    rs.length - s.position < n → rs.length - s.position < m → ∃ tree',
    Gr.loop (p.run (rs ++ [endSymbol])) n s =
      .ok (true, ⟨(Gr.deriveStar p.derive m s.position (rs.drop s.position)).1,
        s.tokenIndex + (Gr.deriveStar p.derive m s.position (rs.drop s.position)).2.2.post.length, tree',
        (PM.starAux p.pm m s.position (rs.drop s.position) s.max).2⟩) ∧
    Added s.tokenIndex (Gr.deriveStar p.derive m s.position (rs.drop s.position)).2.2.post s.tree tree' := by
  intro n
  induction n with
  | zero => intro m s _ _ _ h; omega
  | succ n ih =>
    intro m s h1 h2 h3 h4 h5
    obtain ⟨m, rfl⟩ : ∃ k, m = k + 1 := ⟨m - 1, by omega⟩
    have hr := hp s h1 h2 h3
    have hpm := pm_derive p s.position (rs.drop s.position) s.max
    simp only [Gr.loop, Gr.deriveStar, PM.starAux]
    rcases hq : p.pm s.position (rs.drop s.position) s.max with ⟨r, m1⟩
    rw [hq] at hpm
    simp only at hpm
    cases hd : p.derive s.position (rs.drop s.position) with
    | none =>
      obtain ⟨pos', i', tree', a1, a2⟩ := hr.fails hd
      rw [hd] at hpm
      subst hpm
      rw [a1]
      simp only [PState.restore, hq, Option.map_none]
      refine ⟨tree', rfl, ?_⟩
      exact a2.added (Added.nil _ _ (Nat.le_trans h2 a2.1))
    | some x =>
      obtain ⟨pos1, rs1, t1⟩ := x
      obtain ⟨tree1, a1, a2⟩ := hr.succeeds _ hd
      obtain ⟨b1, b2, b3, -, b5⟩ := derive_moves p rs s.position _ h1 hd
      simp only at b1 b2 b3 b5 a1 a2
      have b6 := b5 ht
      rw [hd] at hpm
      simp only [Option.map_some, erase] at hpm
      subst hpm
      subst b3
      rw [a1]
      simp only [hq]
      obtain ⟨tree2, c1, c2⟩ := ih m ⟨pos1, s.tokenIndex + t1.post.length, tree1, m1⟩ b2 a2.2.1 (Nat.lt_of_lt_of_le h3 a2.1)
        (by simp only; omega) (by simp only; omega)
      simp only at c1 c2
      refine ⟨tree2, ?_, ?_⟩
      · rw [c1, post_append, List.length_append, Nat.add_assoc]
      · rw [post_append]; exact a2.trans c2

/-- **C111** (the parser's state) Running a rule never panics or hangs; it succeeds exactly if there is a derivation, and then the
tokens added to the array are those of the derivation; `max` is that of `PegMax.lean`. -/
theorem ran (rs : List Nat) (hrs : ∀ r ∈ rs, r ≠ endSymbol) (g : Gr) (hg : g.wf = true) :
    ∀ s : PState, s.position ≤ rs.length → s.tokenIndex ≤ s.tree.length → 0 < s.tree.length → Ran rs g s := by
  induction g with
  | cls f =>
    intro s h1 h2 h3
    simp only [Gr.wf, Bool.not_eq_true'] at hg
    have hb := get_end rs s.position h1
    constructor
    · intro x hx
      simp only [Gr.run, hb]
      cases hd : rs.drop s.position with
      | nil => rw [hd] at hx; cases hx
      | cons c cs =>
        rw [hd] at hx
        simp only [Gr.derive] at hx
        split at hx
        · next hf =>
          cases hx
          simp only [List.headD_cons, hf, if_true]
          exact ⟨s.tree, rfl, Added.nil _ _ h2⟩
        · cases hx
    · intro hx
      simp only [Gr.run, hb]
      cases hd : rs.drop s.position with
      | nil =>
        simp only [List.headD_nil, hg]
        exact ⟨_, _, s.tree, rfl, Nat.le_refl _, rfl⟩
      | cons c cs =>
        rw [hd] at hx
        simp only [Gr.derive] at hx
        split at hx
        · cases hx
        · next hf =>
          simp only [List.headD_cons, hf]
          exact ⟨_, _, s.tree, rfl, Nat.le_refl _, rfl⟩
  | dot =>
    intro s h1 h2 h3
    have hb := get_end rs s.position h1
    constructor
    · intro x hx
      simp only [Gr.run, hb]
      cases hd : rs.drop s.position with
      | nil => rw [hd] at hx; cases hx
      | cons c cs =>
        rw [hd] at hx
        simp only [Gr.derive] at hx
        cases hx
        have hc : c ≠ endSymbol := hrs c (List.mem_of_mem_drop (by rw [hd]; exact List.mem_cons_self))
        simp only [List.headD_cons, hc, ne_eq, not_false_iff, if_true]
        exact ⟨s.tree, rfl, Added.nil _ _ h2⟩
    · intro hx
      simp only [Gr.run, hb]
      cases hd : rs.drop s.position with
      | nil =>
        simp only [List.headD_nil, ne_eq, not_true_eq_false, if_false]
        exact ⟨_, _, s.tree, rfl, Nat.le_refl _, rfl⟩
      | cons c cs => rw [hd] at hx; cases hx
  | seq p q hp hq =>
    intro s h1 h2 h3
    simp only [Gr.wf, Bool.and_eq_true] at hg
    have hr := hp hg.1 s h1 h2 h3
    have hpm := pm_derive p s.position (rs.drop s.position) s.max
    rcases hm : p.pm s.position (rs.drop s.position) s.max with ⟨r, m1⟩
    rw [hm] at hpm
    simp only at hpm
    cases hd : p.derive s.position (rs.drop s.position) with
    | none =>
      obtain ⟨pos', i', tree', a1, a2⟩ := hr.fails hd
      rw [hd] at hpm
      subst hpm
      constructor
      · intro x hx; simp only [Gr.derive, hd] at hx; cases hx
      · intro _
        simp only [Gr.run, a1, Gr.pm, PM.seq, hm, Option.map_none]
        exact ⟨_, _, tree', rfl, a2⟩
    | some y =>
      obtain ⟨pos1, rs1, t1⟩ := y
      obtain ⟨tree1, a1, a2⟩ := hr.succeeds _ hd
      obtain ⟨b1, b2, b3, -, -⟩ := derive_moves p rs s.position _ h1 hd
      simp only at b1 b2 b3 a1 a2
      rw [hd] at hpm
      simp only [Option.map_some, erase] at hpm
      subst hpm
      subst b3
      rw [hm] at a1
      have hr2 := hq hg.2 ⟨pos1, s.tokenIndex + t1.post.length, tree1, m1⟩ b2 a2.2.1 (Nat.lt_of_lt_of_le h3 a2.1)
      have hpm2 := pm_derive q pos1 (rs.drop pos1) m1
      rcases hm2 : q.pm pos1 (rs.drop pos1) m1 with ⟨r2, m2⟩
      rw [hm2] at hpm2
      simp only at hpm2
      cases hd2 : q.derive pos1 (rs.drop pos1) with
      | none =>
        obtain ⟨pos', i', tree', c1, c2⟩ := hr2.fails hd2
        rw [hd2] at hpm2
        subst hpm2
        simp only [hm2] at c1 c2
        constructor
        · intro x hx; simp only [Gr.derive, hd, hd2] at hx; cases hx
        · intro _
          simp only [Gr.run, a1, c1, Gr.pm, PM.seq, hm, hm2, Option.map_none]
          exact ⟨_, _, tree', rfl, (a2.keeps h2).trans c2 (Nat.le_add_right _ _)⟩
      | some z =>
        obtain ⟨pos2, rs2, t2⟩ := z
        obtain ⟨tree2, c1, c2⟩ := hr2.succeeds _ hd2
        rw [hd2] at hpm2
        simp only [Option.map_some, erase] at hpm2
        subst hpm2
        simp only [hm2] at c1 c2
        constructor
        · intro x hx
          simp only [Gr.derive, hd, hd2] at hx
          cases hx
          simp only [Gr.run, a1, c1, Gr.pm, PM.seq, hm, hm2]
          refine ⟨tree2, ?_, ?_⟩
          · rw [post_append, List.length_append, Nat.add_assoc]
          · rw [post_append]; exact a2.trans c2
        · intro hx; simp only [Gr.derive, hd, hd2] at hx; cases hx
  | alt p q hp hq =>
    intro s h1 h2 h3
    simp only [Gr.wf, Bool.and_eq_true] at hg
    have hr := hp hg.1 s h1 h2 h3
    have hpm := pm_derive p s.position (rs.drop s.position) s.max
    rcases hm : p.pm s.position (rs.drop s.position) s.max with ⟨r, m1⟩
    rw [hm] at hpm
    simp only at hpm
    cases hd : p.derive s.position (rs.drop s.position) with
    | none =>
      obtain ⟨pos', i', tree1, a1, a2⟩ := hr.fails hd
      rw [hd] at hpm
      subst hpm
      rw [hm] at a1
      have hr2 := hq hg.2 ⟨s.position, s.tokenIndex, tree1, m1⟩ h1 (Nat.le_trans h2 a2.1) (Nat.lt_of_lt_of_le h3 a2.1)
      constructor
      · intro x hx
        simp only [Gr.derive, hd] at hx
        obtain ⟨tree2, c1, c2⟩ := hr2.succeeds x hx
        simp only [Gr.run, a1, PState.restore, Gr.pm, PM.alt, hm, Option.map_none]
        exact ⟨tree2, c1, a2.added c2⟩
      · intro hx
        simp only [Gr.derive, hd] at hx
        obtain ⟨pos2, i2, tree2, c1, c2⟩ := hr2.fails hx
        simp only [Gr.run, a1, PState.restore, Gr.pm, PM.alt, hm, Option.map_none]
        exact ⟨_, _, tree2, c1, a2.trans c2 (Nat.le_refl _)⟩
    | some y =>
      obtain ⟨tree1, a1, a2⟩ := hr.succeeds _ hd
      rw [hd] at hpm
      simp only [Option.map_some] at hpm
      subst hpm
      constructor
      · intro x hx
        simp only [Gr.derive, hd] at hx
        cases hx
        simp only [Gr.run, a1, Gr.pm, PM.alt, hm]
        exact ⟨tree1, rfl, a2⟩
      · intro hx; simp only [Gr.derive, hd] at hx; cases hx
  | opt p hp =>
    intro s h1 h2 h3
    have hr := hp hg s h1 h2 h3
    have hpm := pm_derive p s.position (rs.drop s.position) s.max
    rcases hm : p.pm s.position (rs.drop s.position) s.max with ⟨r, m1⟩
    rw [hm] at hpm
    simp only at hpm
    cases hd : p.derive s.position (rs.drop s.position) with
    | none =>
      obtain ⟨pos', i', tree1, a1, a2⟩ := hr.fails hd
      rw [hd] at hpm
      subst hpm
      constructor
      · intro x hx
        simp only [Gr.derive, hd] at hx
        cases hx
        simp only [Gr.run, a1, PState.restore, Gr.pm, PM.opt, hm, Option.map_none]
        exact ⟨tree1, rfl, a2.added (Added.nil _ _ (Nat.le_trans h2 a2.1))⟩
      · intro hx; simp only [Gr.derive, hd] at hx; cases hx
    | some y =>
      obtain ⟨tree1, a1, a2⟩ := hr.succeeds _ hd
      rw [hd] at hpm
      simp only [Option.map_some] at hpm
      subst hpm
      constructor
      · intro x hx
        simp only [Gr.derive, hd] at hx
        cases hx
        simp only [Gr.run, a1, Gr.pm, PM.opt, hm]
        exact ⟨tree1, rfl, a2⟩
      · intro hx; simp only [Gr.derive, hd] at hx; cases hx
  | star p hp =>
    intro s h1 h2 h3
    simp only [Gr.wf, Bool.and_eq_true] at hg
    constructor
    · intro x hx
      simp only [Gr.derive] at hx
      obtain ⟨tree', a1, a2⟩ := run_loop rs p (hp hg.1) hg.2 ((rs ++ [endSymbol]).length + 1) ((rs.drop s.position).length + 1) s h1 h2 h3
        (by rw [List.length_append]; omega) (by rw [List.length_drop]; omega)
      cases hx
      exact ⟨tree', a1, a2⟩
    · intro hx; simp only [Gr.derive] at hx; cases hx
  | notP p hp =>
    intro s h1 h2 h3
    have hr := hp hg s h1 h2 h3
    have hpm := pm_derive p s.position (rs.drop s.position) s.max
    rcases hm : p.pm s.position (rs.drop s.position) s.max with ⟨r, m1⟩
    rw [hm] at hpm
    simp only at hpm
    cases hd : p.derive s.position (rs.drop s.position) with
    | none =>
      obtain ⟨pos', i', tree1, a1, a2⟩ := hr.fails hd
      rw [hd] at hpm
      subst hpm
      constructor
      · intro x hx
        simp only [Gr.derive, hd] at hx
        cases hx
        simp only [Gr.run, a1, PState.restore, Gr.pm, PM.notP, hm, Option.map_none]
        exact ⟨tree1, rfl, a2.added (Added.nil _ _ (Nat.le_trans h2 a2.1))⟩
      · intro hx; simp only [Gr.derive, hd] at hx; cases hx
    | some y =>
      obtain ⟨tree1, a1, a2⟩ := hr.succeeds _ hd
      rw [hd] at hpm
      simp only [Option.map_some] at hpm
      subst hpm
      constructor
      · intro x hx; simp only [Gr.derive, hd] at hx; cases hx
      · intro hx
        simp only [Gr.run, a1, Gr.pm, PM.notP, hm]
        exact ⟨_, _, tree1, rfl, a2.keeps h2⟩
  | capture p hp =>
    intro s h1 h2 h3
    have hr := hp hg s h1 h2 h3
    have hpm := pm_derive p s.position (rs.drop s.position) s.max
    rcases hm : p.pm s.position (rs.drop s.position) s.max with ⟨r, m1⟩
    rw [hm] at hpm
    simp only at hpm
    cases hd : p.derive s.position (rs.drop s.position) with
    | none =>
      obtain ⟨pos', i', tree1, a1, a2⟩ := hr.fails hd
      rw [hd] at hpm
      subst hpm
      constructor
      · intro x hx; simp only [Gr.derive, hd] at hx; cases hx
      · intro hx
        simp only [Gr.run, a1, Gr.pm, PM.capture, hm, Option.map_none]
        exact ⟨_, _, tree1, rfl, a2⟩
    | some y =>
      obtain ⟨pos1, rs1, t1⟩ := y
      obtain ⟨tree1, a1, a2⟩ := hr.succeeds _ hd
      rw [hd] at hpm
      simp only [Option.map_some, erase] at hpm
      subst hpm
      rw [hm] at a1
      obtain ⟨tree2, c1, c2⟩ := add_ok ⟨pos1, s.tokenIndex + t1.post.length, tree1, m1⟩ .pegText s.position a2.2.1
        (Nat.lt_of_lt_of_le h3 a2.1)
      constructor
      · intro x hx
        simp only [Gr.derive, hd] at hx
        cases hx
        simp only [Gr.run, a1, c1, Gr.pm, PM.capture, hm]
        refine ⟨tree2, ?_, ?_⟩
        · simp only [Node.post, List.length_append, List.length_cons, List.length_nil, Nat.add_assoc]; rfl
        · exact a2.trans c2
      · intro hx; simp only [Gr.derive, hd] at hx; cases hx
  | rule name p hp =>
    intro s h1 h2 h3
    have hr := hp hg s h1 h2 h3
    have hpm := pm_derive p s.position (rs.drop s.position) s.max
    rcases hm : p.pm s.position (rs.drop s.position) s.max with ⟨r, m1⟩
    rw [hm] at hpm
    simp only at hpm
    cases hd : p.derive s.position (rs.drop s.position) with
    | none =>
      obtain ⟨pos', i', tree1, a1, a2⟩ := hr.fails hd
      rw [hd] at hpm
      subst hpm
      constructor
      · intro x hx; simp only [Gr.derive, hd] at hx; cases hx
      · intro hx
        simp only [Gr.run, a1, PState.restore, Gr.pm, PM.rule, hm, Option.map_none]
        exact ⟨_, _, tree1, rfl, a2⟩
    | some y =>
      obtain ⟨pos1, rs1, t1⟩ := y
      obtain ⟨tree1, a1, a2⟩ := hr.succeeds _ hd
      rw [hd] at hpm
      simp only [Option.map_some, erase] at hpm
      subst hpm
      rw [hm] at a1
      obtain ⟨tree2, c1, c2⟩ := add_ok ⟨pos1, s.tokenIndex + t1.post.length, tree1, m1⟩ (.named name) s.position a2.2.1
        (Nat.lt_of_lt_of_le h3 a2.1)
      constructor
      · intro x hx
        simp only [Gr.derive, hd] at hx
        cases hx
        simp only [Gr.run, a1, c1, Gr.pm, PM.rule, hm]
        refine ⟨tree2, ?_, ?_⟩
        · simp only [Node.post, List.length_append, List.length_cons, List.length_nil, Nat.add_assoc]; rfl
        · exact a2.trans c2
      · intro hx; simp only [Gr.derive, hd] at hx; cases hx
  | act n =>
    intro s h1 h2 h3
    constructor
    · intro x hx
      cases hx
      obtain ⟨tree2, c1, c2⟩ := add_ok s (.action n) s.position h2 h3
      simp only [Gr.run, c1, Gr.pm, PM.act]
      refine ⟨tree2, ?_, c2⟩
      simp [MaxTok.add, Node.post]
    · intro hx; cases hx

end Ed
