import Verif.Ed.PegMachineProps

/-! # C111, C112: the syntax tree, and using a parser again -/

namespace Ed
open Go

theorem runes_valid (s : Bytes) : ∀ r ∈ runes s, ValidRune r := by
  suffices h : ∀ n (s : Bytes), s.length ≤ n → ∀ r ∈ runes s, ValidRune r from h _ s (Nat.le_refl _)
  intro n
  induction n with
  | zero =>
    intro s hs r hr
    have : s = [] := List.eq_nil_of_length_eq_zero (by omega)
    subst this; cases hr
  | succ n ih =>
    intro s hs r hr
    rcases text_cases s with e | ⟨b, rest, e1, -, e2⟩ | ⟨c, rest, hc, e1, e2⟩
    · subst e; cases hr
    · simp only [runes, e2, List.map_cons, List.mem_cons] at hr
      rcases hr with rfl | hr
      · decide
      · exact ih rest (by rw [e1] at hs; simp at hs; omega) r hr
    · simp only [runes, e2, List.map_cons, List.mem_cons] at hr
      rcases hr with rfl | hr
      · exact hc
      · refine ih rest ?_ r hr
        have : 0 < (encodeRune c).length := by
          unfold encodeRune
          repeat' split
          all_goals simp
        rw [e1, List.length_append] at hs; omega

theorem runes_no_end (s : Bytes) : ∀ r ∈ runes s, r ≠ endSymbol := by
  intro r hr
  have := runes_valid s r hr
  unfold ValidRune at this
  unfold endSymbol
  omega

/-! ## The tree from the tokens -/

/-- The trees without the nodes of empty tokens. -/
def Node.prune : Node → Node
  | .nil => .nil
  | .node t up next => if t.b = t.e then next.prune else .node t up.prune next.prune

theorem prune_nil : ∀ {n : Node} {p : Nat}, n.Within p p → n.prune = .nil := by
  intro n
  induction n with
  | nil => intro p _; rfl
  | node t up next h1 h2 =>
    intro p h
    have e1 := within_le h.2.1
    have e2 := within_le h.2.2
    have e3 := h.1
    have hb : t.b = t.e := by omega
    have he : t.e = p := by omega
    simp only [Node.prune, if_pos hb]
    exact h2 (he ▸ h.2.2)

theorem within_mono {n : Node} {p p' q : Nat} (h : n.Within p' q) (hp : p ≤ p') : n.Within p q := by
  cases n with
  | nil => exact Nat.le_trans hp h
  | node t up next => exact ⟨Nat.le_trans hp h.1, h.2⟩

theorem prune_within : ∀ {n : Node} {p q : Nat}, n.Within p q → n.prune.Within p q := by
  intro n
  induction n with
  | nil => intro p q h; exact h
  | node t up next h1 h2 =>
    intro p q h
    simp only [Node.prune]
    split
    · next hb => exact within_mono (h2 h.2.2) (by have := h.1; omega)
    · exact ⟨h.1, h1 h.2.1, h2 h.2.2⟩

theorem prune_post : ∀ {n : Node} {p q : Nat}, n.Within p q → n.prune.post = n.post.filter (fun t => t.b ≠ t.e) := by
  intro n
  induction n with
  | nil => intro p q _; rfl
  | node t up next h1 h2 =>
    intro p q h
    simp only [Node.prune]
    split
    · next hb =>
      have hu : up.prune = .nil := prune_nil (hb ▸ h.2.1 : up.Within t.b t.b)
      have := h1 h.2.1
      rw [hu] at this
      simp only [Node.post, List.filter_append, ← this, List.nil_append, List.filter_cons, hb]
      simpa using h2 h.2.2
    · next hb =>
      have hd : decide (t.b ≠ t.e) = true := decide_eq_true hb
      simp only [Node.post, List.filter_append, ← h1 h.2.1, List.filter_cons, hd, if_true, h2 h.2.2]

/-- Trees put on the stack, the last on top. -/
def pushAll : Node → List (Token × Node) → List (Token × Node)
  | .nil, st => st
  | .node t up next, st => pushAll next ((t, up) :: st)

theorem absorb_push : ∀ (k : Node) (t : Token) (st : List (Token × Node)) (u : Node) (p : Nat), t.b ≤ p → k.Within p t.e →
    absorb t (pushAll k st) u = absorb t st (k.append u) := by
  intro k
  induction k with
  | nil => intro t st u p _ _; rfl
  | node s sup next _ ih =>
    intro t st u p hp h
    have h1 := within_le h.2.1
    have h2 := within_le h.2.2
    have h3 := h.1
    simp only [pushAll, Node.append]
    rw [ih t _ u s.e (by omega) h.2.2]
    simp only [absorb]
    rw [if_pos ⟨by omega, h2⟩]

/-- Everything on the stack is not empty and ends at `p` or before. -/
def Below (p : Nat) (st : List (Token × Node)) : Prop := ∀ x ∈ st, x.1.b < x.1.e ∧ x.1.e ≤ p

theorem absorb_below (t : Token) (st : List (Token × Node)) (u : Node) (h : Below t.b st) : absorb t st u = (u, st) := by
  cases st with
  | nil => rfl
  | cons x st =>
    obtain ⟨s, sup⟩ := x
    have := h (s, sup) List.mem_cons_self
    simp only at this
    simp only [absorb]
    rw [if_neg (by omega)]

theorem append_nil : ∀ n : Node, n.append .nil = n := by
  intro n
  induction n with
  | nil => rfl
  | node t up next _ ih => simp only [Node.append, ih]

theorem fold_post : ∀ (n : Node) (st : List (Token × Node)) (p q : Nat), n.Within p q → Below p st →
    n.post.foldl astStep st = pushAll n.prune st := by
  intro n
  induction n with
  | nil => intro st p q _ _; rfl
  | node t up next h1 h2 =>
    intro st p q h hst
    have hb : Below t.b st := fun x hx => ⟨(hst x hx).1, Nat.le_trans (hst x hx).2 h.1⟩
    have hle := within_le h.2.1
    simp only [Node.post, List.foldl_append, List.foldl_cons]
    rw [h1 st t.b t.e h.2.1 hb]
    simp only [Node.prune]
    split
    · next he =>
      rw [prune_nil (he ▸ h.2.1 : up.Within t.b t.b)]
      simp only [pushAll, astStep]
      rw [if_pos he]
      exact h2 st t.e q h.2.2 (he ▸ hb)
    · next he =>
      simp only [astStep]
      rw [if_neg he, absorb_push up.prune t st .nil t.b (Nat.le_refl _) (prune_within h.2.1), absorb_below t st _ hb, append_nil]
      simp only [pushAll]
      refine h2 _ t.e q h.2.2 ?_
      intro x hx
      rcases List.mem_cons.1 hx with rfl | hx
      · exact ⟨by simp only; omega, Nat.le_refl _⟩
      · exact ⟨(hb x hx).1, Nat.le_trans (hb x hx).2 hle⟩

/-- `AST` finds the derivation tree again, without the uses of rules that took nothing. -/
theorem ast_tree (t : Token) (up : Node) (p q : Nat) (h : (Node.node t up .nil).Within p q) :
    ast (Node.node t up .nil).post = (Node.node t up .nil).prune := by
  unfold ast
  rw [fold_post _ [] p q h (fun x hx => (by cases hx))]
  simp only [Node.prune]
  by_cases he : t.b = t.e
  · rw [if_pos he]; rfl
  · rw [if_neg he]; rfl

/-! ## Every token is a use of the rule it names -/

namespace Gr

/-- The rule as in `Peg.lean`. -/
def toP : Gr → P
  | cls f => Ed.cls f
  | dot => Ed.dot
  | seq p q => Ed.seq p.toP q.toP
  | alt p q => Ed.alt p.toP q.toP
  | opt p => Ed.opt p.toP
  | star p => Ed.star p.toP
  | notP p => Ed.notP p.toP
  | capture p => Ed.capture p.toP
  | rule _ p => p.toP
  | act n => Ed.act n

/-- The rules in it stand in the grammar under the names they have. -/
def Named : Gr → Prop
  | cls _ => True
  | dot => True
  | seq p q => p.Named ∧ q.Named
  | alt p q => p.Named ∧ q.Named
  | opt p => p.Named
  | star p => p.Named
  | notP p => p.Named
  | capture p => (b!"PegText", p.toP) ∈ grammar ∧ p.Named
  | rule name p => (name, p.toP) ∈ grammar ∧ p.Named
  | act _ => True

end Gr

theorem toP_derive (g : Gr) : ∀ pos rs, g.toP pos rs = (g.derive pos rs).map erase := by
  induction g with
  | cls f =>
    intro pos rs
    cases rs with
    | nil => rfl
    | cons c rs => simp only [Gr.toP, cls, Gr.derive]; split <;> rfl
  | dot => intro pos rs; cases rs <;> rfl
  | seq p q hp hq =>
    intro pos rs
    simp only [Gr.toP, seq, Gr.derive, hp]
    rcases p.derive pos rs with _ | ⟨pos1, rs1, t1⟩
    · rfl
    · simp only [Option.map_some, erase, hq]
      rcases q.derive pos1 rs1 with _ | ⟨pos2, rs2, t2⟩
      · rfl
      · simp only [Option.map_some, erase, toks_append]
  | alt p q hp hq =>
    intro pos rs
    simp only [Gr.toP, alt, Gr.derive, hp, hq]
    rcases p.derive pos rs with _ | x <;> rfl
  | opt p hp =>
    intro pos rs
    simp only [Gr.toP, opt, Gr.derive, hp]
    rcases p.derive pos rs with _ | x <;> rfl
  | star p hp =>
    intro pos rs
    simp only [Gr.toP, star, Gr.derive, Option.map_some, Option.some.injEq]
    generalize rs.length + 1 = n
    induction n generalizing pos rs with
    | zero => rfl
    | succ n ih =>
      simp only [starAux, Gr.deriveStar, hp]
      rcases p.derive pos rs with _ | ⟨pos1, rs1, t1⟩
      · rfl
      · simp only [Option.map_some, erase]
        rw [ih]
        simp only [erase, toks_append]
  | notP p hp =>
    intro pos rs
    simp only [Gr.toP, notP, Gr.derive, hp]
    rcases p.derive pos rs with _ | x <;> rfl
  | capture p hp =>
    intro pos rs
    simp only [Gr.toP, capture, Gr.derive, hp]
    rcases p.derive pos rs with _ | ⟨pos1, rs1, t1⟩
    · rfl
    · simp only [Option.map_some, erase, Node.toks, Node.post, List.flatMap_append]
      simp [Token.tok]
  | rule name p hp =>
    intro pos rs
    simp only [Gr.toP, Gr.derive, hp]
    rcases p.derive pos rs with _ | ⟨pos1, rs1, t1⟩
    · rfl
    · simp only [Option.map_some, erase, Node.toks, Node.post, List.flatMap_append]
      simp [Token.tok]
  | act n => intro pos rs; rfl

/-- A token is a use of the rule it names, on the text it spans, or empty. -/
def Uses (rs : List Nat) (t : Token) : Prop :=
  t.b = t.e ∨ ∃ p ts, (t.rule.name, p) ∈ grammar ∧ p t.b (rs.drop t.b) = some (t.e, rs.drop t.e, ts)

theorem uses_of (g : Gr) : ∀ (rs : List Nat) (pos : Nat) x, g.Named → pos ≤ rs.length → g.derive pos (rs.drop pos) = some x →
    ∀ t ∈ x.2.2.post, Uses rs t := by
  induction g with
  | cls f =>
    intro rs pos x _ hp h
    cases hd : rs.drop pos with
    | nil => rw [hd] at h; cases h
    | cons c cs => rw [hd] at h; simp only [Gr.derive] at h; split at h <;> cases h; intro t ht; cases ht
  | dot =>
    intro rs pos x _ hp h
    cases hd : rs.drop pos with
    | nil => rw [hd] at h; cases h
    | cons c cs => rw [hd] at h; cases h; intro t ht; cases ht
  | seq p q hp hq =>
    intro rs pos x hn hpos h
    simp only [Gr.derive] at h
    cases h1 : p.derive pos (rs.drop pos) with
    | none => rw [h1] at h; cases h
    | some y =>
      obtain ⟨pos1, rs1, t1⟩ := y
      obtain ⟨a1, a2, a3, -, -⟩ := derive_moves p rs pos _ hpos h1
      simp only at a1 a2 a3
      subst a3
      rw [h1] at h
      simp only at h
      cases h2 : q.derive pos1 (rs.drop pos1) with
      | none => rw [h2] at h; cases h
      | some z =>
        rw [h2] at h
        cases h
        intro t ht
        rw [post_append, List.mem_append] at ht
        rcases ht with ht | ht
        · exact hp rs pos _ hn.1 hpos h1 t ht
        · exact hq rs pos1 _ hn.2 a2 h2 t ht
  | alt p q hp hq =>
    intro rs pos x hn hpos h
    simp only [Gr.derive] at h
    cases h1 : p.derive pos (rs.drop pos) with
    | none => rw [h1] at h; exact hq rs pos x hn.2 hpos h
    | some y => rw [h1] at h; cases h; exact hp rs pos _ hn.1 hpos h1
  | opt p hp =>
    intro rs pos x hn hpos h
    simp only [Gr.derive] at h
    cases h1 : p.derive pos (rs.drop pos) with
    | none => rw [h1] at h; cases h; intro t ht; cases ht
    | some y => rw [h1] at h; cases h; exact hp rs pos _ hn hpos h1
  | star p hp =>
    intro rs pos x hn hpos h
    simp only [Gr.derive] at h
    generalize (rs.drop pos).length + 1 = n at h
    cases h
    induction n generalizing pos with
    | zero => intro t ht; cases ht
    | succ n ih =>
      simp only [Gr.deriveStar]
      cases h1 : p.derive pos (rs.drop pos) with
      | none => intro t ht; cases ht
      | some y =>
        obtain ⟨pos1, rs1, t1⟩ := y
        obtain ⟨a1, a2, a3, -, -⟩ := derive_moves p rs pos _ hpos h1
        simp only at a1 a2 a3
        subst a3
        intro t ht
        simp only [post_append, List.mem_append] at ht
        rcases ht with ht | ht
        · exact hp rs pos _ hn hpos h1 t ht
        · exact ih pos1 a2 t ht
  | notP p hp =>
    intro rs pos x hn hpos h
    simp only [Gr.derive] at h
    cases h1 : p.derive pos (rs.drop pos) with
    | none => rw [h1] at h; cases h; intro t ht; cases ht
    | some y => rw [h1] at h; cases h
  | capture p hp =>
    intro rs pos x hn hpos h
    simp only [Gr.derive] at h
    cases h1 : p.derive pos (rs.drop pos) with
    | none => rw [h1] at h; cases h
    | some y =>
      obtain ⟨pos1, rs1, t1⟩ := y
      obtain ⟨a1, a2, a3, -, -⟩ := derive_moves p rs pos _ hpos h1
      simp only at a1 a2 a3
      subst a3
      rw [h1] at h; cases h
      intro t ht
      simp only [Node.post, List.mem_append, List.mem_cons, List.not_mem_nil, or_false] at ht
      rcases ht with ht | rfl
      · exact hp rs pos _ hn.2 hpos h1 t ht
      · exact .inr ⟨_, _, hn.1, by rw [toP_derive, h1]; rfl⟩
  | rule name p hp =>
    intro rs pos x hn hpos h
    simp only [Gr.derive] at h
    cases h1 : p.derive pos (rs.drop pos) with
    | none => rw [h1] at h; cases h
    | some y =>
      obtain ⟨pos1, rs1, t1⟩ := y
      obtain ⟨a1, a2, a3, -, -⟩ := derive_moves p rs pos _ hpos h1
      simp only at a1 a2 a3
      subst a3
      rw [h1] at h; cases h
      intro t ht
      simp only [Node.post, List.mem_append, List.mem_cons, List.not_mem_nil, or_false] at ht
      rcases ht with ht | rfl
      · exact hp rs pos _ hn.2 hpos h1 t ht
      · exact .inr ⟨_, _, hn.1, by rw [toP_derive, h1]; rfl⟩
  | act n =>
    intro rs pos x _ _ h
    cases h
    intro t ht
    simp only [Node.post, List.nil_append, List.mem_cons, List.not_mem_nil, or_false] at ht
    subst ht
    exact .inl rfl

/-- Membership of a rule as data. -/
macro "ingr" r:term : tactic => `(tactic| (show (_, $r) ∈ grammar; ing))

theorem named_sp : Gr.sp.Named := ⟨by ingr sp, trivial, trivial⟩
theorem named_newLine : Gr.newLine.Named := ⟨by ingr newLine, trivial⟩
theorem named_offset : Gr.offsetR.Named := ⟨by ingr offsetR, trivial, trivial⟩
theorem named_basic : Gr.basicRegex.Named := ⟨by ingr basicRegex, by simp [Gr.plus, Gr.Named, Gr.chr]⟩
theorem named_back : Gr.backRegex.Named := ⟨by ingr backRegex, by simp [Gr.plus, Gr.Named, Gr.chr]⟩
theorem named_literal : Gr.literalAddr.Named := ⟨by ingr literalAddr, ⟨by ingr plus (cls isDig), trivial, trivial⟩, trivial⟩
theorem named_mark : Gr.markAddr.Named := ⟨by ingr markAddr, trivial, trivial, trivial⟩
theorem named_regex : Gr.regexAddr.Named := ⟨by ingr regexAddr, trivial, named_basic, trivial, trivial⟩
theorem named_reverse : Gr.regexReverseAddr.Named := ⟨by ingr regexReverseAddr, trivial, named_back, trivial, trivial⟩
theorem named_addr : Gr.addr.Named :=
  ⟨by ingr addr, named_literal, named_mark, named_regex, named_reverse, ⟨trivial, trivial⟩, trivial, trivial⟩
theorem named_addrO : Gr.addrO.Named := ⟨by ingr addrO, ⟨by ingr (addr ⬝ opt offsetR), named_addr, named_offset⟩, trivial⟩
theorem named_start : Gr.startAddr.Named := ⟨by ingr startAddr, named_sp, named_addrO, named_sp, trivial⟩
theorem named_end : Gr.endAddr.Named := ⟨by ingr endAddr, named_sp, named_addrO, named_sp, trivial⟩
theorem named_range : Gr.range.Named :=
  ⟨by ingr range, ⟨named_start, trivial, named_end⟩, ⟨named_start, trivial, trivial⟩, ⟨trivial, named_end, trivial⟩,
    ⟨named_start, trivial, named_end⟩, ⟨named_start, trivial, trivial⟩, ⟨trivial, named_end, trivial⟩, ⟨named_start, trivial⟩,
    ⟨trivial, trivial⟩, trivial, trivial⟩
theorem named_rangeC : Gr.rangeC.Named := ⟨by ingr rangeC, by simp [Gr.Named, Gr.chr]⟩
theorem named_rangeCmd : Gr.rangeCmd.Named := ⟨by ingr rangeCmd, named_range, named_sp, named_rangeC⟩
theorem named_addrC : Gr.addrC.Named := ⟨by ingr addrC, trivial, trivial⟩
theorem named_addrCmd : Gr.addrCmd.Named :=
  ⟨by ingr addrCmd, ⟨⟨by ingr startAddr, named_start⟩, named_addrC, trivial⟩, named_addrC⟩
theorem named_bareCmd : Gr.bareCmd.Named := ⟨by ingr bareCmd, by simp [Gr.Named, Gr.chr]⟩
theorem named_param : Gr.param.Named := ⟨by ingr param, by simp [Gr.plus, Gr.Named, Gr.chr]⟩
theorem named_paramC : Gr.paramC.Named := ⟨by ingr paramC, by simp [Gr.Named, Gr.chr]⟩
theorem named_paramCmd : Gr.paramCmd.Named :=
  ⟨by ingr paramCmd, ⟨named_paramC, named_sp, ⟨by ingr param, named_param⟩, trivial⟩, named_paramC⟩
theorem named_changeTextC : Gr.changeTextC.Named := ⟨by ingr changeTextC, trivial, trivial⟩
theorem named_addTextC : Gr.addTextC.Named := ⟨by ingr addTextC, by simp [Gr.Named, Gr.chr]⟩
theorem named_destC : Gr.destC.Named := ⟨by ingr destC, by simp [Gr.Named, Gr.chr]⟩
theorem named_textTerm : Gr.textTerm.Named := ⟨by ingr textTerm, trivial, trivial⟩
theorem named_text : Gr.text.Named :=
  ⟨by ingr text, ⟨by ingr (star (notP textTerm ⬝ dot)), named_textTerm, trivial⟩, named_textTerm, trivial⟩
theorem named_changeTextCmd : Gr.changeTextCmd.Named := ⟨by ingr changeTextCmd, named_range, named_changeTextC, named_newLine, named_text⟩
theorem named_addTextCmd : Gr.addTextCmd.Named := ⟨by ingr addTextCmd, named_start, named_addTextC, named_newLine, named_text⟩
theorem named_markCmd : Gr.markCmd.Named := ⟨by ingr markCmd, named_start, trivial, ⟨by ingr cls isLower, trivial⟩, trivial⟩
theorem named_destCmd : Gr.destCmd.Named := ⟨by ingr destCmd, named_range, named_destC, ⟨by ingr addrO, named_addrO⟩, trivial⟩
theorem named_readCmd : Gr.readCmd.Named := ⟨by ingr readCmd, named_start, trivial, named_sp, ⟨by ingr param, named_param⟩, trivial⟩
theorem named_writeCmd : Gr.writeCmd.Named :=
  ⟨by ingr writeCmd, ⟨named_range, trivial, named_sp, ⟨by ingr param, named_param⟩, trivial⟩, named_range, trivial, trivial⟩
theorem named_shellCmd : Gr.shellCmd.Named := ⟨by ingr shellCmd, trivial, ⟨by ingr param, named_param⟩, trivial⟩
theorem named_nullCmd : Gr.nullCmd.Named := ⟨by ingr nullCmd, named_start⟩
theorem named_cmd : Gr.cmd.Named :=
  ⟨by ingr cmd, named_bareCmd, named_paramCmd, named_rangeCmd, named_addrCmd, named_changeTextCmd, named_addTextCmd, named_markCmd,
    named_destCmd, named_readCmd, named_writeCmd, named_shellCmd, named_nullCmd⟩
theorem named_e : Gr.e.Named := ⟨by ingr e, named_sp, named_cmd, named_sp, named_newLine, trivial⟩
theorem named_first : Gr.first.Named := ⟨by ingr first, named_e, trivial, trivial⟩

theorem toP_first : Gr.first.toP = first := rfl

/-! ## What `Parse` does -/

/-- The grammar as data derives what the rules accept. -/
theorem derive_first (buffer : Bytes) : (Gr.first.derive 0 (runes buffer)).map erase = first 0 (runes buffer) := (toP_derive Gr.first 0 _).symm

/-- A derivation from `first` is one tree, which ends at the end of the text. -/
theorem first_shape {buffer : Bytes} {x : Nat × List Nat × Node} (h : Gr.first.derive 0 (runes buffer) = some x) :
    x.1 = (runes buffer).length ∧ x.2.1 = [] ∧
      ∃ up, x.2.2 = .node ⟨.named b!"first", 0, (runes buffer).length⟩ up .nil ∧ x.2.2.Within 0 (runes buffer).length := by
  obtain ⟨a1, a2, a3, a4, -⟩ := derive_moves Gr.first (runes buffer) 0 x (Nat.zero_le _) h
  have hend : x.2.1 = [] := by
    unfold Gr.first at h
    simp only [Gr.derive] at h
    generalize Gr.deriveStar Gr.e.derive _ _ _ = d at h
    obtain ⟨p1, r1, t1⟩ := d
    simp only at h
    cases r1 with
    | nil => simp only [Gr.derive] at h; cases h; rfl
    | cons c cs => simp only [Gr.derive] at h; cases h
  have hlen : x.1 = (runes buffer).length := by
    rw [hend] at a3
    have := congrArg List.length a3
    rw [List.length_drop] at this
    simp at this
    omega
  refine ⟨hlen, hend, ?_⟩
  rw [hlen] at a4
  unfold Gr.first at h
  rw [Gr.derive] at h
  split at h
  · cases h
  · next pos1 rs1 t e =>
    cases h
    simp only at hlen
    subst hlen
    exact ⟨t, rfl, a4⟩

theorem parse_true (p : Parser) (g : Gr) (s : PState) (h : g.run p.runes p.state = .ok (true, s)) :
    p.parse g = .ok (none, { p with state := s, tokens := s.tree.take s.tokenIndex }) := by
  unfold Parser.parse
  rw [h]

theorem parse_false (p : Parser) (g : Gr) (s : PState) (h : g.run p.runes p.state = .ok (false, s)) :
    p.parse g = .ok (some s.max, { p with state := s, tokens := s.tree }) := by
  unfold Parser.parse
  rw [h]

/-- Parsing from a reset parser whose array is not empty. -/
theorem parse_reset (p : Parser) (hp : 0 < p.state.tree.length) :
    (∀ x, Gr.first.derive 0 (runes p.buffer) = some x → ∃ q, p.reset.parse .first = .ok (none, q) ∧ q.buffer = p.buffer ∧ q.tokens = x.2.2.post) ∧
    (Gr.first.derive 0 (runes p.buffer) = none → ∃ q m, p.reset.parse .first = .ok (some m, q) ∧ q.buffer = p.buffer ∧
      parseM p.buffer = .error m) := by
  have hr := ran (runes p.buffer) (runes_no_end _) .first wf_first ⟨0, 0, p.state.tree, {}⟩ (Nat.zero_le _) (Nat.zero_le _) hp
  constructor
  · intro x hx
    obtain ⟨tree', a1, a2⟩ := hr.succeeds x hx
    refine ⟨_, parse_true _ _ _ a1, rfl, ?_⟩
    · have := a2.2.2
      simp only [Nat.zero_add, List.take_zero, List.nil_append] at this
      simp only [Nat.zero_add]
      exact this
  · intro hx
    obtain ⟨pos', i', tree', a1, a2⟩ := hr.fails hx
    refine ⟨_, _, parse_false _ _ _ a1, rfl, ?_⟩
    · simp only [List.drop_zero, pm_first]
      have h1 := pm_derive Gr.first 0 (runes p.buffer) {}
      rw [hx, pm_first] at h1
      unfold parseM
      rcases hq : PM.first 0 (runes p.buffer) {} with ⟨r, m⟩
      rw [hq] at h1
      simp only [Option.map_none] at h1
      subst h1
      rfl

end Ed
