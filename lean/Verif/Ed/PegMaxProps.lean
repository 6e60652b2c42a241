import Verif.Ed.PegMax
import Verif.Ed.Process

/-! # C99: the message for a syntax error -/

namespace Ed
open Go

/-- The rules of the grammar by name. What a `PegText` token can span is listed under that name. -/
def grammar : List (Bytes × P) :=
  [(b!"sp", sp), (b!"newLine", newLine), (b!"offset", offsetR), (b!"basic_regex", basicRegex), (b!"back_regex", backRegex),
   (b!"literalAddr", literalAddr), (b!"markAddr", markAddr), (b!"regexAddr", regexAddr), (b!"regexReverseAddr", regexReverseAddr),
   (b!"addr", addr), (b!"addrO", addrO), (b!"startAddr", startAddr), (b!"endAddr", endAddr), (b!"range", range), (b!"rangeC", rangeC),
   (b!"rangeCmd", rangeCmd), (b!"addrC", addrC), (b!"addrCmd", addrCmd), (b!"bareCmd", bareCmd), (b!"param", param), (b!"paramC", paramC),
   (b!"paramCmd", paramCmd), (b!"changeTextC", changeTextC), (b!"addTextC", addTextC), (b!"destC", destC), (b!"textTerm", textTerm),
   (b!"text", text), (b!"changeTextCmd", changeTextCmd), (b!"addTextCmd", addTextCmd), (b!"markCmd", markCmd), (b!"destCmd", destCmd),
   (b!"readCmd", readCmd), (b!"writeCmd", writeCmd), (b!"shellCmd", shellCmd), (b!"nullCmd", nullCmd), (b!"cmd", cmd), (b!"e", e), (b!"first", first),
   (b!"PegText", plus (cls isDig)), (b!"PegText", addr ⬝ opt offsetR), (b!"PegText", startAddr), (b!"PegText", cls isLower), (b!"PegText", addrO),
   (b!"PegText", param), (b!"PegText", star (notP textTerm ⬝ dot))]

/-- Specification: the token of an error is the initial one, or a part of the buffer which the rule named accepts. -/
def Points (buf : List Nat) (m : MaxTok) : Prop :=
  m = {} ∨ (m.b < m.e ∧ m.e ≤ buf.length ∧ ∃ p t, (m.rule, p) ∈ grammar ∧ p m.b (buf.drop m.b) = some (m.e, buf.drop m.e, t))

/-- A rule with `max` does what the rule without does, and `max` keeps its meaning. -/
structure Good (pm : PM) (p : P) : Prop where
  erases : ∀ pos rs m, (pm pos rs m).1 = p pos rs
  keeps : ∀ buf pos m, pos ≤ buf.length → Points buf m → Points buf (pm pos (buf.drop pos) m).2
  moves : ∀ (buf : List Nat) pos x, pos ≤ buf.length → p pos (buf.drop pos) = some x → pos ≤ x.1 ∧ x.1 ≤ buf.length ∧ x.2.1 = buf.drop x.1
  grows : ∀ pos rs m, m.e ≤ (pm pos rs m).2.e

theorem good_cls (f : Nat → Bool) : Good (PM.cls f) (cls f) := by
  refine ⟨fun _ _ _ => rfl, fun _ _ _ _ h => h, ?_, fun _ _ _ => Nat.le_refl _⟩
  intro buf pos x hp h
  cases hd : buf.drop pos with
  | nil => rw [hd] at h; cases h
  | cons c rs =>
    rw [hd] at h
    simp only [cls] at h
    split at h
    · cases h
      have hlt : pos < buf.length := by
        apply Nat.lt_of_not_le; intro hle
        rw [List.drop_eq_nil_of_le hle] at hd; cases hd
      rw [List.drop_eq_getElem_cons hlt] at hd
      injection hd with _ h2
      exact ⟨Nat.le_succ _, hlt, h2.symm⟩
    · cases h

theorem good_chr (c : Nat) : Good (PM.chr c) (chr c) := good_cls _
theorem good_dot : Good PM.dot dot := good_cls _

theorem good_seq {pm qm : PM} {p q : P} (hp : Good pm p) (hq : Good qm q) : Good (PM.seq pm qm) (p ⬝ q) := by
  refine ⟨?_, ?_, ?_, ?_⟩
  · intro pos rs m
    have h1 := hp.erases pos rs m
    simp only [PM.seq, seq]
    rw [← h1]
    rcases pm pos rs m with ⟨_ | ⟨pos1, rs1, t1⟩, m1⟩
    · rfl
    · have h2 := hq.erases pos1 rs1 m1
      simp only
      rw [← h2]
      rcases qm pos1 rs1 m1 with ⟨_ | ⟨pos2, rs2, t2⟩, m2⟩ <;> rfl
  · intro buf pos m hpos hm
    have h1 := hp.erases pos (buf.drop pos) m
    have h2 := hp.keeps buf pos m hpos hm
    have h3 := hp.moves buf pos
    simp only [PM.seq]
    rcases hr : pm pos (buf.drop pos) m with ⟨_ | ⟨pos1, rs1, t1⟩, m1⟩
    · rw [hr] at h2; exact h2
    · rw [hr] at h1 h2
      obtain ⟨h4, h5, h6⟩ := h3 _ hpos h1.symm
      simp only at h4 h5 h6
      subst h6
      have h7 := hq.keeps buf pos1 m1 h5 h2
      simp only
      rcases hr2 : qm pos1 (buf.drop pos1) m1 with ⟨_ | ⟨pos2, rs2, t2⟩, m2⟩ <;> (rw [hr2] at h7; exact h7)
  · intro buf pos x hpos h
    simp only [seq] at h
    cases h1 : p pos (buf.drop pos) with
    | none => rw [h1] at h; cases h
    | some y =>
      obtain ⟨pos1, rs1, t1⟩ := y
      obtain ⟨h4, h5, h6⟩ := hp.moves buf pos _ hpos h1
      simp only at h4 h5 h6
      rw [h1, h6] at h
      simp only at h
      cases h2 : q pos1 (buf.drop pos1) with
      | none => rw [h2] at h; cases h
      | some z =>
        obtain ⟨h7, h8, h9⟩ := hq.moves buf pos1 _ h5 h2
        rw [h2] at h
        cases h
        exact ⟨Nat.le_trans h4 h7, h8, h9⟩
  · intro pos rs m
    have h1 := hp.grows pos rs m
    simp only [PM.seq]
    rcases hr : pm pos rs m with ⟨_ | ⟨pos1, rs1, t1⟩, m1⟩
    · rw [hr] at h1; exact h1
    · rw [hr] at h1
      have h2 := hq.grows pos1 rs1 m1
      simp only
      rcases hr2 : qm pos1 rs1 m1 with ⟨_ | ⟨pos2, rs2, t2⟩, m2⟩ <;> (rw [hr2] at h2; exact Nat.le_trans h1 h2)

theorem good_alt {pm qm : PM} {p q : P} (hp : Good pm p) (hq : Good qm q) : Good (PM.alt pm qm) (alt p q) := by
  refine ⟨?_, ?_, ?_, ?_⟩
  · intro pos rs m
    have h1 := hp.erases pos rs m
    simp only [PM.alt, alt]
    rw [← h1]
    rcases pm pos rs m with ⟨_ | r, m1⟩
    · exact hq.erases pos rs m1
    · rfl
  · intro buf pos m hpos hm
    have h2 := hp.keeps buf pos m hpos hm
    simp only [PM.alt]
    rcases hr : pm pos (buf.drop pos) m with ⟨_ | r, m1⟩
    · rw [hr] at h2; exact hq.keeps buf pos m1 hpos h2
    · rw [hr] at h2; exact h2
  · intro buf pos x hpos h
    simp only [alt] at h
    cases h1 : p pos (buf.drop pos) with
    | none => rw [h1] at h; exact hq.moves buf pos x hpos h
    | some y => rw [h1] at h; cases h; exact hp.moves buf pos _ hpos h1
  · intro pos rs m
    have h1 := hp.grows pos rs m
    simp only [PM.alt]
    rcases hr : pm pos rs m with ⟨_ | r, m1⟩
    · rw [hr] at h1; exact Nat.le_trans h1 (hq.grows pos rs m1)
    · rw [hr] at h1; exact h1

theorem good_opt {pm : PM} {p : P} (hp : Good pm p) : Good (PM.opt pm) (opt p) := by
  refine ⟨?_, ?_, ?_, ?_⟩
  · intro pos rs m
    have h1 := hp.erases pos rs m
    simp only [PM.opt, opt]
    rw [← h1]
    rcases pm pos rs m with ⟨_ | r, m1⟩ <;> rfl
  · intro buf pos m hpos hm
    have h2 := hp.keeps buf pos m hpos hm
    simp only [PM.opt]
    rcases hr : pm pos (buf.drop pos) m with ⟨_ | r, m1⟩ <;> (rw [hr] at h2; exact h2)
  · intro buf pos x hpos h
    simp only [opt] at h
    cases h1 : p pos (buf.drop pos) with
    | none => rw [h1] at h; cases h; exact ⟨Nat.le_refl _, hpos, rfl⟩
    | some y => rw [h1] at h; cases h; exact hp.moves buf pos _ hpos h1
  · intro pos rs m
    have h1 := hp.grows pos rs m
    simp only [PM.opt]
    rcases hr : pm pos rs m with ⟨_ | r, m1⟩ <;> (rw [hr] at h1; exact h1)

theorem good_not {pm : PM} {p : P} (hp : Good pm p) : Good (PM.notP pm) (notP p) := by
  refine ⟨?_, ?_, ?_, ?_⟩
  · intro pos rs m
    have h1 := hp.erases pos rs m
    simp only [PM.notP, notP]
    rw [← h1]
    rcases pm pos rs m with ⟨_ | r, m1⟩ <;> rfl
  · intro buf pos m hpos hm
    have h2 := hp.keeps buf pos m hpos hm
    simp only [PM.notP]
    rcases hr : pm pos (buf.drop pos) m with ⟨_ | r, m1⟩ <;> (rw [hr] at h2; exact h2)
  · intro buf pos x hpos h
    simp only [notP] at h
    cases h1 : p pos (buf.drop pos) with
    | none => rw [h1] at h; cases h; exact ⟨Nat.le_refl _, hpos, rfl⟩
    | some y => rw [h1] at h; cases h
  · intro pos rs m
    have h1 := hp.grows pos rs m
    simp only [PM.notP]
    rcases hr : pm pos rs m with ⟨_ | r, m1⟩ <;> (rw [hr] at h1; exact h1)

theorem starAux_erases {pm : PM} {p : P} (hp : Good pm p) (n pos : Nat) (rs : List Nat) (m : MaxTok) :
    (PM.starAux pm n pos rs m).1 = starAux p n pos rs := by
  induction n generalizing pos rs m with
  | zero => rfl
  | succ n ih =>
    have h1 := hp.erases pos rs m
    simp only [PM.starAux, starAux]
    rw [← h1]
    rcases pm pos rs m with ⟨_ | ⟨pos1, rs1, t1⟩, m1⟩
    · rfl
    · simp only [ih]

theorem good_star {pm : PM} {p : P} (hp : Good pm p) : Good (PM.star pm) (star p) := by
  refine ⟨fun pos rs m => by simp only [PM.star, star, starAux_erases hp], ?_, ?_, ?_⟩
  · intro buf pos m hpos hm
    simp only [PM.star]
    generalize (buf.drop pos).length + 1 = n
    induction n generalizing pos m with
    | zero => exact hm
    | succ n ih =>
      have h1 := hp.erases pos (buf.drop pos) m
      have h2 := hp.keeps buf pos m hpos hm
      have h3 := hp.moves buf pos
      simp only [PM.starAux]
      rcases hr : pm pos (buf.drop pos) m with ⟨_ | ⟨pos1, rs1, t1⟩, m1⟩
      · rw [hr] at h2; exact h2
      · rw [hr] at h1 h2
        obtain ⟨h4, h5, h6⟩ := h3 _ hpos h1.symm
        simp only at h4 h5 h6
        subst h6
        exact ih pos1 m1 h5 h2
  · intro buf pos x hpos h
    simp only [star, Option.some.injEq] at h
    generalize (buf.drop pos).length + 1 = n at h
    induction n generalizing pos x with
    | zero => cases h; exact ⟨Nat.le_refl _, hpos, rfl⟩
    | succ n ih =>
      simp only [starAux] at h
      cases h1 : p pos (buf.drop pos) with
      | none => rw [h1] at h; cases h; exact ⟨Nat.le_refl _, hpos, rfl⟩
      | some y =>
        obtain ⟨pos1, rs1, t1⟩ := y
        obtain ⟨h4, h5, h6⟩ := hp.moves buf pos _ hpos h1
        simp only at h4 h5 h6
        rw [h1, h6] at h
        simp only at h
        subst h
        obtain ⟨h7, h8, h9⟩ := ih pos1 _ h5 rfl
        exact ⟨Nat.le_trans h4 h7, h8, h9⟩
  · intro pos rs m
    simp only [PM.star]
    generalize rs.length + 1 = n
    induction n generalizing pos rs m with
    | zero => exact Nat.le_refl _
    | succ n ih =>
      have h1 := hp.grows pos rs m
      simp only [PM.starAux]
      rcases hr : pm pos rs m with ⟨_ | ⟨pos1, rs1, t1⟩, m1⟩
      · rw [hr] at h1; exact h1
      · rw [hr] at h1; exact Nat.le_trans h1 (ih pos1 rs1 m1)

theorem good_plus {pm : PM} {p : P} (hp : Good pm p) : Good (PM.plus pm) (plus p) := good_seq hp (good_star hp)

theorem good_act (n : Nat) : Good (PM.act n) (act n) :=
  ⟨fun _ _ _ => rfl, fun _ _ _ _ h => h, fun _ _ _ hpos h => by cases h; exact ⟨Nat.le_refl _, hpos, rfl⟩,
    fun _ _ _ => Nat.le_refl _⟩

theorem points_add {buf : List Nat} {m : MaxTok} (hm : Points buf m) {name : Bytes} {p : P} (hg : (name, p) ∈ grammar) {pos pos1 : Nat} {t : List Tok}
    (h : p pos (buf.drop pos) = some (pos1, buf.drop pos1, t)) (h1 : pos ≤ pos1) (h2 : pos1 ≤ buf.length) : Points buf (m.add name pos pos1) := by
  unfold MaxTok.add
  split
  · next hc => exact .inr ⟨by have := hc.1; simp only; omega, h2, p, t, hg, h⟩
  · exact hm

theorem add_grows (m : MaxTok) (name : Bytes) (b p : Nat) : m.e ≤ (m.add name b p).e := by
  unfold MaxTok.add
  split
  · next h => exact Nat.le_of_lt h.2
  · exact Nat.le_refl _

theorem good_rule (name : Bytes) {pm : PM} {p : P} (hg : (name, p) ∈ grammar) (hp : Good pm p) : Good (PM.rule name pm) p := by
  refine ⟨?_, ?_, hp.moves, ?_⟩
  · intro pos rs m
    have h1 := hp.erases pos rs m
    simp only [PM.rule]
    rw [← h1]
    rcases pm pos rs m with ⟨_ | ⟨pos1, rs1, t1⟩, m1⟩ <;> rfl
  · intro buf pos m hpos hm
    have h1 := hp.erases pos (buf.drop pos) m
    have h2 := hp.keeps buf pos m hpos hm
    simp only [PM.rule]
    rcases hr : pm pos (buf.drop pos) m with ⟨_ | ⟨pos1, rs1, t1⟩, m1⟩
    · rw [hr] at h2; exact h2
    · rw [hr] at h1 h2
      obtain ⟨h4, h5, h6⟩ := hp.moves buf pos _ hpos h1.symm
      simp only at h4 h5 h6
      subst h6
      exact points_add h2 hg h1.symm h4 h5
  · intro pos rs m
    have h1 := hp.grows pos rs m
    simp only [PM.rule]
    rcases hr : pm pos rs m with ⟨_ | ⟨pos1, rs1, t1⟩, m1⟩
    · rw [hr] at h1; exact h1
    · rw [hr] at h1; exact Nat.le_trans h1 (add_grows _ _ _ _)

theorem good_capture {pm : PM} {p : P} (hg : (b!"PegText", p) ∈ grammar) (hp : Good pm p) : Good (PM.capture pm) (capture p) := by
  refine ⟨?_, ?_, ?_, ?_⟩
  · intro pos rs m
    have h1 := hp.erases pos rs m
    simp only [PM.capture, capture]
    rw [← h1]
    rcases pm pos rs m with ⟨_ | ⟨pos1, rs1, t1⟩, m1⟩ <;> rfl
  · intro buf pos m hpos hm
    have h1 := hp.erases pos (buf.drop pos) m
    have h2 := hp.keeps buf pos m hpos hm
    simp only [PM.capture]
    rcases hr : pm pos (buf.drop pos) m with ⟨_ | ⟨pos1, rs1, t1⟩, m1⟩
    · rw [hr] at h2; exact h2
    · rw [hr] at h1 h2
      obtain ⟨h4, h5, h6⟩ := hp.moves buf pos _ hpos h1.symm
      simp only at h4 h5 h6
      subst h6
      exact points_add h2 hg h1.symm h4 h5
  · intro buf pos x hpos h
    simp only [capture] at h
    cases h1 : p pos (buf.drop pos) with
    | none => rw [h1] at h; cases h
    | some y =>
      obtain ⟨h4, h5, h6⟩ := hp.moves buf pos _ hpos h1
      rw [h1] at h; cases h
      exact ⟨h4, h5, h6⟩
  · intro pos rs m
    have h1 := hp.grows pos rs m
    simp only [PM.capture]
    rcases hr : pm pos rs m with ⟨_ | ⟨pos1, rs1, t1⟩, m1⟩
    · rw [hr] at h1; exact h1
    · rw [hr] at h1; exact Nat.le_trans h1 (add_grows _ _ _ _)

/-- Membership in the grammar. -/
macro "ing" : tactic => `(tactic| (unfold grammar; repeat (first | with_reducible exact List.mem_cons_self | apply List.mem_cons_of_mem)))

/-- One step through the shape of a rule. -/
macro "goodstep" : tactic => `(tactic| with_reducible (first
  | assumption | exact good_chr _ | exact good_dot | exact good_act _ | exact good_cls _
  | apply good_seq | apply good_alt | apply good_opt | apply good_not | apply good_plus | apply good_star))

theorem good_sp : Good PM.sp sp := good_rule _ (by ing) (good_plus (good_cls _))
theorem good_newLine : Good PM.newLine newLine := good_rule _ (by ing) (good_chr _)
theorem good_offset : Good PM.offsetR offsetR := good_rule _ (by ing) (by unfold offsetR; repeat goodstep)
theorem good_basicRegex : Good PM.basicRegex basicRegex := good_rule _ (by ing) (by unfold basicRegex; repeat goodstep)
theorem good_backRegex : Good PM.backRegex backRegex := good_rule _ (by ing) (by unfold backRegex; repeat goodstep)
theorem good_literalAddr : Good PM.literalAddr literalAddr :=
  good_rule _ (by ing) (good_seq (good_capture (by ing) (good_plus (good_cls _))) (good_act _))
theorem good_markAddr : Good PM.markAddr markAddr := good_rule _ (by ing) (by unfold markAddr; repeat goodstep)
theorem good_regexAddr : Good PM.regexAddr regexAddr :=
  good_rule _ (by ing) (by have := good_basicRegex; unfold regexAddr; repeat goodstep)
theorem good_regexReverseAddr : Good PM.regexReverseAddr regexReverseAddr :=
  good_rule _ (by ing) (by have := good_backRegex; unfold regexReverseAddr; repeat goodstep)
theorem good_addr : Good PM.addr addr :=
  good_rule _ (by ing) (by
    have := good_literalAddr; have := good_markAddr; have := good_regexAddr; have := good_regexReverseAddr
    unfold addr; repeat goodstep)
theorem good_addrO : Good PM.addrO addrO :=
  good_rule _ (by ing) (good_seq (good_capture (by ing) (good_seq good_addr (good_opt good_offset))) (good_act _))
theorem good_startAddr : Good PM.startAddr startAddr :=
  good_rule _ (by ing) (by have := good_sp; have := good_addrO; unfold startAddr; repeat goodstep)
theorem good_endAddr : Good PM.endAddr endAddr :=
  good_rule _ (by ing) (by have := good_sp; have := good_addrO; unfold endAddr; repeat goodstep)
theorem good_range : Good PM.range range :=
  good_rule _ (by ing) (by have := good_startAddr; have := good_endAddr; unfold range; repeat goodstep)
theorem good_rangeC : Good PM.rangeC rangeC := good_rule _ (by ing) (by unfold rangeC; repeat goodstep)
theorem good_rangeCmd : Good PM.rangeCmd rangeCmd :=
  good_rule _ (by ing) (by have := good_range; have := good_sp; have := good_rangeC; unfold rangeCmd; repeat goodstep)
theorem good_addrC : Good PM.addrC addrC := good_rule _ (by ing) (by unfold addrC; repeat goodstep)
theorem good_addrCmd : Good PM.addrCmd addrCmd :=
  good_rule _ (by ing) (by
    have := good_addrC; have : Good (PM.capture PM.startAddr) (capture startAddr) := good_capture (by ing) good_startAddr
    unfold addrCmd; repeat goodstep)
theorem good_bareCmd : Good PM.bareCmd bareCmd := good_rule _ (by ing) (by unfold bareCmd; repeat goodstep)
theorem good_param : Good PM.param param := good_rule _ (by ing) (by unfold param; repeat goodstep)
theorem good_paramC : Good PM.paramC paramC := good_rule _ (by ing) (by unfold paramC; repeat goodstep)
theorem good_cparam : Good (PM.capture PM.param) (capture param) := good_capture (by ing) good_param
theorem good_paramCmd : Good PM.paramCmd paramCmd :=
  good_rule _ (by ing) (by have := good_paramC; have := good_sp; have := good_cparam; unfold paramCmd; repeat goodstep)
theorem good_changeTextC : Good PM.changeTextC changeTextC := good_rule _ (by ing) (by unfold changeTextC; repeat goodstep)
theorem good_addTextC : Good PM.addTextC addTextC := good_rule _ (by ing) (by unfold addTextC; repeat goodstep)
theorem good_destC : Good PM.destC destC := good_rule _ (by ing) (by unfold destC; repeat goodstep)
theorem good_textTerm : Good PM.textTerm textTerm := good_rule _ (by ing) (by unfold textTerm; repeat goodstep)
theorem good_text : Good PM.text text :=
  good_rule _ (by ing) (by
    have := good_textTerm
    have : Good (PM.capture (PM.star (PM.seq (PM.notP PM.textTerm) PM.dot))) (capture (star (notP textTerm ⬝ dot))) :=
      good_capture (by ing) (good_star (good_seq (good_not good_textTerm) good_dot))
    unfold text; repeat goodstep)
theorem good_changeTextCmd : Good PM.changeTextCmd changeTextCmd :=
  good_rule _ (by ing) (by
    have := good_range; have := good_changeTextC; have := good_newLine; have := good_text
    unfold changeTextCmd; repeat goodstep)
theorem good_addTextCmd : Good PM.addTextCmd addTextCmd :=
  good_rule _ (by ing) (by
    have := good_startAddr; have := good_addTextC; have := good_newLine; have := good_text
    unfold addTextCmd; repeat goodstep)
theorem good_markCmd : Good PM.markCmd markCmd :=
  good_rule _ (by ing) (by
    have := good_startAddr; have : Good (PM.capture (PM.cls isLower)) (capture (cls isLower)) := good_capture (by ing) (good_cls _)
    unfold markCmd; repeat goodstep)
theorem good_destCmd : Good PM.destCmd destCmd :=
  good_rule _ (by ing) (by
    have := good_range; have := good_destC; have : Good (PM.capture PM.addrO) (capture addrO) := good_capture (by ing) good_addrO
    unfold destCmd; repeat goodstep)
theorem good_readCmd : Good PM.readCmd readCmd :=
  good_rule _ (by ing) (by
    have := good_startAddr; have := good_sp; have := good_cparam
    unfold readCmd; repeat goodstep)
theorem good_writeCmd : Good PM.writeCmd writeCmd :=
  good_rule _ (by ing) (by
    have := good_range; have := good_sp; have := good_cparam
    unfold writeCmd; repeat goodstep)
theorem good_shellCmd : Good PM.shellCmd shellCmd := good_rule _ (by ing) (by have := good_cparam; unfold shellCmd; repeat goodstep)
theorem good_nullCmd : Good PM.nullCmd nullCmd := good_rule _ (by ing) (by have := good_startAddr; unfold nullCmd; repeat goodstep)
theorem good_cmd : Good PM.cmd cmd :=
  good_rule _ (by ing) (by
    have := good_bareCmd; have := good_paramCmd; have := good_rangeCmd; have := good_addrCmd; have := good_changeTextCmd
    have := good_addTextCmd; have := good_markCmd; have := good_destCmd; have := good_readCmd; have := good_writeCmd
    have := good_shellCmd; have := good_nullCmd
    unfold cmd; repeat goodstep)
theorem good_e : Good PM.e e :=
  good_rule _ (by ing) (by have := good_sp; have := good_cmd; have := good_newLine; unfold e; repeat goodstep)
theorem good_first : Good PM.first first := good_rule _ (by ing) (by have := good_e; unfold first; repeat goodstep)

/-! ## Lines and columns -/

/-- Specification: the line of the rune with index `i`: one more than the number of newlines up to and including it. -/
def lineOf (rs : List Nat) (i : Nat) : Nat := 1 + (rs.take (i + 1)).count 10

/-- Specification: its column: how many runes there are after the last newline, up to and including it. -/
def columnOf (rs : List Nat) (i : Nat) : Nat := ((rs.take (i + 1)).reverse.takeWhile (· ≠ 10)).length

/-- The counters of `translatePositions` after some runes. -/
def counters (ls : Nat × Nat) (rs : List Nat) : Nat × Nat :=
  rs.foldl (fun ls c => if c = 10 then (ls.1 + 1, 0) else (ls.1, ls.2 + 1)) ls

theorem counters_cons (l s c : Nat) (rs : List Nat) :
    counters (l, s) (c :: rs) = counters (if c = 10 then l + 1 else l, if c = 10 then 0 else s + 1) rs := by
  simp only [counters, List.foldl_cons]
  split <;> rfl

theorem counters_spec (rs : List Nat) (i : Nat) : counters (1, 0) (rs.take (i + 1)) = (lineOf rs i, columnOf rs i) := by
  have key : ∀ xs : List Nat, counters (1, 0) xs.reverse = (1 + xs.count 10, (xs.takeWhile (· ≠ 10)).length) := by
    intro xs
    induction xs with
    | nil => rfl
    | cons c ys ih =>
      have : counters (1, 0) (c :: ys).reverse =
          (if c = 10 then ((counters (1, 0) ys.reverse).1 + 1, 0) else ((counters (1, 0) ys.reverse).1, (counters (1, 0) ys.reverse).2 + 1)) := by
        simp only [counters, List.reverse_cons, List.foldl_append, List.foldl_cons, List.foldl_nil]
      rw [this, ih]
      by_cases h : c = 10
      · subst h; simp; omega
      · simp [h]
  have := key (rs.take (i + 1)).reverse
  rw [List.reverse_reverse, List.count_reverse] at this
  exact this

theorem translate_one (q : Nat) : ∀ (rs : List Nat) (i l s : Nat), i ≤ q → q < i + rs.length →
    translate [q] i l s rs = [(q, counters (l, s) (rs.take (q - i + 1)))] := by
  intro rs
  induction rs with
  | nil => intro i l s h1 h2; simp at h2; omega
  | cons c rs ih =>
    intro i l s h1 h2
    simp only [translate]
    by_cases h : i = q
    · rw [if_pos h]
      subst h
      simp only [List.dropWhile_nil, if_true, Nat.sub_self, Nat.zero_add, List.take_succ_cons, List.take_zero, counters_cons]
      rfl
    · rw [if_neg h, ih _ _ _ (by omega) (by simp only [List.length_cons] at h2; omega)]
      have : q - i + 1 = (q - (i + 1) + 1) + 1 := by omega
      rw [this, List.take_succ_cons, counters_cons]

theorem translate_two (p q : Nat) (hpq : p ≤ q) : ∀ (rs : List Nat) (i l s : Nat), i ≤ p → q < i + rs.length →
    ∃ t, translate [p, q] i l s rs = (p, counters (l, s) (rs.take (p - i + 1))) :: t ∧
      (p = q ∨ t = [(q, counters (l, s) (rs.take (q - i + 1)))]) := by
  intro rs
  induction rs with
  | nil => intro i l s h1 h2; simp at h2; omega
  | cons c rs ih =>
    intro i l s h1 h2
    simp only [translate]
    by_cases h : i = p
    · rw [if_pos h]
      subst h
      by_cases hq : q = i
      · subst hq
        refine ⟨_, by simp only [Nat.sub_self, Nat.zero_add, List.take_succ_cons, List.take_zero, counters_cons]; rfl, .inl rfl⟩
      · have hr : [q].dropWhile (· = i) = [q] := by simp [List.dropWhile, hq]
        rw [hr, if_neg (List.cons_ne_nil _ _), translate_one q rs (i + 1) _ _ (by omega) (by simp only [List.length_cons] at h2; omega)]
        refine ⟨_, by simp only [Nat.sub_self, Nat.zero_add, List.take_succ_cons, List.take_zero, counters_cons]; rfl, .inr ?_⟩
        have : q - i + 1 = (q - (i + 1) + 1) + 1 := by omega
        rw [this, List.take_succ_cons, counters_cons]
    · rw [if_neg h]
      obtain ⟨t, h3, h4⟩ := ih (i + 1) (if c = 10 then l + 1 else l) (if c = 10 then 0 else s + 1) (by omega)
        (by simp only [List.length_cons] at h2; omega)
      have e : ∀ x, i + 1 ≤ x → x - i + 1 = (x - (i + 1) + 1) + 1 := by intros; omega
      refine ⟨t, ?_, ?_⟩
      · rw [h3, e p (by omega), List.take_succ_cons, counters_cons]
      · rw [e q (by omega), List.take_succ_cons, counters_cons]; exact h4

/-- Specification: the text of the message. -/
def Message (quote : Bytes → Bytes) (name : Bytes) (rs : List Nat) (b e : Nat) : Bytes :=
  b!"\nparse error near " ++ name ++ b!" (line " ++ natToDec (lineOf rs b) ++ b!" symbol " ++ natToDec (columnOf rs b) ++ b!" - line " ++
    natToDec (lineOf rs e) ++ b!" symbol " ++ natToDec (columnOf rs e) ++ b!"):\n" ++ quote (ofRunes ((rs.drop b).take (e - b))) ++ b!"\n"

theorem errorText_eq (quote : Bytes → Bytes) (buffer : Bytes) (m : MaxTok) (h1 : m.b ≤ m.e) (h2 : m.e ≤ (runes buffer).length) :
    errorText quote buffer m = .ok (Message quote m.rule (runes buffer ++ [endSymbol]) m.b m.e) := by
  have hl : m.e < (runes buffer ++ [endSymbol]).length := by simp; omega
  unfold errorText
  simp only
  rw [if_pos h1, if_pos ⟨h1, by omega⟩]
  obtain ⟨t, h3, h4⟩ := translate_two m.b m.e h1 (runes buffer ++ [endSymbol]) 0 1 0 (by omega) (by omega)
  simp only [Nat.sub_zero, counters_spec] at h3 h4
  have hb : position (translate [m.b, m.e] 0 1 0 (runes buffer ++ [endSymbol])) m.b =
      (lineOf (runes buffer ++ [endSymbol]) m.b, columnOf (runes buffer ++ [endSymbol]) m.b) := by
    rw [h3]; simp [position, List.lookup]
  have he : position (translate [m.b, m.e] 0 1 0 (runes buffer ++ [endSymbol])) m.e =
      (lineOf (runes buffer ++ [endSymbol]) m.e, columnOf (runes buffer ++ [endSymbol]) m.e) := by
    rw [h3]
    by_cases hbe : m.e = m.b
    · rw [hbe]; simp [position, List.lookup]
    · rcases h4 with h4 | h4
      · exact absurd h4.symm hbe
      · rw [h4]
        have : (m.e == m.b) = false := by simpa using hbe
        simp [position, List.lookup, this]
  rw [hb, he]
  rfl

/-- The message the reader writes for a text: `err.Error()` in ed.go:235. (Empty where there is no error, or if making it
panicked; `C99_message` shows it does not.) -/
def messageOf (quote : Bytes → Bytes) (buffer : Bytes) : Bytes :=
  match parseM buffer with
  | .ok _ => []
  | .error m => match errorText quote buffer m with
    | .ok t => t
    | .error _ => []

/-- The rules with `max` parse like those without. -/
theorem parseM_parse (buffer : Bytes) : (parseM buffer).toOption = parse buffer := by
  have h := good_first.erases 0 (runes buffer) {}
  unfold parseM parse
  rw [← h]
  rcases PM.first 0 (runes buffer) {} with ⟨_ | r, m⟩ <;> rfl

/-- **C99** Reporting a syntax error never panics. The message names a rule and the positions of a part of the typed
text, which it quotes; the part is one the rule named accepts, unless nothing at all was accepted: then the
message says so (`Unknown`) and points at the beginning. -/
theorem C99_message (quote : Bytes → Bytes) (buffer : Bytes) (h : parse buffer = none) :
    ∃ name b e, parseM buffer = .error ⟨name, b, e⟩ ∧ b ≤ e ∧ e ≤ (runes buffer).length ∧
      errorText quote buffer ⟨name, b, e⟩ = .ok (messageOf quote buffer) ∧
      messageOf quote buffer = Message quote name (runes buffer ++ [endSymbol]) b e ∧
      ((name = b!"Unknown" ∧ b = 0 ∧ e = 0) ∨
        (b < e ∧ ∃ p t, (name, p) ∈ grammar ∧ p b ((runes buffer).drop b) = some (e, (runes buffer).drop e, t))) := by
  have hp := parseM_parse buffer
  rw [h] at hp
  cases hm : parseM buffer with
  | ok r => rw [hm] at hp; cases hp
  | error m =>
    have hk := good_first.keeps (runes buffer) 0 {} (Nat.zero_le _) (.inl rfl)
    have hm2 : (PM.first 0 ((runes buffer).drop 0) {}).2 = m := by
      unfold parseM at hm
      rw [List.drop_zero]
      rcases hr : PM.first 0 (runes buffer) {} with ⟨_ | r, m'⟩
      · rw [hr] at hm; injection hm
      · rw [hr] at hm; cases hm
    rw [hm2] at hk
    have hb : m.b ≤ m.e ∧ m.e ≤ (runes buffer).length := by
      rcases hk with rfl | ⟨h1, h2, _⟩
      · exact ⟨Nat.le_refl _, Nat.zero_le _⟩
      · exact ⟨Nat.le_of_lt h1, h2⟩
    have he := errorText_eq quote buffer m hb.1 hb.2
    have hmsg : messageOf quote buffer = Message quote m.rule (runes buffer ++ [endSymbol]) m.b m.e := by
      unfold messageOf
      rw [hm]
      dsimp only
      rw [he]
    refine ⟨m.rule, m.b, m.e, rfl, hb.1, hb.2, ?_, hmsg, ?_⟩
    · rw [hmsg]; exact he
    · rcases hk with rfl | ⟨h1, h2, h3⟩
      · exact .inl ⟨rfl, rfl, rfl⟩
      · exact .inr ⟨h1, h3⟩

/-- **C99** What was accepted as complete commands before the error lies before the end of the part quoted. -/
theorem C99_after (buffer : Bytes) {m : MaxTok} (h : parseM buffer = .error m) {k : Nat} {rest : List Nat} {toks : List Tok}
    (hk : star e 0 (runes buffer) = some (k, rest, toks)) : k ≤ m.e := by
  have key : ∀ (n pos : Nat) (rs : List Nat) (m : MaxTok), pos ≤ m.e → (PM.starAux PM.e n pos rs m).1.1 ≤ (PM.starAux PM.e n pos rs m).2.e := by
    intro n
    induction n with
    | zero => intro pos rs m h; exact h
    | succ n ih =>
      intro pos rs m hle
      have hg := good_e.grows pos rs m
      simp only [PM.starAux]
      have hs : ∀ x, (PM.e pos rs m).1 = some x → x.1 ≤ (PM.e pos rs m).2.e := by
        intro x hx
        unfold PM.e PM.rule at hx hg ⊢
        generalize hb : (PM.seq (PM.star PM.sp) (PM.seq PM.cmd (PM.seq (PM.star PM.sp) (PM.seq PM.newLine (PM.act 1))))) pos rs m = r at hx hg ⊢
        have hgr := (good_seq (good_star good_sp) (good_seq good_cmd (good_seq (good_star good_sp) (good_seq good_newLine (good_act 1))))).grows pos rs m
        rw [hb] at hgr
        obtain ⟨_ | ⟨pos1, rs1, t1⟩, m1⟩ := r
        · cases hx
        · cases hx
          simp only [MaxTok.add] at hgr ⊢
          split
          · exact Nat.le_refl _
          · next hc =>
            by_cases hp : pos = pos1
            · omega
            · have : ¬ pos1 > m1.e := fun hlt => hc ⟨hp, hlt⟩
              omega
      rcases hr : PM.e pos rs m with ⟨_ | ⟨pos1, rs1, t1⟩, m1⟩
      · rw [hr] at hg; simp only at hg ⊢; omega
      · have := hs (pos1, rs1, t1) (by rw [hr])
        rw [hr] at this
        exact ih pos1 rs1 m1 this
  have h0 := key ((runes buffer).length + 1) 0 (runes buffer) {} (Nat.le_refl _)
  rw [starAux_erases good_e] at h0
  simp only [star, Option.some.injEq] at hk
  rw [hk] at h0
  refine Nat.le_trans h0 ?_
  have hg := (good_seq (good_not good_dot) (good_act 0)).grows
  have hm : m = (PM.seq (PM.star PM.e) (PM.seq (PM.notP PM.dot) (PM.act 0)) 0 (runes buffer) {}).2 := by
    unfold parseM PM.first PM.rule at h
    generalize PM.seq (PM.star PM.e) (PM.seq (PM.notP PM.dot) (PM.act 0)) 0 (runes buffer) {} = r at h ⊢
    obtain ⟨_ | ⟨pos1, rs1, t1⟩, m1⟩ := r
    · simp only at h; injection h with h; exact h.symm
    · simp only at h; cases h
  rw [hm]
  generalize hq : PM.seq (PM.notP PM.dot) (PM.act 0) = q at hg ⊢
  simp only [PM.seq, PM.star]
  generalize PM.starAux PM.e ((runes buffer).length + 1) 0 (runes buffer) {} = r
  obtain ⟨⟨pos1, rs1, t1⟩, m1⟩ := r
  have := hg pos1 rs1 m1
  simp only
  rcases hr : q pos1 rs1 m1 with ⟨_ | ⟨pos2, rs2, t2⟩, m2⟩ <;> (rw [hr] at this; exact this)

/-- The runes a command can start with. -/
def starters : List Nat := [104, 72, 80, 113, 81, 117, 101, 69, 102, 100, 106, 108, 110, 112, 61, 99, 97, 105, 107, 109, 116, 114, 119, 33,
  48, 49, 50, 51, 52, 53, 54, 55, 56, 57, 39, 47, 63, 46, 36, 44, 59, 32, 9, 10]

/-- A rule that fails at once on a text starting with `c`. -/
def Dies (c : Nat) (pm : PM) : Prop := ∀ pos rs m, pm pos (c :: rs) m = (none, m)

/-- A rule that accepts nothing of a text starting with `c`. -/
def Idle (c : Nat) (pm : PM) : Prop := ∀ pos rs m, pm pos (c :: rs) m = (some (pos, c :: rs, []), m)

section
variable {c : Nat} {p q : PM}

theorem dies_cls {f : Nat → Bool} (h : f c = false) : Dies c (PM.cls f) := fun pos rs m => by simp [PM.cls, cls, h]
theorem dies_chr {k : Nat} (h : c ≠ k) : Dies c (PM.chr k) := dies_cls (by simpa using h)
theorem dies_seq (h : Dies c p) : Dies c (PM.seq p q) := fun pos rs m => by simp only [PM.seq, h pos rs m]
theorem dies_seq_idle (h : Idle c p) (h2 : Dies c q) : Dies c (PM.seq p q) := fun pos rs m => by
  simp only [PM.seq, h pos rs m, h2 pos rs m]
theorem dies_alt (h : Dies c p) (h2 : Dies c q) : Dies c (PM.alt p q) := fun pos rs m => by simp only [PM.alt, h pos rs m, h2 pos rs m]
theorem idle_alt (h : Dies c p) (h2 : Idle c q) : Idle c (PM.alt p q) := fun pos rs m => by simp only [PM.alt, h pos rs m, h2 pos rs m]
theorem dies_rule {name : Bytes} (h : Dies c p) : Dies c (PM.rule name p) := fun pos rs m => by simp only [PM.rule, h pos rs m]
theorem idle_rule {name : Bytes} (h : Idle c p) : Idle c (PM.rule name p) := fun pos rs m => by
  simp only [PM.rule, h pos rs m, MaxTok.add, ne_eq, not_true_eq_false, false_and, if_false]
theorem dies_capture (h : Dies c p) : Dies c (PM.capture p) := fun pos rs m => by simp only [PM.capture, h pos rs m]
theorem idle_opt (h : Dies c p) : Idle c (PM.opt p) := fun pos rs m => by simp only [PM.opt, h pos rs m]
theorem idle_star (h : Dies c p) : Idle c (PM.star p) := fun pos rs m => by
  simp only [PM.star, PM.starAux, h pos rs m]
theorem dies_plus (h : Dies c p) : Dies c (PM.plus p) := dies_seq h
end

/-- One step through a rule that fails. -/
macro "diestep" : tactic => `(tactic| with_reducible (first
  | assumption | (apply dies_chr; assumption) | apply dies_alt | apply dies_rule | apply dies_capture | apply dies_plus
  | (apply dies_seq_idle; focus (first | (apply idle_opt; assumption) | (apply idle_star; assumption))) | apply dies_seq))

theorem first_unknown (c : Nat) (hc : c ∉ starters) (rs : List Nat) : PM.first 0 (c :: rs) {} = (none, {}) := by
  simp only [starters, List.mem_cons, List.not_mem_nil, or_false, not_or] at hc
  obtain ⟨h1, h2, h3, h4, h5, h6, h7, h8, h9, h10, h11, h12, h13, h14, h15, h16, h17, h18, h19, h20, h21, h22, h23, h24, d0, d1, d2, d3, d4, d5, d6, d7, d8, d9,
    a1, a2, a3, a4, a5, a6, a7, s1, s2, n⟩ := hc
  have hdig : isDig c = false := by
    simp only [isDig, Bool.and_eq_false_iff, decide_eq_false_iff_not]
    omega
  have cdig : Dies c (PM.cls isDig) := dies_cls hdig
  have hsp : Dies c PM.sp := dies_rule (dies_plus (dies_cls (by simp [s1, s2])))
  have hnl : Dies c PM.newLine := dies_rule (dies_chr n)
  have haddr : Dies c PM.addr := by
    unfold PM.addr PM.literalAddr PM.markAddr PM.regexAddr PM.regexReverseAddr
    repeat diestep
  have haddrO : Dies c PM.addrO := by unfold PM.addrO; repeat diestep
  have hstart : Dies c PM.startAddr := by unfold PM.startAddr; repeat diestep
  have hrange : Dies c PM.range := by unfold PM.range; repeat diestep
  have hrangeC : Dies c PM.rangeC := by unfold PM.rangeC; repeat diestep
  have hrc : Dies c PM.rangeCmd :=
    dies_rule (dies_seq_idle (idle_opt hrange) (dies_seq_idle (idle_star hsp) hrangeC))
  have haddrC : Dies c PM.addrC := by unfold PM.addrC; repeat diestep
  have hac : Dies c PM.addrCmd := by unfold PM.addrCmd; repeat diestep
  have hb : Dies c PM.bareCmd := by unfold PM.bareCmd; repeat diestep
  have hpC : Dies c PM.paramC := by unfold PM.paramC; repeat diestep
  have hp : Dies c PM.paramCmd := by unfold PM.paramCmd; repeat diestep
  have hct : Dies c PM.changeTextC := by unfold PM.changeTextC; repeat diestep
  have hat : Dies c PM.addTextC := by unfold PM.addTextC; repeat diestep
  have hdC : Dies c PM.destC := by unfold PM.destC; repeat diestep
  have hctc : Dies c PM.changeTextCmd := dies_rule (dies_seq_idle (idle_opt hrange) (dies_seq hct))
  have hatc : Dies c PM.addTextCmd := dies_rule (dies_seq_idle (idle_opt hstart) (dies_seq hat))
  have hmk : Dies c PM.markCmd := dies_rule (dies_seq_idle (idle_opt hstart) (dies_seq (dies_chr h19)))
  have hd : Dies c PM.destCmd := dies_rule (dies_seq_idle (idle_opt hrange) (dies_seq hdC))
  have hrd : Dies c PM.readCmd := dies_rule (dies_seq_idle (idle_opt hstart) (dies_seq (dies_chr h22)))
  have hw : Dies c PM.writeCmd := dies_rule (dies_alt (dies_seq_idle (idle_opt hrange) (dies_seq (dies_chr h23))) (dies_seq_idle (idle_opt hrange) (dies_seq (dies_chr h23))))
  have hsh : Dies c PM.shellCmd := dies_rule (dies_seq (dies_chr h24))
  have hnull : Idle c PM.nullCmd := idle_rule (idle_opt hstart)
  have hcmd : Idle c PM.cmd :=
    idle_rule (idle_alt hb (idle_alt hp (idle_alt hrc (idle_alt hac (idle_alt hctc (idle_alt hatc (idle_alt hmk (idle_alt hd
      (idle_alt hrd (idle_alt hw (idle_alt hsh hnull)))))))))))
  have he : Dies c PM.e :=
    dies_rule (dies_seq_idle (idle_star hsp) (dies_seq_idle hcmd (dies_seq_idle (idle_star hsp) (dies_seq hnl))))
  have hdot : Dies c (PM.notP PM.dot) := fun pos rs m => rfl
  exact dies_rule (dies_seq_idle (idle_star he) (dies_seq hdot)) 0 rs {}

/-- **C99** A text that starts with something no command starts with is refused with a message that points at its
beginning. -/
theorem C99_unknown (quote : Bytes → Bytes) (buffer : Bytes) (c : Nat) (rs : List Nat) (hr : runes buffer = c :: rs) (hc : c ∉ starters) :
    parse buffer = none ∧ messageOf quote buffer = b!"\nparse error near Unknown (line 1 symbol 1 - line 1 symbol 1):\n" ++ quote [] ++ b!"\n" := by
  have hm : parseM buffer = .error {} := by
    unfold parseM
    rw [hr, first_unknown c hc]
  have hp : parse buffer = none := by rw [← parseM_parse, hm]; rfl
  refine ⟨hp, ?_⟩
  obtain ⟨name, b, e, h1, -, -, -, h2, -⟩ := C99_message quote buffer hp
  rw [hm] at h1
  cases h1
  rw [h2, hr]
  have h10 : c ≠ 10 := fun h => hc (by rw [h]; decide)
  have hl : lineOf (c :: rs ++ [endSymbol]) 0 = 1 := by simp [lineOf, h10]
  have hcol : columnOf (c :: rs ++ [endSymbol]) 0 = 1 := by simp [columnOf, h10]
  have h1 : natToDec 1 = b!"1" := by decide
  simp only [Message, hl, hcol, h1, Nat.sub_self, List.take_zero]
  simp [ofRunes]

/-- **C99** Every report the editor writes is a question mark and the message for one of the texts typed, which is one that
does not parse. -/
theorem C99_reported (quote : Bytes → Bytes) (input msg : Bytes) (h : Ev.report msg ∈ program (messageOf quote) input) :
    ∃ t ∈ texts input, parse (t ++ [nl]) = none ∧ msg = 63 :: messageOf quote (t ++ [nl]) ++ [nl] := by
  simp only [program, List.mem_append, List.mem_flatMap] at h
  rcases h with ⟨t, ht, h⟩ | h
  · refine ⟨t, ht, ?_⟩
    simp only [eventsOf, parseEmits] at h
    cases hp : parse (t ++ [nl]) with
    | none => rw [hp] at h; simpa using h
    | some toks =>
      rw [hp] at h
      simp only [Option.map_some, List.mem_map] at h
      obtain ⟨x, _, hx⟩ := h
      cases x <;> cases hx
  · simp only [scanError] at h
    split at h <;> simp at h

/-! ## Cases -/

example : parse b!"x\n" = none ∧
    messageOf id b!"x\n" = b!"\nparse error near Unknown (line 1 symbol 1 - line 1 symbol 1):\n" ++ id [] ++ b!"\n" :=
  C99_unknown id b!"x\n" 120 [10] rfl (by decide)

example : messageOf id b!"1,2x\n" = b!"\nparse error near PegText (line 1 symbol 3 - line 1 symbol 4):\n2\n" := by decide +kernel

example : Ev.report b!"?\nparse error near rangeC (line 1 symbol 1 - line 1 symbol 2):\np\n\n" ∈ program (messageOf id) b!"pp\n" := by
  decide +kernel

example : star e 0 (runes b!"p\nx\n") = some (2, [120, 10], [.act 44, .act 1]) := by decide +kernel

example : (parseM b!"p\nx\n").toOption = none ∧ messageOf id b!"p\nx\n" = b!"\nparse error near newLine (line 2 symbol 0 - line 2 symbol 1):\n\n\n" := by
  decide +kernel

end Ed
