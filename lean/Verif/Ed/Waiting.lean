import Verif.Ed.Arrival
import Verif.Go.Waiting

/-! # The editor answers every command that has been typed before it waits for more (C128) -/

namespace Ed
open Go

/-- ed.go:220-225: the lines of a block are added to the command, as `blockFrom`, while the input is still open: `none` if
the reader waits. -/
def blockLive : (rounds : Nat) → Scanner → (cmd : Bytes) → Option (Bytes × Scanner)
  | 0, _, _ => none
  | k + 1, s, cmd =>
    match s.scanLive true splitLines with
    | .waits _ => none
    | .over s1 => some (cmd, s1)
    | .token t s1 => if t = b!"." then some (cmd ++ nl :: t, s1) else blockLive k s1 (cmd ++ nl :: t)

/-- ed.go:215-226: the texts the loop over the scanner has given to the parser, as `textsFrom`, and the scanner at its end
unless the reader waits. -/
def textsLive : (rounds : Nat) → Scanner → List Bytes × Option Scanner
  | 0, _ => ([], none)
  | k + 1, s =>
    match s.scanLive true splitLines with
    | .waits _ => ([], none)
    | .over s1 => ([], some s1)
    | .token cmd s1 =>
      match (if isStart cmd then blockLive k s1 cmd else some (cmd, s1)) with
      | none => ([], none)
      | some b =>
        let r := textsLive k b.2
        (b.1 :: r.1, r.2)

/-- ed.go:213-246: the actions of the goroutine that reads, up to where it waits or to its end; and whether it waits. -/
def programLive (errText : Bytes → Bytes) (r : Source) : List Ev × Bool :=
  let x := textsLive (r.bytes.length + 2) (newScanner r)
  match x.2 with
  | none => (x.1.flatMap (eventsOf errText), true)
  | some s => (x.1.flatMap (eventsOf errText) ++ errorLine s.failure, false)

/-- ed.go:209-256: one step while the reader, when it has done these actions, waits in `Scan`: the channel is not
closed. -/
def OpenStep (env : Env) (a b : Sys) : Prop := Step env a b ∧ b.cons ≠ .finished

/-- Any number of such steps. -/
inductive OpenSteps (env : Env) : Sys → Sys → Prop
  | refl {a} : OpenSteps env a a
  | tail {a b c} : OpenSteps env a b → OpenStep env b c → OpenSteps env a c

/-- Nothing happens any more until more input arrives (if the process has not ended). -/
def Resting (env : Env) (st : Sys) : Prop := ∀ b, ¬ OpenStep env st b

/-! ## The specification -/

/-- Lines after which no block is open, and the lines of a block that has not been closed, if there is one. -/
structure Entered (whole unfinished : List Bytes) : Prop where
  closed : inBlock false (whole.map dropCR) = false
  block : unfinished = [] ∨ ∃ l rest, unfinished = l :: rest ∧ isStart (dropCR l) = true ∧ ∀ x ∈ rest, dropCR x ≠ b!"."

/-! ## Proofs -/

/-- Whatever lines have been typed are of that form. -/
theorem entered_exists : ∀ ls : List Bytes, ∃ whole unfinished, ls = whole ++ unfinished ∧ Entered whole unfinished := by
  have key : ∀ (ls : List Bytes),
      (∃ whole unfinished, ls = whole ++ unfinished ∧ Entered whole unfinished) ∧
      ((∃ whole unfinished, ls = whole ++ unfinished ∧ inBlock true (whole.map dropCR) = false ∧
        (unfinished = [] ∨ ∃ l rest, unfinished = l :: rest ∧ isStart (dropCR l) = true ∧ ∀ x ∈ rest, dropCR x ≠ b!".")) ∨
        ∀ x ∈ ls, dropCR x ≠ b!".") := by
    intro ls
    induction ls with
    | nil => exact ⟨⟨[], [], rfl, rfl, .inl rfl⟩, .inr (by simp)⟩
    | cons l ls ih =>
      obtain ⟨⟨w, u, e, h⟩, ih2⟩ := ih
      constructor
      · by_cases hs : isStart (dropCR l) = true
        · rcases ih2 with ⟨w', u', e', h1, h2⟩ | h
          · refine ⟨l :: w', u', by simp [e'], ?_, h2⟩
            simp only [List.map_cons, inBlock, hs]
            exact h1
          · exact ⟨[], l :: ls, rfl, rfl, .inr ⟨l, ls, rfl, hs, h⟩⟩
        · refine ⟨l :: w, u, by simp [e], ?_, h.block⟩
          simp only [List.map_cons, inBlock]
          rw [Bool.eq_false_iff.2 hs]
          exact h.closed
      · by_cases hd : dropCR l = b!"."
        · refine .inl ⟨l :: w, u, by simp [e], ?_, h.block⟩
          simp only [List.map_cons, inBlock, hd]
          exact h.closed
        · rcases ih2 with ⟨w', u', e', h1, h2⟩ | h
          · refine .inl ⟨l :: w', u', by simp [e'], ?_, h2⟩
            simp only [List.map_cons, inBlock]
            rw [beq_false_of_ne hd]
            exact h1
          · refine .inr ?_
            intro x hx
            rcases List.mem_cons.1 hx with rfl | hx
            · exact hd
            · exact h x hx
  exact fun ls => (key ls).1

theorem blockLive_waits : ∀ (ls : List Bytes) (k : Nat) (s : Scanner) (cmd part : Bytes), Fit ls → s.Sound →
    s.pending = withNewlines ls ++ part → nl ∉ part → part.length < maxToken → (∀ x ∈ ls, dropCR x ≠ b!".") → ls.length < k →
    blockLive k s cmd = none := by
  intro ls
  induction ls with
  | nil =>
    intro k s cmd part _ hs hp hn hl _ hk
    obtain ⟨k, rfl⟩ : ∃ m, k = m + 1 := ⟨k - 1, by simp at hk; omega⟩
    obtain ⟨s', e⟩ := (scan_live s hs).short (by rw [hp]; simpa [withNewlines] using hn) (by rw [hp]; simpa [withNewlines] using hl)
    rw [blockLive, e]
  | cons l ls ih =>
    intro k s cmd part hf hs hp hn hl hd hk
    obtain ⟨k, rfl⟩ : ∃ m, k = m + 1 := ⟨k - 1, by simp at hk; omega⟩
    rw [withNewlines_cons] at hp
    obtain ⟨s', e, a, b, -⟩ := (scan_live s hs).line l _ hp (hf l (by simp)).1 (hf l (by simp)).2
    rw [blockLive, e]
    simp only
    rw [if_neg (hd l (by simp))]
    exact ih k s' _ part (fun x hx => hf x (by simp [hx])) a b hn hl (fun x hx => hd x (by simp [hx])) (by simp at hk; omega)

/-- A block that is closed: what it is, and what is left. -/
theorem blockLive_closed : ∀ (ls : List Bytes) (k : Nat) (s : Scanner) (b : List Bytes) (rest : Bytes), b ≠ [] → Fit ls → s.Sound →
    s.pending = withNewlines ls ++ rest → inBlock true (ls.map dropCR) = false → ls.length < k →
    ∃ s' ls' t, blockLive k s (join [nl] b.reverse) = some (t, s') ∧ s'.Sound ∧ Fit ls' ∧
      s'.pending = withNewlines ls' ++ rest ∧ inBlock false (ls'.map dropCR) = false ∧ ls'.length < ls.length ∧
      groups (some b) (ls.map dropCR) = t :: groups none (ls'.map dropCR) := by
  intro ls
  induction ls with
  | nil => intro k s b rest _ _ _ _ h; cases h
  | cons l ls ih =>
    intro k s b rest hb hf hs hp hin hk
    obtain ⟨k, rfl⟩ : ∃ m, k = m + 1 := ⟨k - 1, by simp at hk; omega⟩
    rw [withNewlines_cons] at hp
    obtain ⟨s', e, a, c, -⟩ := (scan_live s hs).line l _ hp (hf l (by simp)).1 (hf l (by simp)).2
    have hf' : Fit ls := fun x hx => hf x (by simp [hx])
    rw [blockLive, e]
    simp only [List.map_cons, groups]
    simp only [List.map_cons, inBlock] at hin
    by_cases hd : dropCR l = b!"."
    · rw [if_pos hd, if_pos hd]
      rw [hd] at hin
      exact ⟨s', ls, _, rfl, a, hf', c, hin, by simp, by rw [join_more b _ hb]⟩
    · rw [if_neg hd, if_neg hd, ← join_more b _ hb]
      rw [beq_false_of_ne hd] at hin
      obtain ⟨s2, ls', t, h1, h2, h3, h4, h5, h6, h7⟩ := ih k s' (dropCR l :: b) rest (by simp) hf' a c hin (by simp at hk; omega)
      exact ⟨s2, ls', t, h1, h2, h3, h4, h5, by simp; omega, h7⟩

theorem textsLive_waits : ∀ (n : Nat) (whole unfinished : List Bytes) (k : Nat) (s : Scanner) (part : Bytes), whole.length ≤ n →
    Entered whole unfinished → Fit (whole ++ unfinished) → s.Sound → s.pending = withNewlines (whole ++ unfinished) ++ part → nl ∉ part →
    part.length < maxToken → (whole ++ unfinished).length < k →
    textsLive k s = (groups none (whole.map dropCR), none) := by
  intro n
  induction n with
  | zero =>
    intro whole unfinished k s part hwn h hf hs hp hn hl hk
    have : whole = [] := List.length_eq_zero_iff.1 (by omega)
    subst this
    obtain ⟨k, rfl⟩ : ∃ m, k = m + 1 := ⟨k - 1, by omega⟩
    rw [List.nil_append] at hf hp hk
    rcases h.block with rfl | ⟨l, rest, rfl, h1, h2⟩
    · obtain ⟨s', e⟩ := (scan_live s hs).short (by rw [hp]; simpa [withNewlines] using hn) (by rw [hp]; simpa [withNewlines] using hl)
      rw [textsLive, e]
      rfl
    · rw [withNewlines_cons] at hp
      obtain ⟨s', e, a, c, -⟩ := (scan_live s hs).line l _ hp (hf l (by simp)).1 (hf l (by simp)).2
      rw [textsLive, e]
      simp only
      rw [if_pos h1, blockLive_waits rest k s' _ part (fun x hx => hf x (by simp [hx])) a c hn hl h2 (by simp at hk; omega)]
      rfl
  | succ n ih =>
    intro whole unfinished k s part hwn h hf hs hp hn hl hk
    cases whole with
    | nil => exact ih [] unfinished k s part (by simp) h hf hs hp hn hl hk
    | cons l whole =>
      obtain ⟨k, rfl⟩ : ∃ m, k = m + 1 := ⟨k - 1, by omega⟩
      simp only [List.length_cons] at hwn
      rw [List.cons_append] at hp hf hk
      rw [withNewlines_cons] at hp
      obtain ⟨s', e, a, c, -⟩ := (scan_live s hs).line l _ hp (hf l (by simp)).1 (hf l (by simp)).2
      have hf' : Fit (whole ++ unfinished) := fun x hx => hf x (by rw [List.mem_cons]; exact .inr hx)
      have hcl := h.closed
      simp only [List.map_cons, inBlock] at hcl
      simp only [List.length_cons] at hk
      rw [textsLive, e]
      simp only [List.map_cons, groups]
      by_cases hst : isStart (dropCR l) = true
      · rw [if_pos hst, if_pos hst]
        rw [hst] at hcl
        have hsplit : withNewlines (whole ++ unfinished) ++ part = withNewlines whole ++ (withNewlines unfinished ++ part) := by
          simp [withNewlines]
        obtain ⟨s2, ls', t, h1, h2, h3, h4, h5, h6, h7⟩ := blockLive_closed whole k s' [dropCR l] (withNewlines unfinished ++ part) (by simp)
          (fun x hx => hf' x (List.mem_append.2 (.inl hx))) a (c.trans hsplit) hcl (by simp at hk; omega)
        have hj : join [nl] [dropCR l].reverse = dropCR l := by simp [join]
        rw [hj] at h1
        rw [h1]
        simp only
        rw [ih ls' unfinished k s2 part (by omega) ⟨h5, h.block⟩ (fun x hx => by
            rcases List.mem_append.1 hx with hx | hx
            · exact h3 x hx
            · exact hf' x (List.mem_append.2 (.inr hx))) h2 (by rw [h4]; simp [withNewlines]) hn hl (by simp at hk ⊢; omega)]
        rw [← h7]
      · rw [if_neg hst, if_neg hst]
        rw [Bool.eq_false_iff.2 hst] at hcl
        simp only
        rw [ih whole unfinished k s' part (by omega) ⟨hcl, h.block⟩ hf' a c hn hl (by omega)]

theorem rawLines_withNewlines : ∀ ls : List Bytes, (∀ l ∈ ls, nl ∉ l) → rawLines (withNewlines ls) = ls := by
  intro ls
  induction ls with
  | nil => intro _; rfl
  | cons l ls ih =>
    intro h
    have e := withNewlines_cons l ls []
    simp only [List.append_nil] at e
    rw [e, rawLines_cons_line l (h l (by simp)), ih (fun x hx => h x (by simp [hx]))]

theorem scanTokens_fit : ∀ ls : List Bytes, Fit ls → scanTokens ls = (ls.map dropCR, false) := by
  intro ls
  induction ls with
  | nil => intro _; rfl
  | cons l ls ih =>
    intro h
    rw [scanTokens, if_pos (h l (by simp)).2, ih (fun x hx => h x (by simp [hx]))]
    rfl

theorem program_fit (errText : Bytes → Bytes) (ls : List Bytes) (h : Fit ls) :
    program errText (withNewlines ls) = (groups none (ls.map dropCR)).flatMap (eventsOf errText) := by
  have e : scanLines (withNewlines ls) = (ls.map dropCR, false) := by
    rw [scanLines, rawLines_withNewlines ls (fun l hl => (h l hl).1), scanTokens_fit ls h]
  rw [program, texts_short (by rw [e]), e]
  simp [scanError]

/-- **C128** While the input is open, the reader has parsed and passed on every line and every block that is complete, and
nothing else; then it waits. This is what it would have done if the input had ended after those. -/
theorem C128_ed_reader (errText : Bytes → Bytes) (r : Source) (hl : r.Lively) (whole unfinished : List Bytes) (part : Bytes)
    (h : Entered whole unfinished) (hf : Fit (whole ++ unfinished)) (hr : r.bytes = withNewlines (whole ++ unfinished) ++ part)
    (hn : nl ∉ part) (hs : part.length < maxToken) : programLive errText r = (program errText (withNewlines whole), true) := by
  have hlen := withNewlines_length (whole ++ unfinished)
  have := textsLive_waits whole.length whole unfinished (r.bytes.length + 2) (newScanner r) part (Nat.le_refl _) h hf (new_sound hl) hr hn hs
    (by rw [hr]; simp at hlen ⊢; omega)
  rw [programLive, this, program_fit errText whole (fun l hl => hf l (List.mem_append.2 (.inl hl)))]

example : programLive (fun _ => []) { chunks := [b!"1p", b!"\na\nx\n.\n", b!"2a\ny\n.."] } =
    (program (fun _ => []) b!"1p\na\nx\n.\n", true) :=
  C128_ed_reader (fun _ => []) _ (by intro c hc; simp at hc; rcases hc with rfl | rfl | rfl <;> decide)
    [b!"1p", b!"a", b!"x", b!"."] [b!"2a", b!"y"] b!".." ⟨by decide +kernel, .inr ⟨b!"2a", [b!"y"], rfl, by decide +kernel, by decide +kernel⟩⟩
    (by intro l hl; simp at hl; rcases hl with rfl | rfl | rfl | rfl | rfl | rfl <;> decide) rfl (by decide) (by decide)

/-- **C128** The same for the command, which puts the command `e` for a file named on the command line in front of what is
typed. -/
theorem C128_ed_command (errText : Bytes → Bytes) (r : Source) (hl : r.Lively) (f : Bytes) (hfn : nl ∉ f) (hfl : f.length + 2 < maxToken)
    (whole unfinished : List Bytes) (part : Bytes) (h : Entered ((b!"e " ++ f) :: whole) unfinished) (hf : Fit (whole ++ unfinished))
    (hr : r.bytes = withNewlines (whole ++ unfinished) ++ part) (hn : nl ∉ part) (hs : part.length < maxToken) :
    programLive errText (inputFrom (some f) r) = (program errText (mainInput (some f) (withNewlines whole)), true) := by
  have e : mainInput (some f) (withNewlines whole) = withNewlines ((b!"e " ++ f) :: whole) := by
    simp [mainInput, withNewlines]
  rw [e]
  refine C128_ed_reader errText (inputFrom (some f) r) ?_ ((b!"e " ++ f) :: whole) unfinished part h ?_ ?_ hn hs
  · intro c hc
    simp only [inputFrom, List.mem_cons] at hc
    rcases hc with rfl | hc
    · simp
    · exact hl c hc
  · intro l hl
    rw [List.cons_append, List.mem_cons] at hl
    rcases hl with rfl | hl
    · refine ⟨?_, by simp; omega⟩
      intro hm
      rcases List.mem_append.1 hm with hm | hm
      · revert hm; decide
      · exact hfn hm
    · exact hf l hl
  · have : (inputFrom (some f) r).bytes = b!"e " ++ f ++ [nl] ++ r.bytes := by simp [inputFrom, Source.bytes]
    rw [this, hr]
    simp [withNewlines]

theorem OpenSteps.steps {env : Env} {a b : Sys} (h : OpenSteps env a b) : Steps env a b := by
  induction h with
  | refl => exact .refl
  | tail _ h2 ih => exact .tail ih h2.1

theorem resting_cases {env : Env} {st : Sys} (h : Resting env st) : (st.prog = [] ∧ st.cons = .idle) ∨ ∃ how, st.cons.ended = some how := by
  cases he : st.cons.ended with
  | some how => exact .inr ⟨how, rfl⟩
  | none =>
    obtain ⟨b, hb⟩ := (C69_no_deadlock env).2 st he
    have hc : b.cons = .finished := Decidable.byContradiction fun hc => h b ⟨hb, hc⟩
    left
    cases hb <;> first | exact ⟨rfl, rfl⟩ | (simp only at hc; simp_all [Cons.ended])

/-- **C128** The editor comes to rest without any more input, whatever the schedule; and then it has executed every
complete command and printed its result, or it has ended with `q` or a crash: it is where it would be if the input had
ended after the complete commands. -/
theorem C128_ed (env : Env) (errText : Bytes → Bytes) (s0 : State) (whole : List Bytes) :
    (∀ a b, OpenStep env a b → work b < work a) ∧
    ∀ st, OpenSteps env (initial errText s0 (withNewlines whole)) st → Resting env st →
      ∀ st' how, Steps env (initial errText s0 (withNewlines whole)) st' → st'.cons.ended = some how →
        st.ed = st'.ed ∧ results st.out = results st'.out ∧ (how = .finished → errors st.out = errors st'.out ∧ st.cons = .idle) ∧
        (how ≠ .finished → st.cons = st'.cons) := by
  refine ⟨fun a b h => (C69_no_deadlock env).1 a b h.1, ?_⟩
  intro st hst hrest st' how hst' hend'
  obtain ⟨e1, -, e3⟩ := C69_schedule_independent env errText s0 _ st' how hst' hend'
  have nofin : st.cons ≠ .finished := by
    suffices ∀ a, OpenSteps env a st → a.cons ≠ .finished → st.cons ≠ .finished from this _ hst (by simp [initial])
    intro a h ha
    cases h with
    | refl => exact ha
    | tail _ h2 => exact h2.2
  rcases resting_cases hrest with ⟨hp, hc⟩ | ⟨how2, hend⟩
  · obtain ⟨prog, cons, ed, out⟩ := st
    simp only at hp hc
    subst hp hc
    obtain ⟨q1, -, q3⟩ := C69_schedule_independent env errText s0 _ _ .finished (hst.steps.tail Step.closed) rfl
    rw [e1] at q1
    simp only [Prod.mk.injEq] at q1
    obtain ⟨rfl, q4, q5⟩ := q1
    exact ⟨q4.symm, q5.symm, fun _ => ⟨(q3 rfl).trans (e3 rfl).symm, rfl⟩, fun h => absurd rfl h⟩
  · obtain ⟨q1, -, -⟩ := C69_schedule_independent env errText s0 _ _ how2 hst.steps hend
    rw [e1] at q1
    simp only [Prod.mk.injEq] at q1
    obtain ⟨rfl, q4, q5⟩ := q1
    have key : ∀ (c c' : Cons), c.ended = some how → c'.ended = some how → c = c' := by
      intro c c' h1 h2
      cases c <;> cases c' <;> simp_all [Cons.ended] <;> (subst h1; simp_all)
    refine ⟨q4.symm, q5.symm, ?_, fun _ => key _ _ hend hend'⟩
    rintro rfl
    refine absurd ?_ nofin
    cases hc : st.cons <;> simp_all [Cons.ended]

/-- A run that comes to rest exists, and one that ends if the input ends does too. -/
example (env : Env) (errText : Bytes → Bytes) (s0 : State) (whole : List Bytes) :
    ∃ st' how, Steps env (initial errText s0 (withNewlines whole)) st' ∧ st'.cons.ended = some how :=
  C69_stops env _ _ (Nat.le_refl _)

/-- The editor does come to rest. -/
theorem C128_ed_rests (env : Env) : ∀ (n : Nat) (st : Sys), work st ≤ n → ∃ st', OpenSteps env st st' ∧ Resting env st' := by
  intro n
  induction n with
  | zero =>
    intro st h
    refine ⟨st, .refl, fun b hb => ?_⟩
    have := (C69_no_deadlock env).1 _ _ hb.1
    omega
  | succ n ih =>
    intro st h
    by_cases hr : Resting env st
    · exact ⟨st, .refl, hr⟩
    · obtain ⟨b, hb⟩ := Classical.not_forall.1 hr
      have hb := Classical.not_not.1 hb
      have := (C69_no_deadlock env).1 _ _ hb.1
      obtain ⟨st', h1, h2⟩ := ih b (by omega)
      refine ⟨st', ?_, h2⟩
      clear h2 ih this h hr
      induction h1 with
      | refl => exact .tail .refl hb
      | tail _ h3 ih => exact .tail ih h3

end Ed
