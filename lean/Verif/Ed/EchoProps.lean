import Verif.Ed.PegProps
import Verif.Ed.ProcessProps

/-!
# What `Execute` prints

Every text block is printed on standard output before its command is sent, and nothing else is printed.
-/

namespace Ed
open Go

/-- The commands that come with a text block. -/
def CmdType.hasText : CmdType → Bool
  | .append => true
  | .insert => true
  | .change => true
  | _ => false

/-- What is printed for a command before it is sent: its text if it has a text block. -/
def echo (c : Command) : List Emit := if c.typ.hasText then [.show c.text] else []

/-- What is printed for a command, then the command. -/
def echoed (c : Command) : List Emit := echo c ++ [.send c]

/-- Tokens that neither send nor print, and set no type of a command with a text block. -/
def Still (t : List Tok) : Prop :=
  Tok.act 1 ∉ t ∧ Tok.act 8 ∉ t ∧ Tok.act 37 ∉ t ∧ Tok.act 38 ∉ t ∧ Tok.act 39 ∉ t

theorem Still.mono : Mono Still := by
  refine ⟨by simp [Still], fun a b h1 h2 => ?_⟩
  simp only [Still, List.mem_append, not_or] at *
  exact ⟨⟨h1.1, h2.1⟩, ⟨h1.2.1, h2.2.1⟩, ⟨h1.2.2.1, h2.2.2.1⟩, ⟨h1.2.2.2.1, h2.2.2.2.1⟩, ⟨h1.2.2.2.2, h2.2.2.2.2⟩⟩

theorem Still.act {n : Nat} (h : n ≠ 1 ∧ n ≠ 8 ∧ n ≠ 37 ∧ n ≠ 38 ∧ n ≠ 39) : Still [.act n] := by
  simp only [Still, List.mem_singleton, Tok.act.injEq]; omega

theorem Still.capture (t : List Tok) (b e : Nat) (h : Still t) : Still (t ++ [.pegText b e]) := by
  simp only [Still, List.mem_append, List.mem_singleton, reduceCtorEq, or_false] at *; exact h

/-- The tokens of one command: without a text block, or with the letter of a text block and then the block. -/
def Tidy (t : List Tok) : Prop :=
  Still t ∨ ∃ h k b e, t = h ++ [.act k, .pegText b e, .act 8] ∧ Still h ∧ (k = 37 ∨ k = 38 ∨ k = 39)

/-- Nothing is asked of the input. -/
def Any (_ : List Nat) : Prop := True

theorem Any.mono : Mono Any := ⟨trivial, fun _ _ _ _ => trivial⟩

section rules
variable {T : List Tok → Prop} (m : Mono T)
include m

theorem seqA {p q : P} (hp : Runs Any T p) (hq : Runs Any T q) : Runs Any T (p ⬝ q) := Runs.seq hp hq Any.mono.app m.app
theorem starA {p : P} (hp : Runs Any T p) : Runs Any T (star p) := Runs.star hp Any.mono m
theorem plusA {p : P} (hp : Runs Any T p) : Runs Any T (plus p) := seqA m hp (starA m hp)
theorem clsA {f : Nat → Bool} : Runs Any T (cls f) := Runs.cls (fun _ _ => trivial) m.nil
theorem chrA {c : Nat} : Runs Any T (chr c) := clsA m
theorem optA {p : P} (hp : Runs Any T p) : Runs Any T (opt p) := Runs.opt hp trivial m.nil
theorem notDotA {p : P} : Runs Any T (notP p ⬝ dot) := Runs.notDot (fun _ _ _ _ => trivial) m.nil
theorem spA : Runs Any T sp := plusA m (clsA m)
theorem spsA : Runs Any T (star sp) := starA m (spA m)
theorem paramA : Runs Any T param := plusA m (notDotA m)
theorem regexA {d : Nat} : Runs Any T (plus ((chr 92 ⬝ chr d) / (notP (chr 10 / chr d) ⬝ dot))) :=
  plusA m (Runs.alt (seqA m (chrA m) (chrA m)) (notDotA m))

end rules

private theorem st {n : Nat} (h : n ≠ 1 ∧ n ≠ 8 ∧ n ≠ 37 ∧ n ≠ 38 ∧ n ≠ 39) : Runs Any Still (act n) := Runs.act trivial (Still.act h)
private theorem lt {c n : Nat} (h : n ≠ 1 ∧ n ≠ 8 ∧ n ≠ 37 ∧ n ≠ 38 ∧ n ≠ 39) : Runs Any Still (chr c ⬝ act n) :=
  seqA Still.mono (chrA Still.mono) (st h)

theorem addr_still : Runs Any Still addr := by
  have m := Still.mono
  refine Runs.alt (seqA m (Runs.capture (plusA m (clsA m)) Still.capture) (st (by decide))) ?_
  refine Runs.alt (seqA m (chrA m) (seqA m (clsA m) (st (by decide)))) ?_
  refine Runs.alt (seqA m (chrA m) (seqA m (regexA m) (seqA m (chrA m) (st (by decide))))) ?_
  refine Runs.alt (seqA m (chrA m) (seqA m (regexA m) (seqA m (chrA m) (st (by decide))))) ?_
  exact Runs.alt (seqA m (chrA m) (st (by decide))) (seqA m (chrA m) (st (by decide)))

theorem addrO_still : Runs Any Still addrO := by
  have m := Still.mono
  exact seqA m (Runs.capture (seqA m addr_still (optA m (seqA m (clsA m) (starA m (clsA m))))) Still.capture) (st (by decide))

theorem startAddr_still : Runs Any Still startAddr := by
  have m := Still.mono
  exact seqA m (spsA m) (seqA m addrO_still (seqA m (spsA m) (st (by decide))))

theorem endAddr_still : Runs Any Still endAddr := by
  have m := Still.mono
  exact seqA m (spsA m) (seqA m addrO_still (seqA m (spsA m) (st (by decide))))

theorem range_still : Runs Any Still range := by
  have m := Still.mono
  have s := startAddr_still
  have e := endAddr_still
  refine Runs.alt (seqA m s (seqA m (chrA m) e)) ?_
  refine Runs.alt (seqA m s (seqA m (chrA m) (st (by decide)))) ?_
  refine Runs.alt (seqA m (chrA m) (seqA m e (st (by decide)))) ?_
  refine Runs.alt (seqA m s (seqA m (chrA m) e)) ?_
  refine Runs.alt (seqA m s (seqA m (chrA m) (st (by decide)))) ?_
  refine Runs.alt (seqA m (chrA m) (seqA m e (st (by decide)))) ?_
  refine Runs.alt (seqA m s (st (by decide))) ?_
  exact Runs.alt (seqA m (chrA m) (st (by decide))) (seqA m (chrA m) (st (by decide)))

/-- The tokens of a text block. -/
theorem text_tokens : Runs Any (fun t => ∃ b e, t = [.pegText b e, .act 8]) text := by
  have mN : Mono (fun t : List Tok => t = []) := ⟨rfl, fun a b ha hb => by rw [ha, hb]; rfl⟩
  have h1 : Runs Any (fun t => t = []) (star (notP textTerm ⬝ dot)) := starA mN (notDotA mN)
  have h2 : Runs Any (fun t => ∃ b e, t = [Tok.pegText b e]) (capture (star (notP textTerm ⬝ dot))) := by
    intro pos rs pos' rs' t h
    simp only [Ed.capture] at h
    cases hs : star (notP textTerm ⬝ dot) pos rs with
    | none => simp [hs] at h
    | some r =>
      obtain ⟨pos1, rs1, t1⟩ := r
      simp only [hs, Option.some.injEq, Prod.mk.injEq] at h
      obtain ⟨rfl, rfl, rfl⟩ := h
      obtain ⟨a, e1, e2, e3, e4⟩ := h1 _ _ _ _ _ hs
      exact ⟨a, e1, e2, e3, _, _, by rw [e4]; rfl⟩
  have h3 : Runs Any (fun t => t = []) textTerm := seqA mN (chrA mN) (chrA mN)
  exact Runs.seq h2 (Runs.seq h3 (Runs.act (L := Any) (T := fun t => t = [.act 8]) trivial rfl) Any.mono.app
    (T := fun t => t = [.act 8]) (fun a b ha hb => by rw [ha, hb]; rfl)) Any.mono.app
    (fun a b ⟨x, y, ha⟩ hb => ⟨x, y, by rw [ha, hb]; rfl⟩)

/-- A text command: where, the letter, the block. -/
theorem block_tidy {p q : P} (hp : Runs Any Still p) (hq : Runs Any (fun t => ∃ k, t = [Tok.act k] ∧ (k = 37 ∨ k = 38 ∨ k = 39)) q) :
    Runs Any Tidy (p ⬝ q ⬝ newLine ⬝ text) := by
  have h1 : Runs Any (fun t => ∃ b e, t = [.pegText b e, .act 8]) (newLine ⬝ text) :=
    Runs.seq (L1 := Any) (T1 := fun t => t = []) (Runs.cls (fun _ _ => trivial) rfl) text_tokens Any.mono.app
      (fun a b ha hb => by rw [ha]; exact hb)
  have h2 : Runs Any (fun t => ∃ k b e, t = [.act k, .pegText b e, .act 8] ∧ (k = 37 ∨ k = 38 ∨ k = 39)) (q ⬝ newLine ⬝ text) :=
    Runs.seq hq h1 Any.mono.app (fun a b ⟨k, ha, hk⟩ ⟨x, y, hb⟩ => ⟨k, x, y, by rw [ha, hb]; rfl, hk⟩)
  exact Runs.seq hp h2 Any.mono.app (fun a b ha ⟨k, x, y, hb, hk⟩ => Or.inr ⟨a, k, x, y, by rw [hb], ha, hk⟩)

theorem letter_tokens {c k : Nat} (hk : k = 37 ∨ k = 38 ∨ k = 39) :
    Runs Any (fun t => ∃ k, t = [Tok.act k] ∧ (k = 37 ∨ k = 38 ∨ k = 39)) (chr c ⬝ act k) :=
  Runs.seq (L1 := Any) (T1 := fun t => t = []) (L2 := Any) (T2 := fun t => t = [.act k]) (Runs.cls (fun _ _ => trivial) rfl)
    (Runs.act trivial rfl) Any.mono.app (fun a b ha hb => ⟨k, by rw [ha, hb]; rfl, hk⟩)

/-- The tokens of a command. -/
theorem cmd_tidy : Runs Any Tidy cmd := by
  have m := Still.mono
  have n : ∀ {p : P}, Runs Any Still p → Runs Any Tidy p := fun h => h.imp (fun _ h => h) (fun _ h => Or.inl h)
  have bare : Runs Any Still bareCmd := by
    refine Runs.alt (lt (by decide)) (Runs.alt (lt (by decide)) (Runs.alt (lt (by decide))
      (Runs.alt (lt (by decide)) (Runs.alt (lt (by decide)) (lt (by decide))))))
  have paramC : Runs Any Still paramC := Runs.alt (lt (by decide)) (Runs.alt (lt (by decide)) (lt (by decide)))
  have nm : Runs Any Still (capture param) := Runs.capture (paramA m) Still.capture
  have param : Runs Any Still paramCmd := Runs.alt (seqA m paramC (seqA m (spA m) (seqA m nm (st (by decide))))) paramC
  have rangeC : Runs Any Still rangeC :=
    Runs.alt (lt (by decide)) (Runs.alt (lt (by decide)) (Runs.alt (lt (by decide)) (Runs.alt (lt (by decide)) (lt (by decide)))))
  have rangeCmd : Runs Any Still rangeCmd := seqA m (optA m range_still) (seqA m (spsA m) rangeC)
  have addrC : Runs Any Still addrC := lt (by decide)
  have addrCmd : Runs Any Still addrCmd :=
    Runs.alt (seqA m (Runs.capture startAddr_still Still.capture) (seqA m addrC (st (by decide)))) addrC
  have change : Runs Any Tidy changeTextCmd := block_tidy (optA m range_still) (letter_tokens (by decide))
  have add : Runs Any Tidy addTextCmd :=
    block_tidy (optA m startAddr_still) (Runs.alt (letter_tokens (by decide)) (letter_tokens (by decide)))
  have mark : Runs Any Still markCmd := seqA m (optA m startAddr_still) (seqA m (chrA m)
    (seqA m (Runs.capture (clsA m) Still.capture) (st (by decide))))
  have dest : Runs Any Still destCmd := by
    have hd : Runs Any Still destC := Runs.alt (lt (by decide)) (lt (by decide))
    exact seqA m (optA m range_still) (seqA m hd (seqA m (Runs.capture addrO_still Still.capture) (st (by decide))))
  have read : Runs Any Still readCmd := seqA m (optA m startAddr_still) (seqA m (chrA m) (seqA m (spA m) (seqA m nm (st (by decide)))))
  have write : Runs Any Still writeCmd :=
    Runs.alt (seqA m (optA m range_still) (seqA m (chrA m) (seqA m (spA m) (seqA m nm (st (by decide))))))
      (seqA m (optA m range_still) (seqA m (chrA m) (st (by decide))))
  have shell : Runs Any Still shellCmd := seqA m (chrA m) (seqA m nm (st (by decide)))
  exact Runs.alt (n bare) (Runs.alt (n param) (Runs.alt (n rangeCmd) (Runs.alt (n addrCmd) (Runs.alt change (Runs.alt add (Runs.alt (n mark)
    (Runs.alt (n dest) (Runs.alt (n read) (Runs.alt (n write) (Runs.alt (n shell) (n (optA m startAddr_still))))))))))))

/-- The tokens of one round: those of a command, then the one that sends it. -/
theorem e_tidy : Runs Any (fun t => ∃ t', t = t' ++ [.act 1] ∧ Tidy t') e := by
  have mN : Mono (fun t : List Tok => t = []) := ⟨rfl, fun a b ha hb => by rw [ha, hb]; rfl⟩
  have h1 : Runs Any (fun t => t = [.act 1]) (newLine ⬝ act 1) :=
    Runs.seq (L1 := Any) (T1 := fun t => t = []) (L2 := Any) (T2 := fun t => t = [.act 1]) (Runs.cls (fun _ _ => trivial) rfl)
      (Runs.act trivial rfl) Any.mono.app (fun a b ha hb => by rw [ha, hb]; rfl)
  have h2 : Runs Any (fun t => t = [.act 1]) (star sp ⬝ newLine ⬝ act 1) :=
    Runs.seq (spsA mN) h1 Any.mono.app (fun a b ha hb => by rw [ha, hb]; rfl)
  have h3 : Runs Any (fun t => ∃ t', t = t' ++ [.act 1] ∧ Tidy t') (cmd ⬝ star sp ⬝ newLine ⬝ act 1) :=
    Runs.seq cmd_tidy h2 Any.mono.app (fun a b ha hb => ⟨a, by rw [hb], ha⟩)
  exact Runs.seq (spsA mN) h3 Any.mono.app (fun a b ha hb => by rw [ha]; exact hb)

/-- The tokens of a number of rounds. -/
inductive Rounds : List Tok → Prop
  | nil : Rounds []
  | cons {t r} : Tidy t → Rounds r → Rounds (t ++ [.act 1] ++ r)

theorem Rounds.mono : Mono Rounds := by
  refine ⟨.nil, fun a b ha hb => ?_⟩
  induction ha with
  | nil => exact hb
  | cons ht _ ih => rw [List.append_assoc]; exact .cons ht ih

/-- Tokens that are still do not make the command one with a text block. -/
theorem runToks_still (buffer : Bytes) : ∀ (t : List Tok) (s : Exec), Still t → s.cmd.typ.hasText = false →
    (runToks buffer s t).cmd.typ.hasText = false := by
  intro t
  induction t with
  | nil => intro s _ h; exact h
  | cons x t ih =>
    intro s ht h
    have ht' : Still t := by simp only [Still, List.mem_cons, not_or] at ht ⊢; exact ⟨ht.1.2, ht.2.1.2, ht.2.2.1.2, ht.2.2.2.1.2, ht.2.2.2.2.2⟩
    cases x with
    | pegText b e => exact ih _ ht' h
    | act n =>
      refine ih _ ht' ?_
      simp only [Still, List.mem_cons, not_or, Tok.act.injEq] at ht
      by_cases hn : n < 47
      · have hn : n ∈ List.range 47 := List.mem_range.2 hn
        simp only [List.range, List.range.loop, List.mem_cons, List.not_mem_nil, or_false] at hn
        rcases hn with rfl | rfl | rfl | rfl | rfl | rfl | rfl | rfl | rfl | rfl | rfl | rfl | rfl | rfl | rfl | rfl | rfl | rfl | rfl | rfl |
          rfl | rfl | rfl | rfl | rfl | rfl | rfl | rfl | rfl | rfl | rfl | rfl | rfl | rfl | rfl | rfl | rfl | rfl | rfl | rfl | rfl | rfl |
          rfl | rfl | rfl | rfl | rfl <;> first | exact h | rfl | omega
      · have : s.step buffer n = s := by
          unfold Exec.step
          split <;> first | rfl | omega
        rw [this]; exact h

/-- Tokens that are still print and send nothing. -/
theorem emits_still (buffer : Bytes) : ∀ (t : List Tok) (s : Exec) (rest : List Tok), Still t →
    emits buffer s (t ++ rest) = emits buffer (runToks buffer s t) rest := by
  intro t
  induction t with
  | nil => intros; rfl
  | cons x t ih =>
    intro s rest ht
    have ht' : Still t := by simp only [Still, List.mem_cons, not_or] at ht ⊢; exact ⟨ht.1.2, ht.2.1.2, ht.2.2.1.2, ht.2.2.2.1.2, ht.2.2.2.2.2⟩
    cases x with
    | pegText b e => simp only [List.cons_append, emits, runToks]; exact ih _ _ ht'
    | act n =>
      have h1 : n ≠ 1 := fun e => ht.1 (by rw [e]; exact List.mem_cons_self)
      have h8 : n ≠ 8 := fun e => ht.2.1 (by rw [e]; exact List.mem_cons_self)
      simp only [List.cons_append, emits, runToks, h1, h8, if_false]
      exact ih _ _ ht'

/-- One round prints the text of its command, if it has one, and sends the command. -/
theorem emits_tidy (buffer : Bytes) {t : List Tok} (ht : Tidy t) (s : Exec) (hs : s.cmd.typ.hasText = false) (rest : List Tok) :
    emits buffer s (t ++ [.act 1] ++ rest) =
      echoed (runToks buffer s t).cmd ++ emits buffer { runToks buffer s t with cmd := {} } rest := by
  rw [List.append_assoc]
  rcases ht with ht | ⟨h, k, b, e, rfl, hh, hk⟩
  · rw [emits_still buffer t s _ ht, echoed, echo, runToks_still buffer t s ht hs]
    rfl
  · rw [List.append_assoc, emits_still buffer h s _ hh, runToks_append]
    rcases hk with rfl | rfl | rfl <;> rfl

theorem Tidy.quiet {t : List Tok} (h : Tidy t) : Quiet t := by
  rcases h with h | ⟨h, k, b, e, rfl, hh, hk⟩
  · exact h.1
  · simp only [Quiet, List.mem_append, List.mem_cons, List.not_mem_nil, or_false, Tok.act.injEq, reduceCtorEq, false_or, not_or]
    exact ⟨hh.1, by omega, by decide⟩

/-- A number of rounds, one after the other. -/
theorem emits_rounds (buffer : Bytes) {t : List Tok} (ht : Rounds t) : ∀ (s : Exec), s.cmd.typ.hasText = false →
    emits buffer s (t ++ [.act 0]) = (execute buffer s (t ++ [.act 0])).flatMap echoed := by
  induction ht with
  | nil => intro s _; rfl
  | @cons t r ht hr ih =>
    intro s hs
    have he : execute buffer s (t ++ [.act 1] ++ (r ++ [.act 0])) =
        (runToks buffer s t).cmd :: execute buffer { runToks buffer s t with cmd := {} } (r ++ [.act 0]) := by
      rw [List.append_assoc, exec_quiet buffer t s _ ht.quiet]; rfl
    rw [List.append_assoc, emits_tidy buffer ht s hs, he, List.flatMap_cons, ih _ rfl]

/-- Whatever the buffer: for every command, in order, its text is printed if it has a text block, and then the command is
sent. -/
theorem parseEmits_eq (buffer : Bytes) : parseEmits buffer = (parseCommands buffer).map (List.flatMap echoed) := by
  rw [parseEmits, parseCommands, Option.map_map]
  cases h : parse buffer with
  | none => rfl
  | some toks =>
    simp only [Option.map_some, Option.some.injEq, Function.comp]
    simp only [parse, Option.map_eq_some_iff] at h
    obtain ⟨⟨p, rs, tt⟩, h1, rfl⟩ := h
    have hr : Runs Any (fun t => ∃ t', t = t' ++ [.act 0] ∧ Rounds t') first := by
      have h2 : Runs Any Rounds (star e) := starA Rounds.mono (e_tidy.imp (fun _ h => h) (fun t ⟨t', h, ht⟩ => by
        subst h
        have := Rounds.cons ht .nil
        rwa [List.append_nil] at this))
      have h3 : Runs Any (fun t => t = [.act 0]) (notP dot ⬝ act 0) := by
        intro pos rs pos' rs' t h
        simp only [Ed.seq] at h
        cases hn : notP dot pos rs with
        | none => simp [hn] at h
        | some r =>
          obtain ⟨rfl, _⟩ := notP_some hn
          simp only [hn, act, Option.some.injEq, Prod.mk.injEq] at h
          obtain ⟨rfl, rfl, rfl⟩ := h
          exact ⟨[], rfl, rfl, trivial, rfl⟩
      exact Runs.seq h2 h3 Any.mono.app (fun a b ha hb => ⟨a, by rw [hb], ha⟩)
    obtain ⟨_, _, _, _, t', rfl, ht⟩ := hr _ _ _ _ _ h1
    exact emits_rounds buffer ht {} rfl

/-! ## The reader's actions for one text -/

/-- What the reader does for a command: print its text if it has a text block, and send it. -/
def evs (c : Command) : List Ev := if c.typ.hasText then [.say (echoLine c.text), .send c] else [.send c]

theorem echoed_ev (c : Command) : (echoed c).map Emit.ev = evs c := by
  rw [echoed, echo, evs]
  cases c.typ.hasText <;> rfl

/-- The actions for a text in terms of its commands. -/
theorem eventsOf_some {errText : Bytes → Bytes} {text : Bytes} {cs : List Command} (h : parseCommands (text ++ [nl]) = some cs) :
    eventsOf errText text = cs.flatMap evs := by
  rw [eventsOf, parseEmits_eq, h]
  simp only [Option.map_some, List.map_flatMap]
  congr 1
  funext c
  exact echoed_ev c

theorem eventsOf_none {errText : Bytes → Bytes} {text : Bytes} (h : parseCommands (text ++ [nl]) = none) :
    eventsOf errText text = [.report (63 :: errText (text ++ [nl]) ++ [nl])] := by
  rw [eventsOf, parseEmits_eq, h]
  rfl

theorem evs_plain {c : Command} (h : c.typ.hasText = false) : evs c = [.send c] := by rw [evs, h]; rfl

theorem evs_text {c : Command} (h : c.typ.hasText = true) : evs c = [.say (echoLine c.text), .send c] := by rw [evs, h]; rfl

theorem sends_evs (cs : List Command) : sends (cs.flatMap evs) = cs := by
  induction cs with
  | nil => rfl
  | cons c cs ih =>
    rw [List.flatMap_cons, sends_append, ih, evs]
    cases c.typ.hasText <;> rfl

theorem reports_evs (cs : List Command) : reports (cs.flatMap evs) = [] := by
  induction cs with
  | nil => rfl
  | cons c cs ih =>
    rw [List.flatMap_cons, reports_append, ih, evs]
    cases c.typ.hasText <;> rfl

/-- What the reader prints for the commands of a text: one line or more for every text block. -/
def echoes (cs : List Command) : List Msg := (cs.filter (·.typ.hasText)).map (fun c => .scan (echoLine c.text))

theorem readerMsgs_evs (cs : List Command) : readerMsgs (cs.flatMap evs) = echoes cs := by
  induction cs with
  | nil => rfl
  | cons c cs ih =>
    rw [List.flatMap_cons, readerMsgs_append, ih, evs, echoes, echoes]
    cases h : c.typ.hasText <;> simp [h, readerMsgs]

/-- If the last thing the reader does is send the `q` that ends the run, it has printed everything before. -/
theorem all_said {env : Env} {errText : Bytes → Bytes} {s0 : State} {input : Bytes} {st : Sys} {q : List Ev} {c : Command}
    (hs : Steps env (initial errText s0 input) st) (he : st.cons = .quit) (hp : program errText input = q ++ [.send c])
    (hr : (results st.out).length = (sends q).length) : st.out.filter Msg.isReader = readerMsgs (program errText input) := by
  obtain ⟨pre, h⟩ := pace_steps hs
  obtain ⟨p, d, p', f1, f2, f3, f4, _⟩ := h.busy (by rw [he]; simp) (by rw [he]; simp)
  have hsp := h.split
  have hl : (sends (p' ++ st.prog)).length = 0 := by
    have := congrArg (fun x => (sends x).length) (hp.symm.trans hsp)
    simp only [f1, sends_append, sends, List.length_append, List.length_cons, List.length_nil] at this ⊢
    omega
  have hnil : p' ++ st.prog = [] := by
    rcases List.eq_nil_or_concat (p' ++ st.prog) with h | ⟨init, x, h⟩
    · exact h
    · exfalso
      have e : q ++ [Ev.send c] = (p ++ .send d :: init) ++ [x] := by rw [← hp, hsp, f1]; simp [h]
      have := (List.append_inj' e rfl).2
      simp only [List.cons.injEq, and_true] at this
      rw [h, ← this, List.concat_eq_append, sends_append] at hl
      simp [sends] at hl
  have hpre : program errText input = pre := by
    rw [hsp, (List.append_eq_nil_iff.1 hnil).2, List.append_nil]
  rw [hpre]
  exact h.said

/-! ## C83: what the reader prints -/

/-- What the reader prints for one text: the message if it does not parse, else the texts of its commands. -/
def shownFor (errText : Bytes → Bytes) (t : Bytes) : List Msg :=
  match parseCommands (t ++ [nl]) with
  | none => [.error (b!"?" ++ errText (t ++ [nl]) ++ b!"\n")]
  | some cs => (cs.filter (·.typ.hasText)).map (fun c => .scan (b!"t " ++ c.text ++ b!"\n"))

/-- **C83** All the reader prints, for every input: for each text in order the message if it does not parse, and otherwise a
letter `t` and the text of every `a`, `i` or `c` in it, and at the end a message if a line was too long. -/
theorem C83_reader (errText : Bytes → Bytes) (input : Bytes) :
    readerMsgs (program errText input) = (texts input).flatMap (shownFor errText) ++
      (if (scanLines input).2 then [.scan b!"Err: bufio.Scanner: token too long\n"] else []) := by
  have aux : ∀ ts : List Bytes, readerMsgs (ts.flatMap (eventsOf errText)) = ts.flatMap (shownFor errText) := by
    intro ts
    induction ts with
    | nil => rfl
    | cons t ts ih =>
      rw [List.flatMap_cons, List.flatMap_cons, readerMsgs_append, ih, shownFor]
      congr 1
      cases hp : parseCommands (t ++ [nl]) with
      | none => rw [eventsOf_none hp]; rfl
      | some cs => rw [eventsOf_some hp, readerMsgs_evs]; rfl
  rw [program, readerMsgs_append, aux, scanError]
  cases (scanLines input).2 <;> rfl

/-- A script with a text block between two other commands. -/
def demoEcho : Bytes := b!"1=\n$a\nx\ny\n.\n1=\n"

example : readerMsgs (program (fun _ => []) demoEcho) = [.scan b!"t x\ny\n"] := by decide +kernel

/-- **C83** Where the text is printed depends on the schedule: before or after the line about the command before it, and
before or after the result of that command. -/
theorem C83_order_varies (env : Env) (s0 s1 : State) (c : Command) (r m : Bytes) (hq : c.typ ≠ .quit) (hw : c.typ ≠ .write)
    (hp : processCommand env s0 c = .ok (s1, r)) :
    Steps env ⟨[.send c, .say m], .idle, s0, []⟩ ⟨[], .finished, s1, [.scan m, .trace (traceLine c), .result (r ++ [nl])]⟩ ∧
    Steps env ⟨[.send c, .say m], .idle, s0, []⟩ ⟨[], .finished, s1, [.trace (traceLine c), .scan m, .result (r ++ [nl])]⟩ ∧
    Steps env ⟨[.send c, .say m], .idle, s0, []⟩ ⟨[], .finished, s1, [.trace (traceLine c), .result (r ++ [nl]), .scan m]⟩ := by
  refine ⟨?_, ?_, ?_⟩
  · exact .tail (.tail (.tail (.tail (.tail (.tail .refl .rendezvous) (.say (by simp))) .trace) (.execute hq hw hp)) .write) .closed
  · exact .tail (.tail (.tail (.tail (.tail (.tail .refl .rendezvous) .trace) (.say (by simp))) (.execute hq hw hp)) .write) .closed
  · exact .tail (.tail (.tail (.tail (.tail (.tail .refl .rendezvous) .trace) (.execute hq hw hp)) .write) (.say (by simp))) .closed

end Ed
