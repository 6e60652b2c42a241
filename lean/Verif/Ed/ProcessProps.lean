import Verif.Ed.Process

/-! # Scheduling does not matter (C69) -/

namespace Ed
open Go

/-! ## Specification: one command after the other -/

/-- How a run ends. -/
inductive End where
  | finished
  | quit
  | crashed (f : Fault)
  deriving DecidableEq, Repr

/-- The commands executed in order, up to `q` or a crash: how it ends, the last editor state and the results. -/
def sequential (env : Env) : State → List Command → End × State × List Bytes
  | s, [] => (.finished, s, [])
  | s, c :: cs =>
    if c.typ = .quit then (.quit, s, [])
    else
      match processCommand env s c with
      | .error f => (.crashed f, crashState env s c, [])
      | .ok (s', r) => ((sequential env s' cs).1, (sequential env s' cs).2.1, (r ++ [nl]) :: (sequential env s' cs).2.2)

/-- What the main goroutine prints before it executes a command. -/
def preamble (s : State) (c : Command) : List Msg :=
  if c.typ = .write then
    match s.pt.string with
    | .ok _ => [.trace (traceLine c), .trace (saveLine s)]
    | .error _ => [.trace (traceLine c)]
  else [.trace (traceLine c)]

/-- All the main goroutine prints when the commands are executed in order, up to `q` or a crash. -/
def transcript (env : Env) : State → List Command → List Msg
  | _, [] => []
  | s, c :: cs =>
    if c.typ = .quit then [.trace (traceLine c)]
    else
      match processCommand env s c with
      | .error _ => preamble s c
      | .ok (s', r) => preamble s c ++ .result (r ++ [nl]) :: transcript env s' cs

/-- The commands among the reader's actions. -/
def sends : List Ev → List Command
  | [] => []
  | .send c :: p => c :: sends p
  | .report _ :: p => sends p
  | .say _ :: p => sends p

/-- The messages among the reader's actions. -/
def reports : List Ev → List Bytes
  | [] => []
  | .send _ :: p => reports p
  | .report m :: p => m :: reports p
  | .say _ :: p => reports p

/-- The results in the output. -/
def results : List Msg → List Bytes
  | [] => []
  | .result b :: o => b :: results o
  | .error _ :: o => results o
  | .scan _ :: o => results o
  | .trace _ :: o => results o

/-- The error messages in the output. -/
def errors : List Msg → List Bytes
  | [] => []
  | .result _ :: o => errors o
  | .error b :: o => b :: errors o
  | .scan _ :: o => errors o
  | .trace _ :: o => errors o

/-- Does the main goroutine print this? -/
def Msg.isMain : Msg → Bool
  | .result _ => true
  | .trace _ => true
  | _ => false

/-- Does the reader print this? -/
def Msg.isReader : Msg → Bool
  | .error _ => true
  | .scan _ => true
  | _ => false

/-- What the reader prints: parse errors through the writer, the error of its scanner. -/
def readerMsgs : List Ev → List Msg
  | [] => []
  | .send _ :: p => readerMsgs p
  | .report m :: p => .error m :: readerMsgs p
  | .say m :: p => .scan m :: readerMsgs p

/-- How the main goroutine has ended, if it has. -/
def Cons.ended : Cons → Option End
  | .quit => some .quit
  | .finished => some .finished
  | .crashed f => some (.crashed f)
  | _ => none

/-! ## Lemmas -/

theorem sends_append (a b : List Ev) : sends (a ++ b) = sends a ++ sends b := by
  induction a with
  | nil => rfl
  | cons x a ih => cases x <;> simp [sends, ih]

theorem reports_append (a b : List Ev) : reports (a ++ b) = reports a ++ reports b := by
  induction a with
  | nil => rfl
  | cons x a ih => cases x <;> simp [reports, ih]

theorem readerMsgs_append (a b : List Ev) : readerMsgs (a ++ b) = readerMsgs a ++ readerMsgs b := by
  induction a with
  | nil => rfl
  | cons x a ih => cases x <;> simp [readerMsgs, ih]

theorem errors_reader (p : List Ev) : errors (readerMsgs p) = reports p := by
  induction p with
  | nil => rfl
  | cons x a ih => cases x <;> simp [readerMsgs, errors, reports, ih]

theorem errors_others (a : List Msg) : errors (a.filter Msg.isReader) = errors a := by
  induction a with
  | nil => rfl
  | cons x a ih => cases x <;> simp [List.filter, errors, Msg.isReader, ih]

theorem results_append (a b : List Msg) : results (a ++ b) = results a ++ results b := by
  induction a with
  | nil => rfl
  | cons x a ih => cases x <;> simp [results, ih]

theorem errors_append (a b : List Msg) : errors (a ++ b) = errors a ++ errors b := by
  induction a with
  | nil => rfl
  | cons x a ih => cases x <;> simp [errors, ih]

theorem results_main (a : List Msg) : results (a.filter Msg.isMain) = results a := by
  induction a with
  | nil => rfl
  | cons x a ih => cases x <;> simp [List.filter, results, Msg.isMain, ih]

theorem results_preamble (s : State) (c : Command) : results (preamble s c) = [] := by
  unfold preamble
  split
  · split <;> rfl
  · rfl

/-- The commands `cs` all succeed, none is `q`; `ms` is what is printed meanwhile. -/
def RunOk (env : Env) : State → List Command → State → List Msg → Prop
  | s, [], s', ms => s' = s ∧ ms = []
  | s, c :: cs, s', ms => c.typ ≠ .quit ∧ ∃ s1 r ms', processCommand env s c = .ok (s1, r) ∧
      ms = preamble s c ++ .result (r ++ [nl]) :: ms' ∧ RunOk env s1 cs s' ms'

theorem RunOk.snoc {env : Env} : ∀ {cs : List Command} {s s' s'' : State} {ms : List Msg} {c : Command} {r : Bytes},
    RunOk env s cs s' ms → c.typ ≠ .quit → processCommand env s' c = .ok (s'', r) →
    RunOk env s (cs ++ [c]) s'' (ms ++ (preamble s' c ++ [.result (r ++ [nl])])) := by
  intro cs
  induction cs with
  | nil => rintro s s' s'' ms c r ⟨rfl, rfl⟩ hq hp; exact ⟨hq, s'', r, [], hp, rfl, rfl, rfl⟩
  | cons d cs ih =>
    rintro s s' s'' ms c r ⟨h1, s1, r1, ms', h2, rfl, h3⟩ hq hp
    exact ⟨h1, s1, r1, ms' ++ (preamble s' c ++ [.result (r ++ [nl])]), h2, by simp, ih h3 hq hp⟩

theorem RunOk.sequential {env : Env} : ∀ {cs : List Command} {s s' : State} {ms : List Msg}, RunOk env s cs s' ms → ∀ ds,
    Ed.sequential env s (cs ++ ds) =
      ((Ed.sequential env s' ds).1, (Ed.sequential env s' ds).2.1, results ms ++ (Ed.sequential env s' ds).2.2) := by
  intro cs
  induction cs with
  | nil => rintro s s' ms ⟨rfl, rfl⟩ ds; rfl
  | cons c cs ih =>
    rintro s s' ms ⟨h1, s1, r1, ms', h2, rfl, h3⟩ ds
    simp only [List.cons_append, Ed.sequential, h1, if_false, h2, ih h3 ds, results_append, results_preamble, results, List.nil_append]

theorem RunOk.transcript {env : Env} : ∀ {cs : List Command} {s s' : State} {ms : List Msg}, RunOk env s cs s' ms → ∀ ds,
    Ed.transcript env s (cs ++ ds) = ms ++ Ed.transcript env s' ds := by
  intro cs
  induction cs with
  | nil => rintro s s' ms ⟨rfl, rfl⟩ ds; rfl
  | cons c cs ih =>
    rintro s s' ms ⟨h1, s1, r1, ms', h2, rfl, h3⟩ ds
    simp only [List.cons_append, Ed.transcript, h1, if_false, h2, ih h3 ds, List.append_assoc]

theorem RunOk.length {env : Env} : ∀ {cs : List Command} {s s' : State} {ms : List Msg}, RunOk env s cs s' ms →
    (results ms).length = cs.length := by
  intro cs
  induction cs with
  | nil => rintro s s' ms ⟨_, rfl⟩; rfl
  | cons c cs ih =>
    rintro s s' ms ⟨_, s1, r, ms', _, rfl, h⟩
    simp [results_append, results_preamble, results, ih h]

/-- Where the main goroutine is: the commands `cs` have been received, and `ms` is what it has printed. -/
def Phase (env : Env) (s0 : State) (cs : List Command) (ed : State) (ms : List Msg) (done : Prop) : Cons → Prop
  | .idle => RunOk env s0 cs ed ms
  | .received c => ∃ cs', cs = cs' ++ [c] ∧ RunOk env s0 cs' ed ms
  | .busy c => ∃ cs' ms', cs = cs' ++ [c] ∧ ms = ms' ++ [.trace (traceLine c)] ∧ RunOk env s0 cs' ed ms'
  | .saving c => ∃ cs' ms', cs = cs' ++ [c] ∧ ms = ms' ++ preamble ed c ∧ c.typ = .write ∧ RunOk env s0 cs' ed ms'
  | .writing r => RunOk env s0 cs ed (ms ++ [.result r])
  | .quit => ∃ cs' c ms', cs = cs' ++ [c] ∧ ms = ms' ++ [.trace (traceLine c)] ∧ c.typ = .quit ∧ RunOk env s0 cs' ed ms'
  | .finished => done ∧ RunOk env s0 cs ed ms
  | .crashed f => ∃ cs' c ms' ed', cs = cs' ++ [c] ∧ ms = ms' ++ preamble ed' c ∧ c.typ ≠ .quit ∧
      processCommand env ed' c = .error f ∧ RunOk env s0 cs' ed' ms' ∧ ed = crashState env ed' c

/-- What holds of every reachable state, in terms of the reader's actions done so far. -/
structure Inv (env : Env) (prog0 : List Ev) (s0 : State) (pre : List Ev) (st : Sys) : Prop where
  split : prog0 = pre ++ st.prog
  others : st.out.filter Msg.isReader = readerMsgs pre
  main : Phase env s0 (sends pre) st.ed (st.out.filter Msg.isMain) (st.prog = []) st.cons

theorem Phase.undone {env : Env} {s0 : State} {cs : List Command} {ed : State} {ms : List Msg} {p q : Prop} {k : Cons} (hp : ¬ p)
    (h : Phase env s0 cs ed ms p k) : Phase env s0 cs ed ms q k := by
  cases k <;> first | exact h | exact absurd h.1 hp

theorem inv_step {env : Env} {prog0 : List Ev} {s0 : State} {pre : List Ev} {a b : Sys} (h : Inv env prog0 s0 pre a)
    (hs : Step env a b) : ∃ pre', Inv env prog0 s0 pre' b ∧ pre <+: pre' := by
  obtain ⟨h1, h2, h3⟩ := h
  cases hs with
  | report hk =>
    rename_i m p k ed out
    refine ⟨pre ++ [.report m], ⟨by rw [h1]; simp, by simpa [List.filter, Msg.isReader, readerMsgs_append, readerMsgs] using h2, ?_⟩, ⟨_, rfl⟩⟩
    have e1 : sends (pre ++ [.report m]) = sends pre := by simp [sends_append, sends]
    have e2 : (out ++ [Msg.error m]).filter Msg.isMain = out.filter Msg.isMain := by simp [Msg.isMain]
    simp only [e1, e2]
    exact h3.undone (by simp)
  | say hk =>
    rename_i m p k ed out
    refine ⟨pre ++ [.say m], ⟨by rw [h1]; simp, by simpa [List.filter, Msg.isReader, readerMsgs_append, readerMsgs] using h2, ?_⟩, ⟨_, rfl⟩⟩
    have e1 : sends (pre ++ [.say m]) = sends pre := by simp [sends_append, sends]
    have e2 : (out ++ [Msg.scan m]).filter Msg.isMain = out.filter Msg.isMain := by simp [Msg.isMain]
    simp only [e1, e2]
    exact h3.undone (by simp)
  | rendezvous =>
    rename_i c p ed out
    refine ⟨pre ++ [.send c], ⟨by rw [h1]; simp, by simpa [readerMsgs_append, readerMsgs] using h2, ?_⟩, ⟨_, rfl⟩⟩
    exact ⟨sends pre, by simp [sends_append, sends], h3⟩
  | trace =>
    obtain ⟨cs, e, hr⟩ := h3
    refine ⟨pre, ⟨h1, by simpa [List.filter, Msg.isReader] using h2, cs, _, e, ?_, hr⟩, List.prefix_rfl⟩
    simp [Msg.isMain]
  | quit hq =>
    obtain ⟨cs, ms, e, e2, hr⟩ := h3
    exact ⟨pre, ⟨h1, h2, cs, _, ms, e, e2, hq, hr⟩, List.prefix_rfl⟩
  | announce hw hd =>
    obtain ⟨cs, ms, e, e2, hr⟩ := h3
    refine ⟨pre, ⟨h1, by simpa [List.filter, Msg.isReader] using h2, cs, ms, e, ?_, hw, hr⟩, List.prefix_rfl⟩
    simp only at e2
    simp [Msg.isMain, e2, preamble, hw, hd]
  | execute hq hw hp =>
    obtain ⟨cs, ms, e, e2, hr⟩ := h3
    refine ⟨pre, ⟨h1, h2, ?_⟩, List.prefix_rfl⟩
    simp only at e e2
    simp only [e, e2]
    have := hr.snoc hq hp
    rw [preamble, if_neg hw] at this
    simpa [Phase] using this
  | crash hq hw hp =>
    obtain ⟨cs, ms, e, e2, hr⟩ := h3
    refine ⟨pre, ⟨h1, h2, cs, _, ms, _, e, ?_, hq, hp, hr, ?_⟩, List.prefix_rfl⟩
    all_goals rename_i c ed out f
    · simp only at e2
      rw [e2, preamble]
      by_cases hc : c.typ = .write
      · cases hd : ed.pt.string with
        | ok d => exact absurd hd (hw hc d)
        | error p => simp
      · simp [hc]
    · rw [crashState]
      by_cases hc : c.typ = .write
      · cases hd : ed.pt.string with
        | ok d => exact absurd hd (hw hc d)
        | error p => simp
      · simp [hc]
  | save hp =>
    obtain ⟨cs, ms, e, e2, hw, hr⟩ := h3
    refine ⟨pre, ⟨h1, h2, ?_⟩, List.prefix_rfl⟩
    simp only at e e2
    simp only [e, e2]
    have := hr.snoc (by rw [hw]; decide) hp
    simpa [Phase] using this
  | crashSave hp =>
    obtain ⟨cs, ms, e, e2, hw, hr⟩ := h3
    exact ⟨pre, ⟨h1, h2, cs, _, ms, _, e, e2, by rw [hw]; decide, hp, hr, rfl⟩, List.prefix_rfl⟩
  | write =>
    refine ⟨pre, ⟨h1, by simpa [List.filter, Msg.isReader] using h2, ?_⟩, List.prefix_rfl⟩
    simpa [Phase, List.filter, Msg.isMain] using h3
  | closed => exact ⟨pre, ⟨h1, h2, rfl, h3⟩, List.prefix_rfl⟩

theorem inv_steps {env : Env} {prog0 : List Ev} {s0 : State} {b : Sys} (hs : Steps env ⟨prog0, .idle, s0, []⟩ b) :
    ∃ pre, Inv env prog0 s0 pre b := by
  suffices ∀ a b, Steps env a b → a = ⟨prog0, .idle, s0, []⟩ → ∃ pre, Inv env prog0 s0 pre b from this _ _ hs rfl
  intro a b hs
  induction hs with
  | refl => rintro rfl; exact ⟨[], rfl, rfl, rfl, rfl⟩
  | tail _ h2 ih =>
    intro e
    obtain ⟨pre, hi⟩ := ih e
    obtain ⟨pre', hi', _⟩ := inv_step hi h2
    exact ⟨pre', hi'⟩

/-! ## C69 -/

/-- **C69** However the two goroutines are scheduled, when the main goroutine has stopped, it has stopped in
the same way, with the same editor state (buffer, current line, file system) and the same results in the same
order as executing the commands one after the other up to the first `q` or crash. The error messages appear in
order, and all of them do if the input was read to its end. -/
theorem C69_schedule_independent (env : Env) (errText : Bytes → Bytes) (s0 : State) (input : Bytes) (st : Sys) (how : End)
    (hs : Steps env (initial errText s0 input) st) (he : st.cons.ended = some how) :
    sequential env s0 (sends (program errText input)) = (how, st.ed, results st.out) ∧
    errors st.out <+: reports (program errText input) ∧
    (how = .finished → errors st.out = reports (program errText input)) := by
  obtain ⟨pre, h1, h2, h3⟩ := inv_steps hs
  refine ⟨?_, ?_, ?_⟩
  · rw [h1, ← results_main]
    obtain ⟨prog, k, ed, out⟩ := st
    cases k with
    | idle => cases he
    | received c => cases he
    | busy c => cases he
    | saving c => cases he
    | writing r => cases he
    | quit =>
      cases he
      obtain ⟨cs, c, ms, e, e2, hq, hr⟩ := h3
      simp only at e2
      simp only [sends_append, e, e2, List.append_assoc]
      rw [hr.sequential]
      simp [sequential, hq, results_append, results]
    | finished =>
      cases he
      obtain ⟨hp, hr⟩ := h3
      simp only at hp
      subst hp
      rw [List.append_nil, ← List.append_nil (sends pre), hr.sequential]
      simp [sequential]
    | crashed f =>
      cases he
      obtain ⟨cs, c, ms, ed', e, e2, hq, hp, hr, hed⟩ := h3
      simp only at e2 hed
      simp only [sends_append, e, e2, List.append_assoc]
      rw [hr.sequential]
      simp [sequential, hq, hp, results_append, results_preamble, hed]
  · rw [h1, ← errors_others, h2, errors_reader, reports_append]
    exact ⟨_, rfl⟩
  · rintro rfl
    obtain ⟨prog, k, ed, out⟩ := st
    cases k <;> cases he
    rw [h1, ← errors_others, h2, errors_reader]
    have := h3.1
    simp only at this
    simp [this]

/-- What is left to do. -/
def work (st : Sys) : Nat :=
  6 * st.prog.length +
    match st.cons with | .idle => 1 | .received _ => 5 | .busy _ => 4 | .saving _ => 3 | .writing _ => 2 | _ => 0

/-- **C69** No schedule runs forever, and none gets stuck before the main goroutine has stopped. -/
theorem C69_no_deadlock (env : Env) : (∀ a b, Step env a b → work b < work a) ∧
    (∀ st : Sys, st.cons.ended = none → ∃ b, Step env st b) := by
  constructor
  · intro a b h
    cases h <;> simp [work] <;> omega
  · rintro ⟨prog, k, ed, out⟩ h
    cases k with
    | idle =>
      match prog with
      | [] => exact ⟨_, .closed⟩
      | .send c :: p => exact ⟨_, .rendezvous⟩
      | .report m :: p => exact ⟨_, .report (by simp)⟩
      | .say m :: p => exact ⟨_, .say (by simp)⟩
    | received c => exact ⟨_, .trace⟩
    | busy c =>
      by_cases hq : c.typ = .quit
      · exact ⟨_, .quit hq⟩
      · by_cases hw : c.typ = .write
        · cases hd : ed.pt.string with
          | ok d => exact ⟨_, .announce hw hd⟩
          | error p =>
            refine ⟨_, .crash (f := .panic p) hq (by simp [hd]) ?_⟩
            have : (setDefaultAddresses c).typ = .write := by
              unfold setDefaultAddresses
              split
              · dsimp only
                split <;> exact hw
              · exact hw
            simp [processCommand, this, write, hd, lift, bind, Except.bind]
        · cases hp : processCommand env ed c with
          | error f => exact ⟨_, .crash hq (fun h => absurd h hw) hp⟩
          | ok r => exact ⟨_, .execute hq hw hp⟩
    | saving c =>
      cases hp : processCommand env ed c with
      | error f => exact ⟨_, .crashSave hp⟩
      | ok r => exact ⟨_, .save hp⟩
    | writing r => exact ⟨_, .write⟩
    | quit => cases h
    | finished => cases h
    | crashed f => cases h

/-- Hence from every reachable state the main goroutine does stop. -/
theorem C69_stops (env : Env) : ∀ (n : Nat) (st : Sys), work st ≤ n → ∃ st' how, Steps env st st' ∧ st'.cons.ended = some how := by
  intro n
  induction n with
  | zero =>
    intro st h
    cases he : st.cons.ended with
    | some how => exact ⟨st, how, .refl, he⟩
    | none =>
      obtain ⟨b, hb⟩ := (C69_no_deadlock env).2 st he
      have := (C69_no_deadlock env).1 _ _ hb
      omega
  | succ n ih =>
    intro st h
    cases he : st.cons.ended with
    | some how => exact ⟨st, how, .refl, he⟩
    | none =>
      obtain ⟨b, hb⟩ := (C69_no_deadlock env).2 st he
      have := (C69_no_deadlock env).1 _ _ hb
      obtain ⟨st', how, h1, h2⟩ := ih b (by omega)
      refine ⟨st', how, ?_, h2⟩
      clear h2 ih this h he
      induction h1 with
      | refl => exact .tail .refl hb
      | tail _ h3 ih => exact .tail ih h3

/-- **C69** How far an error message can move: when it is written, the results of all commands before it
in the input have been written, except perhaps the last one. -/
theorem C69_error_position (env : Env) (prog0 : List Ev) (s0 : State) (pre post : List Ev) (m : Bytes) (k k' : Cons) (ed ed' : State)
    (out : List Msg) (e : prog0 = pre ++ .report m :: post)
    (hs : Steps env ⟨prog0, .idle, s0, []⟩ ⟨.report m :: post, k, ed, out⟩)
    (hw : Step env ⟨.report m :: post, k, ed, out⟩ ⟨post, k', ed', out ++ [.error m]⟩) (hk : k ≠ .quit) :
    (results out).length = (sends pre).length ∨ (results out).length + 1 = (sends pre).length := by
  obtain ⟨pre', h1, h2, h3⟩ := inv_steps hs
  have : pre' = pre := by
    have : pre' ++ (.report m :: post) = pre ++ (.report m :: post) := by rw [← h1, e]
    exact List.append_cancel_right this
  subst this
  rw [← results_main out]
  cases hw with
  | report hkk =>
    cases k with
    | idle => exact Or.inl h3.length
    | received c =>
      obtain ⟨cs, e, hr⟩ := h3
      right; rw [hr.length, e]; simp
    | busy c =>
      obtain ⟨cs, ms, e, e2, hr⟩ := h3
      simp only at e2
      right; rw [e2, e]; simp [results_append, results, hr.length]
    | saving c =>
      obtain ⟨cs, ms, e, e2, _, hr⟩ := h3
      simp only at e2
      right; rw [e2, e]; simp [results_append, results_preamble, hr.length]
    | writing r =>
      right
      have := h3.length
      simpa [results_append, results] using this
    | quit => exact absurd rfl hk
    | finished => exact absurd h3.1 (by simp)
    | crashed f =>
      obtain ⟨cs, c, ms, _, e, e2, _, _, hr, _⟩ := h3
      simp only at e2
      right; rw [e2, e]; simp [results_append, results_preamble, hr.length]

/-- **C69** The position does depend on the schedule: after `=` and a line that is no command, the message
and the result can come in either order. -/
theorem C69_order_varies (env : Env) (s0 s1 : State) (c : Command) (r m : Bytes) (hq : c.typ ≠ .quit) (hw : c.typ ≠ .write)
    (hp : processCommand env s0 c = .ok (s1, r)) :
    Steps env ⟨[.send c, .report m], .idle, s0, []⟩
      ⟨[], .finished, s1, [.trace (traceLine c), .result (r ++ [nl]), .error m]⟩ ∧
    Steps env ⟨[.send c, .report m], .idle, s0, []⟩
      ⟨[], .finished, s1, [.trace (traceLine c), .error m, .result (r ++ [nl])]⟩ := by
  constructor
  · exact .tail (.tail (.tail (.tail (.tail (.tail .refl .rendezvous) .trace) (.execute hq hw hp)) .write) (.report (by simp))) .closed
  · exact .tail (.tail (.tail (.tail (.tail (.tail .refl .rendezvous) .trace) (.report (by simp))) (.execute hq hw hp)) .write) .closed

/-- The reader's actions on a command followed by a line that does not parse: `C69_order_varies` applies. -/
example : program (fun _ => b!"oops") b!"1=\nxyz\n" = [.send { typ := .lineNumber, start := aFirst }, .report b!"?oops\n"] := by
  decide +kernel

/-! ## C83: what else is on standard output -/

/-- The bytes of a message. -/
def Msg.bytes : Msg → Bytes
  | .error b | .scan b | .trace b | .result b => b

/-- Standard output of the command `ed` (cmd/ed/main.go:29 makes it the writer). -/
def stdout (out : List Msg) : Bytes := out.flatMap Msg.bytes

/-- **C83** However the goroutines are scheduled, what the main goroutine has printed when it has stopped is: for
every command executed a line `cmd {…}` showing the parsed command, for a save also a line naming the two files,
and then the result. The rest of the output is the reader's. -/
theorem C83_transcript (env : Env) (errText : Bytes → Bytes) (s0 : State) (input : Bytes) (st : Sys) (how : End)
    (hs : Steps env (initial errText s0 input) st) (he : st.cons.ended = some how) :
    st.out.filter Msg.isMain = transcript env s0 (sends (program errText input)) ∧
    st.out.filter Msg.isReader <+: readerMsgs (program errText input) := by
  obtain ⟨pre, h1, h2, h3⟩ := inv_steps hs
  refine ⟨?_, by rw [h1, h2, readerMsgs_append]; exact ⟨_, rfl⟩⟩
  rw [h1]
  obtain ⟨prog, k, ed, out⟩ := st
  cases k with
  | idle => cases he
  | received c => cases he
  | busy c => cases he
  | saving c => cases he
  | writing r => cases he
  | quit =>
    cases he
    obtain ⟨cs, c, ms, e, e2, hq, hr⟩ := h3
    simp only at e2
    simp only [sends_append, e, e2, List.append_assoc]
    rw [hr.transcript]
    simp [transcript, hq]
  | finished =>
    cases he
    obtain ⟨hp, hr⟩ := h3
    simp only at hp
    subst hp
    rw [List.append_nil, ← List.append_nil (sends pre), hr.transcript]
    simp [transcript]
  | crashed f =>
    cases he
    obtain ⟨cs, c, ms, _, e, e2, hq, hp, hr, _⟩ := h3
    simp only at e2
    simp only [sends_append, e, e2, List.append_assoc]
    rw [hr.transcript]
    simp [transcript, hq, hp]

theorem all_main {a : List Msg} (h : a.filter Msg.isReader = []) : a.filter Msg.isMain = a := by
  rw [List.filter_eq_self]
  intro m hm
  rw [List.filter_eq_nil_iff] at h
  have := h m hm
  cases m <;> simp_all [Msg.isReader, Msg.isMain]

/-- **C83** If the reader prints nothing (every line parses and there are no text blocks), standard output is exactly that
transcript, for every schedule. -/
theorem C83_stdout (env : Env) (errText : Bytes → Bytes) (s0 : State) (input : Bytes) (st : Sys) (how : End)
    (hs : Steps env (initial errText s0 input) st) (he : st.cons.ended = some how) (hr : readerMsgs (program errText input) = []) :
    stdout st.out = stdout (transcript env s0 (sends (program errText input))) := by
  obtain ⟨h1, h2⟩ := C83_transcript env errText s0 input st how hs he
  rw [hr] at h2
  rw [← h1, all_main (List.prefix_nil.1 h2)]

/-- Removing the lines about commands and what the reader prints of its own. -/
def withoutTraces (out : List Msg) : List Msg := out.filter fun m => match m with | .trace _ => false | .scan _ => false | _ => true

theorem errors_filter (out : List Msg) : errors (out.filter Msg.isReader) = errors out := by
  induction out with
  | nil => rfl
  | cons m out ih => cases m <;> simp_all [List.filter, Msg.isReader, errors]

/-- **C83** (partial: the output also has the lines about commands and the texts the reader has parsed) If every line
parses, what is left without those lines is the results of executing the commands one after the other. -/
theorem C83_results_partial (env : Env) (errText : Bytes → Bytes) (s0 : State) (input : Bytes) (st : Sys) (how : End)
    (hs : Steps env (initial errText s0 input) st) (he : st.cons.ended = some how) (hr : reports (program errText input) = []) :
    withoutTraces st.out = ((sequential env s0 (sends (program errText input))).2.2).map Msg.result := by
  have h1 := (C69_schedule_independent env errText s0 input st how hs he).1
  obtain ⟨_, h2⟩ := C83_transcript env errText s0 input st how hs he
  have h3 : errors st.out = [] := by
    obtain ⟨rest, h2⟩ := h2
    have := congrArg errors h2
    rw [errors_append, errors_reader, hr, errors_filter] at this
    exact (List.append_eq_nil_iff.1 this).1
  rw [h1]
  clear h1 h2 hs he hr
  generalize st.out = out at h3
  induction out with
  | nil => rfl
  | cons m out ih =>
    cases m <;> simp_all [List.filter, withoutTraces, results, errors]

/-! ### Where the reader's lines are -/

/-- The command the main goroutine has received and not answered. -/
def Cons.holds : Cons → Option Command
  | .received c => some c
  | .busy c => some c
  | .saving c => some c
  | _ => none

/-- What the reader has done and how far the main goroutine is: it has answered every command but perhaps the last. -/
structure Pace (prog0 : List Ev) (st : Sys) (pre : List Ev) : Prop where
  split : prog0 = pre ++ st.prog
  said : st.out.filter Msg.isReader = readerMsgs pre
  idle : st.cons = .idle ∨ st.cons = .finished → (sends pre).length = (results st.out).length
  busy : st.cons ≠ .idle → st.cons ≠ .finished →
    ∃ p c p', pre = p ++ .send c :: p' ∧ sends p' = [] ∧ (sends p).length = (results st.out).length ∧
      readerMsgs p <+: st.out.filter Msg.isReader ∧ ∀ d, st.cons.holds = some d → d = c

theorem Pace.bound {prog0 : List Ev} {st : Sys} {pre : List Ev} (h : Pace prog0 st pre) :
    (results st.out).length ≤ (sends pre).length ∧ (sends pre).length ≤ (results st.out).length + 1 := by
  by_cases h1 : st.cons = .idle ∨ st.cons = .finished
  · have := h.idle h1; omega
  · obtain ⟨p, c, p', e, e2, e3, _⟩ := h.busy (fun e => h1 (.inl e)) (fun e => h1 (.inr e))
    rw [e, sends_append]
    simp only [sends, e2, List.length_append, List.length_cons, List.length_nil]
    omega

theorem pace_step {env : Env} {prog0 : List Ev} {a b : Sys} (hs : Step env a b) {pre : List Ev} (h : Pace prog0 a pre) :
    ∃ pre', Pace prog0 b pre' := by
  obtain ⟨h1, h2, h3, h4⟩ := h
  cases hs with
  | @report m p k ed out hk =>
    refine ⟨pre ++ [.report m], by rw [h1, List.append_assoc]; rfl, ?_, ?_, ?_⟩
    · rw [List.filter_append, readerMsgs_append]; exact congrArg (· ++ [Msg.error m]) h2
    · intro h; simp only [sends_append, results_append, sends, results, List.append_nil]; exact h3 h
    · intro e1 e2
      obtain ⟨p, c, p', f1, f2, f3, f4, f5⟩ := h4 e1 e2
      refine ⟨p, c, p' ++ [.report m], by rw [f1]; simp, by rw [sends_append, f2]; rfl,
        by rw [results_append]; simpa [results] using f3, ?_, f5⟩
      rw [List.filter_append]; exact f4.trans ⟨_, rfl⟩
  | @say m p k ed out hk =>
    refine ⟨pre ++ [.say m], by rw [h1, List.append_assoc]; rfl, ?_, ?_, ?_⟩
    · rw [List.filter_append, readerMsgs_append]; exact congrArg (· ++ [Msg.scan m]) h2
    · intro h; simp only [sends_append, results_append, sends, results, List.append_nil]; exact h3 h
    · intro e1 e2
      obtain ⟨p, c, p', f1, f2, f3, f4, f5⟩ := h4 e1 e2
      refine ⟨p, c, p' ++ [.say m], by rw [f1]; simp, by rw [sends_append, f2]; rfl,
        by rw [results_append]; simpa [results] using f3, ?_, f5⟩
      rw [List.filter_append]; exact f4.trans ⟨_, rfl⟩
  | @rendezvous c p ed out =>
    refine ⟨pre ++ [.send c], by rw [h1, List.append_assoc]; rfl, ?_, ?_, ?_⟩
    · rw [readerMsgs_append, h2]; simp [readerMsgs]
    · rintro (h | h) <;> cases h
    · intro _ _
      exact ⟨pre, c, [], rfl, rfl, h3 (.inl rfl), by rw [h2]; exact ⟨[], by simp⟩, fun d hd => by cases hd; rfl⟩
  | @trace c p ed out =>
    refine ⟨pre, h1, by rw [List.filter_append]; simpa [Msg.isReader] using h2, (by rintro (h | h) <;> cases h), ?_⟩
    intro _ _
    obtain ⟨p, d, p', f1, f2, f3, f4, f5⟩ := h4 (by simp) (by simp)
    exact ⟨p, d, p', f1, f2, by rw [results_append]; simpa [results] using f3, by rw [List.filter_append]; exact f4.trans ⟨_, rfl⟩,
      fun x hx => f5 x hx⟩
  | @announce p c ed out data hw hd =>
    refine ⟨pre, h1, by rw [List.filter_append]; simpa [Msg.isReader] using h2, (by rintro (h | h) <;> cases h), ?_⟩
    intro _ _
    obtain ⟨p, d, p', f1, f2, f3, f4, f5⟩ := h4 (by simp) (by simp)
    exact ⟨p, d, p', f1, f2, by rw [results_append]; simpa [results] using f3, by rw [List.filter_append]; exact f4.trans ⟨_, rfl⟩,
      fun x hx => f5 x hx⟩
  | @quit p c ed out hq =>
    refine ⟨pre, h1, h2, (by rintro (h | h) <;> cases h), ?_⟩
    intro _ _
    obtain ⟨p, d, p', f1, f2, f3, f4, f5⟩ := h4 (by simp) (by simp)
    exact ⟨p, d, p', f1, f2, f3, f4, fun x hx => by cases hx⟩
  | @execute p c ed out ed' r hq hw hp =>
    refine ⟨pre, h1, h2, (by rintro (h | h) <;> cases h), ?_⟩
    intro _ _
    obtain ⟨p, d, p', f1, f2, f3, f4, f5⟩ := h4 (by simp) (by simp)
    exact ⟨p, d, p', f1, f2, f3, f4, fun x hx => by cases hx⟩
  | @crash p c ed out f hq hw hp =>
    refine ⟨pre, h1, h2, (by rintro (h | h) <;> cases h), ?_⟩
    intro _ _
    obtain ⟨p, d, p', f1, f2, f3, f4, f5⟩ := h4 (by simp) (by simp)
    exact ⟨p, d, p', f1, f2, f3, f4, fun x hx => by cases hx⟩
  | @save p c ed out ed' r hp =>
    refine ⟨pre, h1, h2, (by rintro (h | h) <;> cases h), ?_⟩
    intro _ _
    obtain ⟨p, d, p', f1, f2, f3, f4, f5⟩ := h4 (by simp) (by simp)
    exact ⟨p, d, p', f1, f2, f3, f4, fun x hx => by cases hx⟩
  | @crashSave p c ed out f hp =>
    refine ⟨pre, h1, h2, (by rintro (h | h) <;> cases h), ?_⟩
    intro _ _
    obtain ⟨p, d, p', f1, f2, f3, f4, f5⟩ := h4 (by simp) (by simp)
    exact ⟨p, d, p', f1, f2, f3, f4, fun x hx => by cases hx⟩
  | @write p r ed out =>
    refine ⟨pre, h1, by rw [List.filter_append]; simpa [Msg.isReader] using h2, ?_, fun h => absurd rfl h⟩
    intro _
    obtain ⟨p, d, p', f1, f2, f3, f4, f5⟩ := h4 (by simp) (by simp)
    simp only at f3
    simp [f1, sends_append, sends, f2, f3, results_append, results]
  | closed =>
    exact ⟨pre, h1, h2, fun _ => h3 (.inl rfl), fun _ h => absurd rfl h⟩

theorem pace_steps {env : Env} {errText : Bytes → Bytes} {s0 : State} {input : Bytes} {st : Sys}
    (hs : Steps env (initial errText s0 input) st) : ∃ pre, Pace (program errText input) st pre := by
  generalize hi : initial errText s0 input = i at hs
  induction hs with
  | refl => subst hi; exact ⟨[], rfl, rfl, fun _ => rfl, fun h => absurd rfl h⟩
  | tail h1 h2 ih => obtain ⟨pre, hp⟩ := ih; exact pace_step h2 hp

/-- A step leaves the output as it is or adds one message to it. -/
theorem step_out {env : Env} {a b : Sys} (h : Step env a b) : b.out = a.out ∨ ∃ m, b.out = a.out ++ [m] := by
  cases h <;> first | exact .inl rfl | exact .inr ⟨_, rfl⟩

theorem split_last {α : Type} {x : List α} {y : α} {a b : List α} {m : α} (h : x ++ [y] = a ++ m :: b) :
    (b = [] ∧ x = a ∧ y = m) ∨ ∃ b', x = a ++ m :: b' := by
  induction a generalizing x with
  | nil =>
    cases x with
    | nil => simp at h; exact .inl ⟨h.2.symm ▸ rfl, rfl, h.1⟩
    | cons x xs => simp at h; exact .inr ⟨xs, by rw [h.1]; rfl⟩
  | cons z a ih =>
    cases x with
    | nil => simp at h
    | cons x xs =>
      simp at h
      rcases ih h.2 with ⟨rfl, rfl, rfl⟩ | ⟨b', rfl⟩
      · exact .inl ⟨rfl, by rw [h.1], rfl⟩
      · exact .inr ⟨b', by rw [h.1]; rfl⟩

/-- **C83** Where a line of the reader is: if it comes after `n` results, the reader had sent `n` commands before it, or
`n+1`. So the text of a command, or the message about a line that does not parse, is at most one command away from where it
belongs, and everything the reader had to print before is before it. -/
theorem C83_reader_place (env : Env) (errText : Bytes → Bytes) (s0 : State) (input : Bytes) (st : Sys)
    (hs : Steps env (initial errText s0 input) st) (a b : List Msg) (m : Msg) (ho : st.out = a ++ m :: b) (hm : m.isReader = true) :
    ∃ before ev after, program errText input = before ++ ev :: after ∧ readerMsgs [ev] = [m] ∧
      readerMsgs before = a.filter Msg.isReader ∧
      (results a).length ≤ (sends before).length ∧ (sends before).length ≤ (results a).length + 1 := by
  generalize hi : initial errText s0 input = i at hs
  induction hs generalizing b with
  | refl => subst hi; simp [initial] at ho
  | @tail x y h1 h2 ih =>
    rcases step_out h2 with e | ⟨m', e⟩
    · exact ih b (by rw [← e]; exact ho)
    · rw [e] at ho
      rcases split_last ho with ⟨_, ex, rfl⟩ | ⟨b', eb⟩
      · subst hi
        obtain ⟨pre, hp⟩ := pace_steps h1
        have hbound := hp.bound
        cases h2 with
        | @report m p k ed out hk =>
          have : m' = .error m := by simpa using e.symm
          subst this
          simp only at ex hbound
          refine ⟨pre, .report m, p, hp.split, rfl, ?_, ?_⟩
          · rw [← ex]; exact hp.said.symm
          · rw [← ex]; exact hbound
        | @say m p k ed out hk =>
          have : m' = .scan m := by simpa using e.symm
          subst this
          simp only at ex hbound
          refine ⟨pre, .say m, p, hp.split, rfl, ?_, ?_⟩
          · rw [← ex]; exact hp.said.symm
          · rw [← ex]; exact hbound
        | trace => simp at e; rw [← e] at hm; cases hm
        | announce => simp at e; rw [← e] at hm; cases hm
        | write => simp at e; rw [← e] at hm; cases hm
        | rendezvous => simp at e
        | quit => simp at e
        | execute => simp at e
        | crash => simp at e
        | save => simp at e
        | crashSave => simp at e
        | closed => simp at e
      · exact ih b' eb

/-- **C83** Where a line of the main goroutine is: after `n` results it is about the command with that many before it, and all
that the reader prints before sending that command (its text among it) has been printed. -/
theorem C83_main_place (env : Env) (errText : Bytes → Bytes) (s0 : State) (input : Bytes) (st : Sys)
    (hs : Steps env (initial errText s0 input) st) (a b : List Msg) (m : Msg) (ho : st.out = a ++ m :: b) (hm : m.isMain = true) :
    ∃ before c after, program errText input = before ++ .send c :: after ∧ (sends before).length = (results a).length ∧
      readerMsgs before <+: a.filter Msg.isReader ∧
      ∀ l, m = .trace l → l = traceLine c ∨ ∃ s, l = saveLine s := by
  generalize hi : initial errText s0 input = i at hs
  induction hs generalizing b with
  | refl => subst hi; simp [initial] at ho
  | @tail x y h1 h2 ih =>
    rcases step_out h2 with e | ⟨m', e⟩
    · exact ih b (by rw [← e]; exact ho)
    · rw [e] at ho
      rcases split_last ho with ⟨_, ex, rfl⟩ | ⟨b', eb⟩
      · subst hi
        obtain ⟨pre, hp⟩ := pace_steps h1
        have hsp := hp.split
        have key : x.cons ≠ .idle → x.cons ≠ .finished → (∀ d l, x.cons.holds = some d → m' = .trace l →
            l = traceLine d ∨ ∃ s, l = saveLine s) → (x.cons.holds = none → ∀ l, m' ≠ .trace l) →
            ∃ before c after, program errText input = before ++ .send c :: after ∧ (sends before).length = (results a).length ∧
              readerMsgs before <+: a.filter Msg.isReader ∧ ∀ l, m' = .trace l → l = traceLine c ∨ ∃ s, l = saveLine s := by
          intro k1 k2 k3 k4
          obtain ⟨p, c, p', f1, f2, f3, f4, f5⟩ := hp.busy k1 k2
          refine ⟨p, c, p' ++ x.prog, by rw [hsp, f1]; simp, by rw [← ex]; exact f3, by rw [← ex]; exact f4, fun l hl => ?_⟩
          cases hh : x.cons.holds with
          | none => exact absurd hl (k4 hh l)
          | some d => rw [← f5 d hh]; exact k3 d l hh hl
        cases h2 with
        | report => simp at e; rw [← e] at hm; cases hm
        | say => simp at e; rw [← e] at hm; cases hm
        | trace =>
          simp at e
          refine key (by simp) (by simp) (fun d l hd hl => ?_) (fun h => by cases h)
          cases hd
          rw [← e] at hl; cases hl; exact .inl rfl
        | announce =>
          simp at e
          refine key (by simp) (by simp) (fun d l hd hl => ?_) (fun h => by cases h)
          cases hd
          rw [← e] at hl; cases hl; exact .inr ⟨_, rfl⟩
        | write =>
          simp at e
          exact key (by simp) (by simp) (fun d l hd hl => by cases hd) (fun _ l hl => by rw [← e] at hl; cases hl)
        | rendezvous => simp at e
        | quit => simp at e
        | execute => simp at e
        | crash => simp at e
        | save => simp at e
        | crashSave => simp at e
        | closed => simp at e
      · exact ih b' eb

end Ed
