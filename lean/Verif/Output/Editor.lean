import Verif.Go.Sink
import Verif.Ed.ProcessProps

/-!
# ed when standard output does not take everything (C124)

The steps of the two goroutines once more, with `Sink` for standard output. In the command everything goes there
(cmd/ed/main.go:29). Standard error takes everything.
-/

namespace Ed
open Go

/-! ## Model -/

/-- The system with standard output as it is. -/
structure SysTo where
  prog : List Ev
  cons : Cons
  ed : State
  sink : Sink

/-- ed.go:209-256: the steps of `Step`, where each message is a call that may fail. None of the calls is looked at
(ed.go:55, 234, 242, 248, 254 and ed.peg.go:451). -/
inductive StepTo (ans : Answers) (env : Env) : SysTo → SysTo → Prop
  | report {m p k ed s} : (∀ f, k ≠ .crashed (.panic f)) → StepTo ans env ⟨.report m :: p, k, ed, s⟩ ⟨p, k, ed, s.print ans m⟩
  | say {m p k ed s} : (∀ f, k ≠ .crashed (.panic f)) → StepTo ans env ⟨.say m :: p, k, ed, s⟩ ⟨p, k, ed, s.print ans m⟩
  | rendezvous {c p ed s} : StepTo ans env ⟨.send c :: p, .idle, ed, s⟩ ⟨p, .received c, ed, s⟩
  | trace {c p ed s} : StepTo ans env ⟨p, .received c, ed, s⟩ ⟨p, .busy c, ed, s.print ans (traceLine c)⟩
  | quit {p c ed s} : c.typ = .quit → StepTo ans env ⟨p, .busy c, ed, s⟩ ⟨p, .quit, ed, s⟩
  | announce {p c ed s data} : c.typ = .write → ed.pt.string = .ok data →
      StepTo ans env ⟨p, .busy c, ed, s⟩ ⟨p, .saving c, ed, s.print ans (saveLine ed)⟩
  | execute {p c ed s ed' r} : c.typ ≠ .quit → c.typ ≠ .write → processCommand env ed c = .ok (ed', r) →
      StepTo ans env ⟨p, .busy c, ed, s⟩ ⟨p, .writing (r ++ [nl]), ed', s⟩
  | crash {p c ed s f} : c.typ ≠ .quit → (c.typ = .write → ∀ data, ed.pt.string ≠ .ok data) →
      processCommand env ed c = .error f → StepTo ans env ⟨p, .busy c, ed, s⟩ ⟨p, .crashed f, ed, s⟩
  | save {p c ed s ed' r} : processCommand env ed c = .ok (ed', r) →
      StepTo ans env ⟨p, .saving c, ed, s⟩ ⟨p, .writing (r ++ [nl]), ed', s⟩
  | crashSave {p c ed s f} : processCommand env ed c = .error f →
      StepTo ans env ⟨p, .saving c, ed, s⟩ ⟨p, .crashed f, crashState env ed c, s⟩
  | write {p r ed s} : StepTo ans env ⟨p, .writing r, ed, s⟩ ⟨p, .idle, ed, s.print ans r⟩
  | closed {ed s} : StepTo ans env ⟨[], .idle, ed, s⟩ ⟨[], .finished, ed, s⟩

/-- Any number of steps. -/
inductive StepsTo (ans : Answers) (env : Env) : SysTo → SysTo → Prop
  | refl {a} : StepsTo ans env a a
  | tail {a b c} : StepsTo ans env a b → StepTo ans env b c → StepsTo ans env a c

/-- The state in which the goroutines start. -/
def initialTo (errText : Bytes → Bytes) (s : State) (input : Bytes) : SysTo := ⟨program errText input, .idle, s, {}⟩

/-! ## Specification -/

/-- What arrives of the messages `out`. -/
def arrived (ans : Answers) (a : Sys) : SysTo := ⟨a.prog, a.cons, a.ed, Sink.after ans {} (a.out.map Msg.bytes)⟩

theorem after_snoc (ans : Answers) (out : List Msg) (m : Msg) :
    Sink.after ans {} ((out ++ [m]).map Msg.bytes) = (Sink.after ans {} (out.map Msg.bytes)).print ans m.bytes := by
  rw [print_eq, after_after, List.map_append]; rfl

theorem step_to {ans : Answers} {env : Env} {a b : Sys} (h : Step env a b) : StepTo ans env (arrived ans a) (arrived ans b) := by
  cases h with
  | report h => simp only [arrived, after_snoc]; exact .report h
  | say h => simp only [arrived, after_snoc]; exact .say h
  | rendezvous => exact .rendezvous
  | trace => simp only [arrived, after_snoc]; exact .trace
  | quit h => exact .quit h
  | announce h1 h2 => simp only [arrived, after_snoc]; exact .announce h1 h2
  | execute h1 h2 h3 => exact .execute h1 h2 h3
  | crash h1 h2 h3 => exact .crash h1 h2 h3
  | save h => exact .save h
  | crashSave h => exact .crashSave h
  | write => simp only [arrived, after_snoc]; exact .write
  | closed => exact .closed

theorem step_from {ans : Answers} {env : Env} {a : Sys} {y : SysTo} (h : StepTo ans env (arrived ans a) y) :
    ∃ b, Step env a b ∧ y = arrived ans b := by
  obtain ⟨p, k, e, out⟩ := a
  rw [arrived] at h
  dsimp only at h
  generalize hs : Sink.after ans {} (out.map Msg.bytes) = s at h
  cases h with
  | report h => exact ⟨_, .report h, by simp only [arrived, after_snoc, hs, Msg.bytes]⟩
  | say h => exact ⟨_, .say h, by simp only [arrived, after_snoc, hs, Msg.bytes]⟩
  | rendezvous => exact ⟨_, .rendezvous, by simp only [arrived, hs]⟩
  | trace => exact ⟨_, .trace, by simp only [arrived, after_snoc, hs, Msg.bytes]⟩
  | quit h => exact ⟨_, .quit h, by simp only [arrived, hs]⟩
  | announce h1 h2 => exact ⟨_, .announce h1 h2, by simp only [arrived, after_snoc, hs, Msg.bytes]⟩
  | execute h1 h2 h3 => exact ⟨_, .execute h1 h2 h3, by simp only [arrived, hs]⟩
  | crash h1 h2 h3 => exact ⟨_, .crash h1 h2 h3, by simp only [arrived, hs]⟩
  | save h => exact ⟨_, .save h, by simp only [arrived, hs]⟩
  | crashSave h => exact ⟨_, .crashSave h, by simp only [arrived, hs]⟩
  | write => exact ⟨_, .write, by simp only [arrived, after_snoc, hs, Msg.bytes]⟩
  | closed => exact ⟨_, .closed, by simp only [arrived, hs]⟩

/-! ## Property -/

/-- **C124** (the expectation fails) `ed` does not notice that its output is not taken: whatever is refused, the runs are those in
which everything is taken, with the same commands executed, the same buffer and the same files, and what arrives of
each message is what is taken of it. -/
theorem C124_ed (ans : Answers) (env : Env) (errText : Bytes → Bytes) (s : State) (input : Bytes) (y : SysTo) :
    StepsTo ans env (initialTo errText s input) y ↔
      ∃ st, Steps env (initial errText s input) st ∧ y.prog = st.prog ∧ y.cons = st.cons ∧ y.ed = st.ed ∧
        y.sink.out = taken ans 0 (st.out.map Msg.bytes) ∧ y.sink.calls = st.out.length := by
  have hinit : initialTo errText s input = arrived ans (initial errText s input) := by
    simp [initialTo, arrived, initial, after_nil]
  rw [hinit]
  constructor
  · intro h
    generalize hx : arrived ans (initial errText s input) = x at h
    have key : ∃ st, Steps env (initial errText s input) st ∧ y = arrived ans st := by
      induction h with
      | refl => subst hx; exact ⟨_, .refl, rfl⟩
      | tail _ hs ih =>
        obtain ⟨st, h1, rfl⟩ := ih
        obtain ⟨b, h2, h3⟩ := step_from hs
        exact ⟨b, .tail h1 h2, h3⟩
    obtain ⟨st, h1, rfl⟩ := key
    exact ⟨st, h1, rfl, rfl, rfl, by simp [arrived, Sink.after], by simp [arrived, Sink.after]⟩
  · rintro ⟨st, h1, h2, h3, h4, h5, h6⟩
    have hy : y = arrived ans st := by
      obtain ⟨p, k, e, c, o⟩ := y
      dsimp only at h2 h3 h4 h5 h6
      subst h2 h3 h4 h5 h6
      simp [arrived, Sink.after]
    subst hy
    clear h2 h3 h4 h5 h6
    induction h1 with
    | refl => exact .refl
    | tail _ hs ih => exact .tail ih (step_to hs)

/-- **C124** In particular the file is saved although the message about it is not printed. -/
theorem C124_ed_saves (ans : Answers) (env : Env) (errText : Bytes → Bytes) (s : State) (input : Bytes) (st : Sys)
    (h : Steps env (initial errText s input) st) :
    ∃ y, StepsTo ans env (initialTo errText s input) y ∧ y.cons = st.cons ∧ y.ed.fs = st.ed.fs :=
  ⟨arrived ans st, (C124_ed ans env errText s input _).2
    ⟨st, h, rfl, rfl, rfl, by simp [arrived, Sink.after], by simp [arrived, Sink.after]⟩, rfl, rfl⟩

/-- `q` typed, and the line about the command refused. -/
example (env : Env) (s : State) :
    ∃ y, StepsTo (fun k => if k = 0 then some (0, b!"no space") else none) env (initialTo (fun _ => []) s b!"q\n") y ∧ y.cons = .quit ∧ y.sink.out = [] := by
  have hp : program (fun _ => []) b!"q\n" = [.send { typ := .quit }] := by decide +kernel
  refine ⟨⟨[], .quit, s, { calls := 1, out := [] }⟩, ?_, rfl, rfl⟩
  rw [initialTo, hp]
  exact .tail (.tail (.tail .refl .rendezvous) .trace) (.quit rfl)

end Ed
