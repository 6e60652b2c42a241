import Verif.Output.Commands
import Verif.Ed.SaveProps
import Verif.Ed.QuitProps
import Verif.Ed.ProcessProps

/-!
# C167: standard output is a pipe that nobody reads any more

A write to such a pipe fails with EPIPE. If it is standard output, package os (`epipecheck`) then ends the process with the
signal SIGPIPE. Here the reader goes away when `gone` calls of `Write` have been taken.
-/

namespace Kill
open Go

/-- The exit status a shell shows for a process that SIGPIPE (13) has ended. -/
def brokenPipe : Nat := 141

/-- main.go:28-77 `main` of kill, with its two calls of `fmt.Println` on standard output (lines 65 and 76). -/
def mainPipe (gone : Nat) (w : World) (args : List Bytes) : Result :=
  match parseLoop w {} args with
  | .error (.error msg) => ⟨[], msg, 2, [], none⟩
  | .error (.panic p) => ⟨[], [], 2, [], some p⟩
  | .ok s =>
    if gone = 0 then ⟨[], [], brokenPipe, [], none⟩
    else
      match w.findErr s.pid with
      | some e => ⟨announce s, b!"couldn't find process with PID of " ++ itoa s.pid ++ b!": " ++ e ++ b!"\n", 2, [], none⟩
      | none =>
        if s.pid = 0 ∨ s.pid = -1 then ⟨announce s, notSent s (w.refused s.pid), 2, [], none⟩
        else
          match w.killErr s.pid with
          | some e => ⟨announce s, notSent s e, 2, [(s.pid, 9)], none⟩
          | none => if gone = 1 then ⟨announce s, [], brokenPipe, [(s.pid, 9)], none⟩ else ⟨announce s ++ b!"vim-go\n", [], 0, [(s.pid, 9)], none⟩

/-- **C167** (the expectation fails) If nobody reads its output any more `kill` sends nothing at all, whatever it is asked, because it
announces the signal first. If the reader goes away after the announcement the signal is sent, but a success looks like a failure.
Otherwise nothing is different. -/
theorem C167_kill (w : World) (args : List Bytes) (gone : Nat) :
    (gone = 0 → (mainPipe gone w args).sent = [] ∧ (mainPipe gone w args).exit ≠ 0) ∧
    (0 < gone → (mainPipe gone w args).sent = (main w args).sent ∧ (mainPipe gone w args).stdout <+: (main w args).stdout) ∧
    (gone = 1 → (mainPipe gone w args).exit ≠ 0) ∧ (1 < gone → mainPipe gone w args = main w args) := by
  unfold mainPipe main
  cases parseLoop w {} args with
  | error e => cases e <;> simp
  | ok s =>
    simp only []
    refine ⟨?_, ?_, ?_, ?_⟩
    · rintro rfl; simp [brokenPipe]
    · intro h
      rw [if_neg (by omega)]
      cases w.findErr s.pid with
      | some e => simp
      | none =>
        simp only []
        split
        · simp
        · cases w.killErr s.pid with
          | some e => simp
          | none => simp only []; split <;> simp
    · rintro rfl
      rw [if_neg (by omega)]
      split
      · simp
      · split
        · simp
        · split <;> simp [brokenPipe]
    · intro h
      rw [if_neg (by omega)]
      cases w.findErr s.pid with
      | some e => rfl
      | none =>
        simp only []
        split
        · rfl
        · cases w.killErr s.pid with
          | some e => rfl
          | none => simp only []; rw [if_neg (by omega)]

/-- `kill 42` where it would have succeeded. -/
example : mainPipe 0 ⟨id, fun _ => none, fun _ => [], fun _ => none⟩ [b!"42"] = ⟨[], [], 141, [], none⟩ ∧
    (main ⟨id, fun _ => none, fun _ => [], fun _ => none⟩ [b!"42"]).sent = [(42, 9)] := by
  refine ⟨by decide +kernel, by decide +kernel⟩

end Kill

namespace Cat
open Go

/-- How the copying of a file ends: at its end (perhaps with an error), or with the process. -/
inductive Ended
  | copied (err : Option Bytes)
  | killed
  deriving DecidableEq, Repr

/-- main.go:12-32 `io.Copy` into standard output (`copyTo`): what has been taken, the number of calls taken, and the reader. -/
def copyPipe (gone : Nat) : (rounds : Nat) → (calls : Nat) → Source → Bytes × Nat × Ended × Source
  | 0, k, r => ([], k, .copied none, r)
  | n + 1, k, r =>
    match r.read 32768 with
    | (x, e, r1) =>
      if x ≠ [] ∧ gone ≤ k then ([], k, .killed, r1)
      else
        let k1 := if x = [] then k else k + 1
        match e with
        | none => let y := copyPipe gone n k1 r1; (x ++ y.1, y.2)
        | some .eof => (x, k1, .copied none, r1)
        | some e => (x, k1, .copied (some e.text), r1)

/-- main.go:12-32 `writeFile` and `write`. -/
def writeFilePipe (gone : Nat) (file : Bytes → Except Bytes Source) (k : Nat) (stdin : Source) (name : Bytes) : Bytes × Nat × Ended × Source :=
  if name = b!"-" then copyPipe gone (stdin.bytes.length + 1) k stdin
  else
    match file name with
    | .error e => ([], k, .copied (some e), stdin)
    | .ok f =>
      let x := copyPipe gone (f.bytes.length + 1) k f
      (x.1, x.2.1, x.2.2.1, stdin)

/-- main.go:48-54: the loop over the operands: what has been taken, and `none` if the process was ended, or what is on standard error. -/
def loopPipe (gone : Nat) (file : Bytes → Except Bytes Source) : (calls : Nat) → (stdin : Source) → List Bytes → Bytes × Option Bytes × Source
  | _, stdin, [] => ([], some [], stdin)
  | k, stdin, f :: rest =>
    match writeFilePipe gone file k stdin f with
    | (x, _, .killed, stdin') => (x, none, stdin')
    | (x, _, .copied (some e), stdin') => (x, some (b!"Error encountered while attempting to read from " ++ f ++ b!": " ++ e ++ b!"\n"), stdin')
    | (x, k', .copied none, stdin') => let y := loopPipe gone file k' stdin' rest; (x ++ y.1, y.2)

/-- main.go:34-55 `main`. -/
def mainPipe (gone : Nat) (file : Bytes → Except Bytes Source) (stdin : Source) (args : List Bytes) : Bytes × Option Bytes × Source :=
  loopPipe gone file 0 stdin (operands args)

theorem copyPipe_kills (gone : Nat) : ∀ (chunks : List Bytes) (n k : Nat) (err : Option Bytes), (∀ c ∈ chunks, c ≠ [] ∧ c.length ≤ 32768) → chunks.length < n → k ≤ gone →
    (gone - k < chunks.length → copyPipe gone n k ⟨chunks, err⟩ = ((chunks.take (gone - k)).flatten, gone, .killed, ⟨chunks.drop (gone - k + 1), err⟩)) ∧
    (chunks.length ≤ gone - k → copyPipe gone n k ⟨chunks, err⟩ = (chunks.flatten, k + chunks.length, .copied err, ⟨[], err⟩)) := by
  intro chunks
  induction chunks with
  | nil =>
    intro n k err _ hn hk
    obtain ⟨n, rfl⟩ : ∃ m, n = m + 1 := ⟨n - 1, by omega⟩
    refine ⟨fun h => by simp at h, fun _ => ?_⟩
    cases err <;> simp [copyPipe, Source.read, Source.ending, ScanErr.text]
  | cons c cs ih =>
    intro n k err hc hn hk
    obtain ⟨n, rfl⟩ : ∃ m, n = m + 1 := ⟨n - 1, by omega⟩
    obtain ⟨h1, h2⟩ := hc c List.mem_cons_self
    simp only [List.length_cons] at hn ⊢
    have hread : Source.read ⟨c :: cs, err⟩ 32768 = (c, none, ⟨cs, err⟩) := by simp [Source.read, h2]
    rcases Nat.lt_or_ge k gone with hg | hg
    · obtain ⟨i1, i2⟩ := ih n (k + 1) err (fun x hx => hc x (List.mem_cons_of_mem _ hx)) (by omega) (by omega)
      have e : gone - k = gone - (k + 1) + 1 := by omega
      constructor
      · intro h
        rw [copyPipe, hread]
        simp only [h1, ne_eq, not_false_eq_true, true_and, if_neg (show ¬ gone ≤ k by omega), if_false]
        rw [i1 (by omega), e, List.take_succ_cons, List.flatten_cons, List.drop_succ_cons]
      · intro h
        rw [copyPipe, hread]
        simp only [h1, ne_eq, not_false_eq_true, true_and, if_neg (show ¬ gone ≤ k by omega), if_false]
        rw [i2 (by omega), List.flatten_cons, show k + 1 + cs.length = k + (cs.length + 1) by omega]
    · have e : k = gone := by omega
      subst e
      refine ⟨fun _ => ?_, fun h => by omega⟩
      rw [copyPipe, hread]
      simp [h1]

theorem chunks_le (cs : List Bytes) (h : ∀ c ∈ cs, c ≠ []) : cs.length ≤ cs.flatten.length := by
  induction cs with
  | nil => simp
  | cons c cs ih =>
    have := ih (fun x hx => h x (List.mem_cons_of_mem _ hx))
    have h0 := List.length_pos_iff.2 (h c List.mem_cons_self)
    simp only [List.length_cons, List.flatten_cons, List.length_append]
    omega

/-- The pieces in which the contents of the files arrive. -/
def pieces (file : Bytes → Except Bytes Source) (names : List Bytes) : List Bytes :=
  names.flatMap fun n => match file n with | .ok f => f.chunks | .error _ => []

theorem loopPipe_files (gone : Nat) (file : Bytes → Except Bytes Source) (stdin : Source) : ∀ (names : List Bytes) (k : Nat), k ≤ gone →
    (∀ n ∈ names, n ≠ b!"-" ∧ ∃ cs, file n = .ok ⟨cs, none⟩ ∧ ∀ c ∈ cs, c ≠ [] ∧ c.length ≤ 32768) →
    loopPipe gone file k stdin names = (((pieces file names).take (gone - k)).flatten, if gone - k < (pieces file names).length then none else some [], stdin) := by
  intro names
  induction names with
  | nil => intro k _ _; simp [loopPipe, pieces]
  | cons n ns ih =>
    intro k hk h
    obtain ⟨hn, cs, hf, hc⟩ := h n List.mem_cons_self
    have hp : pieces file (n :: ns) = cs ++ pieces file ns := by simp [pieces, hf]
    obtain ⟨k1, k2⟩ := copyPipe_kills gone cs ((Source.bytes ⟨cs, none⟩).length + 1) k none hc (Nat.lt_succ_of_le (chunks_le cs (fun c h => (hc c h).1))) hk
    rcases Nat.lt_or_ge (gone - k) cs.length with hl | hl
    · rw [loopPipe, writeFilePipe, if_neg hn, hf]
      simp only []
      rw [k1 hl, hp]
      simp only [List.length_append]
      rw [if_pos (by omega), List.take_append_of_le_length (by omega)]
    · rw [loopPipe, writeFilePipe, if_neg hn, hf]
      simp only []
      rw [k2 hl, hp]
      simp only []
      rw [ih (k + cs.length) (by omega) (fun x hx => h x (List.mem_cons_of_mem _ hx)), List.take_append, List.flatten_append,
        List.take_of_length_le hl, show gone - (k + cs.length) = gone - k - cs.length by omega]
      simp only [List.length_append]
      congr 2
      split <;> split <;> first | rfl | omega

/-- **C167** Named files that can be read: the first pieces arrive, as many as are taken, and in order; and if there are more `cat` is
ended and says nothing. -/
theorem C167_cat_files (gone : Nat) (file : Bytes → Except Bytes Source) (stdin : Source) (args : List Bytes)
    (h : ∀ n ∈ operands args, n ≠ b!"-" ∧ ∃ cs, file n = .ok ⟨cs, none⟩ ∧ ∀ c ∈ cs, c ≠ [] ∧ c.length ≤ 32768) :
    mainPipe gone file stdin args = (((pieces file (operands args)).take gone).flatten, if gone < (pieces file (operands args)).length then none else some [], stdin) :=
  loopPipe_files gone file stdin (operands args) 0 (Nat.zero_le _) h

/-- **C167** `cat` ends when nobody reads its output any more, however much input there is or will be: it has read one piece more than
were taken, and they have arrived as they came. -/
theorem C167_cat (gone : Nat) (file : Bytes → Except Bytes Source) (stdin : Source) (args rest : List Bytes) (ho : operands args = b!"-" :: rest)
    (hs : ∀ c ∈ stdin.chunks, c ≠ [] ∧ c.length ≤ 32768) (hg : gone < stdin.chunks.length) :
    mainPipe gone file stdin args = ((stdin.chunks.take gone).flatten, none, ⟨stdin.chunks.drop (gone + 1), stdin.err⟩) := by
  have hlen : stdin.chunks.length ≤ stdin.bytes.length := chunks_le _ (fun c hc => (hs c hc).1)
  have key := (copyPipe_kills gone stdin.chunks (stdin.bytes.length + 1) 0 stdin.err hs (by omega) (Nat.zero_le _)).1 (by omega)
  rw [mainPipe, ho, loopPipe, writeFilePipe, if_pos rfl, key]
  rfl

/-- Two pieces of four taken: the third is lost, the fourth has not been read. -/
example : mainPipe 2 (fun _ => .error []) ⟨[b!"a", b!"b", b!"c", b!"d"], none⟩ [] = (b!"ab", none, ⟨[b!"d"], none⟩) := by decide +kernel

/-- Two files of two pieces each, three of which are taken. -/
example : mainPipe 3 (fun n => .ok ⟨[n, b!"\n"], none⟩) ⟨[], none⟩ [b!"x", b!"y"] = (b!"x\ny", none, ⟨[], none⟩) := by decide +kernel

end Cat

namespace Ed
open Go

/-! ## Model -/

/-- ed while it runs, or the files and what was taken of the output when SIGPIPE has ended it. -/
inductive Piped
  | running (st : Sys)
  | killed (fs : FS) (out : List Msg)

/-- ed.go:209-256: the steps of `Step`; all messages go to standard output (cmd/ed/main.go:29). The message that the pipe does not take ends
the process. If it is a message of the reader, the main goroutine may be in the middle of the system calls of a save (ed.go:57-74). -/
inductive PipeStep (gone : Nat) (env : Env) : Piped → Piped → Prop
  | step {a b} : Step env a b → b.out.length ≤ gone → PipeStep gone env (.running a) (.running b)
  | kill {a b} : Step env a b → gone < b.out.length → PipeStep gone env (.running a) (.killed a.ed.fs a.out)
  | killSaving {a b c data fs} : Step env a b → gone < b.out.length → a.cons = .saving c → a.ed.pt.string = .ok data →
      fs ∈ (saveTrace (env.outcome a.ed.writes) a.ed.fs a.ed.filename data).1 → PipeStep gone env (.running a) (.killed fs a.out)

/-- Any number of steps. -/
inductive PipeSteps (gone : Nat) (env : Env) : Piped → Piped → Prop
  | refl {a} : PipeSteps gone env a a
  | tail {a b c} : PipeSteps gone env a b → PipeStep gone env b c → PipeSteps gone env a c

/-! ## Lemmas -/

theorem piped_runs {gone : Nat} {env : Env} {a : Sys} {x : Piped} (h : PipeSteps gone env (.running a) x) (ha : a.out.length ≤ gone) :
    (∀ st, x = .running st → Steps env a st ∧ st.out.length ≤ gone) ∧
    ∀ fs out, x = .killed fs out → ∃ st, Steps env a st ∧ st.out = out ∧ out.length = gone ∧
      (fs = st.ed.fs ∨ ∃ c data, st.cons = .saving c ∧ st.ed.pt.string = .ok data ∧ fs ∈ (saveTrace (env.outcome st.ed.writes) st.ed.fs st.ed.filename data).1) := by
  generalize hx : Piped.running a = x0 at h
  have hout : ∀ {a b : Sys}, Step env a b → b.out.length ≤ a.out.length + 1 := by
    intro a b h
    cases h <;> simp
  induction h with
  | refl => subst hx; exact ⟨fun st h => by cases h; exact ⟨.refl, ha⟩, fun _ _ h => by cases h⟩
  | tail _ hs ih =>
    obtain ⟨i1, -⟩ := ih
    cases hs with
    | step h1 h2 =>
      obtain ⟨j1, j2⟩ := i1 _ rfl
      exact ⟨fun st h => by cases h; exact ⟨.tail j1 h1, h2⟩, fun _ _ h => by cases h⟩
    | kill h1 h2 =>
      obtain ⟨j1, j2⟩ := i1 _ rfl
      refine ⟨fun _ h => (by cases h), fun fs out h => ?_⟩
      cases h
      have := hout h1
      exact ⟨_, j1, rfl, by omega, .inl rfl⟩
    | killSaving h1 h2 h3 h4 h5 =>
      obtain ⟨j1, j2⟩ := i1 _ rfl
      refine ⟨fun _ h => (by cases h), fun fs out h => ?_⟩
      cases h
      have := hout h1
      exact ⟨_, j1, rfl, by omega, .inr ⟨_, _, h3, h4, h5⟩⟩

/-- The announcement of a save is among these messages. -/
def Announced (out : List Msg) : Prop := ∃ e : State, Msg.trace (saveLine e) ∈ out

theorem announced_more {out : List Msg} (m : Msg) (h : Announced out) : Announced (out ++ [m]) := by
  obtain ⟨e, h⟩ := h
  exact ⟨e, List.mem_append_left _ h⟩

theorem saves_announced {env : Env} {a st : Sys} (h : Steps env a st) (ha : ∀ c, a.cons ≠ .saving c) :
    (Announced st.out ∨ st.ed.fs = a.ed.fs ∧ ∀ c, st.cons ≠ .saving c) := by
  induction h with
  | refl => exact .inr ⟨rfl, ha⟩
  | tail _ hs ih =>
    cases hs with
    | report hk =>
      rcases ih with h | ⟨h1, h2⟩
      · exact .inl (announced_more _ h)
      · exact .inr ⟨h1, h2⟩
    | say hk =>
      rcases ih with h | ⟨h1, h2⟩
      · exact .inl (announced_more _ h)
      · exact .inr ⟨h1, h2⟩
    | rendezvous => exact ih.imp id (fun h => ⟨h.1, by simp⟩)
    | trace =>
      rcases ih with h | ⟨h1, h2⟩
      · exact .inl (announced_more _ h)
      · exact .inr ⟨h1, by simp⟩
    | quit => exact ih.imp id (fun h => ⟨h.1, by simp⟩)
    | announce h1 h2 => exact .inl ⟨_, List.mem_append_right _ (List.mem_singleton.2 rfl)⟩
    | execute h1 h2 h3 => exact ih.imp id (fun h => ⟨(command_fs h2 h3).trans h.1, by simp⟩)
    | crash => exact ih.imp id (fun h => ⟨h.1, by simp⟩)
    | save => exact ih.imp id (fun h => absurd rfl (h.2 _))
    | crashSave => exact ih.imp id (fun h => absurd rfl (h.2 _))
    | write =>
      rcases ih with h | ⟨h1, h2⟩
      · exact .inl (announced_more _ h)
      · exact .inr ⟨h1, by simp⟩
    | closed => exact ih.imp id (fun h => ⟨h.1, by simp⟩)

/-- Nothing is executed before its line has been written. -/
theorem unread_same {env : Env} {a st : Sys} (h : Steps env a st) (ha : a.cons = .idle) (ho : st.out = []) :
    st.ed = a.ed ∧ (st.cons = .idle ∨ (∃ c, st.cons = .received c) ∨ st.cons = .finished) := by
  induction h with
  | refl => exact ⟨rfl, .inl ha⟩
  | tail _ hs ih =>
    cases hs with
    | report | say | trace | announce | write => simp at ho
    | rendezvous => exact ⟨(ih ho).1, .inr (.inl ⟨_, rfl⟩)⟩
    | quit | execute | crash => rcases (ih ho).2 with h | ⟨c, h⟩ | h <;> cases h
    | save | crashSave => rcases (ih ho).2 with h | ⟨c, h⟩ | h <;> cases h
    | closed => exact ⟨(ih ho).1, .inr (.inr rfl)⟩

/-! ## Theorems -/

/-- **C167** Until SIGPIPE ends it, ed does what it does otherwise; it is ended by the first message that is not taken. Every file
then has the contents it had at that moment of the run; if a save was going on, the file being saved has its old contents or the
whole of the new, and only its temporary file may be anything else. -/
theorem C167_ed (gone : Nat) (env : Env) (errText : Bytes → Bytes) (s : State) (input : Bytes) (fs : FS) (out : List Msg)
    (h : PipeSteps gone env (.running (initial errText s input)) (.killed fs out)) :
    ∃ st, Steps env (initial errText s input) st ∧ st.out = out ∧ out.length = gone ∧
      (fs = st.ed.fs ∨ ∃ data, st.ed.pt.string = .ok data ∧ (fs st.ed.filename = st.ed.fs st.ed.filename ∨ fs st.ed.filename = some data) ∧
        ∀ n, n ≠ st.ed.filename → n ≠ tmpName st.ed.filename → fs n = st.ed.fs n) := by
  obtain ⟨st, h1, h2, h3, h4⟩ := (piped_runs h (Nat.zero_le _)).2 fs out rfl
  refine ⟨st, h1, h2, h3, h4.imp id ?_⟩
  rintro ⟨c, data, -, h5, h6⟩
  obtain ⟨h7, h8⟩ := C70_atomic _ _ _ _ _ h6
  exact ⟨data, h5, h7, h8⟩

/-- **C167** (the expectation fails) If the reader has gone before the line that announces a save, nothing is saved: a file has changed
only if such a line was taken. -/
theorem C167_ed_saved (gone : Nat) (env : Env) (errText : Bytes → Bytes) (s : State) (input : Bytes) (fs : FS) (out : List Msg)
    (h : PipeSteps gone env (.running (initial errText s input)) (.killed fs out)) (hc : fs ≠ s.fs) : Announced out := by
  obtain ⟨st, h1, rfl, -, h4⟩ := (piped_runs h (Nat.zero_le _)).2 fs out rfl
  rcases saves_announced h1 (by simp [initial]) with h5 | ⟨h5, h6⟩
  · exact h5
  · rcases h4 with rfl | ⟨c, data, h7, -⟩
    · exact absurd h5 hc
    · exact absurd h7 (h6 c)

/-- **C167** (the expectation fails) If nobody reads the output from the start no command is ever carried out, whatever is typed: the
buffer and all files stay as they are. -/
theorem C167_ed_unread (env : Env) (errText : Bytes → Bytes) (s : State) (input : Bytes) :
    (∀ st, PipeSteps 0 env (.running (initial errText s input)) (.running st) → st.ed = s ∧ st.out = []) ∧
    ∀ fs out, PipeSteps 0 env (.running (initial errText s input)) (.killed fs out) → fs = s.fs ∧ out = [] := by
  constructor
  · intro st h
    obtain ⟨h1, h2⟩ := (piped_runs h (Nat.zero_le _)).1 st rfl
    have ho := List.length_eq_zero_iff.1 (Nat.le_zero.1 h2)
    exact ⟨(unread_same h1 rfl ho).1, ho⟩
  · intro fs out h
    obtain ⟨st, h1, rfl, h3, h4⟩ := (piped_runs h (Nat.zero_le _)).2 fs out rfl
    have ho := List.length_eq_zero_iff.1 h3
    obtain ⟨h5, h6⟩ := unread_same h1 rfl ho
    refine ⟨?_, ho⟩
    rcases h4 with rfl | ⟨c, data, h7, -⟩
    · rw [h5]; rfl
    · rw [h7] at h6
      rcases h6 with h | ⟨c, h⟩ | h <;> cases h

/-- **C167** What is required holds as long as all messages are taken: every run that writes no more than that is possible as it is. -/
theorem C167_ed_taken_partial (gone : Nat) (env : Env) (a st : Sys) (h : Steps env a st) (hg : st.out.length ≤ gone) :
    PipeSteps gone env (.running a) (.running st) := by
  have hout : ∀ {a b : Sys}, Step env a b → a.out.length ≤ b.out.length := by
    intro a b h
    cases h <;> simp
  induction h with
  | refl => exact .refl
  | tail _ hs ih => exact .tail (ih (Nat.le_trans (hout hs) hg)) (.step hs hg)

/-- **C167** Whoever types a command at such an ed ends it: a run that has a command or a message to come goes on to be killed. -/
theorem C167_ed_ends (env : Env) (errText : Bytes → Bytes) (s : State) (input : Bytes) (h : program errText input ≠ []) :
    PipeSteps 0 env (.running (initial errText s input)) (.killed s.fs []) := by
  unfold initial
  cases hp : program errText input with
  | nil => exact absurd hp h
  | cons e p =>
    cases e with
    | report m => exact .tail .refl (.kill (.report (by simp)) (by simp))
    | say m => exact .tail .refl (.kill (.say (by simp)) (by simp))
    | send c =>
      exact .tail (.tail .refl (.step .rendezvous (by simp))) (.kill .trace (by simp))

/-- The commands `1d`, `w` and `q` at such an ed. -/
example : program id b!"1d\nw\nq\n" ≠ [] := by decide +kernel

end Ed
