import Verif.Ed.Notes
import Verif.Ed.ProcessProps

/-!
# How the notes of ed's two goroutines mix (C168)

The transition system of `Verif.Ed.Process` once more, with the calls of `debug` as steps of their own.
-/

namespace Ed
open Go

/-! ## Model -/

/-- An action of the reader, or its note about a text (ed.go:229). -/
inductive NEv where
  | note (text : Bytes)
  | ev (e : Ev)

/-- The actions other than notes. -/
def withoutNotes : List NEv → List Ev
  | [] => []
  | .note _ :: p => withoutNotes p
  | .ev e :: p => e :: withoutNotes p

/-- The texts noted. -/
def noted : List NEv → List Note
  | [] => []
  | .note t :: p => .line t :: noted p
  | .ev _ :: p => noted p

/-- ed.go:215-245: all the reader does: for each text the note comes before the parse. -/
def notedProgram (errText : Bytes → Bytes) (input : Bytes) : List NEv :=
  (texts input).flatMap (fun t => .note t :: (eventsOf errText t).map .ev) ++ (scanError (scanLines input).2).map .ev

/-- Who wrote a note: the reader or the main goroutine. -/
inductive Who where
  | reader
  | main
  deriving DecidableEq

/-- A system with standard error. `told` counts the notes of the command being executed that have been written. -/
structure NSys where
  prog : List NEv
  cons : Cons
  told : Nat
  ed : State
  out : List Msg
  err : List (Who × Note)

/-- Without the notes. -/
def NSys.plain (x : NSys) : Sys := ⟨withoutNotes x.prog, x.cons, x.ed, x.out⟩

/-- The notes the main goroutine writes where it is. Those of `w` come after the line on standard output about the names (ed.go:55,59). The notes
of a search that never ends are cut off where the model of the search is. -/
def due (env : Env) (reErr : Bytes → Bytes) (k : Cons) (ed : State) : List Note :=
  match k with
  | .busy c => if c.typ = .quit ∨ c.typ = .write then [] else (processN env reErr ed c).notes
  | .saving c => (processN env reErr ed c).notes
  | _ => []

/-- ed.go:209-256 with lines 229 and those of the notes of `processCommand`. A step of the reader takes an action away; all other steps are
taken by the main goroutine when it has written what it has to. The channel is closed when the reader has done everything. -/
inductive NStep (env : Env) (reErr : Bytes → Bytes) : NSys → NSys → Prop
  | note {t p k told ed out err} : (∀ f, k ≠ .crashed (.panic f)) →
      NStep env reErr ⟨.note t :: p, k, told, ed, out, err⟩ ⟨p, k, told, ed, out, err ++ [(.reader, .line t)]⟩
  | read {e p k k' told ed ed' out out' err} : Step env ⟨e :: withoutNotes p, k, ed, out⟩ ⟨withoutNotes p, k', ed', out'⟩ →
      NStep env reErr ⟨.ev e :: p, k, told, ed, out, err⟩ ⟨p, k', told, ed', out', err⟩
  | tell {p k told ed out err n} : (due env reErr k ed)[told]? = some n →
      NStep env reErr ⟨p, k, told, ed, out, err⟩ ⟨p, k, told + 1, ed, out, err ++ [(.main, n)]⟩
  | main {p k k' told ed ed' out out' err} : Step env ⟨withoutNotes p, k, ed, out⟩ ⟨withoutNotes p, k', ed', out'⟩ → told = (due env reErr k ed).length →
      (k' = .finished → p = []) → NStep env reErr ⟨p, k, told, ed, out, err⟩ ⟨p, k', 0, ed', out', err⟩

/-- Any number of steps. -/
inductive NSteps (env : Env) (reErr : Bytes → Bytes) : NSys → NSys → Prop
  | refl {a} : NSteps env reErr a a
  | tail {a b c} : NSteps env reErr a b → NStep env reErr b c → NSteps env reErr a c

/-- The start. -/
def notedInitial (errText : Bytes → Bytes) (s : State) (input : Bytes) : NSys := ⟨notedProgram errText input, .idle, 0, s, [], []⟩

/-! ## Specification -/

/-- The notes of commands executed one after the other, up to `q` or the first that does not return. -/
def tells (env : Env) (reErr : Bytes → Bytes) (s : State) : List Command → List Note
  | [] => []
  | c :: cs => if c.typ = .quit then [] else
    (processN env reErr s c).notes ++
      match processCommand env s c with
      | .ok (s', _) => tells env reErr s' cs
      | .error _ => []

/-- The notes by one of the two. -/
def by_ (w : Who) (err : List (Who × Note)) : List Note := (err.filter (fun e => e.1 = w)).map (·.2)

/-! ## Lemmas -/

theorem by_append (w : Who) (a b : List (Who × Note)) : by_ w (a ++ b) = by_ w a ++ by_ w b := by simp [by_]

theorem withoutNotes_append (p q : List NEv) : withoutNotes (p ++ q) = withoutNotes p ++ withoutNotes q := by
  induction p with
  | nil => rfl
  | cons e p ih => cases e <;> simp [withoutNotes, ih]

theorem noted_append (p q : List NEv) : noted (p ++ q) = noted p ++ noted q := by
  induction p with
  | nil => rfl
  | cons e p ih => cases e <;> simp [noted, ih]

theorem withoutNotes_evs (es : List Ev) : withoutNotes (es.map .ev) = es := by
  induction es with
  | nil => rfl
  | cons e es ih => simp [withoutNotes, ih]

theorem noted_evs (es : List Ev) : noted (es.map .ev) = [] := by
  induction es with
  | nil => rfl
  | cons e es ih => simp [noted, ih]

/-- The reader's actions are those of the system without notes. -/
theorem withoutNotes_program (errText : Bytes → Bytes) (input : Bytes) : withoutNotes (notedProgram errText input) = program errText input := by
  unfold notedProgram program
  rw [withoutNotes_append, withoutNotes_evs]
  congr 1
  induction texts input with
  | nil => rfl
  | cons t ts ih => simp [withoutNotes, withoutNotes_append, withoutNotes_evs, ih]

theorem noted_program (errText : Bytes → Bytes) (input : Bytes) : noted (notedProgram errText input) = readerNotes input := by
  unfold notedProgram readerNotes
  rw [noted_append, noted_evs, List.append_nil]
  induction texts input with
  | nil => rfl
  | cons t ts ih => simp [noted, noted_append, noted_evs, ih]

/-- Executing commands one after the other, with the notes. -/
inductive Told (env : Env) (reErr : Bytes → Bytes) (s0 : State) : List Command → State → List Note → Prop
  | nil : Told env reErr s0 [] s0 []
  | snoc {cs s ns c s' r} : Told env reErr s0 cs s ns → c.typ ≠ .quit → processCommand env s c = .ok (s', r) →
      Told env reErr s0 (cs ++ [c]) s' (ns ++ (processN env reErr s c).notes)

theorem Told.tells {env : Env} {reErr : Bytes → Bytes} {s0 s : State} {cs : List Command} {ns : List Note} (h : Told env reErr s0 cs s ns) :
    ∀ ds, Ed.tells env reErr s0 (cs ++ ds) = ns ++ Ed.tells env reErr s ds := by
  induction h with
  | nil => intro ds; rfl
  | snoc h hq hp ih =>
    intro ds
    rw [List.append_assoc, ih, List.singleton_append, Ed.tells, if_neg hq, hp, List.append_assoc]

/-- What holds in every state of a run. -/
def Mixed (env : Env) (reErr : Bytes → Bytes) (s0 : State) (all : List NEv) (x : NSys) : Prop :=
  ∃ done, all = done ++ x.prog ∧ by_ .reader x.err = noted done ∧
    match x.cons with
    | .idle => x.told = 0 ∧ ∃ ns, Told env reErr s0 (sends (withoutNotes done)) x.ed ns ∧ by_ .main x.err = ns
    | .finished => x.prog = [] ∧ ∃ ns, Told env reErr s0 (sends (withoutNotes done)) x.ed ns ∧ by_ .main x.err = ns
    | .writing _ => x.told = 0 ∧ ∃ ns, Told env reErr s0 (sends (withoutNotes done)) x.ed ns ∧ by_ .main x.err = ns
    | .received c => x.told = 0 ∧ ∃ cs ns, sends (withoutNotes done) = cs ++ [c] ∧ Told env reErr s0 cs x.ed ns ∧ by_ .main x.err = ns
    | .busy c => ∃ cs ns, sends (withoutNotes done) = cs ++ [c] ∧ Told env reErr s0 cs x.ed ns ∧ by_ .main x.err = ns ++ (due env reErr x.cons x.ed).take x.told
    | .saving c => c.typ = .write ∧ ∃ cs ns, sends (withoutNotes done) = cs ++ [c] ∧ Told env reErr s0 cs x.ed ns ∧
        by_ .main x.err = ns ++ (processN env reErr x.ed c).notes.take x.told
    | .quit => ∃ cs c s ns, sends (withoutNotes done) = cs ++ [c] ∧ c.typ = .quit ∧ Told env reErr s0 cs s ns ∧ by_ .main x.err = ns
    | .crashed _ => ∃ cs c s ns f, sends (withoutNotes done) = cs ++ [c] ∧ c.typ ≠ .quit ∧ Told env reErr s0 cs s ns ∧ processCommand env s c = .error f ∧
        ns <+: by_ .main x.err ∧ by_ .main x.err <+: ns ++ (processN env reErr s c).notes

theorem sends_append' (p q : List Ev) : sends (p ++ q) = sends p ++ sends q := by
  induction p with
  | nil => rfl
  | cons e p ih => cases e <;> simp [sends, ih]

theorem mixed_step {env : Env} {reErr : Bytes → Bytes} {s0 : State} {all : List NEv} {x y : NSys} (h : Mixed env reErr s0 all x)
    (hs : NStep env reErr x y) : Mixed env reErr s0 all y := by
  obtain ⟨done, h1, h2, h3⟩ := h
  cases hs with
  | @note t p k told ed out err hk =>
    have e1 : withoutNotes (done ++ [.note t]) = withoutNotes done := by rw [withoutNotes_append]; simp [withoutNotes]
    refine ⟨done ++ [.note t], by rw [h1]; simp, ?_, ?_⟩
    · rw [by_append, h2, noted_append]; rfl
    · simp only [e1]
      rw [show by_ .main (err ++ [(.reader, .line t)]) = by_ .main err by rw [by_append]; simp [by_]]
      cases k with
      | finished => simp at h3
      | _ => exact h3
  | @read e p k k' told ed ed' out out' err st =>
    have hn : noted (done ++ [.ev e]) = noted done := by rw [noted_append]; simp [noted]
    have e1 : sends (withoutNotes (done ++ [.ev e])) = sends (withoutNotes done) ++ sends [e] := by rw [withoutNotes_append, sends_append']; simp [withoutNotes]
    refine ⟨done ++ [.ev e], by rw [h1]; simp, by rw [hn]; exact h2, ?_⟩
    generalize hp : e :: withoutNotes p = q at st
    generalize hp' : withoutNotes p = q' at st
    have hne : q ≠ q' := by rintro rfl; rw [← hp'] at hp; simp at hp
    simp only [e1]
    cases st with
    | report hk =>
      simp only [List.cons.injEq] at hp
      rw [hp.1]
      simp only [sends, List.append_nil]
      cases k with
      | finished => simp at h3
      | _ => exact h3
    | say hk =>
      simp only [List.cons.injEq] at hp
      rw [hp.1]
      simp only [sends, List.append_nil]
      cases k with
      | finished => simp at h3
      | _ => exact h3
    | @rendezvous c =>
      simp only [List.cons.injEq] at hp
      rw [hp.1]
      obtain ⟨t0, ns, h4, h5⟩ := h3
      exact ⟨t0, _, ns, rfl, h4, h5⟩
    | trace => exact absurd rfl hne
    | quit => exact absurd rfl hne
    | announce => exact absurd rfl hne
    | execute => exact absurd rfl hne
    | crash => exact absurd rfl hne
    | save => exact absurd rfl hne
    | crashSave => exact absurd rfl hne
    | write => exact absurd rfl hne
    | closed => exact absurd rfl hne
  | @tell p k told ed out err n hd =>
    have hlt := (List.getElem?_eq_some_iff.1 hd).1
    have hr : by_ .reader (err ++ [(.main, n)]) = by_ .reader err := by rw [by_append]; simp [by_]
    have hm : by_ .main (err ++ [(.main, n)]) = by_ .main err ++ [n] := by rw [by_append]; simp [by_]
    refine ⟨done, h1, by rw [hr]; exact h2, ?_⟩
    cases k with
    | busy c =>
      obtain ⟨cs, ns, h4, h5, h6⟩ := h3
      refine ⟨cs, ns, h4, h5, ?_⟩
      simp only at h6 hd ⊢
      rw [hm, h6, List.append_assoc, List.take_add_one, hd]
      rfl
    | saving c =>
      obtain ⟨hw, cs, ns, h4, h5, h6⟩ := h3
      refine ⟨hw, cs, ns, h4, h5, ?_⟩
      simp only [due] at h6 hd ⊢
      rw [hm, h6, List.append_assoc, List.take_add_one, hd]
      rfl
    | _ => simp [due] at hd
  | @main p k k' told ed ed' out out' err st ht hf =>
    refine ⟨done, h1, h2, ?_⟩
    generalize hp : withoutNotes p = q at st
    cases st with
    | trace =>
      obtain ⟨_, cs, ns, h4, h5, h6⟩ := h3
      exact ⟨cs, ns, h4, h5, by simpa using h6⟩
    | @quit _ c _ _ hq =>
      obtain ⟨cs, ns, h4, h5, h6⟩ := h3
      refine ⟨cs, c, _, ns, h4, hq, h5, ?_⟩
      simpa [due, hq] using h6
    | @announce _ c _ _ _ hw hd =>
      obtain ⟨cs, ns, h4, h5, h6⟩ := h3
      refine ⟨hw, cs, ns, h4, h5, ?_⟩
      simpa [due, hw] using h6
    | @execute _ c _ _ _ r hq hw hx =>
      obtain ⟨cs, ns, h4, h5, h6⟩ := h3
      refine ⟨rfl, _, ?_, h6⟩
      rw [h4]
      simp only [due, hq, hw, or_self, if_false] at ht ⊢
      rw [ht, List.take_length]
      exact .snoc h5 hq hx
    | @crash _ c _ _ f hq hw hx =>
      obtain ⟨cs, ns, h4, h5, h6⟩ := h3
      refine ⟨cs, c, _, ns, f, h4, hq, h5, hx, ?_, ?_⟩
      · rw [h6]; exact List.prefix_append ..
      · rw [h6]
        apply (List.prefix_append_right_inj ns).2
        simp only [due]
        split
        · rw [List.take_nil]; exact List.nil_prefix ..
        · exact List.take_prefix ..
    | @save _ c _ _ _ r hx =>
      obtain ⟨hw, cs, ns, h4, h5, h6⟩ := h3
      refine ⟨rfl, _, ?_, h6⟩
      rw [h4]
      simp only [due] at ht ⊢
      rw [ht, List.take_length]
      exact .snoc h5 (by rw [hw]; decide) hx
    | @crashSave _ c _ _ f hx =>
      obtain ⟨hw, cs, ns, h4, h5, h6⟩ := h3
      refine ⟨cs, c, _, ns, f, h4, by rw [hw]; decide, h5, hx, ?_, ?_⟩
      · rw [h6]; exact List.prefix_append ..
      · rw [h6]
        apply (List.prefix_append_right_inj ns).2
        exact List.take_prefix ..
    | write => exact ⟨rfl, h3.2⟩
    | closed => exact ⟨hf rfl, h3.2⟩

theorem mixed_run {env : Env} {reErr errText : Bytes → Bytes} {s0 : State} {input : Bytes} {x : NSys}
    (h : NSteps env reErr (notedInitial errText s0 input) x) : Mixed env reErr s0 (notedProgram errText input) x := by
  induction h with
  | refl => exact ⟨[], rfl, rfl, rfl, [], .nil, rfl⟩
  | tail _ hs ih => exact mixed_step ih hs

/-- How far the main goroutine's notes have come, given the commands sent: all those of the commands before the last, and some of the last. -/
theorem mixed_between {env : Env} {reErr : Bytes → Bytes} {s0 : State} {all : List NEv} {x : NSys} (h : Mixed env reErr s0 all x) :
    ∃ done, all = done ++ x.prog ∧ by_ .reader x.err = noted done ∧
      tells env reErr s0 (sends (withoutNotes done)).dropLast <+: by_ .main x.err ∧ by_ .main x.err <+: tells env reErr s0 (sends (withoutNotes done)) := by
  obtain ⟨done, h1, h2, h3⟩ := h
  refine ⟨done, h1, h2, ?_⟩
  have whole : ∀ {ns s}, Told env reErr s0 (sends (withoutNotes done)) s ns → tells env reErr s0 (sends (withoutNotes done)).dropLast <+: ns ∧
      ns <+: tells env reErr s0 (sends (withoutNotes done)) := by
    intro ns s ht
    have hall := ht.tells []
    rw [List.append_nil, tells, List.append_nil] at hall
    rw [hall]
    refine ⟨?_, List.prefix_refl _⟩
    generalize sends (withoutNotes done) = cs at ht
    cases ht with
    | nil => exact List.nil_prefix ..
    | snoc ht hq hp =>
      rw [List.dropLast_concat]
      have := ht.tells []
      rw [List.append_nil, tells, List.append_nil] at this
      rw [this]
      exact List.prefix_append ..
  have part : ∀ {ns s cs c} {l : List Note}, sends (withoutNotes done) = cs ++ [c] → Told env reErr s0 cs s ns → c.typ ≠ .quit → l <+: (processN env reErr s c).notes →
      tells env reErr s0 (sends (withoutNotes done)).dropLast <+: ns ++ l ∧ ns ++ l <+: tells env reErr s0 (sends (withoutNotes done)) := by
    intro ns s cs c l he ht hq hl
    have h0 := ht.tells []
    rw [List.append_nil, tells, List.append_nil] at h0
    rw [he, List.dropLast_concat, h0, ht.tells [c], tells, if_neg hq]
    refine ⟨List.prefix_append .., ?_⟩
    apply (List.prefix_append_right_inj ns).2
    exact hl.trans (List.prefix_append ..)
  have stop : ∀ {ns s cs c}, sends (withoutNotes done) = cs ++ [c] → Told env reErr s0 cs s ns →
      tells env reErr s0 (sends (withoutNotes done)).dropLast <+: ns ∧ ns <+: tells env reErr s0 (sends (withoutNotes done)) := by
    intro ns s cs c he ht
    have h0 := ht.tells []
    rw [List.append_nil, tells, List.append_nil] at h0
    rw [he, List.dropLast_concat, h0, ht.tells [c]]
    exact ⟨List.prefix_refl _, List.prefix_append ..⟩
  cases hc : x.cons with
  | idle => rw [hc] at h3; obtain ⟨_, ns, h4, h5⟩ := h3; rw [h5]; exact whole h4
  | finished => rw [hc] at h3; obtain ⟨_, ns, h4, h5⟩ := h3; rw [h5]; exact whole h4
  | writing r => rw [hc] at h3; obtain ⟨_, ns, h4, h5⟩ := h3; rw [h5]; exact whole h4
  | received c => rw [hc] at h3; obtain ⟨_, cs, ns, h4, h5, h6⟩ := h3; rw [h6]; exact stop h4 h5
  | busy c =>
    rw [hc] at h3
    obtain ⟨cs, ns, h4, h5, h6⟩ := h3
    rw [h6]
    by_cases hq : c.typ = .quit
    · simp only [due, hq, true_or, if_true, List.take_nil, List.append_nil]
      exact stop h4 h5
    · apply part h4 h5 hq
      simp only [due]
      split
      · rw [List.take_nil]; exact List.nil_prefix ..
      · exact List.take_prefix ..
  | saving c =>
    rw [hc] at h3
    obtain ⟨hw, cs, ns, h4, h5, h6⟩ := h3
    rw [h6]
    exact part h4 h5 (by rw [hw]; decide) (List.take_prefix ..)
  | quit =>
    rw [hc] at h3
    obtain ⟨cs, c, s, ns, h4, hq, h5, h6⟩ := h3
    rw [h6]
    exact stop h4 h5
  | crashed f =>
    rw [hc] at h3
    obtain ⟨cs, c, s, ns, f, h4, hq, h5, hx, ⟨l, h6⟩, h7⟩ := h3
    rw [← h6] at h7 ⊢
    exact part h4 h5 hq ((List.prefix_append_right_inj ns).1 h7)

/-! ## Theorems -/

/-- **C168** The notes change nothing about the rest: a run with them is a run without them. -/
theorem C168_mix_same {env : Env} {reErr errText : Bytes → Bytes} {s0 : State} {input : Bytes} {x : NSys}
    (h : NSteps env reErr (notedInitial errText s0 input) x) : Steps env (initial errText s0 input) x.plain := by
  have hi : (notedInitial errText s0 input).plain = initial errText s0 input := by
    simp only [NSys.plain, notedInitial, initial, withoutNotes_program]
  rw [← hi]
  clear hi
  induction h with
  | refl => exact .refl
  | tail _ hs ih =>
    cases hs with
    | note => exact ih
    | read st => exact .tail ih st
    | tell => exact ih
    | main st => exact .tail ih st

/-- **C168** However the goroutines are scheduled, each writes its notes in order: the reader those about the texts typed, the main goroutine
those of the commands. When ed has come to the end of its input all of them have been written. -/
theorem C168_mix_complete {env : Env} {reErr errText : Bytes → Bytes} {s0 : State} {input : Bytes} {x : NSys}
    (h : NSteps env reErr (notedInitial errText s0 input) x) :
    by_ .reader x.err <+: readerNotes input ∧ by_ .main x.err <+: tells env reErr s0 (sends (program errText input)) ∧
    (x.cons = .finished → by_ .reader x.err = readerNotes input ∧ by_ .main x.err = tells env reErr s0 (sends (program errText input))) := by
  have hm := mixed_run h
  have hm' := hm
  obtain ⟨done, h1, h2, h3, h4⟩ := mixed_between hm
  have hn : readerNotes input = noted done ++ noted x.prog := by rw [← noted_program errText, h1, noted_append]
  have hp : program errText input = withoutNotes done ++ withoutNotes x.prog := by rw [← withoutNotes_program, h1, withoutNotes_append]
  have grow : ∀ (cs ds : List Command) (s : State), tells env reErr s cs <+: tells env reErr s (cs ++ ds) := by
    intro cs
    induction cs with
    | nil => intro ds s; exact List.nil_prefix ..
    | cons c cs ih =>
      intro ds s
      simp only [List.cons_append, tells]
      split
      · exact List.prefix_refl _
      · apply (List.prefix_append_right_inj _).2
        cases processCommand env s c with
        | error f => exact List.prefix_refl _
        | ok p => exact ih ds p.1
  refine ⟨?_, ?_, ?_⟩
  · rw [h2, hn]; exact List.prefix_append ..
  · rw [hp, sends_append']; exact h4.trans (grow ..)
  · intro hc
    obtain ⟨done', g1, g2, g3⟩ := hm'
    rw [hc] at g3
    obtain ⟨g4, ns, g5, g6⟩ := g3
    rw [g4, List.append_nil] at g1
    refine ⟨by rw [g2, ← noted_program errText, g1], ?_⟩
    have := g5.tells []
    rw [List.append_nil, tells, List.append_nil] at this
    rw [g6, ← withoutNotes_program, g1, this]

/-- **C168** Where a note of the reader is: when it writes about a text, the main goroutine has written everything about the commands before
the last one it was sent, and nothing about commands of this text or later ones. So what is typed and what is done about it are never more than
one command apart. -/
theorem C168_mix_reader_place {env : Env} {reErr errText : Bytes → Bytes} {s0 : State} {input : Bytes} {x : NSys}
    (h : NSteps env reErr (notedInitial errText s0 input) x) (a b : List (Who × Note)) (n : Note) (he : x.err = a ++ (.reader, n) :: b) :
    ∃ before t after, notedProgram errText input = before ++ .note t :: after ∧ n = .line t ∧ by_ .reader a = noted before ∧
      tells env reErr s0 (sends (withoutNotes before)).dropLast <+: by_ .main a ∧ by_ .main a <+: tells env reErr s0 (sends (withoutNotes before)) := by
  induction h generalizing b with
  | refl => cases a <;> cases he
  | @tail y z hy hs ih =>
    have old : y.err = z.err → _ := fun e => ih b (by rw [e]; exact he)
    have snoc : ∀ w m, z.err = y.err ++ [(w, m)] → (w ≠ .reader ∨ b ≠ []) → ∃ b', y.err = a ++ (.reader, n) :: b' := by
      intro w m e hwb
      rw [e] at he
      rcases List.eq_nil_or_concat b with rfl | ⟨b', l, rfl⟩
      · have := List.append_inj' he rfl
        simp only [List.cons.injEq, Prod.mk.injEq, and_true] at this
        exact absurd this.2.1 (hwb.resolve_right (by simp))
      · rw [List.concat_eq_append, ← List.cons_append, ← List.append_assoc] at he
        exact ⟨b', (List.append_inj' he rfl).1⟩
    cases hs with
    | @note t p k told ed out err hk =>
      by_cases hb : b = []
      · subst hb
        have := List.append_inj' he rfl
        simp only [List.cons.injEq, Prod.mk.injEq, true_and, and_true] at this
        obtain ⟨e1, e2⟩ := this
        obtain ⟨done, g1, g2, g3, g4⟩ := mixed_between (mixed_run hy)
        simp only at g1 g2 g3 g4
        rw [e1] at g2 g3 g4
        exact ⟨done, t, p, g1, e2.symm, g2, g3, g4⟩
      · obtain ⟨b', hb'⟩ := snoc _ _ rfl (.inr hb)
        exact ih b' hb'
    | read => exact old rfl
    | tell =>
      obtain ⟨b', hb'⟩ := snoc _ _ rfl (.inl (by simp))
      exact ih b' hb'
    | main => exact old rfl

/-- **C168** Where a note of the main goroutine is: it is about the last command sent, and the reader's note about the text of that command has
been written before. -/
theorem C168_mix_main_place {env : Env} {reErr errText : Bytes → Bytes} {s0 : State} {input : Bytes} {x : NSys}
    (h : NSteps env reErr (notedInitial errText s0 input) x) (a b : List (Who × Note)) (n : Note) (he : x.err = a ++ (.main, n) :: b) :
    ∃ before after cs c s ns k, notedProgram errText input = before ++ after ∧ sends (withoutNotes before) = cs ++ [c] ∧ Told env reErr s0 cs s ns ∧
      by_ .main a = ns ++ (processN env reErr s c).notes.take k ∧ (processN env reErr s c).notes[k]? = some n ∧ by_ .reader a = noted before := by
  induction h generalizing b with
  | refl => cases a <;> cases he
  | @tail y z hy hs ih =>
    have old : y.err = z.err → _ := fun e => ih b (by rw [e]; exact he)
    have snoc : ∀ w m, z.err = y.err ++ [(w, m)] → (w ≠ .main ∨ b ≠ []) → ∃ b', y.err = a ++ (.main, n) :: b' := by
      intro w m e hwb
      rw [e] at he
      rcases List.eq_nil_or_concat b with rfl | ⟨b', l, rfl⟩
      · have := List.append_inj' he rfl
        simp only [List.cons.injEq, Prod.mk.injEq, and_true] at this
        exact absurd this.2.1 (hwb.resolve_right (by simp))
      · rw [List.concat_eq_append, ← List.cons_append, ← List.append_assoc] at he
        exact ⟨b', (List.append_inj' he rfl).1⟩
    cases hs with
    | note =>
      obtain ⟨b', hb'⟩ := snoc _ _ rfl (.inl (by simp))
      exact ih b' hb'
    | read => exact old rfl
    | @tell p k told ed out err m hd =>
      by_cases hb : b = []
      · subst hb
        have := List.append_inj' he rfl
        simp only [List.cons.injEq, Prod.mk.injEq, true_and, and_true] at this
        obtain ⟨e1, e2⟩ := this
        obtain ⟨done, g1, g2, g3⟩ := mixed_run hy
        simp only at g1 g2 g3
        rw [e1] at g2 g3
        rw [e2] at hd
        cases k with
        | busy c =>
          obtain ⟨cs, ns, g4, g5, g6⟩ := g3
          have hd' : (processN env reErr ed c).notes = due env reErr (.busy c) ed := by
            simp only [due] at hd ⊢
            split
            · next hq => rw [if_pos hq] at hd; simp at hd
            · rfl
          exact ⟨done, p, cs, c, ed, ns, told, g1, g4, g5, by rw [hd']; exact g6, by rw [hd']; exact hd, g2⟩
        | saving c =>
          obtain ⟨hw, cs, ns, g4, g5, g6⟩ := g3
          exact ⟨done, p, cs, c, ed, ns, told, g1, g4, g5, g6, hd, g2⟩
        | _ => simp [due] at hd
      · obtain ⟨b', hb'⟩ := snoc _ _ rfl (.inr hb)
        exact ih b' hb'
    | main => exact old rfl

theorem NSteps.trans {env : Env} {reErr : Bytes → Bytes} {a b c : NSys} (h1 : NSteps env reErr a b) (h2 : NSteps env reErr b c) : NSteps env reErr a c := by
  induction h2 with
  | refl => exact h1
  | tail _ hs ih => exact .tail ih hs

/-- The reader may write its notes up to the next action. -/
theorem flush (env : Env) (reErr : Bytes → Bytes) {k : Cons} (hk : ∀ f, k ≠ .crashed (.panic f)) (told : Nat) (ed : State) (out : List Msg) (p : List NEv) :
    ∀ err, ∃ p' err', NSteps env reErr ⟨p, k, told, ed, out, err⟩ ⟨p', k, told, ed, out, err'⟩ ∧ withoutNotes p' = withoutNotes p ∧
      (p' = [] ∨ ∃ e q, p' = .ev e :: q) := by
  induction p with
  | nil => intro err; exact ⟨[], err, .refl, rfl, .inl rfl⟩
  | cons e p ih =>
    intro err
    cases e with
    | ev e => exact ⟨_, err, .refl, rfl, .inr ⟨e, p, rfl⟩⟩
    | note t =>
      obtain ⟨p', err', h1, h2, h3⟩ := ih (err ++ [(.reader, .line t)])
      exact ⟨p', err', NSteps.trans (.tail .refl (.note hk)) h1, h2, h3⟩

/-- The main goroutine may write all it has to. -/
theorem tellAll (env : Env) (reErr : Bytes → Bytes) (p : List NEv) (k : Cons) (ed : State) (out : List Msg) (err : List (Who × Note)) :
    ∀ n, n ≤ (due env reErr k ed).length → ∃ err', NSteps env reErr ⟨p, k, 0, ed, out, err⟩ ⟨p, k, n, ed, out, err'⟩ := by
  intro n
  induction n with
  | zero => intro _; exact ⟨err, .refl⟩
  | succ n ih =>
    intro h
    obtain ⟨err', h1⟩ := ih (by omega)
    exact ⟨_, .tail h1 (.tell (List.getElem?_eq_getElem (by omega)))⟩

/-- **C168** The notes do not keep anything from happening: every run without them can be had with them. -/
theorem C168_mix_all {env : Env} (reErr : Bytes → Bytes) {errText : Bytes → Bytes} {s0 : State} {input : Bytes} {st : Sys}
    (h : Steps env (initial errText s0 input) st) : ∃ x, NSteps env reErr (notedInitial errText s0 input) x ∧ x.plain = st := by
  suffices ∃ x, NSteps env reErr (notedInitial errText s0 input) x ∧ x.plain = st ∧ x.told = 0 by
    obtain ⟨x, h1, h2, _⟩ := this
    exact ⟨x, h1, h2⟩
  induction h with
  | refl =>
    refine ⟨_, .refl, ?_, rfl⟩
    simp only [NSys.plain, notedInitial, initial, withoutNotes_program]
  | @tail b c _ hs ih =>
    obtain ⟨x, h1, h2, h3⟩ := ih
    obtain ⟨p, k, told, ed, out, err⟩ := x
    simp only at h3
    subst h3
    simp only [NSys.plain] at h2
    subst h2
    have reads : ∀ {e q k' ed' out'}, withoutNotes p = e :: q → (∀ f, k ≠ .crashed (.panic f)) → Step env ⟨e :: q, k, ed, out⟩ ⟨q, k', ed', out'⟩ →
        ∃ x, NSteps env reErr (notedInitial errText s0 input) x ∧ x.plain = ⟨q, k', ed', out'⟩ ∧ x.told = 0 := by
      intro e q k' ed' out' hp hk hst
      obtain ⟨p', err', g1, g2, g3⟩ := flush env reErr hk 0 ed out p err
      rw [hp] at g2
      rcases g3 with rfl | ⟨e', q', rfl⟩
      · cases g2
      · simp only [withoutNotes, List.cons.injEq] at g2
        obtain ⟨rfl, rfl⟩ := g2
        exact ⟨⟨q', k', 0, ed', out', err'⟩, .tail (h1.trans g1) (.read hst), rfl, rfl⟩
    have mains : ∀ {k' ed' out'}, k' ≠ .finished → Step env ⟨withoutNotes p, k, ed, out⟩ ⟨withoutNotes p, k', ed', out'⟩ →
        ∃ x, NSteps env reErr (notedInitial errText s0 input) x ∧ x.plain = ⟨withoutNotes p, k', ed', out'⟩ ∧ x.told = 0 := by
      intro k' ed' out' hk hst
      obtain ⟨err', g1⟩ := tellAll env reErr p k ed out err _ (Nat.le_refl _)
      exact ⟨⟨p, k', 0, ed', out', err'⟩, .tail (h1.trans g1) (.main hst rfl (fun h => absurd h hk)), rfl, rfl⟩
    generalize hq : withoutNotes p = q at hs mains
    have hs' := hs
    cases hs with
    | report hk => exact reads hq hk hs'
    | say hk => exact reads hq hk hs'
    | rendezvous => exact reads hq (by simp) hs'
    | trace => exact mains (by simp) hs'
    | quit => exact mains (by simp) hs'
    | announce => exact mains (by simp) hs'
    | execute => exact mains (by simp) hs'
    | crash => exact mains (by simp) hs'
    | save => exact mains (by simp) hs'
    | crashSave => exact mains (by simp) hs'
    | write => exact mains (by simp) hs'
    | closed =>
      obtain ⟨p', err', g1, g2, g3⟩ := flush env reErr (k := .idle) (by simp) 0 ed out p err
      rw [hq] at g2
      have hp' : p' = [] := by
        rcases g3 with h | ⟨e, q, rfl⟩
        · exact h
        · cases g2
      subst hp'
      exact ⟨⟨[], .finished, 0, ed, out, err'⟩, .tail (h1.trans g1) (.main hs' rfl (fun _ => rfl)), rfl, rfl⟩

/-- Both orders happen: the note about the second line may come before or after what the first command tells. -/
example (env : Env) (reErr errText : Bytes → Bytes) (s0 : State) (f : Bytes) (c : Command) (t : Bytes) (ht : c.typ = .edit) (hp : c.params = [f]) (hf : s0.fs f = none) :
    (∃ x, NSteps env reErr ⟨[.ev (.send c), .note t], .idle, 0, s0, [], []⟩ x ∧
      x.err = [(.reader, .line t), (.main, .editing f), (.main, .cannotOpen (env.openErr f))]) ∧
    (∃ x, NSteps env reErr ⟨[.ev (.send c), .note t], .idle, 0, s0, [], []⟩ x ∧
      x.err = [(.main, .editing f), (.reader, .line t), (.main, .cannotOpen (env.openErr f))]) := by
  have hd : due env reErr (.busy c) s0 = [.editing f, .cannotOpen (env.openErr f)] := by
    simp only [due, ht]
    rw [if_neg (by simp), C168_edit env reErr s0 f c ht hp, if_pos hf]
  have s1 : NSteps env reErr ⟨[.ev (.send c), .note t], .idle, 0, s0, [], []⟩ ⟨[.note t], .busy c, 0, s0, [.trace (traceLine c)], []⟩ :=
    .tail (.tail .refl (.read .rendezvous)) (.main .trace rfl (by simp))
  constructor
  · refine ⟨_, .tail (.tail (.tail s1 (.note (by simp))) (.tell (n := .editing f) (by rw [hd]; rfl))) (.tell (n := .cannotOpen (env.openErr f)) (by rw [hd]; rfl)), rfl⟩
  · refine ⟨_, .tail (.tail (.tail s1 (.tell (n := .editing f) (by rw [hd]; rfl))) (.note (by simp))) (.tell (n := .cannotOpen (env.openErr f)) (by rw [hd]; rfl)), rfl⟩

end Ed
