import Verif.Ed.Confined
import Verif.Ed.History

/-!
# C162: other programs at work at the same time

An editor while other programs, in particular another editor, change other files.
-/

namespace Ed
open Go

/-! ## Specification -/

/-- The files an editor works on: those it may be asked to save, and their temporary files. (An editor started without a file has the
empty name, which no file has.) -/
def Touches (s0 : State) (cmds : List Command) (n : Bytes) : Prop :=
  Named s0 cmds n ∨ ∃ m, m ≠ [] ∧ Named s0 cmds m ∧ n = tmpName m

/-- No file that one of two editors works on is a file the other works on. -/
def Apart (s1 : State) (cmds1 : List Command) (s2 : State) (cmds2 : List Command) : Prop :=
  ∀ n, n ≠ [] → Touches s1 cmds1 n → ¬ Touches s2 cmds2 n

/-- The same editor with other files around it. -/
def Sys.withFS (a : Sys) (fs : FS) : Sys := { a with ed := { a.ed with fs := fs } }

/-- An editor in company: its own steps (pkg/ed/ed.go:209-256, `Step`), and moves of other programs that leave the files in `N`
alone and do with all others as they like. (A save is one step here. The other programs could move between its system calls
too; these calls concern files in `N` only.) -/
inductive Company (env : Env) (N : Bytes → Prop) : Sys → Sys → Prop
  | refl {a} : Company env N a a
  | own {a b c} : Company env N a b → Step env b c → Company env N a c
  | other {a b} (fs : FS) : Company env N a b → (∀ n, N n → fs n = b.ed.fs n) → Company env N a (b.withFS fs)

/-- Two editors on the same files, their steps in any order. -/
inductive Both (env1 env2 : Env) : Sys × Sys → Sys × Sys → Prop
  | refl {x} : Both env1 env2 x x
  | left {x a b a'} : Both env1 env2 x (a, b) → Step env1 a a' → Both env1 env2 x (a', b.withFS a'.ed.fs)
  | right {x a b b'} : Both env1 env2 x (a, b) → Step env2 b b' → Both env1 env2 x (a.withFS b'.ed.fs, b')

/-! ## Lemmas: one command -/

/-- The same editor, and the same files in `N`. -/
structure Near (N : Bytes → Prop) (s s' : State) : Prop where
  rest : s' = { s with fs := s'.fs }
  files : ∀ n, N n → s'.fs n = s.fs n

theorem Near.refl (N : Bytes → Prop) (s : State) : Near N s s := ⟨rfl, fun _ _ => rfl⟩

theorem delete_around (s : State) (fs : FS) (a b : Int) :
    delete { s with fs := fs } a b = (delete s a b).map (fun x => { x with fs := fs }) := by
  have h : ∀ n, getLineAddr { s with fs := fs } n = getLineAddr s n := fun _ => rfl
  simp only [delete, h]
  cases getLineAddr s a with
  | error p => rfl
  | ok i => cases getLineAddr s (wrap64 (b + 1)) <;> rfl

theorem insert_around (s : State) (fs : FS) (a : Int) (t : Bytes) :
    insertBeforeLine { s with fs := fs } a t = (insertBeforeLine s a t).map (fun x => { x with fs := fs }) := by
  have h : ∀ n, getLineAddr { s with fs := fs } n = getLineAddr s n := fun _ => rfl
  simp only [insertBeforeLine, h]
  cases getLineAddr s a with
  | error p => rfl
  | ok i => simp only []; cases s.pt.insert (t ++ [nl]) i <;> rfl

theorem addr_around (env : Env) (s : State) (fs : FS) (a : Address) : addrLine env { s with fs := fs } a = addrLine env s a := rfl

theorem print_around (env : Env) (s : State) (fs : FS) (a b : Int) : print env { s with fs := fs } a b = print env s a b := rfl

theorem number_around (s : State) (fs : FS) (a b : Int) : number { s with fs := fs } a b = number s a b := rfl

/-- Commands other than `e` and `w` have nothing to do with files. -/
theorem command_any (env : Env) (s : State) (fs : FS) (c : Command) (h1 : c.typ ≠ .edit) (h2 : c.typ ≠ .write) :
    processCommand env { s with fs := fs } c = (processCommand env s c).map (fun x => ({ x.1 with fs := fs }, x.2)) := by
  simp only [processCommand, typ_setDefault]
  cases hty : c.typ <;> simp only [hty] at h1 h2 ⊢ <;> (try exact absurd rfl h1) <;> (try exact absurd rfl h2) <;> (try rfl)
  case print =>
    simp only [addr_around, bind, Except.bind, pure, Except.pure, print_around]
    cases addrLine env s (setDefaultAddresses c).start <;> (try rfl)
    cases addrLine env s (setDefaultAddresses c).end_ <;> (try rfl)
    rename_i a b
    (try simp only [])
    cases lift (print env s a b) <;> rfl
  case number =>
    simp only [addr_around, bind, Except.bind, pure, Except.pure, number_around]
    cases addrLine env s (setDefaultAddresses c).start <;> (try rfl)
    cases addrLine env s (setDefaultAddresses c).end_ <;> (try rfl)
    rename_i a b
    (try simp only [])
    cases lift (number s a b) <;> rfl
  case null =>
    simp only [addr_around, bind, Except.bind, pure, Except.pure]
    cases addrLine env s (setDefaultAddresses c).start <;> (try rfl)
    rename_i a
    have := print_around env { s with currentLine := a } fs a a
    simp only at this ⊢
    rw [this]
    (try simp only [])
    cases lift (print env { s with currentLine := a } a a) <;> rfl
  case lineNumber =>
    simp only [addr_around, bind, Except.bind, pure, Except.pure]
    cases addrLine env s (setDefaultAddresses c).start <;> rfl
  case delete =>
    simp only [addr_around, bind, Except.bind, pure, Except.pure]
    cases addrLine env s (setDefaultAddresses c).start <;> (try rfl)
    cases addrLine env s (setDefaultAddresses c).end_ <;> (try rfl)
    rename_i a b
    simp only [delete_around]
    (try simp only [])
    cases delete s a b <;> (try rfl)
    rename_i s1
    simp only [Except.map, lift, addr_around]
    (try simp only [])
    cases addrLine env s1 (setDefaultAddresses c).start <;> rfl
  case append =>
    simp only [addr_around, bind, Except.bind, pure, Except.pure]
    cases addrLine env s (setDefaultAddresses c).start <;> (try rfl)
    rename_i a
    simp only [insert_around]
    (try simp only [])
    cases insertBeforeLine s (wrap64 (a + 1)) (setDefaultAddresses c).text <;> rfl
  case insert =>
    simp only [addr_around, bind, Except.bind, pure, Except.pure]
    cases addrLine env s (setDefaultAddresses c).start <;> (try rfl)
    rename_i a
    simp only [insert_around]
    (try simp only [])
    cases insertBeforeLine s a (setDefaultAddresses c).text <;> rfl
  case change =>
    simp only [addr_around, bind, Except.bind, pure, Except.pure]
    cases addrLine env s (setDefaultAddresses c).start <;> (try rfl)
    cases addrLine env s (setDefaultAddresses c).end_ <;> (try rfl)
    rename_i a b
    simp only [delete_around]
    (try simp only [])
    cases delete s a b <;> (try rfl)
    rename_i s1
    simp only [Except.map, lift, addr_around]
    (try simp only [])
    cases addrLine env s1 (setDefaultAddresses c).start <;> (try rfl)
    rename_i d
    simp only [insert_around]
    (try simp only [])
    cases insertBeforeLine s1 d (setDefaultAddresses c).text <;> (try rfl)
    rename_i s2
    simp only [Except.map, addr_around]
    (try simp only [])
    cases addrLine env s2 (setDefaultAddresses c).start <;> rfl

/-- Opening a file: only that file matters. -/
theorem edit_around (env : Env) (s : State) (fs : FS) (name : Bytes) (h : fs name = s.fs name) :
    edit env { s with fs := fs } name = (edit env s name).map (fun x => ({ x.1 with fs := fs }, x.2)) := by
  simp only [edit, h]
  cases s.fs name with
  | none => rfl
  | some d =>
    simp only []
    have e : ∀ f : FS, getLines { s with filename := name, pt := Txt.newPieceTable d true d.length, fs := f } =
        getLines { s with filename := name, pt := Txt.newPieceTable d true d.length } := fun _ => rfl
    have := e fs
    rw [this]
    cases getLines { s with filename := name, pt := Txt.newPieceTable d true d.length } <;> rfl

theorem finalFS_around (N : Bytes → Prop) (o : Outcome) (fs fs' : FS) (name data : Bytes) (h : ∀ n, N n → fs' n = fs n) (h1 : N name) :
    (saveTrace o fs' name data).2 = (saveTrace o fs name data).2 ∧
    ∀ n, N n → finalFS fs' (saveTrace o fs' name data).1 n = finalFS fs (saveTrace o fs name data).1 n := by
  have hset : ∀ (f f' : FS) (x : Bytes) (v : Option Bytes), (∀ n, N n → f' n = f n) → ∀ n, N n → setFile f' x v n = setFile f x v n := by
    intro f f' x v hf n hn
    simp only [setFile]
    split
    · rfl
    · exact hf n hn
  have hst : statError o fs' name = statError o fs name := by simp only [statError, h name h1]
  simp only [saveTrace, hst, removeTmp]
  cases statError o fs name with
  | some e => exact ⟨rfl, fun n hn => h n hn⟩
  | none =>
    simp only []
    cases o.writeFile with
    | some e =>
      simp only []
      cases o.written with
      | none =>
        refine ⟨rfl, fun n hn => ?_⟩
        simp only [finalFS]
        split
        · exact hset _ _ _ _ h n hn
        · exact h n hn
      | some k =>
        refine ⟨rfl, fun n hn => ?_⟩
        simp only [finalFS]
        split
        · simp only [List.getLast?_append, List.getLast?_singleton, Option.some_or, Option.getD_some]
          exact hset _ _ _ _ (hset _ _ _ _ h) n hn
        · simp only [List.append_nil, List.getLast?_map, List.range_succ, List.getLast?_append, List.getLast?_singleton, Option.some_or, Option.map_some, Option.getD_some]
          exact hset _ _ _ _ h n hn
    | none =>
      simp only []
      cases o.rename with
      | some e =>
        refine ⟨rfl, fun n hn => ?_⟩
        simp only [finalFS]
        split
        · simp only [List.getLast?_append, List.getLast?_singleton, Option.some_or, Option.getD_some]
          exact hset _ _ _ _ (hset _ _ _ _ h) n hn
        · simp only [List.append_nil, List.getLast?_map, List.range_succ, List.getLast?_append, List.getLast?_singleton, Option.some_or, Option.map_some, Option.getD_some]
          exact hset _ _ _ _ h n hn
      | none =>
        refine ⟨rfl, fun n hn => ?_⟩
        simp only [finalFS, List.getLast?_append, List.getLast?_singleton, Option.some_or, Option.getD_some]
        exact hset _ _ _ _ (hset _ _ _ _ (hset _ _ _ _ h)) n hn

theorem near_map {N : Bytes → Prop} {fs : FS} {s : State} (hf : ∀ n, N n → fs n = s.fs n) {r : R (State × Bytes)}
    (hr : ∀ x o, r = .ok (x, o) → x.fs = s.fs) : SameEnd (Near N) r (r.map (fun x => ({ x.1 with fs := fs }, x.2))) := by
  cases r with
  | error f => exact rfl
  | ok x => exact ⟨⟨rfl, fun n hn => (hf n hn).trans (by rw [hr x.1 x.2 rfl])⟩, rfl⟩

/-- One command, given to editors that see the same of their own files. -/
theorem near_command {N : Bytes → Prop} {env : Env} {s s' : State} (h : Near N s s') (c : Command) (hn : N s.filename)
    (he : c.typ = .edit → N (c.params.headD [])) : SameEnd (Near N) (processCommand env s c) (processCommand env s' c) := by
  obtain ⟨rest, files⟩ := h
  generalize s'.fs = fs at rest files
  subst rest
  by_cases h2 : c.typ = .write
  · simp only [processCommand, typ_setDefault, h2, write, bind, Except.bind, pure, Except.pure]
    cases s.pt.string with
    | error p => exact rfl
    | ok data =>
      obtain ⟨e1, e2⟩ := finalFS_around N (env.outcome s.writes) s.fs fs s.filename data files hn
      simp only [e1]
      cases (saveTrace (env.outcome s.writes) s.fs s.filename data).2 with
      | some e => exact ⟨⟨rfl, e2⟩, rfl⟩
      | none =>
        simp only []
        have := edit_around env { s with pt := s.pt.close, fs := finalFS s.fs (saveTrace (env.outcome s.writes) s.fs s.filename data).1, writes := s.writes + 1 }
          (finalFS fs (saveTrace (env.outcome s.writes) fs s.filename data).1) s.filename (e2 _ hn)
        rw [this]
        cases hr : edit env { s with pt := s.pt.close, fs := finalFS s.fs (saveTrace (env.outcome s.writes) s.fs s.filename data).1, writes := s.writes + 1 } s.filename with
        | error p => exact rfl
        | ok x =>
          refine ⟨⟨rfl, fun n hn => ?_⟩, rfl⟩
          have := edit_fs (e := x.2) hr
          simp only at this
          exact (e2 n hn).trans (by rw [this])
  by_cases h1 : c.typ = .edit
  · simp only [processCommand, typ_setDefault, h1, bind, Except.bind, pure, Except.pure, params_setDefault]
    rw [edit_around env s fs _ (files _ (he h1))]
    cases hr : edit env s (c.params.headD []) with
    | error p => exact rfl
    | ok x => exact ⟨⟨rfl, fun n hn => (files n hn).trans (by rw [edit_fs (e := x.2) hr])⟩, rfl⟩
  · rw [command_any env s fs c h1 h2]
    exact near_map files fun x o hx => command_fs h2 hx

/-! ## Lemmas: runs -/

/-- The same reader, the same place in the program, the same output, and editors that see the same of their own files. -/
structure Rel (N : Bytes → Prop) (a0 a : Sys) : Prop where
  prog : a.prog = a0.prog
  cons : a.cons = a0.cons
  out : a.out = a0.out
  ed : Near N a0.ed a.ed

theorem near_crash {N : Bytes → Prop} {env : Env} {s s' : State} (h : Near N s s') (c : Command) (hn : N s.filename) :
    Near N (crashState env s c) (crashState env s' c) := by
  obtain ⟨rest, files⟩ := h
  generalize s'.fs = fs at rest files
  subst rest
  simp only [crashState]
  split
  · cases s.pt.string with
    | error p => exact ⟨rfl, files⟩
    | ok data => exact ⟨rfl, (finalFS_around N (env.outcome s.writes) s.fs fs s.filename data files hn).2⟩
  · exact ⟨rfl, files⟩

theorem Near.pt {N : Bytes → Prop} {s s' : State} (h : Near N s s') : s'.pt = s.pt := by rw [h.rest]

theorem Near.save {N : Bytes → Prop} {s s' : State} (h : Near N s s') : saveLine s' = saveLine s := by rw [h.rest]; rfl

/-- A step in company is a step alone. -/
theorem rel_step {N : Bytes → Prop} {env : Env} {a0 a b : Sys} (h : Rel N a0 a) (hs : Step env a b) (hn : N a0.ed.filename)
    (he : ∀ c, a0.cons.command = some c → c.typ = .edit → N (c.params.headD [])) : ∃ b0, Step env a0 b0 ∧ Rel N b0 b := by
  obtain ⟨p0, k0, s0, o0⟩ := a0
  obtain ⟨p, k, s, o⟩ := a
  obtain ⟨h1, h2, h3, h4⟩ := h
  simp only at h1 h2 h3 h4 hn he
  subst h1 h2 h3
  cases hs with
  | report hk => exact ⟨_, .report hk, rfl, rfl, rfl, h4⟩
  | say hk => exact ⟨_, .say hk, rfl, rfl, rfl, h4⟩
  | rendezvous => exact ⟨_, .rendezvous, rfl, rfl, rfl, h4⟩
  | trace => exact ⟨_, .trace, rfl, rfl, rfl, h4⟩
  | quit hq => exact ⟨_, .quit hq, rfl, rfl, rfl, h4⟩
  | announce hw hd => exact ⟨_, .announce hw (h4.pt ▸ hd), rfl, rfl, by simp only [h4.save], h4⟩
  | @execute _ c _ _ ed' r hq hw hp =>
    have := near_command h4 (env := env) c hn (he c rfl)
    rw [hp] at this
    cases hp0 : processCommand env s0 c with
    | error f => rw [hp0] at this; exact absurd this id
    | ok x =>
      rw [hp0] at this
      obtain ⟨n1, e1⟩ := this
      exact ⟨_, .execute hq hw hp0, rfl, by simp only [e1], rfl, n1⟩
  | @crash _ c _ _ f hq hw hp =>
    have := near_command h4 (env := env) c hn (he c rfl)
    rw [hp] at this
    cases hp0 : processCommand env s0 c with
    | error f => rw [hp0] at this; exact ⟨_, .crash hq (h4.pt ▸ hw) hp0, rfl, by simp only [show f = _ from this], rfl, h4⟩
    | ok x => rw [hp0] at this; exact absurd this id
  | @save _ c _ _ ed' r hp =>
    have := near_command h4 (env := env) c hn (he c rfl)
    rw [hp] at this
    cases hp0 : processCommand env s0 c with
    | error f => rw [hp0] at this; exact absurd this id
    | ok x =>
      rw [hp0] at this
      obtain ⟨n1, e1⟩ := this
      exact ⟨_, .save hp0, rfl, by simp only [e1], rfl, n1⟩
  | @crashSave _ c _ _ f hp =>
    have := near_command h4 (env := env) c hn (he c rfl)
    rw [hp] at this
    cases hp0 : processCommand env s0 c with
    | error f => rw [hp0] at this; exact ⟨_, .crashSave hp0, rfl, by simp only [show f = _ from this], rfl, near_crash h4 c hn⟩
    | ok x => rw [hp0] at this; exact absurd this id
  | write => exact ⟨_, .write, rfl, rfl, rfl, h4⟩
  | closed => exact ⟨_, .closed, rfl, rfl, rfl, h4⟩

/-- The files of the editor started on `s0` with the given input. -/
def Own (errText : Bytes → Bytes) (s0 : State) (input : Bytes) : Bytes → Prop := Touches s0 (sends (program errText input))

/-- What a step changes are files of the editor. -/
theorem step_files {env : Env} {errText : Bytes → Bytes} {s0 : State} {input : Bytes} {a0 a b : Sys} (h0 : s0.fs [] = none)
    (hk : Kept env errText s0 input a0) (h : Rel (Own errText s0 input) a0 a) (hs : Step env a b) (n : Bytes)
    (hn : n = [] ∨ ¬ Own errText s0 input n) : b.ed.fs n = a.ed.fs n := by
  have name : a.ed.filename = a0.ed.filename := by rw [h.ed.rest]
  have tmp : ∀ m, tmpName m ≠ [] := fun m => by simp [tmpName]
  have key : ∀ s' data, Saved env a.ed s' data → s'.fs n = a.ed.fs n := by
    intro s' data hsv
    by_cases he : a.ed.filename = []
    · have e1 : a0.ed.fs [] = none := by
        rcases hk.files [] (fun ⟨m, _, e⟩ => tmp m e.symm) with e | ⟨e, _⟩
        · rw [e, h0]
        · exact absurd h0 e
      rw [hsv.missing (by rw [he, h.ed.files [] (.inl (he ▸ name ▸ hk.name)), e1])]
    · refine hsv.others.2 n ?_ ?_
      · rintro rfl
        rcases hn with hn | hn
        · exact he hn
        · exact hn (.inl (name ▸ hk.name))
      · rintro rfl
        rcases hn with hn | hn
        · exact tmp _ hn
        · exact hn (.inr ⟨_, he, name ▸ hk.name, rfl⟩)
  have cons := h.cons
  cases hs with
  | execute hq hw hp => rw [command_fs hw hp]
  | save hp =>
    obtain ⟨data, hd, hsv⟩ := write_saved (hk.write _ cons.symm) hp
    exact key _ _ hsv
  | crashSave hp =>
    rcases crash_saved with e | ⟨_, data, _, hsv⟩
    · rw [e.1]
    · exact key _ _ hsv
  | _ => rfl

theorem company_rel {env : Env} {errText : Bytes → Bytes} {s0 : State} {input : Bytes} {a b : Sys}
    (h : Company env (Own errText s0 input) a b) (ha : a = initial errText s0 input) :
    ∃ b0, Steps env (initial errText s0 input) b0 ∧ Rel (Own errText s0 input) b0 b := by
  induction h with
  | refl => subst ha; exact ⟨_, .refl, rfl, rfl, rfl, Near.refl _ _⟩
  | own _ hs ih =>
    obtain ⟨b0, h0, hr⟩ := ih
    have k := kept env errText s0 input b0 h0
    obtain ⟨c0, h1, h2⟩ := rel_step hr hs (.inl k.name) fun c hc ht => .inl (.inr ⟨c, k.hand c hc, ht, rfl⟩)
    exact ⟨c0, .tail h0 h1, h2⟩
  | @other b fs _ hf ih =>
    obtain ⟨b0, h0, hr⟩ := ih
    refine ⟨b0, h0, hr.prog, hr.cons, hr.out, ?_, fun n hn => (hf n hn).trans (hr.ed.files n hn)⟩
    show ({ b.ed with fs := fs } : State) = _
    rw [hr.ed.rest]
    rfl

theorem Near.symm {N : Bytes → Prop} {s s' : State} (h : Near N s s') : Near N s' s := by
  refine ⟨?_, fun n hn => (h.files n hn).symm⟩
  rw [h.rest]

theorem Rel.symm {N : Bytes → Prop} {a b : Sys} (h : Rel N a b) : Rel N b a := ⟨h.prog.symm, h.cons.symm, h.out.symm, h.ed.symm⟩

theorem Near.trans {N : Bytes → Prop} {s t u : State} (h1 : Near N s t) (h2 : Near N t u) : Near N s u := by
  refine ⟨?_, fun n hn => (h2.files n hn).trans (h1.files n hn)⟩
  rw [h2.rest, h1.rest]

/-- The same editor started among other files. -/
theorem restart {env : Env} {errText : Bytes → Bytes} {s0 : State} {input : Bytes} {fs : FS}
    (hf : ∀ n, Own errText s0 input n → fs n = s0.fs n) {a b : Sys} (h : Steps env a b) (ha : a = initial errText s0 input) :
    ∃ b', Steps env (initial errText { s0 with fs := fs } input) b' ∧ Rel (Own errText s0 input) b' b := by
  induction h with
  | refl => subst ha; exact ⟨_, .refl, rfl, rfl, rfl, (⟨rfl, hf⟩ : Near _ s0 { s0 with fs := fs }).symm⟩
  | tail _ hs ih =>
    obtain ⟨b0, h0, hr⟩ := ih
    have k := kept env errText { s0 with fs := fs } input b0 h0
    obtain ⟨c0, h1, h2⟩ := rel_step hr hs (.inl k.name) fun c hc ht => .inl (.inr ⟨c, k.hand c hc, ht, rfl⟩)
    exact ⟨c0, .tail h0 h1, h2⟩

/-! ## Theorems -/

/-- **C162** An editor in company behaves as if it were alone, as long as nobody else changes the files it works on: there is a run without
any company that ends at the same place, with the same output, the same text, the same current line, the same file name, and the same contents
of these files. -/
theorem C162_company (env : Env) (errText : Bytes → Bytes) (s0 : State) (input : Bytes) (st : Sys)
    (h : Company env (Touches s0 (sends (program errText input))) (initial errText s0 input) st) :
    ∃ solo, Steps env (initial errText s0 input) solo ∧ st.out = solo.out ∧ st.cons = solo.cons ∧ st.prog = solo.prog ∧
      st.ed.pt = solo.ed.pt ∧ st.ed.currentLine = solo.ed.currentLine ∧ st.ed.filename = solo.ed.filename ∧
      ∀ n, Touches s0 (sends (program errText input)) n → st.ed.fs n = solo.ed.fs n := by
  obtain ⟨b0, h0, hr⟩ := company_rel h rfl
  exact ⟨b0, h0, hr.out, hr.cons, hr.prog, by rw [hr.ed.rest], by rw [hr.ed.rest], by rw [hr.ed.rest], hr.ed.files⟩

/-- **C162** And it in turn leaves the files of the others alone. -/
theorem C162_own_step (env : Env) (errText : Bytes → Bytes) (s0 : State) (input : Bytes) (h0 : s0.fs [] = none) (a b : Sys)
    (h : Company env (Touches s0 (sends (program errText input))) (initial errText s0 input) a) (hs : Step env a b) (n : Bytes)
    (hn : n = [] ∨ ¬ Touches s0 (sends (program errText input)) n) : b.ed.fs n = a.ed.fs n := by
  obtain ⟨b0, hb, hr⟩ := company_rel h rfl
  exact step_files h0 (kept env errText s0 input b0 hb) hr hs n hn

theorem solo_company {env : Env} {N : Bytes → Prop} {a b : Sys} (h : Steps env a b) : Company env N a b := by
  induction h with
  | refl => exact .refl
  | tail _ hs ih => exact .own ih hs

theorem solo_untouched {env : Env} {errText : Bytes → Bytes} {s0 : State} {input : Bytes} (h0 : s0.fs [] = none) {a b : Sys}
    (h : Steps env a b) (ha : a = initial errText s0 input) (n : Bytes)
    (hn : n = [] ∨ ¬ Touches s0 (sends (program errText input)) n) : b.ed.fs n = s0.fs n := by
  induction h with
  | refl => subst ha; rfl
  | @tail b c h1 hs ih =>
    subst ha
    rw [C162_own_step env errText s0 input h0 b c (solo_company h1) hs n hn, ih]

theorem both_company {env1 env2 : Env} {e1 e2 : Bytes → Bytes} {s1 s2 : State} {in1 in2 : Bytes} (hfs : s1.fs = s2.fs) (h0 : s1.fs [] = none)
    (hd : Apart s1 (sends (program e1 in1)) s2 (sends (program e2 in2))) {x y : Sys × Sys} (h : Both env1 env2 x y)
    (hx : x = (initial e1 s1 in1, initial e2 s2 in2)) :
    Company env1 (Own e1 s1 in1) (initial e1 s1 in1) y.1 ∧ Company env2 (Own e2 s2 in2) (initial e2 s2 in2) y.2 ∧ y.1.ed.fs = y.2.ed.fs ∧
      ∀ n, ¬ Own e1 s1 in1 n → ¬ Own e2 s2 in2 n → y.1.ed.fs n = s1.fs n := by
  induction h with
  | refl => subst hx; exact ⟨.refl, .refl, hfs, fun _ _ _ => rfl⟩
  | @left a b a' _ hs ih =>
    obtain ⟨c1, c2, e, hu⟩ := ih
    have hfr : ∀ n, n = [] ∨ ¬ Own e1 s1 in1 n → a'.ed.fs n = a.ed.fs n := fun n hn => C162_own_step env1 e1 s1 in1 h0 a a' c1 hs n hn
    refine ⟨.own c1 hs, .other _ c2 fun n hn => ?_, rfl, fun n h1 h2 => (hfr n (.inr h1)).trans (hu n h1 h2)⟩
    refine (hfr n ?_).trans (congrFun e n)
    by_cases hn0 : n = []
    · exact .inl hn0
    · exact .inr fun h1 => hd n hn0 h1 hn
  | @right a b b' _ hs ih =>
    obtain ⟨c1, c2, e, hu⟩ := ih
    have hfr : ∀ n, n = [] ∨ ¬ Own e2 s2 in2 n → b'.ed.fs n = b.ed.fs n := fun n hn => C162_own_step env2 e2 s2 in2 (hfs ▸ h0) b b' c2 hs n hn
    refine ⟨.other _ c1 fun n hn => ?_, .own c2 hs, rfl, fun n h1 h2 => (hfr n (.inr h2)).trans ((congrFun e n).symm.trans (hu n h1 h2))⟩
    refine (hfr n ?_).trans (congrFun e n).symm
    by_cases hn0 : n = []
    · exact .inl hn0
    · exact .inr (hd n hn0 hn)

/-- **C162** Two editors that work on different files, at the same time: each prints what it would print alone and ends as it would alone, each of
its files holds what it would hold, and all other files are untouched. -/
theorem C162_two (env1 env2 : Env) (e1 e2 : Bytes → Bytes) (s1 s2 : State) (in1 in2 : Bytes) (hfs : s1.fs = s2.fs) (h0 : s1.fs [] = none)
    (hd : Apart s1 (sends (program e1 in1)) s2 (sends (program e2 in2))) (a b : Sys)
    (h : Both env1 env2 (initial e1 s1 in1, initial e2 s2 in2) (a, b)) :
    a.ed.fs = b.ed.fs ∧ ∃ solo1 solo2, Steps env1 (initial e1 s1 in1) solo1 ∧ Steps env2 (initial e2 s2 in2) solo2 ∧
      (a.out = solo1.out ∧ a.cons = solo1.cons ∧ a.prog = solo1.prog) ∧ (b.out = solo2.out ∧ b.cons = solo2.cons ∧ b.prog = solo2.prog) ∧
      ∀ n, (Touches s1 (sends (program e1 in1)) n → a.ed.fs n = solo1.ed.fs n) ∧
        (Touches s2 (sends (program e2 in2)) n → a.ed.fs n = solo2.ed.fs n) ∧
        (¬ Touches s1 (sends (program e1 in1)) n → ¬ Touches s2 (sends (program e2 in2)) n → a.ed.fs n = s1.fs n) := by
  obtain ⟨c1, c2, e, hu⟩ := both_company hfs h0 hd h rfl
  obtain ⟨a0, ha, hr⟩ := company_rel c1 rfl
  obtain ⟨b0, hb, hr'⟩ := company_rel c2 rfl
  refine ⟨e, a0, b0, ha, hb, ⟨hr.out, hr.cons, hr.prog⟩, ⟨hr'.out, hr'.cons, hr'.prog⟩, fun n => ⟨hr.ed.files n, fun hn => ?_, hu n⟩⟩
  exact (congrFun e n).trans (hr'.ed.files n hn)

/-- **C162** When both have ended, all is as if one had been started after the other had ended: the way they end, the results of their commands,
and every file. -/
theorem C162_in_turn (env1 env2 : Env) (e1 e2 : Bytes → Bytes) (s1 s2 : State) (in1 in2 : Bytes) (hfs : s1.fs = s2.fs) (h0 : s1.fs [] = none)
    (hd : Apart s1 (sends (program e1 in1)) s2 (sends (program e2 in2))) (a b : Sys)
    (h : Both env1 env2 (initial e1 s1 in1, initial e2 s2 in2) (a, b)) (how1 how2 : End) (h1 : a.cons.ended = some how1)
    (h2 : b.cons.ended = some how2) :
    ∃ t1 t2, sequential env1 s1 (sends (program e1 in1)) = (how1, t1, results a.out) ∧
      sequential env2 { s2 with fs := t1.fs } (sends (program e2 in2)) = (how2, t2, results b.out) ∧ t2.fs = a.ed.fs := by
  obtain ⟨e, a0, b0, ha, hb, ⟨o1, k1, _⟩, ⟨o2, k2, _⟩, hf⟩ := C162_two env1 env2 e1 e2 s1 s2 in1 in2 hfs h0 hd a b h
  have q1 := (C69_schedule_independent env1 e1 s1 in1 a0 how1 ha (k1 ▸ h1)).1
  have hu := solo_untouched h0 ha rfl
  obtain ⟨b1, hb1, hr⟩ := restart (fs := a0.ed.fs) (fun n hn => (hu n (by
    by_cases hn0 : n = []
    · exact .inl hn0
    · exact .inr fun x => hd n hn0 x hn)).trans (congrFun hfs n)) hb rfl
  have q2 := (C69_schedule_independent env2 e2 { s2 with fs := a0.ed.fs } in2 b1 how2 hb1 (by rw [← hr.cons, ← k2]; exact h2)).1
  refine ⟨a0.ed, b1.ed, by rw [q1, o1], by rw [q2, o2, hr.out], ?_⟩
  funext n
  by_cases hn2 : Touches s2 (sends (program e2 in2)) n
  · rw [(hf n).2.1 hn2]; exact (hr.ed.files n hn2).symm
  · rw [solo_untouched (s0 := { s2 with fs := a0.ed.fs }) ((hu [] (.inl rfl)).trans h0) hb1 rfl n (.inr hn2)]
    by_cases hn1 : Touches s1 (sends (program e1 in1)) n
    · exact ((hf n).1 hn1).symm
    · rw [(hf n).2.2 hn1 hn2]; exact hu n (.inr hn1)

/-! ## Between the system calls of a save -/

/-- pkg/ed/ed.go:65-74: the system calls of `Write` that change files, one after the other, when `os.Stat` has succeeded: the temporary file is
emptied or created and its bytes arrive; then it gets the other name, or is removed. -/
def calls (o : Outcome) (name data : Bytes) : List (FS → FS) :=
  let put (n : Nat) : List (FS → FS) := (List.range (n + 1)).map fun k fs => setFile fs (tmpName name) (some (data.take k))
  let rm : List (FS → FS) := if o.removed then [fun fs => setFile fs (tmpName name) none] else []
  match o.writeFile with
  | some _ =>
    match o.written with
    | none => rm
    | some n => put n ++ rm
  | none =>
    match o.rename with
    | some _ => put data.length ++ rm
    | none => put data.length ++ [fun fs => setFile (setFile fs name (fs (tmpName name))) (tmpName name) none]

/-- The files after each of some calls. -/
def after : FS → List (FS → FS) → List FS
  | _, [] => []
  | fs, f :: l => f fs :: after (f fs) l

/-- System calls with moves of other programs before, between and after them, which leave the files in `N` alone. -/
inductive Between (N : Bytes → Prop) : FS → List (FS → FS) → FS → Prop
  | done {fs} : Between N fs [] fs
  | call {fs fs' f l} : Between N (f fs) l fs' → Between N fs (f :: l) fs'
  | other {fs fs' l} (fs1 : FS) : (∀ n, N n → fs1 n = fs n) → Between N fs1 l fs' → Between N fs l fs'

theorem after_append (fs : FS) (l m : List (FS → FS)) : after fs (l ++ m) = after fs l ++ after (finalFS fs (after fs l)) m := by
  induction l generalizing fs with
  | nil => rfl
  | cons f l ih =>
    simp only [List.cons_append, after, ih, finalFS]
    cases h : (after (f fs) l) with
    | nil => rfl
    | cons x xs => simp [List.getLast?_cons]

theorem setFile_twice (fs : FS) (n : Bytes) (x y : Option Bytes) : setFile (setFile fs n x) n y = setFile fs n y := by
  funext m; simp only [setFile]; split <;> rfl

theorem after_put (fs : FS) (t : Bytes) (data : Bytes) (n : Nat) :
    after fs ((List.range (n + 1)).map fun k fs => setFile fs t (some (data.take k))) =
      (List.range (n + 1)).map fun k => setFile fs t (some (data.take k)) := by
  induction n with
  | zero => rfl
  | succ n ih =>
    rw [List.range_succ, List.map_append, List.map_append, after_append, ih]
    congr 1
    simp only [List.map_cons, List.map_nil, after, finalFS]
    rw [List.range_succ, List.map_append, List.map_singleton, List.getLast?_append]
    simp only [List.getLast?_singleton, Option.some_or, Option.getD_some, setFile_twice]

theorem final_put (fs : FS) (t : Bytes) (data : Bytes) (n : Nat) :
    finalFS fs ((List.range (n + 1)).map fun k => setFile fs t (some (data.take k))) = setFile fs t (some (data.take n)) := by
  rw [finalFS, List.range_succ, List.map_append, List.map_singleton, List.getLast?_append]
  rfl

/-- **C162** These are the calls of a save: without company the files go through the states of `saveTrace`. -/
theorem C162_calls (o : Outcome) (fs : FS) (name data : Bytes) (h : statError o fs name = none) :
    after fs (calls o name data) = (saveTrace o fs name data).1 := by
  have hne : name ≠ tmpName name := fun e => by
    have := congrArg List.length e
    simp [tmpName] at this
  simp only [calls, saveTrace, h, removeTmp]
  cases o.writeFile with
  | some e =>
    cases o.written with
    | none => simp only []; split <;> rfl
    | some n => simp only [after_append, after_put, final_put]; split <;> rfl
  | none =>
    cases o.rename with
    | some e => simp only [after_append, after_put, final_put, List.take_length]; split <;> rfl
    | none =>
      simp only [after_append, after_put, final_put, List.take_length, after]
      congr 2
      simp only [setFile, if_true]

theorem between_same {N : Bytes → Prop} {l : List (FS → FS)} (hl : ∀ f ∈ l, ∀ g g' : FS, (∀ n, N n → g' n = g n) → ∀ n, N n → f g' n = f g n)
    {fs fs' : FS} (h : Between N fs l fs') (g : FS) (hg : ∀ n, N n → fs n = g n) : ∀ n, N n → fs' n = finalFS g (after g l) n := by
  induction h generalizing g with
  | done => exact hg
  | @call fs fs' f l _ ih =>
    intro n hn
    rw [ih (fun f hf => hl f (List.mem_cons_of_mem _ hf)) (f g) (fun n hn => hl f List.mem_cons_self g fs hg n hn) n hn]
    simp only [after, finalFS]
    cases h : after (f g) l with
    | nil => rfl
    | cons x xs => simp [List.getLast?_cons]
  | other fs1 h1 _ ih => exact ih hl g fun n hn => (h1 n hn).trans (hg n hn)

/-- **C162** Other programs may move between the system calls of a save as well: what is left in the saved file and its temporary file is
the same. -/
theorem C162_between_calls (N : Bytes → Prop) (o : Outcome) (fs fs' : FS) (name data : Bytes) (hs : statError o fs name = none) (hn : N name)
    (ht : N (tmpName name)) (h : Between N fs (calls o name data) fs') :
    ∀ n, N n → fs' n = finalFS fs (saveTrace o fs name data).1 n := by
  rw [← C162_calls o fs name data hs]
  refine between_same ?_ h fs fun _ _ => rfl
  have hset : ∀ (f f' : FS) (x : Bytes) (v : Option Bytes), (∀ n, N n → f' n = f n) → ∀ n, N n → setFile f' x v n = setFile f x v n := by
    intro f f' x v hf n hn
    simp only [setFile]
    split
    · rfl
    · exact hf n hn
  intro f hf g g' hg n hn
  have hput : ∀ k : Nat, f ∈ (List.range (k + 1)).map (fun k fs => setFile fs (tmpName name) (some (data.take k))) → f g' n = f g n := by
    intro k hk
    simp only [List.mem_map] at hk
    obtain ⟨i, _, rfl⟩ := hk
    exact hset _ _ _ _ hg n hn
  have hrm : f ∈ (if o.removed then [fun fs => setFile fs (tmpName name) none] else []) → f g' n = f g n := by
    intro hk
    split at hk
    · simp only [List.mem_singleton] at hk
      subst hk
      exact hset _ _ _ _ hg n hn
    · cases hk
  simp only [calls] at hf
  split at hf
  · split at hf
    · exact hrm hf
    · rcases List.mem_append.1 hf with hf | hf
      · exact hput _ hf
      · exact hrm hf
  · split at hf
    · rcases List.mem_append.1 hf with hf | hf
      · exact hput _ hf
      · exact hrm hf
    · rcases List.mem_append.1 hf with hf | hf
      · exact hput _ hf
      · simp only [List.mem_singleton] at hf
        subst hf
        simp only [hg _ ht]
        exact hset _ _ _ _ (hset _ _ _ _ hg) n hn

/-! ## The same file -/

theorem save_ok {env : Env} {p : List Ev} {c : Command} {s : State} {out : List Msg} {b : Sys} {data : Bytes} (ht : c.typ = .write)
    (hd : s.pt.string = .ok data) (h : Step env ⟨p, .saving c, s, out⟩ b) (hw : b.cons = .writing [nl]) : b.ed.fs s.filename = some data := by
  cases h with
  | report _ => cases hw
  | say _ => cases hw
  | crashSave _ => cases hw
  | @save _ _ _ _ ed' r hp =>
    simp only [Cons.writing.injEq] at hw
    have hr : r = [] := by simpa using hw
    subst hr
    have hfs : ∃ data, s.pt.string = .ok data ∧ Saved env s ed' data := write_saved ht hp
    obtain ⟨d', hd', hsv⟩ := hfs
    rw [hd] at hd'
    cases hd'
    rw [hsv.fs]
    refine ((C70_outcome _ _ _ _).1 ?_).1
    simp only [processCommand, typ_setDefault, ht, write, hd, bind, Except.bind, pure, Except.pure] at hp
    cases ho : (saveTrace (env.outcome s.writes) s.fs s.filename data).2 with
    | none => rfl
    | some e => rw [ho] at hp; simp [lift] at hp

/-- **C162** Two editors on the same file, each about to save: both saves succeed, and what the first one saved is gone. -/
theorem C162_lost_update (env1 env2 : Env) (x : Sys × Sys) (a a' b b' : Sys) (c1 c2 : Command) (f d1 d2 : Bytes)
    (h : Both env1 env2 x (a, b)) (ha : a.cons = .saving c1) (hb : b.cons = .saving c2) (ht1 : c1.typ = .write) (ht2 : c2.typ = .write)
    (hf1 : a.ed.filename = f) (hf2 : b.ed.filename = f) (hd1 : a.ed.pt.string = .ok d1) (hd2 : b.ed.pt.string = .ok d2)
    (hs1 : Step env1 a a') (hw1 : a'.cons = .writing [nl]) (hs2 : Step env2 (b.withFS a'.ed.fs) b') (hw2 : b'.cons = .writing [nl]) :
    Both env1 env2 x (a'.withFS b'.ed.fs, b') ∧ a'.ed.fs f = some d1 ∧ b'.ed.fs f = some d2 := by
  refine ⟨.right (.left h hs1) hs2, ?_, ?_⟩
  · obtain ⟨p, k, s, o⟩ := a
    subst ha hf1
    exact save_ok ht1 hd1 hs1 hw1
  · obtain ⟨p, k, s, o⟩ := b
    subst hb hf2
    exact save_ok (s := { s with fs := a'.ed.fs }) ht2 hd2 hs2 hw2

/-! ## Cases -/

theorem both_left {env1 env2 : Env} {x : Sys × Sys} {a a' b : Sys} (h : Both env1 env2 x (a, b)) (hs : Steps env1 a a')
    (e : b.ed.fs = a.ed.fs) : Both env1 env2 x (a', b.withFS a'.ed.fs) := by
  induction hs with
  | refl => rw [← e]; exact h
  | @tail a1 a2 _ hs ih => exact Both.left (b := b.withFS a1.ed.fs) ih hs

theorem both_right {env1 env2 : Env} {x : Sys × Sys} {a b b' : Sys} (h : Both env1 env2 x (a, b)) (hs : Steps env2 b b')
    (e : b.ed.fs = a.ed.fs) : Both env1 env2 x (a.withFS b'.ed.fs, b') := by
  induction hs with
  | refl => rw [e]; exact h
  | @tail b1 b2 _ hs ih => exact Both.right (a := a.withFS b1.ed.fs) ih hs

theorem steps_append {env : Env} {a b c : Sys} (h1 : Steps env a b) (h2 : Steps env b c) : Steps env a c := by
  induction h2 with
  | refl => exact h1
  | tail _ hs ih => exact .tail ih hs

theorem steps_command {env : Env} {p : List Ev} {c : Command} {s s' : State} {out : List Msg} {r : Bytes} (hq : c.typ ≠ .quit) (hw : c.typ ≠ .write)
    (hp : processCommand env s c = .ok (s', r)) :
    Steps env ⟨.send c :: p, .idle, s, out⟩ ⟨p, .idle, s', out ++ [.trace (traceLine c)] ++ [.result (r ++ [nl])]⟩ :=
  .tail (.tail (.tail (.tail .refl .rendezvous) .trace) (.execute hq hw hp)) .write

/-- Two users change the same file: one deletes its first line, one its second. -/
def demoSame1 : Bytes := b!"e f\n1d\nw\n"

/-- The other one. -/
def demoSame2 : Bytes := b!"e f\n2d\nw\n"

/-- The editor after a command. -/
def next (s : State) (c : Command) : State :=
  match processCommand demoEnv s c with
  | .ok x => x.1
  | .error _ => s

theorem next_ok {s : State} {c : Command} (h : (processCommand demoEnv s c).toOption.isSome = true) :
    ∃ r, processCommand demoEnv s c = .ok (next s c, r) := by
  unfold next
  cases hp : processCommand demoEnv s c with
  | ok x => exact ⟨x.2, rfl⟩
  | error f => rw [hp] at h; cases h

/-- Opening the file. -/
def cmdE : Command := { typ := .edit, params := [b!"f"] }

/-- Saving. -/
def cmdW : Command := { typ := .write }

/-- Up to the save. -/
theorem demo_saving (d : Command) (hd : d.typ = .delete) (h1 : (processCommand demoEnv fresh cmdE).toOption.isSome = true)
    (h2 : (processCommand demoEnv (next fresh cmdE) d).toOption.isSome = true) (text : Bytes)
    (h3 : (next (next fresh cmdE) d).pt.string = .ok text) (out : List Msg) :
    ∃ o, Steps demoEnv ⟨[.send cmdE, .send d, .send cmdW], .idle, fresh, out⟩ ⟨[], .saving cmdW, next (next fresh cmdE) d, o⟩ := by
  obtain ⟨r1, e1⟩ := next_ok h1
  obtain ⟨r2, e2⟩ := next_ok h2
  exact ⟨_, .tail (.tail (.tail (steps_append (steps_command (by decide) (by decide) e1) (steps_command (by rw [hd]; decide) (by rw [hd]; decide) e2))
    .rendezvous) .trace) (.announce rfl h3)⟩

/-- The line deleted. -/
def cmdD (n : Bytes) : Command := { typ := .delete, start := ⟨.num, n, 0⟩, end_ := ⟨.num, n, 0⟩ }

theorem demo_files (d : Command) (hd : d.typ = .delete) (h1 : (processCommand demoEnv fresh cmdE).toOption.isSome = true)
    (h2 : (processCommand demoEnv (next fresh cmdE) d).toOption.isSome = true) : (next (next fresh cmdE) d).fs = fresh.fs := by
  obtain ⟨r1, e1⟩ := next_ok h1
  obtain ⟨r2, e2⟩ := next_ok h2
  rw [command_fs (by rw [hd]; decide) e2, command_fs (by decide) e1]

theorem save_step {s : State} {text : Bytes} (hs : s.pt.string = .ok text) {out : List Msg} (fs : FS) (hf : fs s.filename ≠ none)
    (h : (getLines { s with pt := Txt.newPieceTable text true text.length }).toOption.isSome = true) :
    ∃ b, Step demoEnv ⟨[], .saving cmdW, { s with fs := fs }, out⟩ b ∧ b.cons = .writing [nl] := by
  have hok : (saveTrace {} fs s.filename text).2 = none := by
    simp only [saveTrace, statError, if_neg hf]
  have hfin := ((C70_outcome {} fs s.filename text).1 hok).1
  obtain ⟨ls, hls⟩ : ∃ ls, getLines { s with pt := Txt.newPieceTable text true text.length } = .ok ls := by
    cases hg : getLines { s with pt := Txt.newPieceTable text true text.length } with
    | ok ls => exact ⟨ls, rfl⟩
    | error p => rw [hg] at h; cases h
  have hp : ∃ s', processCommand demoEnv { s with fs := fs } cmdW = .ok (s', []) := by
    simp only [processCommand, typ_setDefault, cmdW, write, hs, bind, Except.bind, pure, Except.pure]
    rw [show (saveTrace (demoEnv.outcome s.writes) fs s.filename text).2 = none from hok]
    simp only [edit]
    rw [show finalFS fs (saveTrace (demoEnv.outcome s.writes) fs s.filename text).1 s.filename = some text from hfin]
    simp only []
    rw [show getLines { pt := Txt.newPieceTable text true text.length, filename := s.filename, currentLine := s.currentLine, fs := finalFS fs (saveTrace (demoEnv.outcome s.writes) fs s.filename text).1, writes := s.writes + 1 } = .ok ls from hls]
    exact ⟨_, rfl⟩
  obtain ⟨s', hp⟩ := hp
  exact ⟨_, .save hp, rfl⟩

/-- **C162** So two editors on one file are not independent: one user deletes its first line, one its second, both save, and the first line is there
again, although the first save had removed it. -/
theorem C162_same_file_counterexample :
    ∃ mid last, Both demoEnv demoEnv (initial (fun _ => []) fresh demoSame1, initial (fun _ => []) fresh demoSame2) mid ∧
      Both demoEnv demoEnv mid last ∧ fresh.fs b!"f" = some b!"one\ntwo\n" ∧ mid.1.ed.fs b!"f" = some b!"two\n" ∧
      last.1.ed.fs b!"f" = some b!"one\n" := by
  have p1 : program (fun _ => []) demoSame1 = [.send cmdE, .send (cmdD b!"1"), .send cmdW] := by decide +kernel
  have p2 : program (fun _ => []) demoSame2 = [.send cmdE, .send (cmdD b!"2"), .send cmdW] := by decide +kernel
  have k0 : (processCommand demoEnv fresh cmdE).toOption.isSome = true := by decide +kernel
  have k1 : (processCommand demoEnv (next fresh cmdE) (cmdD b!"1")).toOption.isSome = true := by decide +kernel
  have k2 : (processCommand demoEnv (next fresh cmdE) (cmdD b!"2")).toOption.isSome = true := by decide +kernel
  have t1 : (next (next fresh cmdE) (cmdD b!"1")).pt.string = .ok b!"two\n" := by decide +kernel
  have t2 : (next (next fresh cmdE) (cmdD b!"2")).pt.string = .ok b!"one\n" := by decide +kernel
  have f1 : (next (next fresh cmdE) (cmdD b!"1")).filename = b!"f" := by decide +kernel
  have f2 : (next (next fresh cmdE) (cmdD b!"2")).filename = b!"f" := by decide +kernel
  have g1 := demo_files (cmdD b!"1") rfl k0 k1
  have g2 := demo_files (cmdD b!"2") rfl k0 k2
  have l1 : (getLines { next (next fresh cmdE) (cmdD b!"1") with pt := Txt.newPieceTable b!"two\n" true (b!"two\n").length }).toOption.isSome = true := by
    decide +kernel
  have l2 : (getLines { next (next fresh cmdE) (cmdD b!"2") with pt := Txt.newPieceTable b!"one\n" true (b!"one\n").length }).toOption.isSome = true := by
    decide +kernel
  obtain ⟨o1, r1⟩ := demo_saving (cmdD b!"1") rfl k0 k1 _ t1 []
  obtain ⟨o2, r2⟩ := demo_saving (cmdD b!"2") rfl k0 k2 _ t2 []
  simp only [initial, p1, p2]
  generalize next (next fresh cmdE) (cmdD b!"1") = u1 at *
  generalize next (next fresh cmdE) (cmdD b!"2") = u2 at *
  have q1 := both_left (env2 := demoEnv) (b := ⟨[.send cmdE, .send (cmdD b!"2"), .send cmdW], .idle, fresh, []⟩) .refl r1 rfl
  simp only [g1] at q1
  have q2 := both_right q1 r2 g1.symm
  obtain ⟨a', s1, w1⟩ := save_step t1 (out := o1) fresh.fs (by rw [f1]; decide) l1
  have e1 : a'.ed.fs b!"f" = some b!"two\n" := f1 ▸ save_ok (s := { u1 with fs := fresh.fs }) rfl t1 s1 w1
  obtain ⟨b', s2, w2⟩ := save_step t2 (out := o2) a'.ed.fs (by rw [f2, e1]; decide) l2
  have e2 : b'.ed.fs b!"f" = some b!"one\n" := f2 ▸ save_ok (s := { u2 with fs := a'.ed.fs }) rfl t2 s2 w2
  have s1' : Step demoEnv ((⟨[], .saving cmdW, u1, o1⟩ : Sys).withFS u2.fs) a' := g2 ▸ s1
  refine ⟨_, _, .left q2 s1', .right .refl s2, rfl, e1, ?_⟩
  exact e2

/-- What the users of two different files type. -/
def demoApart1 : Bytes := b!"e f\n1d\nw\nq\n"

/-- The other one. -/
def demoApart2 : Bytes := b!"e g\n1d\nw\n"

/-- Two editors, started without a file, each used on a file of its own. -/
example : Apart freshTwo (sends (program (fun _ => []) demoApart1)) freshTwo (sends (program (fun _ => []) demoApart2)) ∧ freshTwo.fs [] = none := by
  have h : ∀ (i : Bytes) (f : Bytes), (∀ c ∈ sends (program (fun _ => []) i), c.typ = .edit → c.params.headD [] = f) → ∀ n, n ≠ [] →
      Touches freshTwo (sends (program (fun _ => []) i)) n → n = f ∨ n = tmpName f := by
    intro i f hc n hn
    rintro ((e | ⟨c, h, ht, e⟩) | ⟨m, hm, e | ⟨c, h, ht, e⟩, rfl⟩)
    · exact absurd e hn
    · exact .inl (e.trans (hc c h ht))
    · exact absurd e hm
    · exact .inr (by rw [e, hc c h ht])
  refine ⟨fun n hn h1 h2 => ?_, rfl⟩
  have e1 := h demoApart1 b!"f" (by decide +kernel) n hn h1
  have e2 := h demoApart2 b!"g" (by decide +kernel) n hn h2
  rcases e1 with rfl | rfl <;> revert e2 <;> decide

end Ed
