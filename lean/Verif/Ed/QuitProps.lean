import Verif.Ed.LongLines
import Verif.Ed.OpenEnd

/-! # Unsaved changes (C95), the text of an editor (C96) -/

namespace Ed
open Go

/-! ## C95 -/

theorem edit_fs {env : Env} {s s' : State} {name : Bytes} {e : Option Bytes} (h : edit env s name = .ok (s', e)) : s'.fs = s.fs := by
  simp only [edit] at h
  split at h
  · simp only [Except.ok.injEq, Prod.mk.injEq] at h; rw [← h.1]
  · split at h
    · cases h
    · simp only [Except.ok.injEq, Prod.mk.injEq] at h; rw [← h.1]

theorem delete_fs {s s' : State} {a b : Int} (h : delete s a b = .ok s') : s'.fs = s.fs := by
  simp only [delete] at h
  split at h
  · cases h
  · split at h
    · cases h
    · simp only [Except.ok.injEq] at h; rw [← h]

theorem insert_fs {s s' : State} {a : Int} {t : Bytes} (h : insertBeforeLine s a t = .ok s') : s'.fs = s.fs := by
  simp only [insertBeforeLine] at h
  split at h
  · cases h
  · split at h
    · cases h
    · simp only [Except.ok.injEq] at h; rw [← h]

theorem lift_ok {α : Type} {m : M α} {a : α} (h : lift m = .ok a) : m = .ok a := by
  cases m with
  | error p => cases h
  | ok x => simp only [lift] at h; injection h with h; rw [h]

theorem command_fs {env : Env} {s s' : State} {c : Command} {r : Bytes} (hc : c.typ ≠ .write) (h : processCommand env s c = .ok (s', r)) :
    s'.fs = s.fs := by
  have ht := typ_setDefault c
  simp only [processCommand, ht] at h
  cases hty : c.typ <;> simp only [hty] at h hc
  case edit =>
    simp only [bind, Except.bind, pure, Except.pure] at h
    split at h
    · cases h
    · next r1 hr =>
      simp only [Except.ok.injEq, Prod.mk.injEq] at h
      rw [← h.1]
      exact edit_fs (e := r1.2) (lift_ok hr)
  case write => exact absurd rfl hc
  all_goals
    first
    | (simp only [Except.ok.injEq, Prod.mk.injEq] at h; rw [← h.1])
    | (simp only [bind, Except.bind, pure, Except.pure] at h
       repeat' (split at h; · cases h)
       simp only [Except.ok.injEq, Prod.mk.injEq] at h
       rw [← h.1]
       first
       | done
       | (have h1 := delete_fs (lift_ok ‹lift (delete _ _ _) = _›)
          have h2 := insert_fs (lift_ok ‹lift (insertBeforeLine _ _ _) = _›)
          exact h2.trans h1)
       | (have h2 := insert_fs (lift_ok ‹lift (insertBeforeLine _ _ _) = _›); exact h2)
       | (have h1 := delete_fs (lift_ok ‹lift (delete _ _ _) = _›); exact h1))

/-- The command a state is dealing with. -/
def Cons.command : Cons → Option Command
  | .received c | .busy c | .saving c => some c
  | _ => none

/-- **C95** (partial: expected is also a warning before unsaved changes are thrown away) Only `w` changes files: at any
moment of any run in which the text typed so far and still to come contains no `w` command, all files are as they
were. -/
theorem C95_only_w_partial (env : Env) (errText : Bytes → Bytes) (s0 : State) (input : Bytes)
    (hw : ∀ c ∈ sends (program errText input), c.typ ≠ .write) (st : Sys) (hs : Steps env (initial errText s0 input) st) :
    st.ed.fs = s0.fs := by
  suffices ∀ a b, Steps env a b → a = initial errText s0 input →
      b.ed.fs = s0.fs ∧ (∀ c ∈ sends b.prog, c.typ ≠ .write) ∧ ∀ c, b.cons.command = some c → c.typ ≠ .write from (this _ _ hs rfl).1
  intro a b hs
  induction hs with
  | refl => rintro rfl; exact ⟨rfl, hw, fun c h => by cases h⟩
  | tail _ h2 ih =>
    intro e
    obtain ⟨h1, h3, h4⟩ := ih e
    cases h2 with
    | report _ => exact ⟨h1, h3, h4⟩
    | say _ => exact ⟨h1, h3, h4⟩
    | rendezvous => exact ⟨h1, fun c hc => h3 c (by simp [sends, hc]), fun c hc => by cases hc; exact h3 _ (by simp [sends])⟩
    | trace => exact ⟨h1, h3, fun c hc => h4 c hc⟩
    | quit _ => exact ⟨h1, h3, fun c hc => by cases hc⟩
    | announce hw _ => exact absurd hw (h4 _ rfl)
    | execute _ hw hp => exact ⟨(command_fs hw hp).trans h1, h3, fun c hc => by cases hc⟩
    | crash _ _ _ => exact ⟨h1, h3, fun c hc => by cases hc⟩
    | save hp => exact ⟨(command_fs (h4 _ rfl) hp).trans h1, h3, fun c hc => by cases hc⟩
    | crashSave hp =>
      refine ⟨?_, h3, fun c hc => by cases hc⟩
      rw [crashState, if_neg (h4 _ rfl)]
      exact h1
    | write => exact ⟨h1, h3, fun c hc => by cases hc⟩
    | closed => exact ⟨h1, h3, fun c hc => by cases hc⟩

example : (∀ c ∈ sends (program (fun _ => []) b!"1d\n$a\nw\n.\nq\n"), c.typ ≠ .write) ∧
    (sends (program (fun _ => []) b!"1d\n$a\nw\n.\nq\n")).length = 3 := by decide +kernel

/-- What a user types who deletes a line and leaves. -/
def demoQuit : Bytes := b!"e f\n1d\nq\n"

/-- **C95** is false: with unsaved changes `q` ends the editor at once, without a message; the change is lost. -/
theorem C95_counterexample (errText : Bytes → Bytes) (st : Sys) (how : End)
    (hs : Steps demoEnv (initial errText fresh demoQuit) st) (he : st.cons.ended = some how) :
    how = .quit ∧ st.ed.pt.string = .ok b!"two\n" ∧ st.ed.fs b!"f" = some b!"one\ntwo\n" ∧ results st.out = [b!"\n", b!"\n"] ∧
      errors st.out = [] := by
  have h0 : program errText demoQuit = program (fun _ => []) demoQuit := by
    have g : texts demoQuit = [b!"e f", b!"1d", b!"q"] := by decide +kernel
    have p1 : ∃ cs, parseCommands (b!"e f" ++ [nl]) = some cs := Option.isSome_iff_exists.1 (by decide +kernel)
    have p2 : ∃ cs, parseCommands (b!"1d" ++ [nl]) = some cs := Option.isSome_iff_exists.1 (by decide +kernel)
    have p3 : ∃ cs, parseCommands (b!"q" ++ [nl]) = some cs := Option.isSome_iff_exists.1 (by decide +kernel)
    obtain ⟨_, p1⟩ := p1
    obtain ⟨_, p2⟩ := p2
    obtain ⟨_, p3⟩ := p3
    simp only [program, g, List.flatMap_cons, List.flatMap_nil, eventsOf_some p1, eventsOf_some p2, eventsOf_some p3]
  obtain ⟨h1, h2, -⟩ := C69_schedule_independent _ _ _ _ _ _ hs he
  rw [h0] at h1 h2
  have hk : ((sequential demoEnv fresh (sends (program (fun _ => []) demoQuit))).1 = .quit ∧
      (sequential demoEnv fresh (sends (program (fun _ => []) demoQuit))).2.1.pt.string = .ok b!"two\n" ∧
      (sequential demoEnv fresh (sends (program (fun _ => []) demoQuit))).2.1.fs b!"f" = some b!"one\ntwo\n" ∧
      (sequential demoEnv fresh (sends (program (fun _ => []) demoQuit))).2.2 = [b!"\n", b!"\n"]) := by decide +kernel
  rw [h1] at hk
  refine ⟨hk.1, hk.2.1, hk.2.2.1, hk.2.2.2, ?_⟩
  rw [show reports (program (fun _ => []) demoQuit) = [] by decide +kernel, List.prefix_nil] at h2
  exact h2

/-- **C95** So does `e` of another file: the buffer is replaced, whatever it held. -/
theorem C95_edit_discards (env : Env) (s1 s2 : State) (name : Bytes) (hf : s1.fs = s2.fs) (hw : s1.writes = s2.writes) (contents : Bytes)
    (hfs : s1.fs name = some contents) :
    processCommand env s1 { typ := .edit, params := [name] } = processCommand env s2 { typ := .edit, params := [name] } := by
  have e : setDefaultAddresses { typ := .edit, params := [name] } = { typ := .edit, params := [name], start := aCur, end_ := aCur } := rfl
  have he : edit env s1 name = edit env s2 name := by
    have h2 : s2.fs name = some contents := by rw [← hf]; exact hfs
    simp only [edit, hfs, h2, hf, hw]
    rfl
  simp only [processCommand, e, List.headD_cons, he]

example : processCommand demoEnv { opened [b!"precious"] 1 with fs := demoFS } { typ := .edit, params := [b!"f"] } =
    processCommand demoEnv { fresh with fs := demoFS } { typ := .edit, params := [b!"f"] } :=
  C95_edit_discards demoEnv _ _ b!"f" rfl rfl b!"old\n" rfl

/-! ## C96 -/

/-- **C96** The text an editor gives is the text of its buffer, with a newline after the last line if that has none. For an
empty buffer there is no text: the call panics. -/
theorem C96_text (s : State) {t : Bytes} (ht : s.pt.string = .ok t) :
    (t = [] → string s = .error .index) ∧
    (∀ body, t = body ++ [nl] → string s = .ok t) ∧
    (∀ body c, t = body ++ [c] → c ≠ nl → string s = .ok (t ++ [nl])) := by
  refine ⟨?_, ?_, ?_⟩
  · rintro rfl
    simp only [string, ht]
    rfl
  · rintro body rfl
    simp [string, ht]
  · rintro body c rfl hc
    simp [string, ht, hc]

/-- **C96** In terms of lines: with and without a newline at the end the text is the lines, each with a newline. -/
theorem C96_lines {s : State} {ls : List Bytes} (hne : ls ≠ []) :
    (Shows s ls → string s = .ok (unlines ls)) ∧
    (ShowsOpen s ls → OpenLines ls → string s = .ok (unlines ls)) := by
  refine ⟨fun h => ?_, fun h hp => ?_⟩
  · obtain ⟨l, ls, rfl⟩ := List.exists_cons_of_ne_nil hne
    refine (C96_text s h.text).2.1 (join [nl] (l :: ls)) (join_nl l ls).symm
  · rcases List.eq_nil_or_concat ls with e | ⟨ini, last, e⟩
    · exact absurd e hne
    have hl : last ≠ [] := by
      rintro rfl
      exact hp.lastNe (by rw [e]; simp)
    rcases List.eq_nil_or_concat last with e' | ⟨bd, c, e'⟩
    · exact absurd e' hl
    have hc : c ≠ nl := by
      rintro rfl
      exact (hp.plain last (by rw [e]; simp)).noNL (by rw [e']; simp)
    have ej : join [nl] ls = unlines ini ++ bd ++ [c] := by
      rw [e, List.concat_eq_append, join_snoc, e', List.concat_eq_append, List.append_assoc]
    rw [(C96_text s h.text).2.2 _ c ej hc]
    obtain ⟨l, ls, rfl⟩ := List.exists_cons_of_ne_nil hne
    rw [join_nl]

example : string (openedOn b!"one\n\nthree" 3) = .ok b!"one\n\nthree\n" :=
  (C96_lines (by decide)).2 (openedOn_open openDemo 3) openDemo_open

example : string (opened [b!"one"] 1) = .ok b!"one\n" := (C96_lines (by decide)).1 (opened_shows [b!"one"] 1)

end Ed
