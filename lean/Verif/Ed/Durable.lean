import Verif.Ed.Together

/-!
# C164: what has been saved stays saved

A run of the editor that may be cut short at any moment, also by a crash or from outside, also in the middle of a save.
-/

namespace Ed
open Go

/-! ## Specification -/

/-- The main goroutine is about to save to the file `n`, or to a file whose temporary file is `n`. -/
def AboutTo (a : Sys) (n : Bytes) : Prop := ∃ c, a.cons = .saving c ∧ (a.ed.filename = n ∨ tmpName a.ed.filename = n)

/-- A stretch of a run (`Step`, pkg/ed/ed.go:209-256) in which no save to `n` is carried out, and other programs leave `n` alone. -/
inductive Calm (env : Env) (n : Bytes) : Sys → Sys → Prop
  | refl {a} : Calm env n a a
  | own {a b c} : Calm env n a b → Step env b c → (AboutTo b n → c.cons = b.cons) → Calm env n a c
  | other {a b} (fs : FS) : Calm env n a b → fs n = b.ed.fs n → Calm env n a (b.withFS fs)

/-! ## Lemmas -/

theorem step_calm {env : Env} {n : Bytes} {b c : Sys} (h : Step env b c) (hq : AboutTo b n → c.cons = b.cons) : c.ed.fs n = b.ed.fs n := by
  have key : ∀ cmd s', b.cons = .saving cmd → c.cons ≠ b.cons → (∃ data, Saved env b.ed s' data) → s'.fs n = b.ed.fs n := by
    rintro cmd s' hc hne ⟨data, hsv⟩
    refine hsv.others.2 n (fun e => hne (hq ⟨cmd, hc, .inl e.symm⟩)) (fun e => hne (hq ⟨cmd, hc, .inr e.symm⟩))
  cases h with
  | execute hq hw hp => rw [command_fs hw hp]
  | @save _ cmd _ _ ed' r hp =>
    by_cases ht : cmd.typ = .write
    · obtain ⟨data, _, hsv⟩ := write_saved ht hp
      exact key cmd _ rfl (by simp) ⟨data, hsv⟩
    · rw [command_fs ht hp]
  | @crashSave _ cmd _ _ f hp =>
    rcases crash_saved with e | ⟨_, data, _, hsv⟩
    · rw [e.1]
    · exact key cmd _ rfl (by simp) ⟨data, hsv⟩
  | _ => rfl

theorem calm_files {env : Env} {n : Bytes} {b c : Sys} (h : Calm env n b c) : c.ed.fs n = b.ed.fs n := by
  induction h with
  | refl => rfl
  | own _ hs hq ih => rw [step_calm hs hq, ih]
  | other fs _ hf ih => rw [← ih]; exact hf

/-! ## Theorems -/

/-- **C164** What a save leaves, by what the user sees: an empty line means that the file holds the text; a line with `?` means that it holds what it
held; and if ed ends at this moment with a panic, the file holds the text. -/
theorem C164_reported (env : Env) (a b : Sys) (c : Command) (data : Bytes) (hc : a.cons = .saving c) (ht : c.typ = .write)
    (hd : a.ed.pt.string = .ok data) (h : Step env a b) :
    (b.cons = .writing [nl] → b.ed.fs a.ed.filename = some data) ∧
    (∀ r, b.cons = .writing r → r ≠ [nl] → (∃ err, r = 63 :: (err ++ [nl])) ∧ b.ed.fs a.ed.filename = a.ed.fs a.ed.filename) ∧
    (∀ f, b.cons = .crashed f → b.ed.fs a.ed.filename = some data) := by
  obtain ⟨p, k, s, out⟩ := a
  subst hc
  simp only at hd ⊢
  refine ⟨save_ok ht hd h, ?_, ?_⟩
  · intro r hr hne
    cases h with
    | report _ => cases hr
    | say _ => cases hr
    | crashSave _ => cases hr
    | @save _ _ _ _ ed' r' hp =>
      simp only [Cons.writing.injEq] at hr
      subst hr
      obtain ⟨d', hd', hsv⟩ := write_saved ht hp
      rw [hd] at hd'
      cases hd'
      simp only [processCommand, typ_setDefault, ht, write, hd, bind, Except.bind, pure, Except.pure] at hp
      cases ho : (saveTrace (env.outcome s.writes) s.fs s.filename data).2 with
      | some e =>
        rw [ho] at hp
        simp only [lift, Except.ok.injEq, Prod.mk.injEq] at hp
        refine ⟨⟨e, by rw [← hp.2]; rfl⟩, ?_⟩
        rw [hsv.fs]
        exact (C70_outcome _ _ _ _).2 e ho
      | none =>
        rw [ho] at hp
        simp only [edit, ((C70_outcome (env.outcome s.writes) s.fs s.filename data).1 ho).1] at hp
        refine absurd ?_ hne
        split at hp
        · cases hp
        · next x hx =>
          split at hx
          · cases hx
          · simp only [lift, Except.ok.injEq] at hx hp
            subst hx
            simp only [Prod.mk.injEq] at hp
            rw [← hp.2]
            rfl
  · intro f hf
    cases h with
    | report _ => cases hf
    | say _ => cases hf
    | save _ => cases hf
    | @crashSave _ _ _ _ f' hp =>
      simp only [processCommand, typ_setDefault, ht, write, hd, bind, Except.bind, pure, Except.pure] at hp
      cases ho : (saveTrace (env.outcome s.writes) s.fs s.filename data).2 with
      | some e => rw [ho] at hp; simp [lift] at hp
      | none =>
        simp only [crashState, ht, if_true, hd]
        exact ((C70_outcome (env.outcome s.writes) s.fs s.filename data).1 ho).1

/-- **C164** What has been saved stays: from a save that was reported as done until the next save to this file is carried out, the file holds the text
saved, whatever else is typed, whatever other programs do to other files, and wherever the run is cut short; also while the next save is
under way, until the moment at which the file holds the whole of the next text. -/
theorem C164_stays (env : Env) (a b e : Sys) (c : Command) (n data : Bytes) (hc : a.cons = .saving c) (ht : c.typ = .write)
    (hn : a.ed.filename = n) (hd : a.ed.pt.string = .ok data) (h : Step env a b) (hok : b.cons = .writing [nl]) (hq : Calm env n b e) :
    e.ed.fs n = some data ∧
    ∀ text, e.ed.filename = n → ∀ fs ∈ (saveTrace (env.outcome e.ed.writes) e.ed.fs n text).1, fs n = some data ∨ fs n = some text := by
  have h1 : e.ed.fs n = some data := by
    rw [calm_files hq, ← hn]
    exact (C164_reported env a b c data hc ht hd h).1 hok
  refine ⟨h1, fun text _ fs hfs => ?_⟩
  rw [← h1]
  exact (C70_atomic _ _ _ _ _ hfs).1

/-- **C164** In a whole run from the start, too: a file to which nothing was saved, and which is no temporary file of another, holds what it held. -/
theorem C164_unsaved (env : Env) (errText : Bytes → Bytes) (s0 : State) (input : Bytes) (n : Bytes) (e : Sys)
    (h : Calm env n (initial errText s0 input) e) : e.ed.fs n = s0.fs n := calm_files h

/-! ## Cases -/

/-- A run that opens a file, deletes a line, saves, and goes on; another program writes to another file meanwhile. -/
example : ∃ a b e, Steps demoEnv (initial (fun _ => []) fresh demoSame1) a ∧ a.cons = .saving cmdW ∧ a.ed.filename = b!"f" ∧
    a.ed.pt.string = .ok b!"two\n" ∧ Step demoEnv a b ∧ b.cons = .writing [nl] ∧ Calm demoEnv b!"f" b e ∧ e.cons = .finished ∧
    e.ed.fs b!"g" = some b!"other" := by
  have p1 : program (fun _ => []) demoSame1 = [.send cmdE, .send (cmdD b!"1"), .send cmdW] := by decide +kernel
  have k0 : (processCommand demoEnv fresh cmdE).toOption.isSome = true := by decide +kernel
  have k1 : (processCommand demoEnv (next fresh cmdE) (cmdD b!"1")).toOption.isSome = true := by decide +kernel
  have t1 : (next (next fresh cmdE) (cmdD b!"1")).pt.string = .ok b!"two\n" := by decide +kernel
  have f1 : (next (next fresh cmdE) (cmdD b!"1")).filename = b!"f" := by decide +kernel
  have g1 := demo_files (cmdD b!"1") rfl k0 k1
  have l1 : (getLines { next (next fresh cmdE) (cmdD b!"1") with pt := Txt.newPieceTable b!"two\n" true (b!"two\n").length }).toOption.isSome = true := by
    decide +kernel
  obtain ⟨o1, r1⟩ := demo_saving (cmdD b!"1") rfl k0 k1 _ t1 []
  obtain ⟨b, s1, w1⟩ := save_step t1 (out := o1) fresh.fs (by rw [f1]; decide) l1
  rw [← p1] at r1
  generalize next (next fresh cmdE) (cmdD b!"1") = u at *
  rw [← g1] at s1
  have hb : b.prog = [] := by
    cases s1 with
    | save _ => rfl
    | crashSave _ => rfl
  obtain ⟨p, k, s, o⟩ := b
  simp only at hb w1
  subst hb w1
  refine ⟨_, _, _, r1, rfl, f1, t1, s1, rfl, .own (.own (.other (setFile s.fs b!"g" (some b!"other")) .refl ?_) .write ?_) .closed ?_, rfl, rfl⟩
  · simp only [setFile]; rw [if_neg (by decide)]
  · rintro ⟨c, h, _⟩; cases h
  · rintro ⟨c, h, _⟩; cases h

end Ed
