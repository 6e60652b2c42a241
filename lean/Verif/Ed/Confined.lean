import Verif.Ed.QuitProps
import Verif.Ed.SaveProps
import Verif.Ed.GrammarProps

/-! # C139: which files a run of ed can touch

For any input at all, at any moment of any run. -/

namespace Ed
open Go

/-! ## Specification -/

/-- The files an editor may be asked to save: the one it started with, and those named by an `e` among the commands. -/
def Named (s0 : State) (cmds : List Command) (n : Bytes) : Prop :=
  n = s0.filename ∨ ∃ c ∈ cmds, c.typ = .edit ∧ n = c.params.headD []

/-- A temporary file of one of them. -/
def Temporary (s0 : State) (cmds : List Command) (n : Bytes) : Prop := ∃ m, Named s0 cmds m ∧ n = tmpName m

/-! ## One command -/

theorem edit_name {env : Env} {s s' : State} {name : Bytes} {e : Option Bytes} (h : edit env s name = .ok (s', e)) :
    s'.filename = s.filename ∨ s'.filename = name := by
  simp only [edit] at h
  split at h
  · simp only [Except.ok.injEq, Prod.mk.injEq] at h; rw [← h.1]; exact Or.inl rfl
  · split at h
    · cases h
    · simp only [Except.ok.injEq, Prod.mk.injEq] at h; rw [← h.1]; exact Or.inr rfl

theorem delete_name {s s' : State} {a b : Int} (h : delete s a b = .ok s') : s'.filename = s.filename := by
  simp only [delete] at h
  split at h
  · cases h
  · split at h
    · cases h
    · simp only [Except.ok.injEq] at h; rw [← h]

theorem insert_name {s s' : State} {a : Int} {t : Bytes} (h : insertBeforeLine s a t = .ok s') : s'.filename = s.filename := by
  simp only [insertBeforeLine] at h
  split at h
  · cases h
  · split at h
    · cases h
    · simp only [Except.ok.injEq] at h; rw [← h]

theorem params_setDefault (c : Command) : (setDefaultAddresses c).params = c.params := by
  unfold setDefaultAddresses
  repeat' split
  all_goals rfl

theorem command_name {env : Env} {s s' : State} {c : Command} {r : Bytes} (hc : c.typ ≠ .write) (h : processCommand env s c = .ok (s', r)) :
    s'.filename = s.filename ∨ (c.typ = .edit ∧ s'.filename = c.params.headD []) := by
  have ht := typ_setDefault c
  have hp := params_setDefault c
  simp only [processCommand, ht, hp] at h
  cases hty : c.typ <;> simp only [hty] at h hc
  case edit =>
    simp only [bind, Except.bind, pure, Except.pure] at h
    split at h
    · cases h
    · next r1 hr =>
      simp only [Except.ok.injEq, Prod.mk.injEq] at h
      rw [← h.1]
      rcases edit_name (e := r1.2) (lift_ok hr) with e | e
      · exact Or.inl e
      · exact Or.inr ⟨rfl, e⟩
  case write => exact absurd rfl hc
  all_goals
    first
    | (simp only [Except.ok.injEq, Prod.mk.injEq] at h; rw [← h.1]; exact Or.inl rfl)
    | (simp only [bind, Except.bind, pure, Except.pure] at h
       repeat' (split at h; · cases h)
       simp only [Except.ok.injEq, Prod.mk.injEq] at h
       rw [← h.1]
       left
       first
       | rfl
       | (have h1 := delete_name (lift_ok ‹lift (delete _ _ _) = _›)
          have h2 := insert_name (lift_ok ‹lift (insertBeforeLine _ _ _) = _›)
          exact h2.trans h1)
       | (have h2 := insert_name (lift_ok ‹lift (insertBeforeLine _ _ _) = _›); exact h2)
       | (have h1 := delete_name (lift_ok ‹lift (delete _ _ _) = _›); exact h1))

/-- What a save has done to the files when it is over. -/
structure Saved (env : Env) (s s' : State) (data : Bytes) : Prop where
  fs : s'.fs = finalFS s.fs (saveTrace (env.outcome s.writes) s.fs s.filename data).1
  name : s'.filename = s.filename

theorem write_saved {env : Env} {s s' : State} {c : Command} {r : Bytes} (hc : c.typ = .write) (h : processCommand env s c = .ok (s', r)) :
    ∃ data, s.pt.string = .ok data ∧ Saved env s s' data := by
  have ht := typ_setDefault c
  simp only [processCommand, ht, hc, bind, Except.bind, pure, Except.pure] at h
  split at h
  · cases h
  · next r1 hr =>
    simp only [Except.ok.injEq, Prod.mk.injEq] at h
    rw [← h.1]
    have hw := lift_ok hr
    simp only [write] at hw
    split at hw
    · cases hw
    · next data hd =>
      refine ⟨data, hd, ?_⟩
      split at hw
      · simp only [Except.ok.injEq] at hw
        rw [← hw]; exact ⟨rfl, rfl⟩
      · have h1 := edit_fs (e := r1.2) (s' := r1.1) hw
        have h2 := edit_name (e := r1.2) (s' := r1.1) hw
        exact ⟨h1, by rcases h2 with e | e <;> exact e⟩

theorem crash_saved {env : Env} {s : State} {c : Command} :
    ((crashState env s c).fs = s.fs ∧ (crashState env s c).filename = s.filename) ∨
      (c.typ = .write ∧ ∃ data, s.pt.string = .ok data ∧ Saved env s (crashState env s c) data) := by
  unfold crashState
  by_cases hc : c.typ = .write
  · rw [if_pos hc]
    split
    · exact Or.inl ⟨rfl, rfl⟩
    · next data hd => exact Or.inr ⟨hc, data, hd, rfl, rfl⟩
  · rw [if_neg hc]; exact Or.inl ⟨rfl, rfl⟩

theorem finalFS_mem (fs : FS) (tr : List FS) : finalFS fs tr = fs ∨ finalFS fs tr ∈ tr := by
  unfold finalFS
  cases h : tr.getLast? with
  | none => exact Or.inl rfl
  | some x => exact Or.inr (List.mem_of_getLast? h)

theorem Saved.others {env : Env} {s s' : State} {data : Bytes} (h : Saved env s s' data) :
    (s'.fs s.filename = s.fs s.filename ∨ s'.fs s.filename = some data) ∧
      ∀ n, n ≠ s.filename → n ≠ tmpName s.filename → s'.fs n = s.fs n := by
  rw [h.fs]
  rcases finalFS_mem s.fs (saveTrace (env.outcome s.writes) s.fs s.filename data).1 with e | e
  · rw [e]; exact ⟨Or.inl rfl, fun _ _ _ => rfl⟩
  · exact C70_atomic _ _ _ _ _ e

theorem Saved.missing {env : Env} {s s' : State} {data : Bytes} (h : Saved env s s' data) (hn : s.fs s.filename = none) :
    s'.fs = s.fs := by
  rw [h.fs, saveTrace, statError, if_pos hn]
  rfl

/-! ## A run -/

/-- What is true at every moment of a run. -/
structure Kept (env : Env) (errText : Bytes → Bytes) (s0 : State) (input : Bytes) (b : Sys) : Prop where
  left : ∀ c ∈ sends b.prog, c ∈ sends (program errText input)
  hand : ∀ c, b.cons.command = some c → c ∈ sends (program errText input)
  write : ∀ c, b.cons = .saving c → c.typ = .write
  name : Named s0 (sends (program errText input)) b.ed.filename
  files : ∀ n, ¬ Temporary s0 (sends (program errText input)) n →
    b.ed.fs n = s0.fs n ∨ (s0.fs n ≠ none ∧ ∃ before c data, Steps env (initial errText s0 input) before ∧ Steps env before b ∧
      before.cons = .saving c ∧ before.ed.filename = n ∧ before.ed.pt.string = .ok data ∧ b.ed.fs n = some data)

theorem Kept.same {env : Env} {errText : Bytes → Bytes} {s0 : State} {input : Bytes} {a b : Sys} (h : Kept env errText s0 input a)
    (hab : Step env a b) (hl : ∀ c ∈ sends b.prog, c ∈ sends a.prog)
    (hc : ∀ c, b.cons.command = some c → a.cons.command = some c ∨ c ∈ sends a.prog)
    (hw : ∀ c, b.cons = .saving c → c.typ = .write)
    (hn : b.ed.filename = a.ed.filename ∨ Named s0 (sends (program errText input)) b.ed.filename) (hf : b.ed.fs = a.ed.fs) : Kept env errText s0 input b where
  left c hc := h.left c (hl c hc)
  hand c hb := (hc c hb).elim (h.hand c) (h.left c)
  write := hw
  name := hn.elim (fun e => e ▸ h.name) id
  files n hnt := by
    rw [hf]
    rcases h.files n hnt with e | ⟨e0, before, c, data, h1, h2, h3⟩
    · exact Or.inl e
    · exact Or.inr ⟨e0, before, c, data, h1, h2.tail hab, h3⟩

theorem Kept.saved {env : Env} {errText : Bytes → Bytes} {s0 : State} {input : Bytes} {p : List Ev} {c : Command} {ed ed' : State} {out out' : List Msg}
    {k : Cons} {data : Bytes} (h : Kept env errText s0 input ⟨p, .saving c, ed, out⟩)
    (hfrom : Steps env (initial errText s0 input) ⟨p, .saving c, ed, out⟩) (hab : Step env ⟨p, .saving c, ed, out⟩ ⟨p, k, ed', out'⟩)
    (hk : k.command = none) (hd : ed.pt.string = .ok data) (hs : Saved env ed ed' data) : Kept env errText s0 input ⟨p, k, ed', out'⟩ where
  left := h.left
  hand c hc := by simp [hk] at hc
  write c hc := by
    simp only at hc
    subst hc
    cases hk
  name := by
    show Named _ _ ed'.filename
    rw [hs.name]; exact h.name
  files n hnt := by
    have hn1 : n ≠ tmpName ed.filename := fun e => hnt ⟨ed.filename, h.name, e⟩
    have old := h.files n hnt
    have lift : ed'.fs n = ed.fs n → _ := fun e => show ed'.fs n = s0.fs n ∨ (s0.fs n ≠ none ∧ ∃ before c data,
        Steps env (initial errText s0 input) before ∧ Steps env before ⟨p, k, ed', out'⟩ ∧ before.cons = .saving c ∧ before.ed.filename = n ∧
          before.ed.pt.string = .ok data ∧ ed'.fs n = some data) by
      rw [e]
      rcases old with e | ⟨e0, before, c, data, h1, h2, h3⟩
      · exact Or.inl e
      · exact Or.inr ⟨e0, before, c, data, h1, h2.tail hab, h3⟩
    by_cases hn : n = ed.filename
    · subst hn
      rcases hs.others.1 with e | e
      · exact lift e
      · by_cases hm : ed.fs ed.filename = none
        · exact lift (by rw [hs.missing hm])
        · refine Or.inr ⟨?_, _, c, data, hfrom, .tail .refl hab, rfl, rfl, hd, e⟩
          rcases old with o | o
          · exact fun e => hm (o.trans e)
          · exact o.1
    · exact lift (hs.others.2 n hn hn1)

theorem kept (env : Env) (errText : Bytes → Bytes) (s0 : State) (input : Bytes) (st : Sys)
    (hs : Steps env (initial errText s0 input) st) : Kept env errText s0 input st := by
  suffices ∀ a b, Steps env a b → a = initial errText s0 input → Kept env errText s0 input b from this _ _ hs rfl
  intro a b hs
  induction hs with
  | refl =>
    rintro rfl
    exact ⟨fun c h => h, fun c h => (by cases h), fun c h => (by cases h), Or.inl rfl, fun n _ => Or.inl rfl⟩
  | tail h1 h2 ih =>
    intro e
    have k := ih e
    subst e
    have k2 := h2
    cases h2 with
    | report _ => exact k.same k2 (fun c h => h) (fun c h => .inl h) k.write (.inl rfl) rfl
    | say _ => exact k.same k2 (fun c h => h) (fun c h => .inl h) k.write (.inl rfl) rfl
    | rendezvous =>
      exact k.same k2 (fun c h => by simp [sends, h]) (fun c h => by cases h; exact .inr (by simp [sends])) (fun c h => by cases h) (.inl rfl) rfl
    | trace => exact k.same k2 (fun c h => h) (fun c h => .inl h) (fun c h => by cases h) (.inl rfl) rfl
    | quit _ => exact k.same k2 (fun c h => h) (fun c h => by cases h) (fun c h => by cases h) (.inl rfl) rfl
    | announce hw _ => exact k.same k2 (fun c h => h) (fun c h => .inl h) (fun c h => by cases h; exact hw) (.inl rfl) rfl
    | execute _ hw hp =>
      refine k.same k2 (fun c h => h) (fun c h => by cases h) (fun c h => by cases h) ?_ (command_fs hw hp)
      rcases command_name hw hp with e | ⟨e1, e2⟩
      · exact .inl e
      · exact .inr (.inr ⟨_, k.hand _ rfl, e1, e2⟩)
    | crash _ _ _ => exact k.same k2 (fun c h => h) (fun c h => by cases h) (fun c h => by cases h) (.inl rfl) rfl
    | save hp =>
      obtain ⟨data, hd, hsv⟩ := write_saved (k.write _ rfl) hp
      exact k.saved h1 k2 rfl hd hsv
    | crashSave hp =>
      rcases crash_saved (env := env) (s := _) (c := _) with ⟨e1, e2⟩ | ⟨_, data, hd, hsv⟩
      · exact k.same k2 (fun c h => h) (fun c h => by cases h) (fun c h => by cases h) (.inl e2) e1
      · exact k.saved h1 k2 rfl hd hsv
    | write => exact k.same k2 (fun c h => h) (fun c h => by cases h) (fun c h => by cases h) (.inl rfl) rfl
    | closed => exact k.same k2 (fun c h => h) (fun c h => by cases h) (fun c h => by cases h) (.inl rfl) rfl

/-- **C139** Whatever is typed, and at whatever moment one looks: a file that was not named, neither at the start nor by an `e`,
and is not the temporary file of one that was, is as it was. -/
theorem C139_others_untouched (env : Env) (errText : Bytes → Bytes) (s0 : State) (input : Bytes) (st : Sys)
    (hs : Steps env (initial errText s0 input) st) (n : Bytes) (hn : ¬ Named s0 (sends (program errText input)) n)
    (ht : ¬ Temporary s0 (sends (program errText input)) n) : st.ed.fs n = s0.fs n := by
  rcases (kept env errText s0 input st hs).files n ht with e | ⟨_, before, c, data, h1, _, _, h3, _⟩
  · exact e
  · exact absurd (h3 ▸ (kept env errText s0 input before h1).name) hn

/-- **C139** No file is made and none removed, temporary files aside: in particular ed cannot be used to write a new file. -/
theorem C139_none_created (env : Env) (errText : Bytes → Bytes) (s0 : State) (input : Bytes) (st : Sys)
    (hs : Steps env (initial errText s0 input) st) (n : Bytes) (ht : ¬ Temporary s0 (sends (program errText input)) n) :
    st.ed.fs n = none ↔ s0.fs n = none := by
  rcases (kept env errText s0 input st hs).files n ht with e | ⟨h0, _, _, _, _, _, _, _, _, h⟩
  · rw [e]
  · rw [h]; simp [h0]

/-- **C139** Each file holds what it held at the start, or the whole text some save found in the buffer while this file was the one
being edited. -/
theorem C139_contents (env : Env) (errText : Bytes → Bytes) (s0 : State) (input : Bytes) (st : Sys)
    (hs : Steps env (initial errText s0 input) st) (n : Bytes) (ht : ¬ Temporary s0 (sends (program errText input)) n) :
    st.ed.fs n = s0.fs n ∨ ∃ before c data, Steps env (initial errText s0 input) before ∧ Steps env before st ∧
      before.cons = .saving c ∧ before.ed.filename = n ∧ before.ed.pt.string = .ok data ∧ st.ed.fs n = some data := by
  rcases (kept env errText s0 input st hs).files n ht with e | ⟨_, h⟩
  · exact .inl e
  · exact .inr h

/-! ## What was typed -/

/-- A line that asks for a file: `e`, blanks and the name, up to the end of the line. -/
def Asks (t name : Bytes) : Prop := ∃ x y w0 ws, Blanks w0 ∧ Blanks ws ∧ ws ≠ [] ∧ NameOK name ∧ t ++ [nl] = x ++ (w0 ++ (101 :: (ws ++ name))) ++ nl :: y

theorem mem_script {s : Bytes} {cs : List Command} (h : Script s cs) : ∀ c ∈ cs, ∃ x u y, Reads u c ∧ s = x ++ u ++ 10 :: y := by
  induction h with
  | nil => simp
  | @cons u c s cs hu _ ih =>
    intro d hd
    rcases List.mem_cons.1 hd with rfl | hd
    · exact ⟨[], u, s, hu, by simp⟩
    · obtain ⟨x, v, y, hv, e⟩ := ih d hd
      exact ⟨u ++ 10 :: x, v, y, hv, by simp [e]⟩

theorem reads_edit {u : Bytes} {c : Command} (h : Reads u c) (hc : c.typ = .edit) :
    c.params = [] ∨ ∃ name w0 ws, c.params = [name] ∧ Blanks w0 ∧ Blanks ws ∧ ws ≠ [] ∧ NameOK name ∧ u = w0 ++ (101 :: (ws ++ name)) := by
  cases h with
  | range _ _ _ _ hl => simp [rangeCommands] at hl; simp only at hc; subst hc; simp at hl
  | bare _ _ hl => exact .inl rfl
  | unnamed _ _ hl => exact .inl rfl
  | named h0 hs hne hn hl =>
    refine .inr ⟨_, _, _, rfl, h0, hs, hne, hn, ?_⟩
    simp only at hc; subst hc
    simp [nameCommands] at hl
    simp [hl]
  | dest _ _ _ _ hl => simp only at hc; subst hc; simp [destCommands] at hl
  | add _ _ _ _ hl _ => simp only at hc; subst hc; simp at hl
  | null _ _ _ => cases hc
  | _ => cases hc

theorem mem_sends_texts {errText : Bytes → Bytes} {input : Bytes} {c : Command} (h : c ∈ sends (program errText input)) :
    ∃ t ∈ texts input, ∃ cs, parseCommands (t ++ [nl]) = some cs ∧ c ∈ cs := by
  have hs : sends (scanError (scanLines input).2) = [] := by unfold scanError; split <;> rfl
  rw [program, sends_append, hs, List.append_nil] at h
  generalize texts input = ts at h ⊢
  induction ts with
  | nil => simp [sends] at h
  | cons t ts ih =>
    rw [List.flatMap_cons, sends_append] at h
    rcases List.mem_append.1 h with h | h
    · refine ⟨t, by simp, ?_⟩
      cases hp : parseCommands (t ++ [nl]) with
      | none => rw [eventsOf_none hp] at h; simp [sends] at h
      | some cs =>
        rw [eventsOf_some hp, sends_evs] at h
        exact ⟨cs, rfl, h⟩
    · obtain ⟨t', ht', r⟩ := ih h
      exact ⟨t', by simp [ht'], r⟩

/-- **C139** In a script of plain text the names are there to be read: every file that may be touched, other than the one ed started
with and the nameless one, stands in a line `e name`. -/
theorem C139_typed (errText : Bytes → Bytes) (s0 : State) (input : Bytes) (ha : ∀ t ∈ texts input, ∀ c ∈ t, c < 0x80) (n : Bytes)
    (h : Named s0 (sends (program errText input)) n) : n = s0.filename ∨ n = [] ∨ ∃ t ∈ texts input, Asks t n := by
  rcases h with h | ⟨c, hc, hty, rfl⟩
  · exact .inl h
  obtain ⟨t, ht, cs, hp, hcs⟩ := mem_sends_texts hc
  have ha' : ∀ x ∈ t ++ [nl], x < 0x80 := by
    intro x hx
    rcases List.mem_append.1 hx with hx | hx
    · exact ha t ht x hx
    · simp at hx; subst hx; decide
  obtain ⟨x, u, y, hu, e⟩ := mem_script ((C105_exact _ ha' cs).1 hp) c hcs
  rcases reads_edit hu hty with hn | ⟨name, w0, ws, hn, h0, hws, hne, hok, rfl⟩
  · rw [hn]; exact .inr (.inl rfl)
  · rw [hn]
    exact .inr (.inr ⟨t, ht, x, y, w0, ws, h0, hws, hne, hok, e⟩)

/-! ## Cases -/

/-- What a user types who changes two files. -/
def demoTwo : Bytes := b!"e f\n1d\nw\ne g\n1d\nw other\nq\n"

example : ∀ t ∈ texts demoTwo, ∀ c ∈ t, c < 0x80 := by decide +kernel

example : Named fresh (sends (program (fun _ => []) demoTwo)) b!"g" ∧
    Temporary fresh (sends (program (fun _ => []) demoTwo)) b!"g.swp" ∧ Asks b!"e g" b!"g" := by
  have hg : Named fresh (sends (program (fun _ => []) demoTwo)) b!"g" :=
    .inr ⟨{ typ := .edit, params := [b!"g"] }, by decide +kernel, rfl, rfl⟩
  refine ⟨hg, ⟨_, hg, rfl⟩, [], [], [], b!" ", (by unfold Blanks; decide), (by unfold Blanks; decide), by decide, ⟨by decide, by decide, by decide, (by rintro c cs h; cases h; decide)⟩, rfl⟩

/-- **C139** `other` of `w other` is not named in this sense, and not written. -/
example (st : Sys) (hs : Steps demoEnv (initial (fun _ => []) fresh demoTwo) st) : st.ed.fs b!"other" = fresh.fs b!"other" := by
  have hn : ∀ m, Named fresh (sends (program (fun _ => []) demoTwo)) m → m = fresh.filename ∨ m = b!"f" ∨ m = b!"g" := by
    rintro m (h | ⟨c, hc, hty, rfl⟩)
    · exact .inl h
    · right
      have : ∀ c ∈ sends (program (fun _ => []) demoTwo), c.typ = .edit → c.params.headD [] = b!"f" ∨ c.params.headD [] = b!"g" := by
        decide +kernel
      exact this c hc hty
  refine C139_others_untouched _ _ _ _ _ hs _ (fun h => ?_) ?_
  · rcases hn _ h with h | h | h <;> revert h <;> decide
  · rintro ⟨m, h, e⟩
    rcases hn _ h with h | h | h <;> subst h <;> revert e <;> decide

/-- **C139** The exception is real: a file of the user's that happens to have the name of the temporary file is lost when the file
next to it is saved. -/
theorem C139_namesake_lost (env : Env) (s : State) (data : Bytes) (hd : s.pt.string = .ok data)
    (hok : (saveTrace (env.outcome s.writes) s.fs s.filename data).2 = none) (c : Command) (hc : c.typ = .write) (s' : State) (r : Bytes)
    (h : processCommand env s c = .ok (s', r)) : s'.fs (tmpName s.filename) = none := by
  obtain ⟨data', hd', hsv⟩ := write_saved hc h
  rw [hd] at hd'
  cases hd'
  rw [hsv.fs]
  exact ((C70_outcome _ _ _ _).1 hok).2

end Ed
