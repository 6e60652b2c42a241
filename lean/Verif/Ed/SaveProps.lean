import Verif.Ed.EditProps

/-! # Saving (C70, C71) -/

namespace Ed
open Go

theorem tmp_ne (name : Bytes) : tmpName name ≠ name := by
  intro h
  have := congrArg List.length h
  simp [tmpName] at this

/-! ## C70 -/

theorem setFile_same (fs : FS) (n : Bytes) (c : Option Bytes) : setFile fs n c n = c := by simp [setFile]

theorem setFile_other (fs : FS) {n m : Bytes} (c : Option Bytes) (h : m ≠ n) : setFile fs n c m = fs m := by simp [setFile, h]

/-- **C70** At every point during a save, whatever the system calls answer and however many bytes of the
temporary file have been written, the edited file holds its complete old contents or the complete new
contents; every file other than it and the temporary file is untouched. -/
theorem C70_atomic (o : Outcome) (fs : FS) (name data : Bytes) (fs' : FS) (h : fs' ∈ (saveTrace o fs name data).1) :
    (fs' name = fs name ∨ fs' name = some data) ∧ ∀ n, n ≠ name → n ≠ tmpName name → fs' n = fs n := by
  have ht := (tmp_ne name).symm
  have hpart : ∀ n, fs' ∈ (List.range (n + 1)).map (fun k => setFile fs (tmpName name) (some (data.take k))) →
      (fs' name = fs name ∨ fs' name = some data) ∧ ∀ n, n ≠ name → n ≠ tmpName name → fs' n = fs n := by
    intro n hm
    obtain ⟨k, _, rfl⟩ := List.mem_map.1 hm
    exact ⟨Or.inl (setFile_other _ _ ht), fun n _ h2 => setFile_other _ _ h2⟩
  have hrem : ∀ fs1 : FS, fs1 name = fs name → (∀ n, n ≠ name → n ≠ tmpName name → fs1 n = fs n) → fs' ∈ removeTmp o fs1 name →
      (fs' name = fs name ∨ fs' name = some data) ∧ ∀ n, n ≠ name → n ≠ tmpName name → fs' n = fs n := by
    intro fs1 h1 h2 hm
    simp only [removeTmp] at hm
    split at hm
    · simp only [List.mem_cons, List.not_mem_nil, or_false] at hm
      subst hm
      exact ⟨Or.inl (by rw [setFile_other _ _ ht, h1]), fun n h3 h4 => by rw [setFile_other _ _ h4, h2 n h3 h4]⟩
    · cases hm
  have hset : ∀ x : Option Bytes, setFile fs (tmpName name) x name = fs name := fun x => setFile_other _ _ ht
  have hset2 : ∀ (x : Option Bytes) n, n ≠ name → n ≠ tmpName name → setFile fs (tmpName name) x n = fs n :=
    fun x n _ h2 => setFile_other _ _ h2
  simp only [saveTrace] at h
  cases hst : statError o fs name with
  | some err => simp [hst] at h
  | none =>
    simp only [hst] at h
    cases hw : o.writeFile with
    | some err =>
      simp only [hw] at h
      cases hn : o.written with
      | none => simp only [hn] at h; exact hrem fs rfl (fun _ _ _ => rfl) h
      | some n =>
        simp only [hn] at h
        rcases List.mem_append.1 h with h | h
        · exact hpart _ h
        · exact hrem _ (hset _) (hset2 _) h
    | none =>
      simp only [hw] at h
      cases hr : o.rename with
      | some err =>
        simp only [hr] at h
        rcases List.mem_append.1 h with h | h
        · exact hpart _ h
        · exact hrem _ (hset _) (hset2 _) h
      | none =>
        simp only [hr] at h
        rcases List.mem_append.1 h with h | h
        · exact hpart _ h
        · simp only [List.mem_cons, List.not_mem_nil, or_false] at h
          subst h
          refine ⟨Or.inr ?_, fun n h1 h2 => ?_⟩
          · rw [setFile_other _ _ ht, setFile_same]
          · rw [setFile_other _ _ h2, setFile_other _ _ h1, setFile_other _ _ h2]

/-- **C70** The outcome: a save that reports no error leaves the new contents and no temporary file; one that
reports an error leaves the old contents. -/
theorem C70_outcome (o : Outcome) (fs : FS) (name data : Bytes) :
    ((saveTrace o fs name data).2 = none →
      finalFS fs (saveTrace o fs name data).1 name = some data ∧ finalFS fs (saveTrace o fs name data).1 (tmpName name) = none) ∧
    (∀ err, (saveTrace o fs name data).2 = some err → finalFS fs (saveTrace o fs name data).1 name = fs name) := by
  have ht := (tmp_ne name).symm
  have hlast : ∀ (n : Nat) (l : List FS), (∀ g ∈ l, g name = fs name) →
      finalFS fs ((List.range (n + 1)).map (fun k => setFile fs (tmpName name) (some (data.take k))) ++ l) name = fs name := by
    intro n l hl
    simp only [finalFS]
    cases hg : ((List.range (n + 1)).map (fun k => setFile fs (tmpName name) (some (data.take k))) ++ l).getLast? with
    | none => rfl
    | some g =>
      have hm := List.mem_of_getLast? hg
      rcases List.mem_append.1 hm with hm | hm
      · obtain ⟨k, _, rfl⟩ := List.mem_map.1 hm
        exact setFile_other _ _ ht
      · exact hl g hm
  have hrem : ∀ fs1 : FS, fs1 name = fs name → ∀ g ∈ removeTmp o fs1 name, g name = fs name := by
    intro fs1 h1 g hg
    simp only [removeTmp] at hg
    split at hg
    · simp only [List.mem_cons, List.not_mem_nil, or_false] at hg
      subst hg
      rw [setFile_other _ _ ht, h1]
    · cases hg
  simp only [saveTrace]
  cases hst : statError o fs name with
  | some err => simp [finalFS]
  | none =>
    simp only
    cases hw : o.writeFile with
    | some err =>
      simp only
      cases hn : o.written with
      | none =>
        refine ⟨by simp, fun _ _ => ?_⟩
        simp only [finalFS]
        cases hg : (removeTmp o fs name).getLast? with
        | none => rfl
        | some g => exact hrem fs rfl g (List.mem_of_getLast? hg)
      | some n => exact ⟨by simp, fun _ _ => hlast n _ (hrem _ (setFile_other _ _ ht))⟩
    | none =>
      simp only
      cases hr : o.rename with
      | some err => exact ⟨by simp, fun _ _ => hlast _ _ (hrem _ (setFile_other _ _ ht))⟩
      | none =>
        refine ⟨fun _ => ?_, by simp⟩
        simp only [finalFS, List.getLast?_append, List.getLast?_singleton, Option.getD_some, Option.some_or]
        exact ⟨by rw [setFile_other _ _ ht, setFile_same], setFile_same _ _ _⟩

/-- **C70** The temporary file: during a save it does not exist or holds a prefix of the new contents. A save that fails after
the file was found leaves none if it can be removed. -/
theorem C70_temporary (o : Outcome) (fs : FS) (name data : Bytes) :
    (∀ fs' ∈ (saveTrace o fs name data).1, fs' (tmpName name) = none ∨ ∃ p, p <+: data ∧ fs' (tmpName name) = some p) ∧
    ((saveTrace o fs name data).2 ≠ none → fs name ≠ none → o.stat = none → o.removed = true →
      finalFS fs (saveTrace o fs name data).1 (tmpName name) = none) := by
  have hpart : ∀ n, ∀ fs' ∈ (List.range (n + 1)).map (fun k => setFile fs (tmpName name) (some (data.take k))),
      fs' (tmpName name) = none ∨ ∃ p, p <+: data ∧ fs' (tmpName name) = some p := by
    intro n fs' hm
    obtain ⟨k, _, rfl⟩ := List.mem_map.1 hm
    exact .inr ⟨_, List.take_prefix k data, setFile_same ..⟩
  have hrem : ∀ fs1 fs' : FS, fs' ∈ removeTmp o fs1 name → fs' (tmpName name) = none := by
    intro fs1 fs' hm
    simp only [removeTmp] at hm
    split at hm
    · simp only [List.mem_cons, List.not_mem_nil, or_false] at hm
      subst hm
      exact setFile_same ..
    · cases hm
  have hfin : ∀ (l : List FS) (fs1 : FS), o.removed = true → finalFS fs (l ++ removeTmp o fs1 name) (tmpName name) = none := by
    intro l fs1 h
    simp only [removeTmp, h, if_true, finalFS, List.getLast?_append, List.getLast?_singleton, Option.some_or, Option.getD_some]
    exact setFile_same ..
  simp only [saveTrace, statError]
  by_cases hf : fs name = none
  · rw [if_pos hf]; exact ⟨by simp, fun _ h => absurd hf h⟩
  rw [if_neg hf]
  cases hst : o.stat with
  | some err => exact ⟨by simp, by simp⟩
  | none =>
    simp only
    cases hw : o.writeFile with
    | some err =>
      simp only
      cases hn : o.written with
      | none => exact ⟨fun fs' h => .inl (hrem _ _ h), fun _ _ _ h => by simpa using hfin [] fs h⟩
      | some n =>
        refine ⟨fun fs' h => ?_, fun _ _ _ h => hfin _ _ h⟩
        rcases List.mem_append.1 h with h | h
        · exact hpart _ _ h
        · exact .inl (hrem _ _ h)
    | none =>
      simp only
      cases hr : o.rename with
      | some err =>
        refine ⟨fun fs' h => ?_, fun _ _ _ h => hfin _ _ h⟩
        rcases List.mem_append.1 h with h | h
        · exact hpart _ _ h
        · exact .inl (hrem _ _ h)
      | none =>
        refine ⟨fun fs' h => ?_, by simp⟩
        rcases List.mem_append.1 h with h | h
        · exact hpart _ _ h
        · simp only [List.mem_cons, List.not_mem_nil, or_false] at h
          subst h
          exact .inl (setFile_same ..)

/-- A file system with the edited file. -/
def demoFS : FS := setFile (fun _ => none) b!"f" (some b!"old\n")

example : ∃ fs' ∈ (saveTrace {} demoFS b!"f" b!"new!\n").1, fs' b!"f" = some b!"old\n" ∧ fs' (tmpName b!"f") = some b!"ne" :=
  ⟨_, by simp only [saveTrace]; exact List.mem_append_left _ (List.mem_map.2 ⟨2, by decide, rfl⟩), rfl, rfl⟩

example : ∃ fs' ∈ (saveTrace {} demoFS b!"f" b!"new!\n").1, fs' b!"f" = some b!"new!\n" :=
  ⟨_, by simp only [saveTrace]; exact List.mem_append_right _ (List.mem_cons_self ..), rfl⟩

/-! ## C71 -/

/-- **C71** What `w` was given is not looked at: neither range nor name. -/
theorem C71_arguments_ignored (env : Env) (s : State) (c : Command) (h : c.typ = .write) :
    processCommand env s c = processCommand env s { typ := .write } := by
  have e : ∀ d : Command, (setDefaultAddresses d).typ = d.typ := by
    intro d
    simp only [setDefaultAddresses]
    split
    · split <;> rfl
    · rfl
  have e1 := e c
  rw [h] at e1
  simp only [processCommand, e1, e]

/-- **C71** When the save succeeds, the edited file holds exactly the buffer; the buffer, read back, is
the same, and the current line is the last. (For a buffer that is a list of plain lines.) -/
theorem C71_whole_partial (env : Env) {s : State} {ls : List Bytes} (h : Shows s ls) (hp : ∀ l ∈ ls, PlainLine l) (c : Command)
    (hc : c.typ = .write) (hok : (saveTrace (env.outcome s.writes) s.fs s.filename (unlines ls)).2 = none) :
    ∃ s', processCommand env s c = .ok (s', []) ∧ s'.fs s.filename = some (unlines ls) ∧ s'.filename = s.filename ∧ Shows s' ls ∧
      s'.currentLine = (dropBlank ls).length ∧
      (∀ n, n ≠ s.filename → n ≠ tmpName s.filename → s'.fs n = s.fs n) ∧ s'.fs (tmpName s.filename) = none := by
  rw [C71_arguments_ignored env s c hc]
  obtain ⟨hfin, htmp⟩ := (C70_outcome (env.outcome s.writes) s.fs s.filename (unlines ls)).1 hok
  let tr := saveTrace (env.outcome s.writes) s.fs s.filename (unlines ls)
  let s1 : State := { s with pt := s.pt.close, fs := finalFS s.fs tr.1, writes := s.writes + 1 }
  let s2 : State := { s1 with filename := s.filename, pt := Txt.newPieceTable (unlines ls) true (unlines ls).length }
  have sh : Shows s2 ls := ⟨opened_shows ls 0 |>.reach, opened_shows ls 0 |>.text⟩
  have hg := getLines_shows sh hp
  have hw : write env s = .ok ({ s2 with currentLine := (dropBlank ls).length }, none) := by
    simp only [write, h.text, hok, edit, hfin]
    simp only [s2, s1, tr] at hg
    rw [hg]
  refine ⟨{ s2 with currentLine := (dropBlank ls).length }, ?_, hfin, rfl, ⟨sh.reach, sh.text⟩, rfl, ?_, htmp⟩
  · have e : setDefaultAddresses { typ := .write } = { typ := .write, start := aCur, end_ := aLast } := rfl
    simp only [processCommand, e, hw]
    rfl
  · intro n h1 h2
    show finalFS s.fs tr.1 n = s.fs n
    simp only [finalFS]
    cases hl : tr.1.getLast? with
    | none => rfl
    | some g => exact (C70_atomic _ _ _ _ g (List.mem_of_getLast? hl)).2 n h1 h2

/-- The editor on a file `f` with two lines. -/
def twoLines : State := { opened [b!"one", b!"two"] 2 with fs := demoFS, filename := b!"f" }

/-- **C71** Counterexample: `1,1w other` does not write `one` to `other`: `other` does not exist afterwards and
`f` has both lines. -/
theorem C71_counterexample :
    ∃ s', processCommand demoEnv twoLines
        { typ := .write, start := numAddr 1, end_ := numAddr 1, text := b!"other" } = .ok (s', []) ∧
      s'.fs b!"other" = none ∧ s'.fs b!"f" = some b!"one\ntwo\n" := by
  have sh : Shows twoLines [b!"one", b!"two"] := ⟨(opened_shows [b!"one", b!"two"] 2).reach, (opened_shows [b!"one", b!"two"] 2).text⟩
  obtain ⟨s', h1, h2, _, _, _, h3⟩ := C71_whole_partial demoEnv sh (plain_of _ (by decide))
    { typ := .write, start := numAddr 1, end_ := numAddr 1, text := b!"other" } rfl rfl
  exact ⟨s', h1, (h3.1 b!"other" (by decide) (by decide)).trans (by decide), h2⟩

/-- **C71** A save that fails closes the file the buffer still reads from: if any of the original text is
left in the buffer, everything that looks at the buffer afterwards crashes, so the edits are lost. -/
theorem C71_failed_save_loses_buffer (env : Env) {s : State} {t : Bytes} (h : Txt.Reachable s.pt) (ht : s.pt.string = .ok t)
    (hf : s.pt.closable = true) (ho : ∃ p ∈ s.pt.pieces, p.reader = .orig ∧ p.length ≠ 0) (err : Bytes)
    (he : (saveTrace (env.outcome s.writes) s.fs s.filename t).2 = some err) (c : Command) (hc : c.typ = .write) :
    ∃ s', processCommand env s c = .ok (s', 63 :: err) ∧ s'.fs s.filename = s.fs s.filename ∧
      (∃ p, s'.pt.string = .error p) ∧ (∃ p, getLines s' = .error p) ∧
      ∀ c2 : Command, c2.typ = .print ∨ c2.typ = .number ∨ c2.typ = .append ∨ c2.typ = .insert ∨ c2.typ = .delete ∨ c2.typ = .change ∨
        c2.typ = .write → ∃ f, processCommand env s' c2 = .error f := by
  rw [C71_arguments_ignored env s c hc]
  obtain ⟨pa, hpa⟩ := ((Txt.C08_close h ht).2 hf).1.2 ho
  let s' : State := { s with pt := s.pt.close, fs := finalFS s.fs (saveTrace (env.outcome s.writes) s.fs s.filename t).1, writes := s.writes + 1 }
  have hw : write env s = .ok (s', some err) := by
    simp only [write, ht, he]
    rfl
  have hsc : scanned s' = .error pa := by simp only [scanned, s', hpa]
  have hg : getLines s' = .error pa := by simp only [getLines, hsc]
  have hla : ∀ n, getLineAddr s' n = .error pa := fun n => by simp only [getLineAddr, hg]
  refine ⟨s', ?_, (C70_outcome _ _ _ _).2 err he, ⟨pa, hpa⟩, ⟨pa, hg⟩, ?_⟩
  · have e : setDefaultAddresses { typ := .write } = { typ := .write, start := aCur, end_ := aLast } := rfl
    simp only [processCommand, e, hw]
    rfl
  · intro c2 hc2
    have ety : (setDefaultAddresses c2).typ = c2.typ := by
      simp only [setDefaultAddresses]
      split
      · split <;> rfl
      · rfl
    have fin : ∀ {α : Type} (x : R α), ∀ (k : α → R (State × Bytes)), (∀ a, ∃ f, k a = .error f) → ∃ f, (x >>= k) = .error f := by
      intro α x k hk
      cases x with
      | error f => exact ⟨f, rfl⟩
      | ok a => exact hk a
    rcases hc2 with h2 | h2 | h2 | h2 | h2 | h2 | h2 <;> simp only [processCommand, ety, h2]
    · refine fin _ _ (fun a => fin _ _ (fun b => ⟨.panic pa, ?_⟩))
      simp only [print, hsc]; rfl
    · refine fin _ _ (fun a => fin _ _ (fun b => ⟨.panic pa, ?_⟩))
      simp only [number, hg]; rfl
    · refine fin _ _ (fun a => ⟨.panic pa, ?_⟩)
      simp only [insertBeforeLine, hla]; rfl
    · refine fin _ _ (fun a => ⟨.panic pa, ?_⟩)
      simp only [insertBeforeLine, hla]; rfl
    · refine fin _ _ (fun a => fin _ _ (fun b => ⟨.panic pa, ?_⟩))
      simp only [delete, hla]; rfl
    · refine fin _ _ (fun a => fin _ _ (fun b => ⟨.panic pa, ?_⟩))
      simp only [delete, hla]; rfl
    · refine ⟨.panic pa, ?_⟩
      simp only [write, s', hpa]; rfl

/-- **C71** Without a file to save to, `w` (even `w name`) answers with an error; no file is touched and the buffer is
kept. -/
theorem C71_no_file (env : Env) {s : State} {t : Bytes} (ht : s.pt.string = .ok t) (hf : s.pt.closable = false)
    (hn : s.fs s.filename = none) (c : Command) (hc : c.typ = .write) :
    processCommand env s c = .ok ({ s with writes := s.writes + 1 }, 63 :: (env.outcome s.writes).noFile) := by
  rw [C71_arguments_ignored env s c hc]
  have e : setDefaultAddresses { typ := .write } = { typ := .write, start := aCur, end_ := aLast } := rfl
  have hsv : saveTrace (env.outcome s.writes) s.fs s.filename t = ([], some (env.outcome s.writes).noFile) := by
    simp only [saveTrace, statError, hn, if_true]
  have hw : write env s = .ok ({ s with writes := s.writes + 1 }, some (env.outcome s.writes).noFile) := by
    simp only [write, ht, hsv, Txt.PieceTable.close, hf]
    rfl
  simp only [processCommand, e, hw]
  rfl

/-- An editor that has been given text but no file. -/
def nameless : State :=
  { pt := { Txt.zero with pieces := [⟨4, 0, .mem b!"new\n"⟩] }, filename := [], currentLine := 1, fs := demoFS, writes := 0 }

example : ∃ s', processCommand demoEnv nameless { typ := .write, text := b!"f" } =
      .ok (s', b!"?stat: no such file or directory") ∧ s'.fs b!"f" = some b!"old\n" ∧ s'.pt.string = .ok b!"new\n" :=
  ⟨_, C71_no_file demoEnv (s := nameless) (t := b!"new\n") rfl rfl rfl _ rfl, rfl, rfl⟩

/-- The disk is full: nothing can be written to the temporary file. -/
def fullDisk : Env := { demoEnv with outcome := fun _ => { writeFile := some b!"no space left on device", written := some 0 } }

example : ∃ s', processCommand fullDisk twoLines { typ := .write } = .ok (s', b!"?no space left on device") ∧
    s'.fs b!"f" = some b!"old\n" ∧ ∃ f, processCommand fullDisk s' { typ := .print } = .error f := by
  have sh : Shows twoLines [b!"one", b!"two"] := ⟨(opened_shows [b!"one", b!"two"] 2).reach, (opened_shows [b!"one", b!"two"] 2).text⟩
  obtain ⟨s', h1, h2, _, _, h3⟩ := C71_failed_save_loses_buffer fullDisk sh.reach sh.text rfl ⟨_, List.mem_cons_self .., rfl, by decide⟩
    b!"no space left on device" rfl { typ := .write } rfl
  exact ⟨s', h1, h2, h3 _ (Or.inl rfl)⟩

end Ed
