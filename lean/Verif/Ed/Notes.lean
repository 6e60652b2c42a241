import Verif.Ed.SearchProps
import Verif.Ed.Process
import Verif.Go.LinesProps

/-!
# What ed writes to standard error (C168)

The functions of `Verif.Ed.Editor` once more, with the calls of `debug` (ed.go:20-22) in their places.
-/

namespace Ed
open Go

/-! ## Model -/

/-- One call of `debug`: lines 59, 81, 87, 96, 139, 183, 188, 229 and 274 of ed.go. (Line 92 is not reached: `Stat` on an open
file is taken to succeed.) -/
inductive Note where
  | cannotStat (name : Bytes)
  | editing (name : Bytes)
  | cannotOpen (err : Bytes)
  | settingFilename
  | deleting (start end_ realStart realEnd : Int)
  | badExpression (err : Bytes)
  | looking (n : Int)
  | line (text : Bytes)
  | noAddress
  deriving DecidableEq, Repr

/-- ed.go:20-22: what the call writes. -/
def Note.shown : Note → Bytes
  | .cannotStat f => b!"cannae stat " ++ f ++ [nl]
  | .editing f => b!"editing " ++ f ++ [nl]
  | .cannotOpen e => b!"cannae open " ++ e ++ [nl]
  | .settingFilename => b!"setting filename\n"
  | .deleting a b x y => b!"delete " ++ itoa a ++ b!" " ++ itoa b ++ b!" " ++ itoa x ++ b!" " ++ itoa y ++ [nl]
  | .badExpression e => e ++ [nl]
  | .looking n => b!"n is " ++ itoa n ++ [nl]
  | .line t => b!"line " ++ t ++ [nl]
  | .noAddress => b!"oh no we don't have any way to communicate the invalid address\n"

/-- A computation that writes notes and then returns or fails. -/
structure Noted (α : Type) where
  notes : List Note
  result : R α

namespace Noted

def pure {α : Type} (a : α) : Noted α := ⟨[], .ok a⟩

def bind {α β : Type} (x : Noted α) (f : α → Noted β) : Noted β :=
  match x.result with
  | .error e => ⟨x.notes, .error e⟩
  | .ok a => ⟨x.notes ++ (f a).notes, (f a).result⟩

instance : Monad Noted where
  pure := Noted.pure
  bind := Noted.bind

end Noted

/-- A call without notes. -/
def silent {α : Type} (x : R α) : Noted α := ⟨[], x⟩

/-- One note. -/
def tell (n : Note) : Noted Unit := ⟨[n], .ok ()⟩

/-- ed.go:136-142 `Delete`. -/
def deleteN (s : State) (start end_ : Int) : Noted State := do
  let a ← silent (lift (getLineAddr s start))
  let b ← silent (lift (getLineAddr s (wrap64 (end_ + 1))))
  tell (.deleting start end_ a b)
  return { s with pt := s.pt.delete (b - a) a }

/-- ed.go:80-102 `Edit`. -/
def editN (env : Env) (s : State) (name : Bytes) : Noted (State × Option Bytes) := do
  tell (.editing name)
  match s.fs name with
  | none => do
    tell (.cannotOpen (env.openErr name))
    return (s, some (env.openErr name))
  | some contents => do
    tell .settingFilename
    let s' := { s with filename := name, pt := Txt.newPieceTable contents true contents.length }
    let ls ← silent (lift (getLines s'))
    return ({ s' with currentLine := ls.length }, none)

/-- ed.go:48-77 `Write`. -/
def writeN (env : Env) (s : State) : Noted (State × Option Bytes) := do
  let data ← silent (lift s.pt.string)
  let o := env.outcome s.writes
  let tr := saveTrace o s.fs s.filename data
  let s' := { s with pt := s.pt.close, fs := finalFS s.fs tr.1, writes := s.writes + 1 }
  match statError o s.fs s.filename with
  | some err => do
    tell (.cannotStat s.filename)
    return (s', some err)
  | none =>
    match tr.2 with
    | some err => return (s', some err)
    | none => editN env s' s'.filename

/-- ed.go:187-195: the notes of the loop of `regexMatch`. (If the loop does not end, as many as the bound.) -/
def searchNotes (m : Bytes → Bool) (lines : List Bytes) (cur : Int) : Nat → Int → List Note
  | 0, _ => []
  | fuel + 1, n => .looking n ::
    (if n < 1 then [] else
    match lines[(n - 1).toNat]? with
    | none => []
    | some l => if m l then [] else if n = cur then [] else searchNotes m lines cur fuel (n.tmod lines.length + 1))

/-- ed.go:178-197 `regexMatch`. `reErr` is the text of the error of `CompilePOSIX`. -/
def regexMatchN (env : Env) (reErr : Bytes → Bytes) (s : State) (re : Bytes) : Noted (Int × Bool) := do
  let lines ← silent (lift (getLines s))
  match env.compile re with
  | none => do
    tell (.badExpression (reErr re))
    return (-1, false)
  | some m =>
    if lines.length = 0 then silent (.error (.panic .divZero))
    else
      let start := s.currentLine.tmod lines.length + 1
      ⟨searchNotes m lines s.currentLine lines.length start,
        match searchLoop m lines s.currentLine lines.length start with
        | none => .error .hang
        | some r => lift r⟩

/-- ed.go:258-284 `addrLine`. -/
def addrLineN (env : Env) (reErr : Bytes → Bytes) (s : State) (a : Address) : Noted Int :=
  if a.typ = .regex then do
    let r ← regexMatchN env reErr s (trimSlash a.text)
    if r.2 = false then tell .noAddress
    return wrap64 (r.1 + a.offset)
  else silent (addrLine env s a)

/-- ed.go:296-357 `processCommand`. -/
def processN (env : Env) (reErr : Bytes → Bytes) (s : State) (cmd0 : Command) : Noted (State × Bytes) :=
  let cmd := setDefaultAddresses cmd0
  match cmd.typ with
  | .edit => do
    let r ← editN env s (cmd.params.headD [])
    return (r.1, r.2.getD [])
  | .print => do
    let a ← addrLineN env reErr s cmd.start
    let b ← addrLineN env reErr s cmd.end_
    let t ← silent (lift (print env s a b))
    return (s, t)
  | .number => do
    let a ← addrLineN env reErr s cmd.start
    let b ← addrLineN env reErr s cmd.end_
    let t ← silent (lift (number s a b))
    return (s, t)
  | .null => do
    let a ← addrLineN env reErr s cmd.start
    let s := { s with currentLine := a }
    let t ← silent (lift (print env s a a))
    return (s, t)
  | .write => do
    let r ← writeN env s
    return (r.1, match r.2 with | none => [] | some err => 63 :: err)
  | .delete => do
    let a ← addrLineN env reErr s cmd.start
    let b ← addrLineN env reErr s cmd.end_
    let s ← deleteN s a b
    let c ← addrLineN env reErr s cmd.start
    return ({ s with currentLine := c }, [])
  | .append => do
    let a ← addrLineN env reErr s cmd.start
    let s ← silent (lift (insertBeforeLine s (wrap64 (a + 1)) cmd.text))
    return ({ s with currentLine := wrap64 (wrap64 (a + 1) + linesIn cmd.text) }, [])
  | .insert => do
    let a ← addrLineN env reErr s cmd.start
    let s ← silent (lift (insertBeforeLine s a cmd.text))
    return (s, [])
  | .change => do
    let a ← addrLineN env reErr s cmd.start
    let b ← addrLineN env reErr s cmd.end_
    let s ← deleteN s a b
    let c ← addrLineN env reErr s cmd.start
    let s ← silent (lift (insertBeforeLine s c cmd.text))
    let d ← addrLineN env reErr s cmd.start
    return ({ s with currentLine := wrap64 (d + linesIn cmd.text) }, [])
  | .lineNumber => do
    let a ← addrLineN env reErr s cmd.start
    return (s, itoa a)
  | _ => silent (.ok (s, b!"? (NYI)"))

/-- ed.go:229: the notes of the reader. (How they mix with those of the main goroutine is not modelled; the notes of a line come
before those of its commands.) -/
def readerNotes (input : Bytes) : List Note := (texts input).map .line

/-! ## Lemmas -/

theorem bind_result {α β : Type} (x : Noted α) (f : α → Noted β) : (x >>= f).result = x.result >>= fun a => (f a).result := by
  change (Noted.bind x f).result = _
  unfold Noted.bind
  cases x.result <;> rfl

theorem pure_result {α : Type} (a : α) : (Pure.pure a : Noted α).result = .ok a := rfl

theorem silent_result {α : Type} (x : R α) : (silent x).result = x := rfl

theorem tell_result (n : Note) : (tell n).result = .ok () := rfl

theorem bind_notes_ok {α β : Type} (x : Noted α) (f : α → Noted β) (a : α) (h : x.result = .ok a) : (x >>= f).notes = x.notes ++ (f a).notes := by
  change (Noted.bind x f).notes = _
  unfold Noted.bind
  rw [h]

theorem bind_notes_error {α β : Type} (x : Noted α) (f : α → Noted β) (e : Fault) (h : x.result = .error e) : (x >>= f).notes = x.notes := by
  change (Noted.bind x f).notes = _
  unfold Noted.bind
  rw [h]

theorem rok_bind {α β : Type} (a : α) (f : α → R β) : ((Except.ok a : R α) >>= f) = f a := rfl

theorem deleteN_result (s : State) (a b : Int) : (deleteN s a b).result = lift (delete s a b) := by
  simp only [deleteN, delete, bind_result, silent_result, tell_result, pure_result]
  cases getLineAddr s a with
  | error p => rfl
  | ok x => cases getLineAddr s (wrap64 (b + 1)) <;> rfl

theorem editN_result (env : Env) (s : State) (f : Bytes) : (editN env s f).result = lift (edit env s f) := by
  simp only [editN, edit, bind_result, tell_result, rok_bind]
  cases s.fs f with
  | none => rfl
  | some c =>
    simp only [bind_result, tell_result, silent_result, pure_result, rok_bind]
    cases getLines { s with filename := f, pt := Txt.newPieceTable c true c.length } <;> rfl

theorem writeN_result (env : Env) (s : State) : (writeN env s).result = lift (write env s) := by
  simp only [writeN, write, bind_result, silent_result]
  cases s.pt.string with
  | error p => rfl
  | ok data =>
    simp only [lift, rok_bind]
    cases hs : statError (env.outcome s.writes) s.fs s.filename with
    | some e => simp only [saveTrace, hs]; rfl
    | none =>
      simp only []
      cases (saveTrace (env.outcome s.writes) s.fs s.filename data).2 with
      | some e => rfl
      | none => exact editN_result _ _ _

theorem regexMatchN_result (env : Env) (reErr : Bytes → Bytes) (s : State) (re : Bytes) : (regexMatchN env reErr s re).result = regexMatch env s re := by
  simp only [regexMatchN, regexMatch, bind_result, silent_result]
  cases getLines s with
  | error p => rfl
  | ok ls =>
    simp only [lift, rok_bind]
    cases env.compile re with
    | none => rfl
    | some m =>
      simp only []
      split <;> rfl

theorem addrLineN_result (env : Env) (reErr : Bytes → Bytes) (s : State) (a : Address) : (addrLineN env reErr s a).result = addrLine env s a := by
  unfold addrLineN
  split
  · next h =>
    simp only [bind_result, regexMatchN_result, addrLine, h]
    cases regexMatch env s (trimSlash a.text) with
    | error f => rfl
    | ok r =>
      simp only [rok_bind]
      cases r.2 <;> rfl
  · rfl

/-! ## Theorems -/

/-- **C168** The notes change nothing: with them every command does what `processCommand` says. -/
theorem C168_same (env : Env) (reErr : Bytes → Bytes) (s : State) (c : Command) : (processN env reErr s c).result = processCommand env s c := by
  unfold processN processCommand
  simp only []
  generalize setDefaultAddresses c = c
  cases c.typ <;> simp only [bind_result, editN_result, writeN_result, addrLineN_result, deleteN_result, silent_result, pure_result] <;> rfl

/-- The specification of a journal: what was typed, one entry for each line or block. -/
def entries (ns : List Note) : Bytes := (ns.map fun n => match n with | .line t => t ++ [nl] | _ => []).flatten

theorem unlines_join (ls : List Bytes) (h : ls ≠ []) : join [nl] ls ++ [nl] = unlines ls := by
  induction ls with
  | nil => exact absurd rfl h
  | cons l ls ih =>
    cases ls with
    | nil => simp [join, unlines]
    | cons k ks =>
      rw [join, unlines, ← ih (by simp)]
      simp

theorem groups_entries : ∀ (ls : List Bytes) (b : List Bytes),
    (b ≠ [] → entries ((groups (some b) ls).map .line) = unlines (b.reverse ++ ls)) ∧ entries ((groups none ls).map .line) = unlines ls := by
  intro ls
  induction ls with
  | nil =>
    intro b
    refine ⟨fun h => ?_, rfl⟩
    simp only [groups, entries, List.map_cons, List.map_nil, List.flatten_cons, List.flatten_nil, List.append_nil]
    exact unlines_join _ (by simpa using h)
  | cons l ls ih =>
    have cons : ∀ (t : Bytes) (ts : List Bytes), entries ((t :: ts).map .line) = t ++ [nl] ++ entries (ts.map .line) := by
      intro t ts; simp [entries]
    intro b
    constructor
    · intro h
      rw [groups]
      split
      · rw [cons, (ih []).2, unlines_join _ (by simp), ← unlines_append]
        simp
      · rw [(ih (l :: b)).1 (by simp)]
        simp
    · rw [groups]
      split
      · rw [(ih [l]).1 (by simp)]
        simp
      · rw [cons, (ih []).2, unlines]
        simp

/-- **C168** What was typed can be had back from standard error, whatever it was: the notes of the reader are the lines and
blocks typed, in order and complete (but for the line ends, and what follows an over-long line). -/
theorem C168_journal (input : Bytes) (ls : List Bytes) (h : scanLines input = (ls, false)) : entries (readerNotes input) = unlines ls := by
  rw [readerNotes, texts_short (by rw [h]), h]
  exact (groups_entries ls []).2

/-- **C168** (the expectation fails) Standard error is never empty, though nothing may be wrong: every line typed is written there. -/
theorem C168_never_quiet (input : Bytes) (h : (scanLines input).2 = false) : readerNotes input = [] ↔ input = [] := by
  constructor
  · intro e
    obtain ⟨ls, hl⟩ : ∃ ls, scanLines input = (ls, false) := ⟨(scanLines input).1, by rw [← h]⟩
    have h1 := C168_journal input ls hl
    rw [e] at h1
    have hn : ls = [] := by
      cases ls with
      | nil => rfl
      | cons l ls => simp [entries, unlines] at h1
    obtain ⟨raw, h2, -, h4, -⟩ := Go.C73_lossless input ls hl
    have : raw = [] := List.length_eq_zero_iff.1 (by rw [← h4, hn]; rfl)
    subst this
    rcases h2 with h2 | h2 <;> simp at h2
    exact h2
  · rintro rfl; rfl

/-- The notes of a session that goes well. -/
example : readerNotes b!"1a\nx\n.\nw\n" = [.line b!"1a\nx\n.", .line b!"w"] ∧ Note.shown (.line b!"w") = b!"line w\n" := by decide +kernel

/-- **C168** `e` tells what it does: the name, and whether the buffer was replaced. -/
theorem C168_edit (env : Env) (reErr : Bytes → Bytes) (s : State) (f : Bytes) (c : Command) (ht : c.typ = .edit) (hp : c.params = [f]) :
    (processN env reErr s c).notes = .editing f :: (if s.fs f = none then [.cannotOpen (env.openErr f)] else [.settingFilename]) := by
  have h1 : (setDefaultAddresses c).typ = .edit := by unfold setDefaultAddresses; split <;> (try simp only []) <;> (try split) <;> exact ht
  have h2 : (setDefaultAddresses c).params = [f] := by unfold setDefaultAddresses; split <;> (try simp only []) <;> (try split) <;> exact hp
  unfold processN
  simp only [h1, h2, List.headD_cons]
  have key : (editN env s f).notes = .editing f :: (if s.fs f = none then [.cannotOpen (env.openErr f)] else [.settingFilename]) := by
    unfold editN
    rw [bind_notes_ok _ _ () rfl]
    cases s.fs f with
    | none => rfl
    | some contents =>
      simp only []
      rw [bind_notes_ok _ _ () rfl]
      cases hg : getLines { s with filename := f, pt := Txt.newPieceTable contents true contents.length } with
      | error p => rw [bind_notes_error _ _ (.panic p) (by rw [silent_result]; rfl)]; rfl
      | ok ls => rw [bind_notes_ok _ _ ls (by rw [silent_result]; rfl)]; rfl
  cases hr : (editN env s f).result with
  | error e => rw [bind_notes_error _ _ e hr, key]
  | ok r => rw [bind_notes_ok _ _ r hr, key]; exact List.append_nil _

/-- **C168** What `w` tells. A file that cannot be found is told and a save that worked is, as the file is opened again; (the
expectation fails) a save that failed otherwise is not mentioned on standard error. -/
theorem C168_write (env : Env) (s : State) (data : Bytes) (hd : s.pt.string = .ok data)
    (o : Outcome) (ho : env.outcome s.writes = o) :
    (∀ e, statError o s.fs s.filename = some e → (writeN env s).notes = [.cannotStat s.filename]) ∧
    (statError o s.fs s.filename = none → (o.writeFile ≠ none ∨ o.rename ≠ none) → (writeN env s).notes = []) ∧
    (statError o s.fs s.filename = none → o.writeFile = none → o.rename = none → (writeN env s).notes = [.editing s.filename, .settingFilename]) := by
  have h0 : (writeN env s).notes = (match statError o s.fs s.filename with
      | some _ => [Note.cannotStat s.filename]
      | none =>
        match (saveTrace o s.fs s.filename data).2 with
        | some _ => []
        | none => (editN env { s with pt := s.pt.close, fs := finalFS s.fs (saveTrace o s.fs s.filename data).1, writes := s.writes + 1 } s.filename).notes) := by
    unfold writeN
    rw [bind_notes_ok _ _ data (by rw [silent_result, hd]; rfl)]
    simp only [ho]
    cases statError o s.fs s.filename with
    | some e => rfl
    | none =>
      simp only []
      cases (saveTrace o s.fs s.filename data).2 <;> rfl
  refine ⟨fun e he => by rw [h0, he], fun he hf => ?_, fun he h1 h2 => ?_⟩
  · rw [h0, he]
    have : ∃ e, (saveTrace o s.fs s.filename data).2 = some e := by
      rw [saveTrace, he]
      simp only []
      cases hw : o.writeFile with
      | some e => cases o.written <;> exact ⟨e, rfl⟩
      | none =>
        cases hr : o.rename with
        | some e => exact ⟨e, rfl⟩
        | none => rw [hw, hr] at hf; simp at hf
    obtain ⟨e, h⟩ := this
    rw [h]
  · have h3 : (saveTrace o s.fs s.filename data).2 = none := by rw [saveTrace, he]; simp only [h1, h2]
    have h4 : finalFS s.fs (saveTrace o s.fs s.filename data).1 s.filename = some data := by
      rw [saveTrace, he]
      simp only [h1, h2, finalFS]
      have hne : s.filename ≠ tmpName s.filename := by
        intro h; have := congrArg List.length h; simp [tmpName] at this
      simp [setFile, hne]
    rw [h0, he, h3]
    simp only []
    unfold editN
    rw [bind_notes_ok _ _ () rfl]
    simp only [h4]
    rw [bind_notes_ok _ _ () rfl]
    generalize ({ s with pt := _, fs := _, writes := _, filename := _ } : State) = s'
    cases hg : getLines s' with
    | error p => rw [bind_notes_error _ _ (.panic p) (by rw [silent_result]; rfl)]; rfl
    | ok ls => rw [bind_notes_ok _ _ ls (by rw [silent_result]; rfl)]; rfl

/-- The three cases occur. -/
example : (writeN demoEnv { opened demoLines 1 with filename := b!"g" }).notes = [.cannotStat b!"g"] ∧
    (writeN { demoEnv with outcome := fun _ => { rename := some b!"no" } } (opened demoLines 1)).notes = [] ∧
    (writeN demoEnv (opened demoLines 1)).notes = [.editing b!"f", .settingFilename] := by decide +kernel

/-- **C168** What is written for a deletion says which bytes go: from the third number up to the fourth. -/
theorem C168_delete {s s' : State} {a b : Int} {t : Bytes} (hr : Txt.Reachable s.pt) (ht : s.pt.string = .ok t) (h : delete s a b = .ok s') :
    ∃ x y : Int, (deleteN s a b).notes = [.deleting a b x y] ∧
      (0 ≤ x → x ≤ y → y ≤ t.length → s'.pt.string = .ok (t.take x.toNat ++ t.drop y.toNat)) := by
  unfold delete at h
  cases h1 : getLineAddr s a with
  | error p => rw [h1] at h; cases h
  | ok x =>
    cases h2 : getLineAddr s (wrap64 (b + 1)) with
    | error p => rw [h1, h2] at h; cases h
    | ok y =>
      rw [h1, h2] at h
      cases h
      refine ⟨x, y, ?_, fun h3 h4 h5 => ?_⟩
      · unfold deleteN
        rw [bind_notes_ok _ _ x (by rw [silent_result, h1]; rfl), bind_notes_ok _ _ y (by rw [silent_result, h2]; rfl), bind_notes_ok _ _ () rfl]
        rfl
      · obtain ⟨n, rfl⟩ := Int.eq_ofNat_of_zero_le h3
        obtain ⟨k, rfl⟩ : ∃ k : Nat, y = (n + k : Nat) := ⟨(y - n).toNat, by omega⟩
        have := Txt.C02_delete_cuts hr ht k n (by omega)
        simp only [Int.toNat_natCast]
        rw [← this]
        congr 2
        omega

/-- Lines 2 and 3 of four. -/
example : (deleteN (opened demoLines 1) 2 3).notes = [.deleting 2 3 4 11] ∧ unlines demoLines = b!"one\n\nthree\nfour\n" ∧
    Note.shown (.deleting 2 3 4 11) = b!"delete 2 3 4 11\n" := by decide +kernel

/-- **C168** An address that is not found is told, and only such. -/
theorem C168_told (env : Env) (reErr : Bytes → Bytes) (s : State) (a : Address) :
    Note.noAddress ∈ (addrLineN env reErr s a).notes ↔ a.typ = .regex ∧ ∃ n, regexMatch env s (trimSlash a.text) = .ok (n, false) := by
  have none_in : ∀ re, Note.noAddress ∉ (regexMatchN env reErr s re).notes := by
    intro re
    unfold regexMatchN
    cases hg : getLines s with
    | error p => rw [bind_notes_error _ _ (.panic p) (by rw [silent_result]; rfl)]; simp [silent]
    | ok ls =>
      rw [bind_notes_ok _ _ ls (by rw [silent_result]; rfl)]
      simp only [silent, List.nil_append]
      cases env.compile re with
      | none =>
        simp only []
        rw [bind_notes_ok _ _ () rfl]
        simp [tell, Pure.pure, Noted.pure]
      | some m =>
        simp only []
        split
        · simp
        · simp only []
          generalize s.currentLine.tmod (ls.length : Int) + 1 = n
          generalize ls.length = k
          clear hg
          induction k generalizing n with
          | zero => simp [searchNotes]
          | succ k ih =>
            rw [searchNotes, List.mem_cons]
            rintro (h | h)
            · cases h
            · split at h
              · simp at h
              · split at h
                · simp at h
                · split at h
                  · simp at h
                  · split at h
                    · simp at h
                    · exact ih _ h
  unfold addrLineN
  by_cases ht : a.typ = .regex
  · rw [if_pos ht]
    have hres := regexMatchN_result env reErr s (trimSlash a.text)
    cases hm : regexMatch env s (trimSlash a.text) with
    | error e =>
      rw [bind_notes_error _ _ e (by rw [hres, hm])]
      simp [none_in]
    | ok r =>
      obtain ⟨n, b⟩ := r
      rw [bind_notes_ok _ _ (n, b) (by rw [hres, hm])]
      cases b with
      | false =>
        simp only [if_true]
        rw [bind_notes_ok _ _ () rfl]
        simp [tell, ht]
      | true =>
        simp only [Bool.true_eq_false, if_false]
        simp [none_in, ht, Pure.pure, Noted.pure]
  · rw [if_neg ht]
    simp [silent, ht]

/-- The notes of a search that finds, and of one that ends where it began. -/
theorem searchNotes_way (m : Bytes → Bool) (ls : List Bytes) (cur : Int) : ∀ (j fuel n : Nat), 1 ≤ n → n ≤ ls.length → j < fuel →
    (∀ i < j, ¬ LineMatches m ls (around ls.length (n + i)) ∧ (around ls.length (n + i) : Int) ≠ cur) →
    (LineMatches m ls (around ls.length (n + j)) ∨ (around ls.length (n + j) : Int) = cur) →
    searchNotes m ls cur fuel n = (List.range (j + 1)).map (fun i => .looking (around ls.length (n + i) : Nat)) := by
  intro j
  induction j with
  | zero =>
    intro fuel n h1 h2 hf _ hs
    obtain ⟨fuel, rfl⟩ : ∃ k, fuel = k + 1 := ⟨fuel - 1, by omega⟩
    rw [Nat.add_zero, around_self h1 h2] at hs
    have hl : ls[((n : Int) - 1).toNat]? = some (ls[n - 1]'(by omega)) := by
      rw [show ((n : Int) - 1).toNat = n - 1 by omega]; simp
    rw [searchNotes, if_neg (by omega), hl]
    have e : (List.range (0 + 1)).map (fun i => Note.looking (around ls.length (n + i) : Nat)) = [.looking n] := by
      simp [List.range_succ, around_self h1 h2]
    rw [e]
    simp only []
    rw [lineMatches_iff m ls n (by omega)] at hs
    rcases hs with h | h
    · rw [if_pos h]
    · rw [if_pos h]; split <;> rfl
  | succ j ih =>
    intro fuel n h1 h2 hf hno hs
    obtain ⟨fuel, rfl⟩ : ∃ k, fuel = k + 1 := ⟨fuel - 1, by omega⟩
    have h0 := hno 0 (by omega)
    rw [Nat.add_zero, around_self h1 h2, lineMatches_iff m ls n (by omega)] at h0
    have hl : ls[((n : Int) - 1).toNat]? = some (ls[n - 1]'(by omega)) := by
      rw [show ((n : Int) - 1).toNat = n - 1 by omega]; simp
    have hr := around_lt (x := n + 1) (len := ls.length) (by omega)
    rw [searchNotes, if_neg (by omega), hl]
    simp only []
    rw [if_neg h0.1, if_neg h0.2, start_eq, ih fuel _ hr.1 hr.2 (by omega) (fun i hi => by rw [around_succ h1]; exact hno (i + 1) (by omega))
      (by rw [around_succ h1]; exact hs)]
    have e : (List.range (j + 1 + 1)).map (fun i => Note.looking (around ls.length (n + i) : Nat)) =
        .looking n :: (List.range (j + 1)).map (fun i => Note.looking (around ls.length (n + (i + 1)) : Nat)) := by
      rw [show List.range (j + 1 + 1) = 0 :: (List.range (j + 1)).map (· + 1) from List.range_succ_eq_map, List.map_cons, List.map_map, Nat.add_zero,
        around_self h1 h2]
      rfl
    rw [e]
    simp only [around_succ h1]

/-- **C168** A search tells every line it looks at: the lines after the current one, going round, up to the one found; or all of
them, the current one last, and then that there is none. -/
theorem C168_search (env : Env) (reErr : Bytes → Bytes) {s : State} {ls : List Bytes} (h : Shows s ls) (hc : Clean ls) (cur : Nat)
    (hcur : s.currentLine = cur) (h1 : 1 ≤ cur) (h2 : cur ≤ ls.length) (a : Address) (ha : a.typ = .regex) (m : Bytes → Bool)
    (hm : env.compile (trimSlash a.text) = some m) :
    (∀ k, k < ls.length → LineMatches m ls (around ls.length (cur + 1 + k)) → (∀ j < k, ¬ LineMatches m ls (around ls.length (cur + 1 + j))) →
      (addrLineN env reErr s a).notes = (List.range (k + 1)).map fun i => .looking (around ls.length (cur + 1 + i) : Nat)) ∧
    ((∀ l ∈ ls, m l = false) →
      (addrLineN env reErr s a).notes = ((List.range ls.length).map fun i => .looking (around ls.length (cur + 1 + i) : Nat)) ++ [.noAddress]) := by
  have hg : getLines s = .ok ls := by rw [getLines_shows h hc.plain, dropBlank_clean hc.lastNe]
  have hr := around_lt (x := cur + 1) (len := ls.length) (by omega)
  have shift : ∀ i, around ls.length (around ls.length (cur + 1) + i) = around ls.length (cur + 1 + i) := by
    intro i; rw [around_succ h1]; congr 1; omega
  have nope : ∀ i < ls.length - 1, (around ls.length (cur + 1 + i) : Int) ≠ cur := by
    intro i hi he
    have he : around ls.length (cur + 1 + i) = cur := by exact_mod_cast he
    unfold around at he
    rw [show cur + 1 + i - 1 = cur + i by omega] at he
    rcases Nat.lt_or_ge (cur + i) ls.length with hl | hl
    · rw [Nat.mod_eq_of_lt hl] at he; omega
    · rw [Nat.mod_eq_sub_mod hl, Nat.mod_eq_of_lt (by omega)] at he; omega
  have last : (around ls.length (cur + 1 + (ls.length - 1)) : Int) = cur := by
    unfold around
    rw [show cur + 1 + (ls.length - 1) - 1 = cur - 1 + ls.length by omega, Nat.add_mod_right, Nat.mod_eq_of_lt (by omega)]
    omega
  have base : (regexMatchN env reErr s (trimSlash a.text)).notes = searchNotes m ls cur ls.length (around ls.length (cur + 1) : Nat) := by
    unfold regexMatchN
    rw [bind_notes_ok _ _ ls (by rw [silent_result, hg]; rfl), hm]
    simp only [silent, List.nil_append]
    rw [if_neg (by omega), hcur, start_eq]
  have hres := regexMatchN_result env reErr s (trimSlash a.text)
  unfold addrLineN
  rw [if_pos ha]
  refine ⟨fun k hk hmk hno => ?_, fun hno => ?_⟩
  · have e := (C64_forward_search env h hc cur hcur h1 h2 _ m hm).1 (k + 1) (by omega) (by omega) (by rw [show cur + (k + 1) = cur + 1 + k by omega]; exact hmk)
      (fun j h3 h4 => by rw [show cur + j = cur + 1 + (j - 1) by omega]; exact hno _ (by omega))
    rw [bind_notes_ok _ _ _ (by rw [hres, e]), base, searchNotes_way m ls cur k ls.length _ hr.1 hr.2 hk
      (fun i hi => by rw [shift]; exact ⟨hno i hi, nope i (by omega)⟩) (.inl (by rw [shift]; exact hmk))]
    simp only [Bool.true_eq_false, if_false, shift]
    exact List.append_nil _
  · have e := (C64_forward_search env h hc cur hcur h1 h2 _ m hm).2 hno
    have hnm : ∀ n, ¬ LineMatches m ls n := by
      rintro n ⟨l, hl, ht⟩
      rw [hno l (List.mem_of_getElem? hl)] at ht
      cases ht
    rw [bind_notes_ok _ _ _ (by rw [hres, e]), base, searchNotes_way m ls cur (ls.length - 1) ls.length _ hr.1 hr.2 (by omega)
      (fun i hi => by rw [shift]; exact ⟨hnm _, nope i hi⟩) (.inr (by rw [shift]; exact last))]
    simp only [if_true]
    rw [bind_notes_ok _ _ () rfl]
    simp only [shift, show ls.length - 1 + 1 = ls.length by omega]
    rfl

/-- From line 3 of four, the last line has an `f`, and no line has a `z`. -/
example : (addrLineN demoEnv id (opened demoLines 3) ⟨.regex, b!"/o/", 0⟩).notes = [.looking 4] ∧
    (addrLineN demoEnv id (opened demoLines 4) ⟨.regex, b!"/h/", 0⟩).notes = [.looking 1, .looking 2, .looking 3] ∧
    (addrLineN demoEnv id (opened demoLines 3) ⟨.regex, b!"/z/", 0⟩).notes = [.looking 4, .looking 1, .looking 2, .looking 3, .noAddress] := by
  decide +kernel

/-- **C168** Commands that print or insert, at addresses that are no searches, write nothing to standard error. -/
theorem C168_quiet (env : Env) (reErr : Bytes → Bytes) (s : State) (c : Command) (h1 : c.start.typ ≠ .regex) (h2 : c.end_.typ ≠ .regex)
    (ht : c.typ ≠ .edit ∧ c.typ ≠ .write ∧ c.typ ≠ .delete ∧ c.typ ≠ .change) : (processN env reErr s c).notes = [] := by
  have hd : (setDefaultAddresses c).typ = c.typ ∧ (setDefaultAddresses c).start.typ ≠ .regex ∧ (setDefaultAddresses c).end_.typ ≠ .regex := by
    have hdef : ∀ t, (defaultAddresses t).1.typ ≠ .regex ∧ (defaultAddresses t).2.typ ≠ .regex := by intro t; cases t <;> decide
    unfold setDefaultAddresses
    split
    · simp only []
      split
      · exact ⟨rfl, hdef _⟩
      · exact ⟨rfl, (hdef _).1, h2⟩
    · exact ⟨rfl, h1, h2⟩
  have bindQ : ∀ {α β : Type} (x : Noted α) (f : α → Noted β), x.notes = [] → (∀ a, (f a).notes = []) → (x >>= f).notes = [] := by
    intro α β x f hx hf
    cases hr : x.result with
    | error e => rw [bind_notes_error _ _ e hr, hx]
    | ok a => rw [bind_notes_ok _ _ a hr, hx, hf]; rfl
  have addrQ : ∀ (s : State) (a : Address), a.typ ≠ .regex → (addrLineN env reErr s a).notes = [] := by
    intro s a h; rw [addrLineN, if_neg h]; rfl
  unfold processN
  simp only []
  obtain ⟨e1, e2, e3⟩ := hd
  rw [← e1] at ht
  generalize setDefaultAddresses c = d at *
  obtain ⟨t1, t2, t3, t4⟩ := ht
  split
  · next h => exact absurd h t1
  · exact bindQ _ _ (addrQ _ _ e2) fun _ => bindQ _ _ (addrQ _ _ e3) fun _ => bindQ _ _ rfl fun _ => rfl
  · exact bindQ _ _ (addrQ _ _ e2) fun _ => bindQ _ _ (addrQ _ _ e3) fun _ => bindQ _ _ rfl fun _ => rfl
  · exact bindQ _ _ (addrQ _ _ e2) fun _ => bindQ _ _ rfl fun _ => rfl
  · next h => exact absurd h t2
  · next h => exact absurd h t3
  · exact bindQ _ _ (addrQ _ _ e2) fun _ => bindQ _ _ rfl fun _ => rfl
  · exact bindQ _ _ (addrQ _ _ e2) fun _ => bindQ _ _ rfl fun _ => rfl
  · next h => exact absurd h t4
  · exact bindQ _ _ (addrQ _ _ e2) fun _ => rfl
  · rfl

end Ed
