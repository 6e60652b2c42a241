import Verif.Ed.History
import Verif.Ed.LongLines

/-! # C154: ed opens things whose size is not what can be read from them

Directories, pipes, devices and the files of /proc can be opened; the size they report is not the number of bytes that can be read. -/

namespace Ed
open Go

/-- What `os.Open` found: the size that `Stat` reports and the bytes `ReadAt` can deliver (none for a directory, where every read
fails). For an ordinary file the size is the number of bytes. (ed.go:85-94) -/
structure Opened where
  size : Nat
  bytes : Bytes

/-- ed.go:80-102 `Edit`, for anything that can be opened. -/
def editOpened (s : State) (name : Bytes) (o : Except Bytes Opened) : M (State × Option Bytes) :=
  match o with
  | .error e => .ok (s, some e)
  | .ok o =>
    let s' := { s with filename := name, pt := Txt.newPieceTable o.bytes true o.size }
    match getLines s' with
    | .error p => .error p
    | .ok ls => .ok ({ s' with currentLine := ls.length }, none)

/-- On ordinary files this is the function of the model. -/
theorem editOpened_file (env : Env) (s : State) (name : Bytes) : editOpened s name
    (match s.fs name with | none => .error (env.openErr name) | some c => .ok ⟨c.length, c⟩) = edit env s name := by
  unfold edit editOpened
  cases s.fs name <;> rfl

theorem opened_text (o : Opened) (h : o.size ≤ o.bytes.length) : (Txt.newPieceTable o.bytes true o.size).string = .ok (o.bytes.take o.size) := by
  have r : Txt.Reachable (Txt.newPieceTable o.bytes true o.size) := .new o.bytes true o.size h
  rw [Txt.string_wf r.good.toWF]
  simp [Txt.newPieceTable, Txt.content, Txt.Piece.text, Txt.src]

/-- **C154** (partial: expected is all of `o.bytes`) What is edited is as much of the bytes as the size says, and from then on the
editor answers as if an ordinary file with those bytes had been opened. -/
theorem C154_opened_partial (env : Env) (s : State) (name : Bytes) (o : Opened) (h : o.size ≤ o.bytes.length) (hl : ¬ Long (o.bytes.take o.size)) :
    ∃ s', editOpened s name (.ok o) = .ok (s', none) ∧ s'.pt.string = .ok (o.bytes.take o.size) ∧ s'.filename = name ∧ s'.fs = s.fs ∧
      (Terminated (o.bytes.take o.size) → ∀ cs, AllSettled env s' cs →
        SameEnd SameView (runAll env s' cs) (runAll env { s' with pt := Txt.newPieceTable (o.bytes.take o.size) true (o.bytes.take o.size).length } cs)) := by
  have ht := opened_text o h
  have hs : (scanLines (o.bytes.take o.size)).2 = false := by
    cases hb : (scanLines (o.bytes.take o.size)).2 with
    | false => rfl
    | true => exact absurd ((scan_long_iff _).1 hb) hl
  have hg : getLines { s with filename := name, pt := Txt.newPieceTable o.bytes true o.size } = .ok (dropBlank (scanLines (o.bytes.take o.size)).1) := by
    simp only [getLines, scanned, ht, hs]
    rfl
  refine ⟨{ s with filename := name, pt := Txt.newPieceTable o.bytes true o.size, currentLine := (dropBlank (scanLines (o.bytes.take o.size)).1).length },
    ?_, ht, rfl, rfl, fun hterm cs hset => ?_⟩
  · simp only [editOpened, hg]
  · exact C151_as_if_opened env (.new o.bytes true o.size h) ht hterm cs hset

/-- **C154** Something that reports size 0 (a pipe, a terminal, a file of /proc) is an empty buffer, whatever could be read from it. -/
theorem C154_empty (s : State) (name bytes : Bytes) : ∃ s', editOpened s name (.ok ⟨0, bytes⟩) = .ok (s', none) ∧ s'.pt.string = .ok [] ∧ s'.currentLine = 0 :=
  ⟨{ s with filename := name, pt := Txt.newPieceTable bytes true 0, currentLine := 0 }, rfl, rfl, rfl⟩

/-- **C154** If less can be read than the size says (a directory) the editor ends with a panic: the text it held is lost and there is no message. -/
theorem C154_directory (s : State) (name : Bytes) (o : Opened) (h : o.bytes.length < o.size) : editOpened s name (.ok o) = .error .explicit := by
  have ht : (Txt.newPieceTable o.bytes true o.size).string = .error .explicit := by
    unfold Txt.PieceTable.string
    have e : (Txt.newPieceTable o.bytes true o.size).pieces = [{ length := o.size, offset := 0, reader := .orig }] := rfl
    have e2 : Txt.totalLength [({ length := o.size, offset := 0, reader := .orig } : Txt.Piece)] = o.size := by simp [Txt.totalLength]
    rw [e, e2, if_neg (by omega), Txt.PieceTable.readPieces]
    rw [if_neg (by show ¬ ((o.size : Int) = 0); omega), if_neg (by show ¬ ((o.size : Int) < 0); omega), if_neg (by show ¬ (0 + (o.size : Int) > o.size); omega)]
    have : Txt.readAt ((Txt.newPieceTable o.bytes true o.size).source .orig) o.size 0 = none := by
      have hsrc : (Txt.newPieceTable o.bytes true o.size).source .orig = some o.bytes := rfl
      have hne : ¬ (0 ≤ (0 : Int) ∧ (0 : Int) + o.size ≤ (o.bytes.length : Int)) := by omega
      rw [hsrc]
      exact if_neg hne
    rw [this]
  simp only [editOpened, getLines, scanned, ht]

/-- **C154** So what is edited is the whole exactly if size and bytes agree: there are openable things ed shows nothing of, and others that end it. -/
theorem C154_whole_iff (s : State) (name : Bytes) (o : Opened) (hl : ¬ Long o.bytes) :
    (∃ s', editOpened s name (.ok o) = .ok (s', none) ∧ s'.pt.string = .ok o.bytes) ↔ o.size = o.bytes.length := by
  constructor
  · rintro ⟨s', h1, h2⟩
    by_cases h : o.bytes.length < o.size
    · rw [C154_directory s name o h] at h1
      cases h1
    · have ht := opened_text o (by omega)
      simp only [editOpened] at h1
      split at h1
      · cases h1
      · cases h1
        simp only at h2
        rw [ht] at h2
        have e := congrArg List.length (Except.ok.inj h2)
        rw [List.length_take] at e
        omega
  · intro h
    have e : o.bytes.take o.size = o.bytes := by rw [h, List.take_length]
    have hs : (scanLines o.bytes).2 = false := by
      cases hb : (scanLines o.bytes).2 with
      | false => rfl
      | true => exact absurd ((scan_long_iff _).1 hb) hl
    have ht := opened_text o (by omega)
    rw [e] at ht
    refine ⟨{ s with filename := name, pt := Txt.newPieceTable o.bytes true o.size, currentLine := (dropBlank (scanLines o.bytes).1).length }, ?_, ht⟩
    have hg : getLines { s with filename := name, pt := Txt.newPieceTable o.bytes true o.size } = .ok (dropBlank (scanLines o.bytes).1) := by
      simp only [getLines, scanned, ht, hs]
      rfl
    simp only [editOpened, hg]

/-- A file of /proc with three lines, and a directory. -/
example (s : State) : (∃ s', editOpened s b!"f" (.ok ⟨0, b!"a\nb\nc\n"⟩) = .ok (s', none) ∧ s'.pt.string = .ok []) ∧
    editOpened s b!"." (.ok ⟨4096, []⟩) = .error .explicit :=
  ⟨⟨_, rfl, rfl⟩, C154_directory s _ _ (by decide)⟩

/-- A file that has grown after its size was asked for. -/
example : (2 : Nat) ≤ (b!"a\nb\n" : Bytes).length ∧ ¬ Long ((b!"a\nb\n" : Bytes).take 2) ∧ Terminated ((b!"a\nb\n" : Bytes).take 2) :=
  ⟨by decide, by rintro ⟨p, l, r, e, -, h⟩; have := congrArg List.length e; simp at this; omega, by right; decide⟩

end Ed
