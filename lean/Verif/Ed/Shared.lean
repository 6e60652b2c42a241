import Verif.Txt.Shared
import Verif.Ed.Editor

/-!
# The file being edited is changed by somebody else (C123)
-/

namespace Ed
open Go

/-- The commands that look at the text. -/
def CmdType.reads (t : CmdType) : Bool := t ∈ [CmdType.print, .number, .null, .write, .delete, .append, .insert, .change]

theorem unreadable {s : State} {p : Panic} (h : s.pt.string = .error p) : scanned s = .error p ∧ getLines s = .error p := by
  have : scanned s = .error p := by simp [scanned, h]
  exact ⟨this, by simp [getLines, this]⟩

/-- If the text cannot be read, every command that looks at it ends the program. -/
theorem crash_unreadable (env : Env) {s : State} {p : Panic} (h : s.pt.string = .error p) (c : Command) (hc : c.typ.reads = true) :
    ∃ e, processCommand env s c = .error e := by
  obtain ⟨h1, h2⟩ := unreadable h
  have ht : (setDefaultAddresses c).typ = c.typ := by
    unfold setDefaultAddresses
    (repeat' split) <;> rfl
  have hpr : ∀ a b, print env s a b = .error p := fun a b => by simp [print, h1]
  have hpr' : ∀ a b k, print env { s with currentLine := k } a b = .error p := by
    intro a b k
    have : scanned { s with currentLine := k } = .error p := h1
    simp [print, this]
  have hnum : ∀ a b, number s a b = .error p := fun a b => by simp [number, h2]
  have hla : ∀ a, getLineAddr s a = .error p := fun a => by simp [getLineAddr, h2]
  have hdel : ∀ a b, delete s a b = .error p := fun a b => by simp [delete, hla]
  have hins : ∀ a b, insertBeforeLine s a b = .error p := fun a b => by simp [insertBeforeLine, hla]
  have hwr : write env s = .error p := by simp [write, h]
  have two : ∀ {α β : Type} (x y : R Int) (g : Int → Int → R α) (k : Int → Int → α → R β), (∀ a b, ∃ e, g a b = .error e) →
      ∃ e, (do let a ← x; let b ← y; let r ← g a b; k a b r : R β) = .error e := by
    intro α β x y g k hg
    cases x with
    | error e => exact ⟨e, rfl⟩
    | ok a =>
      cases y with
      | error e => exact ⟨e, rfl⟩
      | ok b =>
        obtain ⟨e, he⟩ := hg a b
        exact ⟨e, by show (g a b >>= k a b) = _; rw [he]; rfl⟩
  have one : ∀ {α β : Type} (x : R Int) (g : Int → R α) (k : Int → α → R β), (∀ a, ∃ e, g a = .error e) →
      ∃ e, (do let a ← x; let r ← g a; k a r : R β) = .error e := by
    intro α β x g k hg
    cases x with
    | error e => exact ⟨e, rfl⟩
    | ok a =>
      obtain ⟨e, he⟩ := hg a
      exact ⟨e, by show (g a >>= k a) = _; rw [he]; rfl⟩
  unfold processCommand
  simp only [ht]
  cases hty : c.typ <;> rw [hty] at hc <;> (try exact absurd hc (by decide)) <;> simp only []
  case print => exact two _ _ (fun a b => lift (print env s a b)) _ fun a b => ⟨_, by rw [hpr]; rfl⟩
  case number => exact two _ _ (fun a b => lift (number s a b)) _ fun a b => ⟨_, by rw [hnum]; rfl⟩
  case null => exact one _ (fun a => lift (print env { s with currentLine := a } a a)) _ fun a => ⟨_, by rw [hpr']; rfl⟩
  case write => exact ⟨_, by rw [hwr]; rfl⟩
  case delete => exact two _ _ (fun a b => lift (delete s a b)) _ fun a b => ⟨_, by rw [hdel]; rfl⟩
  case append => exact one _ (fun a => lift (insertBeforeLine s (wrap64 (a + 1)) _)) _ fun a => ⟨_, by rw [hins]; rfl⟩
  case insert => exact one _ (fun a => lift (insertBeforeLine s a _)) _ fun a => ⟨_, by rw [hins]; rfl⟩
  case change => exact two _ _ (fun a b => lift (delete s a b)) _ fun a b => ⟨_, by rw [hdel]; rfl⟩

/-- **C123** In ed: once the open file has become too short for what is left of it in the buffer, every command that looks at
the text ends the program: p, n, a line number, d, a, i, c, and also w, so that what was typed is lost. -/
theorem C123_editor (env : Env) (s : State) (contents : Bytes) (es : List Txt.Event) (t : List Txt.Origin) (file : Bytes) (pt : Txt.PieceTable)
    (h : Txt.history (Txt.fileText contents.length) contents es = some (t, file))
    (hpt : (Txt.newPieceTable contents true contents.length).live es = .ok pt) (i : Nat) (hi : .file i ∈ t) (hshort : file.length ≤ i)
    (hs : s.pt = pt) (c : Command) (hc : c.typ.reads = true) : ∃ e, processCommand env s c = .error e := by
  obtain ⟨q, q1, q2⟩ := Txt.C123_follows_the_file contents true contents.length (Nat.le_refl _) es t file h
  rw [hpt] at q1
  cases q1
  refine crash_unreadable (p := .explicit) env ?_ c hc
  rw [hs, q2, Txt.readNow]
  have : t.mapM (Txt.Origin.now file) = none := by
    clear h q2
    induction t with
    | nil => cases hi
    | cons x t ih =>
      simp only [List.mapM_cons]
      rcases List.mem_cons.mp hi with rfl | hi
      · simp [Txt.Origin.now, List.getElem?_eq_none hshort]
      · rw [ih hi]; cases x.now file <;> rfl
  rw [this]

/-- A line is typed, the file is cut off by somebody, then w: the program ends. -/
example (env : Env) (fs : FS) : ∃ pt e, (Txt.newPieceTable b!"ab\ncd\n" true 6).live [.call (.insert b!"x\n" 3), .change b!"ab\n"] = .ok pt ∧
    processCommand env { pt := pt, filename := b!"f", currentLine := 2, fs := fs, writes := 0 } { typ := .write } = .error e := by
  obtain ⟨e, he⟩ := C123_editor env { pt := _, filename := b!"f", currentLine := 2, fs := fs, writes := 0 } b!"ab\ncd\n"
    [.call (.insert b!"x\n" 3), .change b!"ab\n"] _ _ _ rfl rfl 4 (by decide) (by decide) rfl { typ := .write } (by decide)
  exact ⟨_, e, rfl, he⟩

end Ed
