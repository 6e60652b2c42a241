import Verif.Locale.SharedEscape

/-! # The number of rounds of the lexer model does not matter -/

namespace Locale
open Go

/-- `m'` does what `m` does, unless `m` runs out of rounds. -/
def Le {α : Type} (m m' : Lx α) : Prop := ∀ l, m l = .hang ∨ m' l = m l

theorem Le.refl {α : Type} (m : Lx α) : Le m m := fun _ => .inr rfl

theorem Le.hang {α : Type} (m : Lx α) : Le (fun _ => .hang) m := fun _ => .inl rfl

theorem Le.bind {α β : Type} {m m' : Lx α} {f f' : α → Lx β} (h : Le m m') (h' : ∀ a, Le (f a) (f' a)) :
    Le (m >>= f) (m' >>= f') := by
  intro l
  show Lx.bind m f l = _ ∨ Lx.bind m' f' l = Lx.bind m f l
  simp only [Lx.bind]
  rcases h l with e | e
  · rw [e]; exact .inl rfl
  · rw [e]
    cases m l with
    | ok a l1 => exact h' a l1
    | panic p => exact .inr rfl
    | hang => exact .inr rfl

/-- One step through the text of a lexer function. -/
macro "lestep" : tactic => `(tactic| with_reducible first
  | exact Le.refl _ | assumption | exact Le.hang _ | refine Le.bind ?_ fun _ => ?_ | split)

theorem Le.must {g g' : Lx Bool} (h : Le g g') : Le (must g) (must g') := by
  unfold Locale.must
  repeat' lestep

theorem Le.grabListLoop {g g' : Lx Bool} (h : Le g g') {n n' : Nat} (hn : n ≤ n') (ok : Bool) :
    Le (grabListLoop g n ok) (grabListLoop g' n' ok) := by
  induction n generalizing n' ok with
  | zero => exact Le.hang _
  | succ n ih =>
    obtain ⟨m, rfl⟩ : ∃ m, n' = m + 1 := ⟨n' - 1, by omega⟩
    unfold Locale.grabListLoop
    repeat' first | exact ih (by omega) _ | lestep

theorem Le.msgLoop {n n' : Nat} (hn : n ≤ n') : Le (msgLoop n) (msgLoop n') := by
  induction n generalizing n' with
  | zero => exact Le.hang _
  | succ n ih =>
    obtain ⟨m, rfl⟩ : ∃ m, n' = m + 1 := ⟨n' - 1, by omega⟩
    unfold Locale.msgLoop
    repeat' first | exact ih (by omega) | lestep

theorem Le.stringLoop (esc : Nat → Nat) {n n' : Nat} (hn : n ≤ n') (en : Bool) :
    Le (stringLoop esc n en) (stringLoop esc n' en) := by
  induction n generalizing n' en with
  | zero => exact Le.hang _
  | succ n ih =>
    obtain ⟨m, rfl⟩ : ∃ m, n' = m + 1 := ⟨n' - 1, by omega⟩
    unfold Locale.stringLoop
    repeat' first | exact ih (by omega) _ | lestep

theorem Le.grabString (esc : Nat → Nat) {n n' : Nat} (hn : n ≤ n') : Le (grabString esc n) (grabString esc n') := by
  unfold Locale.grabString
  repeat' first | exact Le.stringLoop esc hn _ | lestep

theorem Le.grabMsg {n n' : Nat} (hn : n ≤ n') : Le (grabMsg n) (grabMsg n') := by
  unfold Locale.grabMsg
  repeat' first | exact Le.msgLoop hn | lestep

theorem Le.grab (esc : Nat → Nat) {n n' : Nat} (hn : n ≤ n') (g : Grab) : Le (g.run esc n) (g.run esc n') := by
  cases g with
  | charList => exact Le.grabListLoop (Le.refl _) hn false
  | stringList => exact Le.grabListLoop (Le.grabString esc hn) hn false
  | charPairList => exact Le.grabListLoop (Le.refl _) hn false
  | string => exact Le.grabString esc hn
  | int => exact Le.refl _
  | intList => exact Le.grabListLoop (Le.refl _) hn false
  | msg => exact Le.grabMsg hn

theorem Le.call (esc : Nat → Nat) {n n' : Nat} (hn : n ≤ n') (st : St) : Le (st.call esc n) (st.call esc n') := by
  have hg := Le.grab esc hn
  have hs := Le.grabString esc hn
  cases st with
  | category => exact Le.refl _
  | generic c =>
    show Le (sGeneric esc n c) (sGeneric esc n' c)
    unfold sGeneric
    repeat' first | exact Le.must (hg _) | lestep
  | collate =>
    show Le (sCollate esc n) (sCollate esc n')
    unfold sCollate
    repeat' first | exact Le.must hs | lestep
  | orderStart => exact Le.refl _
  | order => exact Le.refl _

theorem Le.runLoop (esc : Nat → Nat) {n n' k k' : Nat} (hn : n ≤ n') (hk : k ≤ k') (st : St) :
    Le (runLoop esc n k st) (runLoop esc n' k' st) := by
  induction k generalizing k' st with
  | zero => exact Le.hang _
  | succ k ih =>
    obtain ⟨m, rfl⟩ : ∃ m, k' = m + 1 := ⟨k' - 1, by omega⟩
    unfold Locale.runLoop
    refine (Le.call esc hn st).bind fun o => ?_
    cases o with
    | none => exact Le.refl _
    | some st => exact ih (by omega) st

/-- **C56.** What the lexer delivers does not depend on the number of rounds the model gives it: once it is done, more
rounds change nothing. -/
theorem C56_rounds (esc : Nat → Nat) (n n' : Nat) (src : Bytes) (hn : n ≤ n') (h : lexText esc n src ≠ .hang) :
    lexText esc n' src = lexText esc n src :=
  (Le.runLoop esc hn hn .category { source := src }).resolve_left h

/-- **C56**, for files with comments. -/
theorem C56_rounds_file (n n' : Nat) (input : Bytes) (hn : n ≤ n') (h : newLexer n input ≠ .hang) :
    newLexer n' input = newLexer n input := by
  unfold newLexer at h ⊢
  cases hr : removeComments input with
  | error p => rfl
  | ok x =>
    obtain ⟨text, e⟩ := x
    rw [hr] at h
    dsimp only at h ⊢
    rw [C56_rounds (fun _ => e) n n' text hn ?_]
    intro hh
    rw [hh] at h
    exact h rfl

/-- The hypothesis can be met. -/
example : newLexer 20 slashFile ≠ .hang := by decide +kernel

end Locale
