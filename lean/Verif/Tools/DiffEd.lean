import Verif.Diff.CmdProps
import Verif.Ed.EndToEnd

/-!
# A diff carried out with ed (C144)

What `diff` prints for two files is turned into a script for `ed`, change by change and the last change first, so that the
line numbers printed stay right. Typed at `ed` on the first file it makes the second one out of it.
-/

namespace Tools
open Go
open Diff (Block Hunk oldSide newSide hunksOf readPatch format diff Normal)
open Ed (SCmd SAddr LState Clean TextOK SessionOk sessionEnd sessionOutputs)

/-- The command for one change: `NaX` appends after line `N`, `N,MdX` deletes lines `N` to `M`, `N,McX` changes them. -/
def command (h : Hunk) : SCmd :=
  if h.cmd = 97 then .append (.num h.o1) h.adds
  else if h.cmd = 100 then .delete (.num h.o1) (.num h.o2)
  else .change (.num h.o1) (.num h.o2) h.adds

/-- The script: the last change first. -/
def script (hs : List Hunk) : List SCmd := (hs.map command).reverse

/-- Lines that can be typed as text of a command: ASCII, and not starting with a dot. -/
def CanType (l : Bytes) : Prop := (∀ c ∈ l, c < 0x80) ∧ l.head? ≠ some 46

/-! ## Lemmas -/

theorem script_cons (h : Hunk) (hs : List Hunk) : script (h :: hs) = script hs ++ [command h] := by simp [script]

theorem sessionEnd_append (a b : List SCmd) : ∀ st : LState, sessionEnd st (a ++ b) = sessionEnd (sessionEnd st a) b := by
  induction a with
  | nil => intro st; rfl
  | cons c a ih => intro st; exact ih _

theorem sessionOk_append (a b : List SCmd) : ∀ st : LState, SessionOk st (a ++ b) ↔ SessionOk st a ∧ SessionOk (sessionEnd st a) b := by
  induction a with
  | nil => intro st; simp [SessionOk, sessionEnd]
  | cons c a ih => intro st; simp only [List.cons_append, SessionOk, sessionEnd, ih]; grind

theorem decAux_length (k : Nat) : ∀ (fuel n : Nat) (acc : Bytes), n < 10 ^ (k + 1) → (decAux fuel n acc).length ≤ acc.length + (k + 1) := by
  induction k with
  | zero =>
    intro fuel n acc h
    cases fuel with
    | zero => simp [decAux]
    | succ fuel => rw [decAux, if_pos (by omega)]; simp
  | succ k ih =>
    intro fuel n acc h
    cases fuel with
    | zero => simp [decAux]
    | succ fuel =>
      rw [decAux]
      split
      · simp
      · have := ih fuel (n / 10) (UInt8.ofNat (48 + n % 10) :: acc) (by rw [Nat.pow_succ] at h; omega)
        simp only [List.length_cons] at this
        omega

theorem natToDec_length (n : Nat) (h : n < 2 ^ 63) : (natToDec n).length ≤ 19 := by
  have := decAux_length 18 (n + 1) n [] (Nat.lt_of_lt_of_le h (by decide))
  simpa [natToDec] using this

theorem header_plain (x : Bytes) (c : UInt8) (hx : ∀ d ∈ x, isDigit d = true ∨ d = 44) (hl : x.length ≤ 40) (hc : c = 97 ∨ c = 99 ∨ c = 100) : PlainLine (x ++ [c]) := by
  have hd : ∀ d ∈ x, d ≠ nl := by
    intro d hd e
    subst e
    rcases hx _ hd with h | h
    · exact absurd h (by decide)
    · exact absurd h (by decide)
  refine ⟨?_, ?_, ?_⟩
  · intro hm
    rcases List.mem_append.1 hm with h | h
    · exact hd _ h rfl
    · rw [List.mem_singleton] at h
      rcases hc with rfl | rfl | rfl <;> exact absurd h (by decide)
  · rw [List.getLast?_append]
    rcases hc with rfl | rfl | rfl <;> simp [cr]
  · simp [maxToken]
    omega

/-- The last line of a text is not blank if it is the last line of another that is clean. -/
theorem clean_suffix {a b s : List Bytes} (h : Clean (b ++ s)) (hs : s ≠ []) (ha : ∀ l ∈ a, PlainLine l) : Clean (a ++ s) := by
  refine ⟨fun l hl => ?_, ?_⟩
  · rcases List.mem_append.1 hl with hl | hl
    · exact ha l hl
    · exact h.plain l (by simp [hl])
  · have := h.lastNe
    rw [List.getLast?_append] at this ⊢
    cases e : s.getLast? with
    | none => exact absurd (List.getLast?_eq_none_iff.1 e) hs
    | some x => rw [e] at this; simpa using this

/-- After an addition, or a deletion that is no change, there is nothing or a block of common lines. -/
theorem newSide_ne {cs : List (Block Bytes)} (hn : ∀ c ∈ cs, c.values ≠ []) (he : ∀ c cs', cs = c :: cs' → c.kind = .equal) (hne : cs ≠ []) : newSide cs ≠ [] := by
  cases cs with
  | nil => exact absurd rfl hne
  | cons c cs =>
    obtain ⟨k, vs⟩ := c
    have := he _ _ rfl
    dsimp only at this
    subst this
    have hv : vs ≠ [] := hn ⟨.equal, vs⟩ (by simp)
    simp [newSide, hv]

/-- The last lines are not changed right after a blank line: what `ed` leaves in between would end in a blank line, which it
does not keep apart (C62). -/
def NoBlankBefore (old : List Bytes) (hs : List Hunk) : Prop :=
  ∀ h ∈ hs, h.cmd = 99 → h.o2 = old.length → (old.take (h.o1 - 1)).getLast? ≠ some []

theorem script_spec (cs : List (Block Bytes)) (hn : Normal cs) : ∀ (o n : Nat) (P : List Bytes) (cur : Nat), P.length = o →
    Clean (P ++ oldSide cs) → Clean (P ++ newSide cs) → (P ++ oldSide cs).length + (newSide cs).length < 2 ^ 62 →
    NoBlankBefore (P ++ oldSide cs) (hunksOf o n cs) →
    SessionOk ⟨P ++ oldSide cs, cur⟩ (script (hunksOf o n cs)) ∧ (sessionEnd ⟨P ++ oldSide cs, cur⟩ (script (hunksOf o n cs))).lines = P ++ newSide cs := by
  intro o n
  induction o, n, cs using hunksOf.induct with
  | case1 o n => intro P cur _ _ _ _ _; simp [hunksOf, script, SessionOk, sessionEnd, oldSide, newSide]
  | case2 o n vs cs ih =>
    intro P cur hP ho hnw hlen hb
    have e1 : P ++ oldSide (⟨.equal, vs⟩ :: cs) = (P ++ vs) ++ oldSide cs := by simp [oldSide]
    have e2 : P ++ newSide (⟨.equal, vs⟩ :: cs) = (P ++ vs) ++ newSide cs := by simp [newSide]
    have e3 : (newSide (⟨.equal, vs⟩ :: cs)).length = vs.length + (newSide cs).length := by simp [newSide]
    rw [e1] at ho hlen hb ⊢
    rw [e2] at hnw ⊢
    rw [e3] at hlen
    rw [hunksOf] at hb ⊢
    exact ih hn.tail (P ++ vs) cur (by simp [hP]) ho hnw (by omega) hb
  | case3 o n vs cs ih =>
    intro P cur hP ho hnw hlen hb
    have hv : vs ≠ [] := hn.1 ⟨.add, vs⟩ (by simp)
    have e1 : P ++ oldSide (⟨.add, vs⟩ :: cs) = P ++ oldSide cs := by simp [oldSide]
    have e2 : P ++ newSide (⟨.add, vs⟩ :: cs) = (P ++ vs) ++ newSide cs := by simp [newSide]
    have e3 : (newSide (⟨.add, vs⟩ :: cs)).length = vs.length + (newSide cs).length := by simp [newSide]
    have hfirst : ∀ c cs', cs = c :: cs' → c.kind = .equal := by
      intro c cs' e
      have := hn.2 [] ⟨.add, vs⟩ c cs' (by rw [e]; rfl)
      obtain ⟨h1, h2⟩ := this
      obtain ⟨k, ws⟩ := c
      cases k <;> simp_all
    rw [e1] at ho hlen hb ⊢
    rw [e2] at hnw ⊢
    rw [e3] at hlen
    rw [hunksOf] at hb ⊢
    have hPp : ∀ l ∈ P, PlainLine l := fun l hl => ho.plain l (by simp [hl])
    have hmid : Clean (P ++ newSide cs) := by
      by_cases hc : cs = []
      · subst hc; exact ho
      · exact clean_suffix hnw (newSide_ne hn.tail.1 hfirst hc) hPp
    obtain ⟨k1, k2⟩ := ih hn.tail P cur hP ho hmid (by omega) (fun h hh => hb h (by simp [hh]))
    have hlen2 : (P ++ newSide cs).length + vs.length < 2 ^ 62 := by simp only [List.length_append] at hlen ⊢; omega
    rw [script_cons, sessionOk_append, sessionEnd_append]
    generalize sessionEnd ⟨P ++ oldSide cs, cur⟩ (script (hunksOf o (n + vs.length) cs)) = st at k2 ⊢
    obtain ⟨ls, c⟩ := st
    dsimp only at k2
    subst k2
    have hnew : SCmd.newLines ⟨P ++ newSide cs, c⟩ (command ⟨97, o, o, n + 1, n + vs.length, [], vs⟩) = P ++ vs ++ newSide cs := by
      simp [command, SCmd.newLines, SAddr.eval, ← hP]
    refine ⟨⟨k1, ?_, ?_, ?_, trivial⟩, ?_⟩
    · exact ⟨by simp [SAddr.eval, ← hP], hv, fun l hl => hnw.plain l (by simp [hl])⟩
    · rw [hnew]; exact hnw
    · rw [hnew]; simp only [List.length_append] at hlen2 ⊢; omega
    · simp only [sessionEnd, SCmd.next, hnew]
  | case4 o n vs ws cs ih =>
    intro P cur hP ho hnw hlen hb
    have hv : vs ≠ [] := hn.1 ⟨.minus, vs⟩ (by simp)
    have hw : ws ≠ [] := hn.1 ⟨.add, ws⟩ (by simp)
    have hvl : 0 < vs.length := List.length_pos_iff.2 hv
    have e1 : P ++ oldSide (⟨.minus, vs⟩ :: ⟨.add, ws⟩ :: cs) = (P ++ vs) ++ oldSide cs := by simp [oldSide]
    have e2 : P ++ newSide (⟨.minus, vs⟩ :: ⟨.add, ws⟩ :: cs) = (P ++ ws) ++ newSide cs := by simp [newSide]
    have e3 : (newSide (⟨.minus, vs⟩ :: ⟨.add, ws⟩ :: cs)).length = ws.length + (newSide cs).length := by simp [newSide]
    have hfirst : ∀ c cs', cs = c :: cs' → c.kind = .equal := by
      intro c cs' e
      have := hn.2 [⟨.minus, vs⟩] ⟨.add, ws⟩ c cs' (by rw [e]; rfl)
      obtain ⟨h1, h2⟩ := this
      obtain ⟨k, ws⟩ := c
      cases k <;> simp_all
    rw [e1] at ho hlen hb ⊢
    rw [e2] at hnw ⊢
    rw [e3] at hlen
    rw [hunksOf] at hb ⊢
    have hPp : ∀ l ∈ P ++ vs, PlainLine l := fun l hl => ho.plain l (by simp only [List.mem_append] at hl ⊢; exact .inl hl)
    have hmid : Clean ((P ++ vs) ++ newSide cs) := by
      by_cases hc : cs = []
      · subst hc; exact ho
      · exact clean_suffix hnw (newSide_ne hn.tail.tail.1 hfirst hc) hPp
    have hcut : Clean (P ++ newSide cs) := by
      by_cases hc : cs = []
      · subst hc
        refine ⟨fun l hl => hPp l (by simp [newSide] at hl; simp [hl]), ?_⟩
        have := hb _ (List.mem_cons_self ..) rfl (by simp [oldSide, hP])
        simpa [oldSide, newSide, ← hP] using this
      · exact clean_suffix hnw (newSide_ne hn.tail.tail.1 hfirst hc) (fun l hl => hPp l (by simp [hl]))
    obtain ⟨k1, k2⟩ := ih hn.tail.tail (P ++ vs) cur (by simp [hP]) ho hmid (by omega) (fun h hh => hb h (by simp [hh]))
    have hlen2 : (P ++ ws ++ newSide cs).length < 2 ^ 62 := by simp only [List.length_append] at hlen ⊢; omega
    rw [script_cons, sessionOk_append, sessionEnd_append]
    generalize sessionEnd ⟨P ++ vs ++ oldSide cs, cur⟩ (script (hunksOf (o + vs.length) (n + ws.length) cs)) = st at k2 ⊢
    obtain ⟨ls, c⟩ := st
    dsimp only at k2
    subst k2
    have htake : (P ++ vs ++ newSide cs).take o = P := by rw [List.append_assoc, ← hP]; simp
    have hdrop : (P ++ vs ++ newSide cs).drop (o + vs.length) = newSide cs := by
      have : o + vs.length = (P ++ vs).length := by simp [hP]
      rw [this, List.drop_left]
    have hnew : SCmd.newLines ⟨P ++ vs ++ newSide cs, c⟩ (command ⟨99, o + 1, o + vs.length, n + 1, n + ws.length, vs, ws⟩) = P ++ ws ++ newSide cs := by
      change (P ++ vs ++ newSide cs).take (o + 1 - 1) ++ ws ++ (P ++ vs ++ newSide cs).drop (o + vs.length) = _
      rw [Nat.add_sub_cancel, htake, hdrop]
    refine ⟨⟨k1, ?_, ?_, ?_, trivial⟩, ?_⟩
    · refine ⟨⟨by simp [SAddr.eval], by simp only [SAddr.eval]; omega, by simp [SAddr.eval, hP]⟩, by simp, ⟨hw, fun l hl => hnw.plain l (by simp [hl])⟩, ?_⟩
      simp only [SAddr.eval, Nat.add_sub_cancel, htake, hdrop]
      exact hcut
    · rw [hnew]; exact hnw
    · rw [hnew]; exact hlen2
    · simp only [sessionEnd, SCmd.next, hnew]
  | case5 o n vs cs hno ih =>
    intro P cur hP ho hnw hlen hb
    have hv : vs ≠ [] := hn.1 ⟨.minus, vs⟩ (by simp)
    have hvl : 0 < vs.length := List.length_pos_iff.2 hv
    have hh : hunksOf o n (⟨.minus, vs⟩ :: cs) = ⟨100, o + 1, o + vs.length, n, n, vs, []⟩ :: hunksOf (o + vs.length) n cs := by
      rw [hunksOf]
      exact hno
    have e1 : P ++ oldSide (⟨.minus, vs⟩ :: cs) = (P ++ vs) ++ oldSide cs := by simp [oldSide]
    have e2 : P ++ newSide (⟨.minus, vs⟩ :: cs) = P ++ newSide cs := by simp [newSide]
    have e3 : (newSide (⟨.minus, vs⟩ :: cs)).length = (newSide cs).length := by simp [newSide]
    have hfirst : ∀ c cs', cs = c :: cs' → c.kind = .equal := by
      intro c cs' e
      have := hn.2 [] ⟨.minus, vs⟩ c cs' (by rw [e]; rfl)
      obtain ⟨h1, h2⟩ := this
      obtain ⟨k, ws⟩ := c
      cases k with
      | equal => rfl
      | add => exact absurd e (hno ws cs')
      | minus => exact absurd rfl h1
    rw [e1] at ho hlen hb ⊢
    rw [e2] at hnw ⊢
    rw [e3] at hlen
    rw [hh] at hb ⊢
    have hPp : ∀ l ∈ P ++ vs, PlainLine l := fun l hl => ho.plain l (by simp only [List.mem_append] at hl ⊢; exact .inl hl)
    have hmid : Clean ((P ++ vs) ++ newSide cs) := by
      by_cases hc : cs = []
      · subst hc; exact ho
      · exact clean_suffix hnw (newSide_ne hn.tail.1 hfirst hc) hPp
    obtain ⟨k1, k2⟩ := ih hn.tail (P ++ vs) cur (by simp [hP]) ho hmid (by omega) (fun h hh => hb h (by simp [hh]))
    have hlen2 : (P ++ newSide cs).length < 2 ^ 62 := by simp only [List.length_append] at hlen ⊢; omega
    rw [script_cons, sessionOk_append, sessionEnd_append]
    generalize sessionEnd ⟨P ++ vs ++ oldSide cs, cur⟩ (script (hunksOf (o + vs.length) n cs)) = st at k2 ⊢
    obtain ⟨ls, c⟩ := st
    dsimp only at k2
    subst k2
    have htake : (P ++ vs ++ newSide cs).take o = P := by rw [List.append_assoc, ← hP]; simp
    have hdrop : (P ++ vs ++ newSide cs).drop (o + vs.length) = newSide cs := by
      have : o + vs.length = (P ++ vs).length := by simp [hP]
      rw [this, List.drop_left]
    have hnew : SCmd.newLines ⟨P ++ vs ++ newSide cs, c⟩ (command ⟨100, o + 1, o + vs.length, n, n, vs, []⟩) = P ++ newSide cs := by
      change (P ++ vs ++ newSide cs).take (o + 1 - 1) ++ (P ++ vs ++ newSide cs).drop (o + vs.length) = _
      rw [Nat.add_sub_cancel, htake, hdrop]
    refine ⟨⟨k1, ?_, ?_, ?_, trivial⟩, ?_⟩
    · exact ⟨by simp [SAddr.eval], by simp only [SAddr.eval]; omega, by simp [SAddr.eval, hP]⟩
    · rw [hnew]; exact hnw
    · rw [hnew]; exact hlen2
    · simp only [sessionEnd, SCmd.next, hnew]

/-! ## The properties -/

/-- **C144** Whatever the two files are, the changes printed by `diff`, read back from its output and carried out on the lines of the first
file in the reverse order by a list-of-lines editor, are all in range and give the lines of the second. -/
theorem C144_script (old new : List Bytes) (ho : Clean old) (hn : Clean new) (hlen : old.length + new.length < 2 ^ 62) :
    ∃ hs, readPatch (format (diff old new)) = some hs ∧
      (NoBlankBefore old hs → SessionOk ⟨old, old.length⟩ (script hs) ∧ (sessionEnd ⟨old, old.length⟩ (script hs)).lines = new) := by
  have hno := Diff.C13_normal_form old new
  refine ⟨hunksOf 0 0 (diff old new), Diff.readPatch_format _ hno.1 (Diff.diff_lines_plain old new (fun l hl => (ho.plain l hl).noNL) (fun l hl => (hn.plain l hl).noNL)), fun hb => ?_⟩
  obtain ⟨h1, h2⟩ := Diff.C11_reconstructs old new
  have := script_spec (diff old new) hno 0 0 [] old.length rfl
  simp only [List.nil_append, h1, h2] at this
  exact this ho hn hlen hb

theorem mem_script {hs : List Hunk} {sc : SCmd} (h : sc ∈ script hs) : ∃ k ∈ hs, sc = command k := by
  simp only [script, List.mem_reverse, List.mem_map] at h
  obtain ⟨k, hk, e⟩ := h
  exact ⟨k, hk, e.symm⟩

theorem lineRange_mem {f : List Bytes} {a b : Nat} {l : Bytes} (h : l ∈ Diff.lineRange f a b) : l ∈ f := List.mem_of_mem_drop (List.mem_of_mem_take h)

theorem lineRange_length {f : List Bytes} {a b : Nat} (h1 : 1 ≤ a) (h2 : a ≤ b) (h3 : b ≤ f.length) : Diff.lineRange f a b ≠ [] := by
  intro e
  have := congrArg List.length e
  simp only [Diff.lineRange, List.length_take, List.length_drop, List.length_nil] at this
  omega

theorem typeable_of {t : List Bytes} (hne : t ≠ []) (h : ∀ l ∈ t, PlainLine l ∧ CanType l) : Ed.Typeable t := by
  refine ⟨⟨hne, fun l hl => (h l hl).2.1, fun l hl => (h l hl).1.noNL, fun l hl => (h l (List.mem_of_mem_tail hl)).2.2⟩, ?_⟩
  cases t with
  | nil => exact absurd rfl hne
  | cons x t =>
    simp only [List.head?_cons, ne_eq, Option.some.injEq]
    intro e
    exact (h x (by simp)).2.2 (by rw [e]; rfl)

theorem digits_comma (a b : Nat) : ∀ d ∈ natToDec a ++ b!"," ++ natToDec b, isDigit d = true ∨ d = 44 := by
  intro d hd
  simp only [List.mem_append, List.mem_singleton] at hd
  rcases hd with (hd | hd) | hd
  · exact .inl ((natToDec_spec a).2.1 d hd)
  · exact .inr hd
  · exact .inl ((natToDec_spec b).2.1 d hd)

theorem command_types {old new : List Bytes} (ho : old.length < 2 ^ 62) (hn : ∀ l ∈ new, PlainLine l ∧ CanType l) {k : Hunk} (hk : k.Truthful old new) :
    (command k).Typeable ∧ ∀ l ∈ (command k).typed, PlainLine l := by
  obtain ⟨ha, hd, hc, hcmd⟩ := hk
  have hdot : PlainLine b!"." := ⟨by decide, by decide, by decide⟩
  rcases hcmd with h | h | h
  · obtain ⟨-, -, h3, h4, h5, h6, h7⟩ := ha h
    have hadds : ∀ l ∈ k.adds, PlainLine l ∧ CanType l := fun l hl => hn l (lineRange_mem (h7 ▸ hl))
    have hne : k.adds ≠ [] := h7 ▸ lineRange_length h4 h5 h6
    rw [command, if_pos h]
    refine ⟨typeable_of hne hadds, fun l hl => ?_⟩
    simp only [SCmd.typed, SAddr.typed, List.mem_cons, List.mem_append, List.mem_singleton, List.not_mem_nil, or_false] at hl
    rcases hl with rfl | hl | rfl
    · exact header_plain _ 97 (fun d hd => .inl ((natToDec_spec _).2.1 d hd)) (by have := natToDec_length k.o1 (by omega); omega) (.inl rfl)
    · exact (hadds l hl).1
    · exact hdot
  · obtain ⟨h1, h2, h3, h4, h5, h6, h7, h8⟩ := hc h
    have hadds : ∀ l ∈ k.adds, PlainLine l ∧ CanType l := fun l hl => hn l (lineRange_mem (h8 ▸ hl))
    have hne : k.adds ≠ [] := h8 ▸ lineRange_length h4 h5 h6
    rw [command, if_neg (by rw [h]; decide), if_neg (by rw [h]; decide)]
    refine ⟨typeable_of hne hadds, fun l hl => ?_⟩
    simp only [SCmd.typed, SAddr.typed, List.mem_cons, List.mem_append, List.mem_singleton, List.not_mem_nil, or_false] at hl
    rcases hl with rfl | hl | rfl
    · refine header_plain _ 99 (digits_comma _ _) ?_ (.inr (.inl rfl))
      have := natToDec_length k.o1 (by omega)
      have := natToDec_length k.o2 (by omega)
      simp only [List.length_append, List.length_singleton]
      omega
    · exact (hadds l hl).1
    · exact hdot
  · obtain ⟨-, -, -, h4, h5, h6, -⟩ := hd h
    rw [command, if_neg (by rw [h]; decide), if_pos h]
    refine ⟨trivial, fun l hl => ?_⟩
    simp only [SCmd.typed, SAddr.typed, List.mem_singleton] at hl
    subst hl
    refine header_plain _ 100 (digits_comma _ _) ?_ (.inr (.inr rfl))
    have := natToDec_length k.o1 (by omega)
    have := natToDec_length k.o2 (by omega)
    simp only [List.length_append, List.length_singleton]
    omega

/-- **C144** (partial: expected of all texts; see `C144_counterexample` and `CanType`) `diff f g` has printed a diff of two files. The script
made of it, with `w` and `q` after it, is typed at `ed f`. Whatever the schedule of its goroutines, `ed` stops because of `q` with no
error message, and then `f` holds what `g` holds and no other file but the temporary one has changed. -/
theorem C144_ed_partial (p : Nat → Bool) (env : Ed.Env) (errText : Bytes → Bytes) (s0 : Ed.State) (args : List Bytes) (f g : Bytes)
    (ha : ∀ a ∈ args, a ≠ []) (hp : Diff.Parses args [f, g]) (hf : Ed.NameOK f) (hfl : PlainLine (b!"e " ++ f))
    (old new : List Bytes) (h1 : s0.fs f = some (unlines old)) (h2 : s0.fs g = some (unlines new)) (ho : Clean old) (hn : Clean new)
    (hlen : old.length + new.length < 2 ^ 62) (ht : ∀ l ∈ new, CanType l)
    (hsave : ∀ k, (env.outcome k).stat = none ∧ (env.outcome k).writeFile = none ∧ (env.outcome k).rename = none) :
    ∃ patch hs, (Diff.main p s0.fs args).stdout = patch ++ [nl] ∧ readPatch patch = some hs ∧
      (NoBlankBefore old hs → ∀ (st : Ed.Sys) (how : Ed.End),
        Ed.Steps env (Ed.initial errText s0 (Ed.mainInput (some f) (unlines ((script hs).flatMap SCmd.typed ++ [b!"w", b!"q"])))) st →
        st.cons.ended = some how →
        how = .quit ∧ Ed.errors st.out = [] ∧ st.ed.fs f = s0.fs g ∧ ∀ x, x ≠ f → x ≠ Ed.tmpName f → st.ed.fs x = s0.fs x) := by
  obtain ⟨s, hs, e1, e2⟩ := (Diff.C17_accepts_iff args ha f g).2 hp
  have r1 : Diff.readLines s0.fs s.file1 = old := by simp [Diff.readLines, e1, h1, scanLines_unlines old ho.plain]
  have r2 : Diff.readLines s0.fs s.file2 = new := by simp [Diff.readLines, e2, h2, scanLines_unlines new hn.plain]
  obtain ⟨hks, hr, hsc⟩ := C144_script old new ho hn hlen
  refine ⟨format (diff old new), hks, by simp [Diff.main, hs, r1, r2], hr, fun hb st how hst he => ?_⟩
  obtain ⟨hok, hend⟩ := hsc hb
  have htr : ∀ k ∈ hks, k.Truthful old new := by
    obtain ⟨hs', hr', ht', -⟩ := Diff.C16_headers_truthful old new (fun l hl => (ho.plain l hl).noNL) (fun l hl => (hn.plain l hl).noNL)
    rw [hr] at hr'
    cases hr'
    exact ht'
  have hty : ∀ k ∈ hks, (command k).Typeable ∧ ∀ l ∈ (command k).typed, PlainLine l := fun k hk =>
    command_types (by omega) (fun l hl => ⟨hn.plain l hl, ht l hl⟩) (htr k hk)
  obtain ⟨q1, q2, q3, -, q5⟩ := Ed.C77_script env errText s0 f hf hfl old h1 ho (by omega) (script hks) hok
    (fun sc hsc => by obtain ⟨k, hk, rfl⟩ := mem_script hsc; exact (hty k hk).1)
    (fun l hl => by
      obtain ⟨sc, hsc, hl⟩ := List.mem_flatMap.1 hl
      obtain ⟨k, hk, rfl⟩ := mem_script hsc
      exact (hty k hk).2 l hl) hsave st how hst he
  rw [hend] at q2
  exact ⟨q1, q5, by rw [q2, h2], q3⟩

/-- **C144** If no line of the first file is blank there is no other condition on the place of the changes. -/
theorem C144_no_blank_lines (old : List Bytes) (h : [] ∉ old) (hs : List Hunk) : NoBlankBefore old hs := by
  intro k _ _ _ e
  exact h (List.mem_of_mem_take (List.mem_of_getLast? e))

/-- **C144** The expected statement is false: of the files `a`, blank, `b` and `a`, blank, `x` the diff is the change of line 3, and when that
command is carried out the text is put before the blank line. -/
theorem C144_counterexample (env : Ed.Env) (cur : Int) :
    ∃ h : Hunk, readPatch (format (diff [b!"a", b!"", b!"b"] [b!"a", b!"", b!"x"])) = some [h] ∧
      ∃ c : Ed.Command, Ed.Says c (command h) ∧ ∃ s', Ed.processCommand env (Ed.opened [b!"a", b!"", b!"b"] cur) c = .ok (s', []) ∧ Ed.Shows s' [b!"a", b!"x", b!""] := by
  obtain ⟨-, -, -, s, hs, hsh⟩ := Ed.C62_change_after_blank_fails env cur
  exact ⟨⟨99, 3, 3, 3, 3, [b!"b"], [b!"x"]⟩, by decide, { typ := .change, start := Ed.numAddr 3, end_ := Ed.numAddr 3, text := b!"x" }, ⟨rfl, Ed.numAddr_denotes 3, Ed.numAddr_denotes 3, rfl⟩, s, hs, hsh⟩

/-- A case: two changes. The script is `3,3c`, `x`, `.`, `0a`, `z`, `.`. -/
example : (readPatch (format (diff [b!"a", b!"b", b!"c"] [b!"z", b!"a", b!"b", b!"x"]))).map (fun hs => (script hs).flatMap SCmd.typed) =
    some [b!"3,3c", b!"x", b!".", b!"0a", b!"z", b!"."] := by decide

/-- An editor just started, with two files there. -/
def twoFiles : Ed.State := { pt := Txt.newPieceTable [] false 0, filename := [], currentLine := 0, writes := 0
                             fs := fun n => if n = b!"f" then some b!"a\nb\nc\n" else if n = b!"g" then some b!"z\na\nb\nx\n" else none }

/-- The conditions of `C144_ed_partial` are met by these files: `ed` run with the script does stop, and has made `g` out of `f`. -/
example (errText : Bytes → Bytes) : ∃ hs st, readPatch (format (diff [b!"a", b!"b", b!"c"] [b!"z", b!"a", b!"b", b!"x"])) = some hs ∧
    Ed.Steps Ed.demoEnv (Ed.initial errText twoFiles (Ed.mainInput (some b!"f") (unlines ((script hs).flatMap SCmd.typed ++ [b!"w", b!"q"])))) st ∧
    st.cons.ended = some .quit ∧ st.ed.fs b!"f" = some b!"z\na\nb\nx\n" := by
  obtain ⟨patch, hs, h1, h2, h3⟩ := C144_ed_partial (fun _ => true) Ed.demoEnv errText twoFiles [b!"f", b!"g"] b!"f" b!"g" (by decide)
    (.operand (by decide) (by decide) (by decide) (.operand (by decide) (by decide) (by decide) .done))
    ⟨by decide, by decide, by decide, by rintro c cs ⟨⟩; decide⟩ (Ed.plain_ascii _ (by decide) (by decide) (by decide))
    [b!"a", b!"b", b!"c"] [b!"z", b!"a", b!"b", b!"x"] rfl rfl (Ed.clean_of _ (by decide) (by decide)) (Ed.clean_of _ (by decide) (by decide))
    (by decide) (by unfold CanType; decide) (fun _ => ⟨rfl, rfl, rfl⟩)
  have e : patch = format (diff [b!"a", b!"b", b!"c"] [b!"z", b!"a", b!"b", b!"x"]) := by
    have : (Diff.main (fun _ => true) twoFiles.fs [b!"f", b!"g"]).stdout = format (diff [b!"a", b!"b", b!"c"] [b!"z", b!"a", b!"b", b!"x"]) ++ [nl] := by decide
    rw [h1] at this
    exact List.append_cancel_right this
  obtain ⟨st, how, hst, he⟩ := Ed.C69_stops Ed.demoEnv _ (Ed.initial errText twoFiles
    (Ed.mainInput (some b!"f") (unlines ((script hs).flatMap SCmd.typed ++ [b!"w", b!"q"])))) (Nat.le_refl _)
  obtain ⟨rfl, -, h4, -⟩ := h3 (C144_no_blank_lines _ (by decide) hs) st how hst he
  exact ⟨hs, st, e ▸ h2, hst, he, h4⟩

end Tools
