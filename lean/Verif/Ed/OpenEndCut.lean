import Verif.Ed.OpenEnd
import Verif.Txt.PastEnd

/-! # C80: deleting the end of a buffer without a final newline, after edits -/

namespace Ed
open Go

/-- What a command of the reference editor means for the text as bytes: where text goes in and what is cut. -/
def Edits (st : LState) : SCmd → Txt.PieceTable → Txt.PieceTable → Prop
  | .append a t, pt, pt' => pt.insert (unlines t) (unlines (st.lines.take (a.eval st))).length = .ok pt'
  | .insert a t, pt, pt' => pt.insert (unlines t) (unlines (st.lines.take (a.eval st - 1))).length = .ok pt'
  | .delete a b, pt, pt' =>
    pt' = pt.delete (unlines ((st.lines.take (b.eval st)).drop (a.eval st - 1))).length (unlines (st.lines.take (a.eval st - 1))).length
  | .change a b t, pt, pt' => ∃ pt1,
    pt1 = pt.delete (unlines ((st.lines.take (b.eval st)).drop (a.eval st - 1))).length (unlines (st.lines.take (a.eval st - 1))).length ∧
    pt1.insert (unlines t) (unlines (st.lines.take (a.eval st - 1))).length = .ok pt'
  | _, pt, pt' => pt' = pt

theorem insert_open_edit {s : State} {ls : List Bytes} (h : ShowsOpen s ls) (hc : OpenLines ls) (n : Int) (h1 : -2 ^ 63 < n) (h2 : n < 2 ^ 63)
    (hn : (n - 1).toNat < ls.length) (t : List Bytes) (ht : t ≠ []) :
    ∃ pt', insertBeforeLine s n (join [nl] t) = .ok { s with pt := pt' } ∧
      ShowsOpen { s with pt := pt' } (ls.take (n - 1).toNat ++ t ++ ls.drop (n - 1).toNat) ∧
      s.pt.insert (unlines t) (unlines (ls.take (n - 1).toNat)).length = .ok pt' := by
  obtain ⟨pt', e1, e2⟩ := insert_open h hc n h1 h2 hn t ht
  refine ⟨pt', e1, e2, ?_⟩
  have e : join [nl] t ++ [nl] = unlines t := by
    cases t with
    | nil => exact absurd rfl ht
    | cons l t => exact join_nl l t
  simp only [insertBeforeLine, getLineAddr_open h hc n h1 h2, e] at e1
  cases hp : s.pt.insert (unlines t) (unlines (ls.take (n - 1).toNat)).length with
  | error x => rw [hp] at e1; cases e1
  | ok q => rw [hp] at e1; injection e1 with e1; injection e1 with e1; rw [e1]

theorem delete_open_edit {s : State} {ls : List Bytes} (h : ShowsOpen s ls) (hc : OpenLines ls) (a b : Nat)
    (h1 : 1 ≤ a) (h2 : a ≤ b) (h3 : b < ls.length) (hb : b < 2 ^ 62) :
    ∃ pt', delete s a b = .ok { s with pt := pt' } ∧ ShowsOpen { s with pt := pt' } (ls.take (a - 1) ++ ls.drop b) ∧
      pt' = s.pt.delete (unlines ((ls.take b).drop (a - 1))).length (unlines (ls.take (a - 1))).length := by
  obtain ⟨pt', e1, e2⟩ := delete_open h hc a b h1 h2 h3 hb
  refine ⟨pt', e1, e2, ?_⟩
  have ha : (unlines (ls.take b)).length = (unlines (ls.take (a - 1))).length + (unlines ((ls.take b).drop (a - 1))).length := by
    rw [unlines_split (ls.take b) (a - 1), List.length_append, List.take_take, Nat.min_eq_left (by omega)]
  simp only [delete, getLineAddr_open h hc a (by omega) (by omega), wrap64_id (i := (b : Int) + 1) (by omega) (by omega),
      getLineAddr_open h hc ((b : Int) + 1) (by omega) (by omega)] at e1
  have f1 : ((a : Int) - 1).toNat = a - 1 := by omega
  have f2 : ((b : Int) + 1 - 1).toNat = b := by omega
  rw [f1, f2] at e1
  injection e1 with e1
  injection e1 with e1
  rw [← e1]
  congr 1
  omega

/-- One command against one of the reference editor, with the edits of the table. -/
theorem step_edits (env : Env) {s : State} {st : LState} (h : ShowsOpen s st.lines) (hc : OpenLines st.lines)
    (hcur : s.currentLine = st.cur) (hlen : st.lines.length < 2 ^ 62) {c : Command} {sc : SCmd} (hs : Says c sc)
    (hok : sc.KeepsLast st) (hlen' : (sc.newLines st).length < 2 ^ 62) :
    ∃ s', processCommand env s c = .ok (s', sc.output st) ∧ ShowsOpen s' (sc.newLines st) ∧
      s'.currentLine = sc.newCur st ∧ Edits st sc s.pt s'.pt := by
  have hc' := keepsLast_open hc hok
  cases sc with
  | append a t =>
    obtain ⟨h1, h2, h3⟩ := hs
    obtain ⟨o1, o2⟩ := hok
    have ha := addrLine_open env h hc hcur h2 (by omega)
    have hnl : t.length ≤ (SCmd.newLines st (.append a t)).length := by simp [SCmd.newLines]; omega
    have hi : ((a.eval st : Int) + 1 - 1).toNat = a.eval st := by omega
    obtain ⟨pt', e, sh, ed⟩ := insert_open_edit h hc (a.eval st + 1) (by omega) (by omega) (by omega) t o2.ne
    rw [hi] at sh ed
    refine ⟨{ s with pt := pt', currentLine := SCmd.newCur st (.append a t) }, ?_, ⟨sh.reach, sh.text⟩, rfl, ed⟩
    simp only [processCommand, typ_setDefault, text_setDefault, h1, ha, h3, bind, Except.bind]
    rw [wrap64_id (i := (a.eval st : Int) + 1) (by omega) (by omega), e]
    simp only [lift, linesIn_join t o2, SCmd.newCur, SCmd.output, pure, Except.pure]
    rw [wrap64_id (by omega) (by omega)]
    simp
  | insert a t =>
    obtain ⟨h1, h2, h3⟩ := hs
    obtain ⟨o0, o1, o2⟩ := hok
    have ha := addrLine_open env h hc hcur h2 (by omega)
    have hi : ((a.eval st : Int) - 1).toNat = a.eval st - 1 := by omega
    obtain ⟨pt', e, sh, ed⟩ := insert_open_edit h hc (a.eval st) (by omega) (by omega) (by omega) t o2.ne
    rw [hi] at sh ed
    refine ⟨{ s with pt := pt' }, ?_, sh, hcur, ed⟩
    simp only [processCommand, typ_setDefault, text_setDefault, h1, ha, h3, bind, Except.bind, e, lift]
    rfl
  | delete a b =>
    obtain ⟨h1, h2, h3⟩ := hs
    obtain ⟨⟨o1, o2, o3⟩, o4⟩ := hok
    have ha := addrLine_open env h hc hcur h2 (by omega)
    have hb := addrLine_open env h hc hcur h3 (by omega)
    obtain ⟨pt', e, sh, ed⟩ := delete_open_edit h hc (a.eval st) (b.eval st) (by omega) (by omega) (by omega) (by omega)
    have ha2 : addrLine env { s with pt := pt' } (setDefaultAddresses c).start =
        .ok (SCmd.newCur st (.delete a b)) := by
      have := addrLine_open env (s := { s with pt := pt' }) (st := { st with lines := SCmd.newLines st (.delete a b) })
        sh hc' hcur h2
      refine this ?_
      cases a with
      | num n => simp only [SAddr.eval] at *; omega
      | dot => simp only [SAddr.eval] at *; omega
      | last => simp only [SAddr.eval]; omega
    refine ⟨{ s with pt := pt', currentLine := SCmd.newCur st (.delete a b) }, ?_, ⟨sh.reach, sh.text⟩, rfl, ed⟩
    simp only [processCommand, typ_setDefault, h1, ha, hb, bind, Except.bind, e, lift, ha2]
    rfl
  | change a b t =>
    obtain ⟨h1, h2, h3, h4⟩ := hs
    obtain ⟨⟨o1, o2, o3⟩, o5, o4⟩ := hok
    have ha := addrLine_open env h hc hcur h2 (by omega)
    have hb := addrLine_open env h hc hcur h3 (by omega)
    obtain ⟨pt', e, sh, ed⟩ := delete_open_edit h hc (a.eval st) (b.eval st) (by omega) (by omega) (by omega) (by omega)
    have again : ∀ pt, addrLine env { s with pt := pt } (setDefaultAddresses c).start = .ok (a.eval st) := by
      intro pt
      cases a with
      | num n => rw [← ha]; simp [addrLine, h2.1]
      | dot => rw [← ha]; simp [addrLine, h2.1]
      | last => exact absurd (show st.lines.length ≤ b.eval st from o2) (by omega)
    have oc : OpenLines (st.lines.take (a.eval st - 1) ++ st.lines.drop (b.eval st)) := by
      have := openLines_replace hc (a.eval st - 1) (b.eval st) [] (by simp) o5
      simpa using this
    have hi2 : ((a.eval st : Int) - 1).toNat = a.eval st - 1 := by omega
    obtain ⟨pt2, e2, sh2, ed2⟩ := insert_open_edit sh oc (a.eval st) (by omega) (by omega) (by simp; omega) t o4.ne
    rw [hi2] at sh2 ed2
    have hcut : ∀ {xs ys : List Bytes} {k : Nat}, xs.length = k → (xs ++ ys).take k = xs ∧ (xs ++ ys).drop k = ys := by
      intro xs ys k hk; subst hk; simp
    have hk : (st.lines.take (a.eval st - 1)).length = a.eval st - 1 := by simp; omega
    rw [(hcut hk).1, (hcut hk).2] at sh2
    rw [(hcut hk).1] at ed2
    have hnl : t.length ≤ (SCmd.newLines st (.change a b t)).length := by simp [SCmd.newLines]; omega
    refine ⟨{ s with pt := pt2, currentLine := SCmd.newCur st (.change a b t) }, ?_, ⟨sh2.reach, sh2.text⟩, rfl, ⟨pt', ed, ed2⟩⟩
    simp only [processCommand, typ_setDefault, text_setDefault, h1, ha, hb, h4, bind, Except.bind, e, lift, again, e2]
    simp only [linesIn_join t o4, SCmd.newCur, SCmd.output, pure, Except.pure]
    rw [wrap64_id (by omega) (by omega)]
    simp
  | print a b =>
    obtain ⟨h1, h2, h3⟩ := hs
    obtain ⟨o1, o2, o3⟩ := hok
    have ha := addrLine_open env h hc hcur h2 (by omega)
    have hb := addrLine_open env h hc hcur h3 (by omega)
    refine ⟨s, ?_, h, hcur, rfl⟩
    simp only [processCommand, typ_setDefault, h1, ha, hb, bind, Except.bind, print_open env h hc _ _ o1 o2 o3 (by omega), lift]
    rfl
  | number a b =>
    obtain ⟨h1, h2, h3⟩ := hs
    obtain ⟨o1, o2, o3⟩ := hok
    have ha := addrLine_open env h hc hcur h2 (by omega)
    have hb := addrLine_open env h hc hcur h3 (by omega)
    refine ⟨s, ?_, h, hcur, rfl⟩
    simp only [processCommand, typ_setDefault, h1, ha, hb, bind, Except.bind, number_open h hc _ _ o1 o2 o3, lift]
    rfl
  | lineNo a =>
    obtain ⟨h1, h2⟩ := hs
    have ha := addrLine_open env h hc hcur h2 hok
    refine ⟨s, ?_, h, hcur, rfl⟩
    simp only [processCommand, typ_setDefault, h1, ha, bind, Except.bind]
    rfl

/-- Deleting from line `k+1` to the end of such a buffer deletes one byte more than there is. -/
theorem cut_to_end (env : Env) {s : State} {ls : List Bytes} {cur : Nat} (h : ShowsOpen s ls) (hc : OpenLines ls) (hcur : s.currentLine = cur)
    (hlen : ls.length < 2 ^ 62) (k : Nat) (hk : k < ls.length) {c : Command} (ht : c.typ = .delete) (ha : Denotes c.start (.num (k + 1)))
    (b : SAddr) (hb : Denotes c.end_ b) (hbe : b.eval ⟨ls, cur⟩ = ls.length) :
    processCommand env s c = .ok ({ s with
      pt := s.pt.delete (unlines (ls.drop k)).length (unlines (ls.take k)).length, currentLine := (k + 1 : Nat) }, []) := by
  have hd : setDefaultAddresses c = c := setDefault_given c (by rw [ha.1]; decide)
  have ea : ∀ s : State, addrLine env s c.start = .ok ((k + 1 : Nat) : Int) := by
    intro s
    obtain ⟨h1, h2, h3, h4, h5⟩ := ha
    simp only [addrLine, h1, h2, atoi_digits _ h3 h4, h5]
    rw [if_pos (by omega)]
    simp only [Int.add_zero]
    rw [wrap64_id (by omega) (by omega)]
  have eb := addrLine_open env (st := ⟨ls, cur⟩) h hc hcur hb (by omega)
  rw [hbe] at eb
  have el : delete s ((k + 1 : Nat) : Int) (ls.length : Nat) =
      .ok { s with pt := s.pt.delete (unlines (ls.drop k)).length (unlines (ls.take k)).length } := by
    simp only [delete, wrap64_id (i := ((ls.length : Nat) : Int) + 1) (by omega) (by omega),
      getLineAddr_open h hc ((k + 1 : Nat) : Int) (by omega) (by omega),
      getLineAddr_open h hc (((ls.length : Nat) : Int) + 1) (by omega) (by omega)]
    have e1 : (((k + 1 : Nat) : Int) - 1).toNat = k := by omega
    have e2 : (((ls.length : Nat) : Int) + 1 - 1).toNat = ls.length := by omega
    have e3 := congrArg List.length (unlines_split ls k)
    rw [List.length_append] at e3
    rw [e1, e2, List.take_length]
    congr 3
    omega
  simp only [processCommand, hd, ht, ea, eb, bind, Except.bind, el, lift]
  rfl

theorem length_join (ls : List Bytes) (h : ls ≠ []) : (unlines ls).length = (join [nl] ls).length + 1 := by
  cases ls with
  | nil => exact absurd rfl h
  | cons l ls => rw [← join_nl]; simp

/-- The text a command puts in: after line `k`, in front of line `j + 1`. -/
def SCmd.puts (st : LState) : SCmd → Option (Nat × List Bytes × Nat)
  | .append a t => some (a.eval st, t, a.eval st)
  | .insert a t => some (a.eval st - 1, t, a.eval st - 1)
  | .change a b t => some (a.eval st - 1, t, b.eval st)
  | _ => none

theorem puts_newLines {st : LState} {sc : SCmd} {k j : Nat} {t : List Bytes} (h : sc.puts st = some (k, t, j)) :
    sc.newLines st = st.lines.take k ++ t ++ st.lines.drop j := by
  cases sc <;> simp only [SCmd.puts, Option.some.injEq, Prod.mk.injEq] at h
  all_goals first | (obtain ⟨rfl, rfl, rfl⟩ := h; rfl) | cases h

theorem puts_bounds {st : LState} {sc : SCmd} {k j : Nat} {t : List Bytes} (h : sc.puts st = some (k, t, j)) (hok : sc.KeepsLast st) :
    k ≤ j ∧ j < st.lines.length ∧ t ≠ [] := by
  cases sc <;> simp only [SCmd.puts, Option.some.injEq, Prod.mk.injEq] at h
  all_goals first | (obtain ⟨rfl, rfl, rfl⟩ := h) | cases h
  · exact ⟨Nat.le_refl _, hok.1, hok.2.ne⟩
  · obtain ⟨o1, o2, o3⟩ := hok
    exact ⟨Nat.le_refl _, by omega, o3.ne⟩
  · obtain ⟨⟨o1, o2, o3⟩, o4, o5⟩ := hok
    exact ⟨by omega, o4, o5.ne⟩

/-- The last thing such a command does to the text is to insert. -/
theorem puts_insert {st : LState} {sc : SCmd} {k j : Nat} {t : List Bytes} (hp : sc.puts st = some (k, t, j)) (hok : sc.KeepsLast st)
    {s : State} (h : ShowsOpen s st.lines) {pt' : Txt.PieceTable} (he : Edits st sc s.pt pt') :
    ∃ pt0, Txt.Reachable pt0 ∧ pt0.string = .ok (unlines (st.lines.take k) ++ join [nl] (st.lines.drop j)) ∧
      pt0.insert (unlines t) (unlines (st.lines.take k)).length = .ok pt' := by
  obtain ⟨b1, b2, _⟩ := puts_bounds hp hok
  cases sc <;> simp only [SCmd.puts, Option.some.injEq, Prod.mk.injEq] at hp
  all_goals first | (obtain ⟨rfl, rfl, rfl⟩ := hp) | cases hp
  · exact ⟨s.pt, h.reach, by rw [h.text, ← join_split _ _ b2], he⟩
  · exact ⟨s.pt, h.reach, by rw [h.text, ← join_split _ _ b2], he⟩
  · rename_i a b _ _
    obtain ⟨pt1, e1, e2⟩ := he
    have ha : (unlines (st.lines.take (b.eval st))).length = (unlines (st.lines.take (a.eval st - 1))).length +
        (unlines ((st.lines.take (b.eval st)).drop (a.eval st - 1))).length := by
      rw [unlines_split (st.lines.take (b.eval st)) (a.eval st - 1), List.length_append, List.take_take, Nat.min_eq_left b1]
    have hs := join_split st.lines _ b2
    have hs' := join_split st.lines (a.eval st - 1) (by omega)
    have hle : (unlines (st.lines.take (a.eval st - 1))).length + (unlines ((st.lines.take (b.eval st)).drop (a.eval st - 1))).length ≤
        (join [nl] st.lines).length := by rw [hs, List.length_append, ha]; omega
    refine ⟨pt1, by rw [e1]; exact reachable_delete h.reach h.text _ _ hle, ?_, e2⟩
    rw [e1, Txt.C02_delete_cuts h.reach h.text _ _ hle, ← ha]
    congr 2
    · rw [hs', List.take_left]
    · rw [hs, List.drop_left]

/-- What is left of the lines just added by a delete that starts at the `i+1`th of them and goes to the end of the buffer. -/
def leftOf (t : List Bytes) (i : Nat) : List Bytes := if i = 0 then t else t.take i

/-- **C80** is false for deleting the last lines if the first of them was just added, or follows the lines just added. Whatever the buffer, `a`, `i` or
`c` followed by a delete from there to the end of the buffer removes only added lines: none if it starts at the first of them or at the line after the
last, otherwise those from where it starts. All lines that were there before stay. There is no message. -/
theorem C80_delete_end_after_text (env : Env) {s : State} {st : LState} (h : ShowsOpen s st.lines) (hc : OpenLines st.lines)
    (hcur : s.currentLine = st.cur) (hlen : st.lines.length < 2 ^ 62) {sc : SCmd} {k j : Nat} {t : List Bytes} (hp : sc.puts st = some (k, t, j))
    (hok : sc.KeepsLast st) (hlen' : (sc.newLines st).length < 2 ^ 62) (hsize : (unlines (sc.newLines st)).length < 2 ^ 63)
    {c d : Command} (hs : Says c sc) (hd : d.typ = .delete) (i : Nat) (hi : i ≤ t.length) (ha : Denotes d.start (.num (k + i + 1)))
    (b : SAddr) (hb : Denotes d.end_ b) (hbe : b.eval (sc.next st) = (sc.newLines st).length) :
    ∃ s', runAll env s [c, d] = .ok (s', [sc.output st, []]) ∧
      s'.pt.string = .ok (join [nl] (st.lines.take k ++ leftOf t i ++ st.lines.drop j)) ∧ s'.currentLine = (k + i + 1 : Nat) := by
  obtain ⟨s1, e1, sh1, c1, ed⟩ := step_edits env h hc hcur hlen hs hok hlen'
  have hc1 := keepsLast_open hc hok
  have hnl := puts_newLines hp
  obtain ⟨b1, b2, b3⟩ := puts_bounds hp hok
  obtain ⟨pt0, r0, t0, i0⟩ := puts_insert hp hok h ed
  have htl := List.length_pos_iff.2 b3
  have hkl : (st.lines.take k).length = k := by simp; omega
  have hm' : k + i < (sc.newLines st).length := by
    rw [hnl]; simp only [List.length_append, hkl, List.length_drop]; omega
  have e2 := cut_to_end env sh1 hc1 c1 hlen' (k + i) hm' hd ha b hb hbe
  have hdne : st.lines.drop j ≠ [] := by intro e; have := congrArg List.length e; simp at this; omega
  have hj := length_join _ hdne
  have em : (sc.newLines st).take (k + i) = st.lines.take k ++ t.take i := by
    rw [hnl, List.append_assoc, List.take_append, hkl, Nat.add_sub_cancel_left, List.take_append_of_le_length hi, List.take_take]
    congr 2
    omega
  have en : (sc.newLines st).drop (k + i) = t.drop i ++ st.lines.drop j := by
    have := List.take_append_drop (k + i) (sc.newLines st)
    rw [em] at this
    have := this.trans hnl
    rw [List.append_assoc, List.append_assoc] at this
    have := List.append_cancel_left this
    have h2 : t ++ st.lines.drop j = t.take i ++ (t.drop i ++ st.lines.drop j) := by rw [← List.append_assoc, List.take_append_drop]
    rw [h2] at this
    exact List.append_cancel_left this
  have hut : unlines t = unlines (t.take i) ++ unlines (t.drop i) := by rw [← unlines_append, List.take_append_drop]
  have hutl := congrArg List.length hut
  rw [List.length_append] at hutl
  rw [hnl] at hsize
  simp only [unlines_append, List.length_append] at hsize
  rw [em, en] at e2
  simp only [unlines_append, List.length_append] at e2
  have key : (s1.pt.delete ((unlines (t.drop i)).length + (unlines (st.lines.drop j)).length : Nat)
      ((unlines (st.lines.take k)).length + (unlines (t.take i)).length : Nat)).string =
      .ok (join [nl] (st.lines.take k ++ leftOf t i ++ st.lines.drop j)) := by
    by_cases hi0 : i = 0
    · subst hi0
      have := Txt.C05_ignored_at_insert r0 t0 (unlines t) (unlines (st.lines.take k)).length (by simp) i0
        ((unlines t).length + (unlines (st.lines.drop j)).length) (by simp only [List.length_append]; omega) (by omega)
      simp only [List.take_zero, List.drop_zero, unlines, List.length_nil, Nat.add_zero, leftOf, if_true]
      rw [this, sh1.text, hnl]
    · have hpos : 0 < (unlines (t.take i)).length := by
        cases t with
        | nil => exact absurd rfl b3
        | cons l t =>
          cases i with
          | zero => exact absurd rfl hi0
          | succ i => simp only [List.take_succ_cons, unlines, List.length_append, List.length_cons]; omega
      have := Txt.C05_only_inserted r0 t0 (unlines t) (unlines (st.lines.take k)).length (unlines (t.take i)).length (by simp) hpos (by omega) i0
        ((unlines (t.drop i)).length + (unlines (st.lines.drop j)).length) (by simp only [List.length_append]; omega) (by omega)
      rw [this, leftOf, if_neg hi0, join_append _ _ hdne, unlines_append]
      congr 2
      · rw [List.take_left, hut, List.take_left]
      · rw [List.drop_left]
  generalize s1.pt.delete _ _ = q at e2 key
  refine ⟨{ s1 with pt := q, currentLine := (k + i + 1 : Nat) }, ?_, key, rfl⟩
  simp only [runAll, e1, e2]

example : ∃ s', runAll demoEnv (openedOn b!"one\n\nthree" 3)
      [{ typ := .append, start := numAddr 1, text := join [nl] [b!"x", b!"y"] }, { typ := .delete, start := numAddr 3, end_ := aLast }] =
        .ok (s', [b!"", b!""]) ∧ s'.pt.string = .ok b!"one\nx\n\nthree" := by
  obtain ⟨s', h1, h2, _⟩ := C80_delete_end_after_text demoEnv (st := ⟨openDemo, 3⟩) (openedOn_open openDemo 3) openDemo_open rfl (by decide)
    (sc := .append (.num 1) [b!"x", b!"y"]) rfl ⟨by decide, demo_text⟩ (by decide) (by decide)
    (c := { typ := .append, start := numAddr 1, text := join [nl] [b!"x", b!"y"] }) (d := { typ := .delete, start := numAddr 3, end_ := aLast })
    ⟨rfl, numAddr_denotes 1, rfl⟩ rfl 1 (by decide) (numAddr_denotes 3) .last ⟨rfl, rfl⟩ rfl
  exact ⟨s', h1, h2⟩

/-- **C80** The same after a delete that left the last line: a delete from the same line to the end of the buffer then removes nothing. -/
theorem C80_delete_end_after_delete (env : Env) {s : State} {st : LState} (h : ShowsOpen s st.lines) (hc : OpenLines st.lines)
    (hcur : s.currentLine = st.cur) (hlen : st.lines.length < 2 ^ 62) (hsize : (unlines st.lines).length < 2 ^ 63) (x y : SAddr)
    (hok : (SCmd.delete x y).KeepsLast st)
    {c d : Command} (hs : Says c (.delete x y)) (hd : d.typ = .delete) (ha : Denotes d.start (.num (x.eval st)))
    (b : SAddr) (hb : Denotes d.end_ b) (hbe : b.eval ((SCmd.delete x y).next st) = ((SCmd.delete x y).newLines st).length) :
    ∃ s', runAll env s [c, d] = .ok (s', [[], []]) ∧ s'.pt.string = .ok (join [nl] (st.lines.take (x.eval st - 1) ++ st.lines.drop (y.eval st))) := by
  obtain ⟨⟨o1, o2, o3⟩, o4⟩ := id hok
  have hnl : (SCmd.delete x y).newLines st = st.lines.take (x.eval st - 1) ++ st.lines.drop (y.eval st) := rfl
  have hkl : (st.lines.take (x.eval st - 1)).length = x.eval st - 1 := by simp; omega
  have hlen' : ((SCmd.delete x y).newLines st).length < 2 ^ 62 := by
    rw [hnl]; simp only [List.length_append, hkl, List.length_drop]; omega
  obtain ⟨s1, e1, sh1, c1, ed⟩ := step_edits env h hc hcur hlen hs hok hlen'
  have hc1 := keepsLast_open hc hok
  have hm : x.eval st - 1 < ((SCmd.delete x y).newLines st).length := by
    rw [hnl]; simp only [List.length_append, hkl, List.length_drop]; omega
  have ha' : Denotes d.start (.num (x.eval st - 1 + 1)) := by
    have : x.eval st - 1 + 1 = x.eval st := by omega
    rw [this]; exact ha
  have e2 := cut_to_end env sh1 hc1 c1 hlen' (x.eval st - 1) hm hd ha' b hb hbe
  have em : ((SCmd.delete x y).newLines st).take (x.eval st - 1) = st.lines.take (x.eval st - 1) := by rw [hnl, List.take_left' hkl]
  have en : ((SCmd.delete x y).newLines st).drop (x.eval st - 1) = st.lines.drop (y.eval st) := by rw [hnl, List.drop_left' hkl]
  rw [em, en] at e2
  have h1 : (unlines (st.lines.take (y.eval st))).length = (unlines (st.lines.take (x.eval st - 1))).length +
      (unlines ((st.lines.take (y.eval st)).drop (x.eval st - 1))).length := by
    rw [unlines_split (st.lines.take (y.eval st)) (x.eval st - 1), List.length_append, List.take_take, Nat.min_eq_left (by omega)]
  have hdne : st.lines.drop (y.eval st) ≠ [] := by intro e; have := congrArg List.length e; simp at this; omega
  have hj := length_join _ hdne
  have hs' := congrArg List.length (join_split st.lines (y.eval st) o4)
  rw [List.length_append] at hs'
  have hsz := congrArg List.length (unlines_split st.lines (y.eval st))
  rw [List.length_append] at hsz
  have key := Txt.C05_ignored_at_delete h.reach h.text (unlines ((st.lines.take (y.eval st)).drop (x.eval st - 1))).length
    (unlines (st.lines.take (x.eval st - 1))).length (by omega) (unlines (st.lines.drop (y.eval st))).length (by omega) (by omega)
  have ed' : s1.pt = s.pt.delete (unlines ((st.lines.take (y.eval st)).drop (x.eval st - 1))).length (unlines (st.lines.take (x.eval st - 1))).length := ed
  rw [← ed'] at key
  rw [key] at e2
  refine ⟨{ s1 with currentLine := (x.eval st - 1 + 1 : Nat) }, ?_, sh1.text⟩
  simp only [runAll, e1, e2]
  rfl

example : ∃ s', runAll demoEnv (openedOn b!"one\n\nthree" 3)
      [{ typ := .delete, start := numAddr 1, end_ := numAddr 1 }, { typ := .delete, start := numAddr 1, end_ := aLast }] =
        .ok (s', [b!"", b!""]) ∧ s'.pt.string = .ok b!"\nthree" :=
  C80_delete_end_after_delete demoEnv (st := ⟨openDemo, 3⟩) (openedOn_open openDemo 3) openDemo_open rfl (by decide) (by decide) (.num 1) (.num 1)
    ⟨⟨by decide, by decide, by decide⟩, by decide⟩ ⟨rfl, numAddr_denotes 1, numAddr_denotes 1⟩ rfl (numAddr_denotes 1) .last ⟨rfl, rfl⟩ rfl

/-- The command leaves the last `m` lines alone. -/
def SCmd.Leaves (m : Nat) (st : LState) : SCmd → Prop
  | .append a _ => a.eval st + m ≤ st.lines.length
  | .insert a _ => a.eval st - 1 + m ≤ st.lines.length
  | .change _ b _ => b.eval st + m ≤ st.lines.length
  | .delete _ b => b.eval st + m ≤ st.lines.length
  | _ => True

/-- A session all of whose commands are in range and leave the last `m` lines alone. -/
def SessionLeaves (m : Nat) : LState → List SCmd → Prop
  | _, [] => True
  | st, c :: cs => c.KeepsLast st ∧ c.Leaves m st ∧ (c.newLines st).length < 2 ^ 62 ∧ SessionLeaves m (c.next st) cs

theorem leaves_lines {st : LState} {sc : SCmd} (pre mid : List Bytes) (hl : st.lines = pre ++ mid) (h : sc.Leaves mid.length st) :
    ∃ pre', sc.newLines st = pre' ++ mid := by
  have key : ∀ j, j + mid.length ≤ st.lines.length → ∃ ps, st.lines.drop j = ps ++ mid := by
    intro j hj
    rw [hl] at hj ⊢
    rw [List.length_append] at hj
    exact ⟨pre.drop j, by rw [List.drop_append_of_le_length (by omega)]⟩
  cases sc with
  | append a t => obtain ⟨ps, e⟩ := key _ h; exact ⟨_, by simp only [SCmd.newLines]; rw [e, ← List.append_assoc]⟩
  | insert a t => obtain ⟨ps, e⟩ := key _ h; exact ⟨_, by simp only [SCmd.newLines]; rw [e, ← List.append_assoc]⟩
  | change a b t => obtain ⟨ps, e⟩ := key _ h; exact ⟨_, by simp only [SCmd.newLines]; rw [e, ← List.append_assoc]⟩
  | delete a b => obtain ⟨ps, e⟩ := key _ h; exact ⟨_, by simp only [SCmd.newLines]; rw [e, ← List.append_assoc]⟩
  | print a b => exact ⟨pre, hl⟩
  | number a b => exact ⟨pre, hl⟩
  | lineNo a => exact ⟨pre, hl⟩

theorem total_of {pt : Txt.PieceTable} (r : Txt.Reachable pt) {t : Bytes} (h : pt.string = .ok t) : Txt.totalLength pt.pieces = t.length := by
  have := Txt.content_length r.good.pieces
  rw [Txt.string_wf r.good.toWF] at h
  cases h
  exact this.symm

/-- The last piece of the table still ends with the last lines. -/
theorem leaves_tail {s : State} {st : LState} {sc : SCmd} (pre mid : List Bytes) (hm : mid ≠ []) (hjn : join [nl] mid ≠ []) (hl : st.lines = pre ++ mid)
    (hok : sc.KeepsLast st) (h : sc.Leaves mid.length st) (sh : ShowsOpen s st.lines) (ht : Txt.Tail s.pt (join [nl] mid)) {pt' : Txt.PieceTable}
    (he : Edits st sc s.pt pt') : Txt.Tail pt' (join [nl] mid) := by
  have hjoin : join [nl] st.lines = unlines pre ++ join [nl] mid := by rw [hl, join_append _ _ hm]
  have htot := total_of sh.reach sh.text
  rw [hjoin, List.length_append] at htot
  have hle : ∀ j, j + mid.length ≤ st.lines.length → (unlines (st.lines.take j)).length ≤ (unlines pre).length := by
    intro j hj
    rw [hl, List.length_append] at hj
    rw [hl, List.take_append_of_le_length (by omega)]
    have := congrArg List.length (unlines_split pre j)
    rw [List.length_append] at this
    omega
  cases sc with
  | append a t => exact Txt.tail_insert sh.reach.good hjn ht _ _ (by omega) (by have := hle _ h; omega) he
  | insert a t => exact Txt.tail_insert sh.reach.good hjn ht _ _ (by omega) (by have := hle _ h; omega) he
  | delete a b =>
    obtain ⟨⟨o1, o2, o3⟩, o4⟩ := hok
    have h1 : (unlines (st.lines.take (b.eval st))).length = (unlines (st.lines.take (a.eval st - 1))).length +
        (unlines ((st.lines.take (b.eval st)).drop (a.eval st - 1))).length := by
      rw [unlines_split (st.lines.take (b.eval st)) (a.eval st - 1), List.length_append, List.take_take, Nat.min_eq_left (by omega)]
    have h2 := hle _ h
    rw [show pt' = _ from he]
    exact Txt.tail_delete sh.reach.good ht _ _ (by omega) (by omega) (by omega)
  | change a b t =>
    obtain ⟨⟨o1, o2, o3⟩, o4, o5⟩ := hok
    have h1 : (unlines (st.lines.take (b.eval st))).length = (unlines (st.lines.take (a.eval st - 1))).length +
        (unlines ((st.lines.take (b.eval st)).drop (a.eval st - 1))).length := by
      rw [unlines_split (st.lines.take (b.eval st)) (a.eval st - 1), List.length_append, List.take_take, Nat.min_eq_left (by omega)]
    have h2 := hle _ h
    obtain ⟨pt1, e1, e2⟩ := he
    have t1 := Txt.tail_delete sh.reach.good ht (unlines ((st.lines.take (b.eval st)).drop (a.eval st - 1))).length
      (unlines (st.lines.take (a.eval st - 1))).length (by omega) (by omega) (by omega)
    rw [← e1] at t1
    have hle2 : (unlines (st.lines.take (a.eval st - 1))).length + (unlines ((st.lines.take (b.eval st)).drop (a.eval st - 1))).length ≤
        (join [nl] st.lines).length := by rw [hjoin, List.length_append]; omega
    have r1 : Txt.Reachable pt1 := by rw [e1]; exact reachable_delete sh.reach sh.text _ _ hle2
    have s1 := Txt.C02_delete_cuts sh.reach sh.text _ _ hle2
    rw [← e1] at s1
    have htot1 := total_of r1 s1
    rw [List.length_append, List.length_take, List.length_drop, hjoin, List.length_append] at htot1
    exact Txt.tail_insert r1.good hjn t1 _ _ (by omega) (by omega) e2
  | print a b => rw [show pt' = _ from he]; exact ht
  | number a b => rw [show pt' = _ from he]; exact ht
  | lineNo a => rw [show pt' = _ from he]; exact ht

/-- A session that leaves the last lines alone. -/
theorem session_leaves (env : Env) (mid : List Bytes) (hm : mid ≠ []) (hjn : join [nl] mid ≠ []) : ∀ (scs : List SCmd) (cs : List Command) {s : State} {st : LState},
    ShowsOpen s st.lines → OpenLines st.lines → s.currentLine = st.cur → st.lines.length < 2 ^ 62 → (∃ pre, st.lines = pre ++ mid) →
    Txt.Tail s.pt (join [nl] mid) → SaysAll cs scs → SessionLeaves mid.length st scs →
    ∃ s', runAll env s cs = .ok (s', sessionOutputs st scs) ∧ ShowsOpen s' (sessionEnd st scs).lines ∧ OpenLines (sessionEnd st scs).lines ∧
      (sessionEnd st scs).lines.length < 2 ^ 62 ∧
      s'.currentLine = (sessionEnd st scs).cur ∧ (∃ pre, (sessionEnd st scs).lines = pre ++ mid) ∧ Txt.Tail s'.pt (join [nl] mid) := by
  intro scs
  induction scs with
  | nil =>
    intro cs s st h hc hcur hlen hl ht hf hok
    cases cs with
    | nil => exact ⟨s, rfl, h, hc, hlen, hcur, hl, ht⟩
    | cons c cs => exact hf.elim
  | cons sc scs ih =>
    intro cs s st h hc hcur hlen hl ht hf hok
    cases cs with
    | nil => exact hf.elim
    | cons c cs =>
      obtain ⟨h1, h2⟩ := hf
      obtain ⟨o1, o2, o3, o4⟩ := hok
      obtain ⟨pre, hpre⟩ := hl
      obtain ⟨s1, e1, sh1, c1, ed⟩ := step_edits env h hc hcur hlen h1 o1 o3
      obtain ⟨s2, e2, r2⟩ := ih _ (st := sc.next st) sh1 (keepsLast_open hc o1) c1 o3 (leaves_lines pre mid hpre o2)
        (leaves_tail pre mid hm hjn hpre o1 o2 h ht ed) h2 o4
      refine ⟨s2, ?_, r2⟩
      simp only [runAll, e1, e2, sessionOutputs]

theorem runAll_snoc (env : Env) (d : Command) : ∀ (cs : List Command) {s s1 s2 : State} {os : List Bytes} {o : Bytes},
    runAll env s cs = .ok (s1, os) → processCommand env s1 d = .ok (s2, o) → runAll env s (cs ++ [d]) = .ok (s2, os ++ [o]) := by
  intro cs
  induction cs with
  | nil =>
    intro s s1 s2 os o h1 h2
    simp only [runAll, Except.ok.injEq, Prod.mk.injEq] at h1
    obtain ⟨rfl, rfl⟩ := h1
    simp only [List.nil_append, runAll, h2]
  | cons c cs ih =>
    intro s s1 s2 os o h1 h2
    simp only [runAll] at h1
    cases hc : processCommand env s c with
    | error f => rw [hc] at h1; cases h1
    | ok r =>
      rw [hc] at h1
      simp only at h1
      cases hr : runAll env r.1 cs with
      | error f => rw [hr] at h1; cases h1
      | ok r2 =>
        rw [hr] at h1
        simp only [Except.ok.injEq, Prod.mk.injEq] at h1
        obtain ⟨rfl, rfl⟩ := h1
        simp only [List.cons_append, runAll, hc, ih hr h2]

/-- **C80** (the part that holds) In a buffer just read, deleting the last lines works after any session that left these lines and the one before them
alone: exactly the lines before are left, each with its newline. -/
theorem C80_delete_end_untouched_partial (env : Env) (pre : List Bytes) (l : Bytes) (mid : List Bytes) (hmid : mid ≠ []) (hc : OpenLines (pre ++ l :: mid))
    (cur : Nat) (hlen : (pre ++ l :: mid).length < 2 ^ 62) (scs : List SCmd) (cs : List Command) (hs : SaysAll cs scs)
    (hok : SessionLeaves (mid.length + 1) ⟨pre ++ l :: mid, cur⟩ scs) (ls : List Bytes) (hls : ls = (sessionEnd ⟨pre ++ l :: mid, cur⟩ scs).lines)
    (hsize : (unlines ls).length < 2 ^ 63)
    {d : Command} (hd : d.typ = .delete) (ha : Denotes d.start (.num (ls.length - mid.length + 1)))
    (b : SAddr) (hb : Denotes d.end_ b) (hbe : b.eval (sessionEnd ⟨pre ++ l :: mid, cur⟩ scs) = ls.length) :
    ∃ s', runAll env (openedOn (join [nl] (pre ++ l :: mid)) cur) (cs ++ [d]) = .ok (s', sessionOutputs ⟨pre ++ l :: mid, cur⟩ scs ++ [[]]) ∧
      s'.pt.string = .ok (unlines (ls.take (ls.length - mid.length))) ∧ ls.drop (ls.length - mid.length) = mid := by
  have hj : join [nl] (l :: mid) = (l ++ [nl]) ++ join [nl] mid := by
    cases mid with
    | nil => exact absurd rfl hmid
    | cons m ms => simp [join]
  obtain ⟨s1, e1, sh1, hc1, hlen1, c1, ⟨pre1, hp1⟩, t1⟩ := session_leaves env (l :: mid) (by simp) (by rw [hj]; simp) scs cs
    (st := ⟨pre ++ l :: mid, cur⟩) (openedOn_open (pre ++ l :: mid) cur) hc rfl hlen ⟨pre, rfl⟩
    (Txt.tail_new _ _ _ (unlines pre) _ (by rw [List.take_length, join_append _ _ (by simp)])) hs hok
  rw [← hls] at sh1 hc1 hlen1 hp1
  have hml := List.length_pos_iff.2 hmid
  have hll := congrArg List.length hp1
  simp only [List.length_append, List.length_cons] at hll
  have hk : ls.length - mid.length < ls.length := by omega
  have e2 := cut_to_end env sh1 hc1 c1 hlen1 (ls.length - mid.length) hk hd ha b hb (by rw [hls] at hbe ⊢; exact hbe)
  have hke : ls.length - mid.length = (pre1 ++ [l]).length := by simp; omega
  have hp2 : ls = (pre1 ++ [l]) ++ mid := by rw [hp1]; simp
  have htk : ls.take (ls.length - mid.length) = pre1 ++ [l] := by rw [hke, hp2, List.take_left]
  have hdr : ls.drop (ls.length - mid.length) = mid := by rw [hke, hp2, List.drop_left]
  refine ⟨_, runAll_snoc env d cs e1 e2, ?_, hdr⟩
  rw [htk, hdr]
  have hjl := length_join mid hmid
  have htext : join [nl] ls = unlines (pre1 ++ [l]) ++ join [nl] mid := by rw [hp2, join_append _ _ hmid]
  have htl := congrArg List.length htext
  rw [List.length_append] at htl
  rw [hj] at t1
  have hsz : (unlines ls).length = (unlines (pre1 ++ [l])).length + (unlines mid).length := by rw [hp2, unlines_append, List.length_append]
  have := Txt.C05_within_last_partial sh1.reach sh1.text (l ++ [nl]) (join [nl] mid) (by simp) t1 (unlines mid).length (by omega) (by omega)
  have hpos : (join [nl] ls).length - (join [nl] mid).length = (unlines (pre1 ++ [l])).length := by omega
  rw [hpos] at this
  rw [show (Txt.PieceTable.delete s1.pt _ _).string = _ from this, htext, List.take_left]

example : ∃ s', runAll demoEnv (openedOn b!"one\n\nthree" 3)
      [{ typ := .insert, start := numAddr 1, text := join [nl] [b!"x", b!"y"] }, { typ := .delete, start := numAddr 5, end_ := aLast }] =
        .ok (s', [b!"", b!""]) ∧ s'.pt.string = .ok b!"x\ny\none\n\n" := by
  obtain ⟨s', h1, h2, _⟩ := C80_delete_end_untouched_partial demoEnv [b!"one"] b!"" [b!"three"] (by decide) openDemo_open 3 (by decide)
    [.insert (.num 1) [b!"x", b!"y"]] [{ typ := .insert, start := numAddr 1, text := join [nl] [b!"x", b!"y"] }]
    ⟨⟨rfl, numAddr_denotes 1, rfl⟩, trivial⟩ ⟨⟨by decide, by decide, demo_text⟩, (show 1 - 1 + 2 ≤ 3 by decide), by decide, trivial⟩ _ rfl (by decide)
    (d := { typ := .delete, start := numAddr 5, end_ := aLast }) rfl (numAddr_denotes 5) .last ⟨rfl, rfl⟩ rfl
  exact ⟨s', h1, h2⟩

end Ed
