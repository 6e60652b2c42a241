import Verif.Ed.SaveProps

/-! # C80: files whose last line has no newline -/

namespace Ed
open Go

/-- The editor's buffer reads as these lines separated by newlines, with none after the last. -/
structure ShowsOpen (s : State) (ls : List Bytes) : Prop where
  reach : Txt.Reachable s.pt
  text : s.pt.string = .ok (join [nl] ls)

/-- Buffers whose last line is a partial line: all lines plain, the last not blank. -/
structure OpenLines (ls : List Bytes) : Prop where
  plain : ∀ l ∈ ls, PlainLine l
  ne : ls ≠ []
  lastNe : ls.getLast? ≠ some []

/-- When a command of the reference editor is in range and leaves the last line alone. -/
def SCmd.KeepsLast (st : LState) : SCmd → Prop
  | .append a t => a.eval st < st.lines.length ∧ TextOK t
  | .insert a t => 1 ≤ a.eval st ∧ a.eval st ≤ st.lines.length ∧ TextOK t
  | .change a b t => InRange st a b ∧ b.eval st < st.lines.length ∧ TextOK t
  | .delete a b => InRange st a b ∧ b.eval st < st.lines.length
  | .print a b => InRange st a b
  | .number a b => InRange st a b
  | .lineNo a => a.eval st < 2 ^ 63

/-- A session all of whose commands leave the last line alone. -/
def SessionKeepsLast : LState → List SCmd → Prop
  | _, [] => True
  | st, c :: cs => c.KeepsLast st ∧ (c.newLines st).length < 2 ^ 62 ∧ SessionKeepsLast (c.next st) cs

theorem join_append (xs ys : List Bytes) (h : ys ≠ []) : join [nl] (xs ++ ys) = unlines xs ++ join [nl] ys := by
  induction xs with
  | nil => rfl
  | cons x xs ih =>
    obtain ⟨m, ms, e⟩ : ∃ m ms, xs ++ ys = m :: ms := by
      cases hxy : xs ++ ys with
      | nil => simp at hxy; exact absurd hxy.2 h
      | cons m ms => exact ⟨m, ms, rfl⟩
    rw [List.cons_append, e]
    simp only [join]
    rw [← e, ih]
    simp [unlines]

theorem join_snoc (ls : List Bytes) (z : Bytes) : join [nl] (ls ++ [z]) = unlines ls ++ z := join_append ls [z] (by simp)

theorem OpenLines.split {ls : List Bytes} (h : OpenLines ls) : ∃ ks z, ls = ks ++ [z] ∧ z ≠ [] ∧ PlainLine z ∧ ∀ l ∈ ks, PlainLine l := by
  have e := List.dropLast_concat_getLast h.ne
  refine ⟨ls.dropLast, ls.getLast h.ne, e.symm, ?_, h.plain _ (List.getLast_mem _), fun l hl => h.plain l (List.dropLast_subset _ hl)⟩
  intro hz
  exact h.lastNe (by rw [List.getLast?_eq_some_getLast h.ne, hz])

theorem openLines_of {ks : List Bytes} {z : Bytes} (h1 : ∀ l ∈ ks, PlainLine l) (h2 : PlainLine z) (h3 : z ≠ []) : OpenLines (ks ++ [z]) :=
  ⟨by intro l hl; rcases List.mem_append.1 hl with h | h
      · exact h1 l h
      · simp at h; subst h; exact h2, by simp, by simp [h3]⟩

theorem scanned_open {s : State} {ls : List Bytes} (h : ShowsOpen s ls) (hc : OpenLines ls) : scanned s = .ok ls := by
  obtain ⟨ks, z, rfl, hz, pz, pk⟩ := hc.split
  have e : scanLines (join [nl] (ks ++ [z])) = (ks ++ [z], false) := by
    rw [scanLines, join_snoc, rawLines_unlines_append ks (fun l hl => (pk l hl).noNL), rawLines_unterminated z pz.noNL hz]
    exact scanTokens_plain _ hc.plain
  simp [scanned, h.text, e]

theorem getLines_open {s : State} {ls : List Bytes} (h : ShowsOpen s ls) (hc : OpenLines ls) : getLines s = .ok ls := by
  simp [getLines, scanned_open h hc, dropBlank_clean hc.lastNe]

theorem getLineAddr_open {s : State} {ls : List Bytes} (h : ShowsOpen s ls) (hc : OpenLines ls) (n : Int) (h1 : -2 ^ 63 < n) (h2 : n < 2 ^ 63) :
    getLineAddr s n = .ok (unlines (ls.take (n - 1).toNat)).length := by
  simp only [getLineAddr, getLines_open h hc]
  split
  · rw [List.take_of_length_le (by omega), width_eq]
  · rw [wrap64_id (by omega) (by omega)]
    rw [if_pos (by omega), width_eq]

/-- The text before line `k+1` and the text from it on. -/
theorem join_split (ls : List Bytes) (k : Nat) (h : k < ls.length) :
    join [nl] ls = unlines (ls.take k) ++ join [nl] (ls.drop k) := by
  have hd : ls.drop k ≠ [] := by intro e; have := congrArg List.length e; simp at this; omega
  rw [← join_append _ _ hd, List.take_append_drop]

theorem insert_open {s : State} {ls : List Bytes} (h : ShowsOpen s ls) (hc : OpenLines ls) (n : Int) (h1 : -2 ^ 63 < n) (h2 : n < 2 ^ 63)
    (hn : (n - 1).toNat < ls.length) (t : List Bytes) (ht : t ≠ []) :
    ∃ pt', insertBeforeLine s n (join [nl] t) = .ok { s with pt := pt' } ∧
      ShowsOpen { s with pt := pt' } (ls.take (n - 1).toNat ++ t ++ ls.drop (n - 1).toNat) := by
  simp only [insertBeforeLine, getLineAddr_open h hc n h1 h2]
  have e : join [nl] t ++ [nl] = unlines t := by
    cases t with
    | nil => exact absurd rfl ht
    | cons l t => exact join_nl l t
  rw [e]
  generalize (n - 1).toNat = k at *
  have hs := join_split ls k hn
  have hd : ls.drop k ≠ [] := by intro e; have := congrArg List.length e; simp at this; omega
  obtain ⟨pt', e1, r, t1⟩ := Txt.C01_insert_splices h.reach h.text (unlines t) (unlines (ls.take k)).length (by rw [hs]; simp)
  refine ⟨pt', by rw [e1], r, ?_⟩
  show pt'.string = _
  rw [t1, hs, List.take_left, List.drop_left, join_append _ _ hd, unlines_append]

/-- Inserting after the last line is inserting one byte past the end of the text. -/
theorem insert_past {s : State} {ls : List Bytes} (h : ShowsOpen s ls) (hc : OpenLines ls) (n : Int) (h2 : n < 2 ^ 63)
    (hn : ls.length < n) (t : Bytes) : ∃ p, insertBeforeLine s n t = .error p := by
  simp only [insertBeforeLine, getLineAddr_open h hc n (by omega) h2]
  rw [List.take_of_length_le (by omega)]
  obtain ⟨ks, z, rfl, _⟩ := hc.split
  obtain ⟨p, hp⟩ := (Txt.C04_insert_panics_iff h.reach h.text (t ++ [nl]) (unlines (ks ++ [z])).length).2 (by
    rw [join_snoc, unlines_append]; simp [unlines])
  exact ⟨p, by rw [hp]⟩

theorem delete_open {s : State} {ls : List Bytes} (h : ShowsOpen s ls) (hc : OpenLines ls) (a b : Nat)
    (h1 : 1 ≤ a) (h2 : a ≤ b) (h3 : b < ls.length) (hb : b < 2 ^ 62) :
    ∃ pt', delete s a b = .ok { s with pt := pt' } ∧ ShowsOpen { s with pt := pt' } (ls.take (a - 1) ++ ls.drop b) := by
  have hd : ls.drop b ≠ [] := by intro e; have := congrArg List.length e; simp at this; omega
  have ha : (unlines (ls.take b)).length = (unlines (ls.take (a - 1))).length + (unlines ((ls.take b).drop (a - 1))).length := by
    rw [unlines_split (ls.take b) (a - 1), List.length_append, List.take_take, Nat.min_eq_left (by omega)]
  refine ⟨s.pt.delete (unlines ((ls.take b).drop (a - 1))).length (unlines (ls.take (a - 1))).length, ?_, reachable_delete h.reach h.text _ _ ?_, ?_⟩
  · simp only [delete, getLineAddr_open h hc a (by omega) (by omega), wrap64_id (i := (b : Int) + 1) (by omega) (by omega),
      getLineAddr_open h hc ((b : Int) + 1) (by omega) (by omega)]
    have e1 : ((a : Int) - 1).toNat = a - 1 := by omega
    have e2 : ((b : Int) + 1 - 1).toNat = b := by omega
    rw [e1, e2]
    congr 3
    omega
  · rw [join_split ls b h3, List.length_append, ha]; omega
  · show (s.pt.delete _ _).string = _
    have hs := join_split ls b h3
    have hs' := join_split ls (a - 1) (by omega)
    rw [Txt.C02_delete_cuts h.reach h.text _ _ (by rw [hs, List.length_append, ha]; omega)]
    rw [← ha, join_append _ _ hd]
    congr 2
    · rw [hs', List.take_left]
    · rw [hs, List.drop_left]

theorem addrLine_open (env : Env) {s : State} {st : LState} (h : ShowsOpen s st.lines) (hc : OpenLines st.lines)
    (hcur : s.currentLine = st.cur) {a : Address} {sa : SAddr} (hd : Denotes a sa) (hb : sa.eval st < 2 ^ 63) :
    addrLine env s a = .ok (sa.eval st) := by
  cases sa with
  | num n =>
    obtain ⟨h1, h2, h3, h4, h5⟩ := hd
    simp only [SAddr.eval] at hb ⊢
    simp only [addrLine, h1, h2, atoi_digits _ h3 h4, h5]
    rw [if_pos hb]
    simp only [Int.add_zero]
    rw [wrap64_id (by omega) (by omega)]
  | dot =>
    obtain ⟨h1, h2⟩ := hd
    simp only [SAddr.eval] at hb ⊢
    simp only [addrLine, h1, h2, hcur, Int.add_zero]
    rw [wrap64_id (by omega) (by omega)]
  | last =>
    obtain ⟨h1, h2⟩ := hd
    simp only [SAddr.eval] at hb ⊢
    simp only [addrLine, h1, h2, getLines_open h hc, Int.add_zero]
    rw [wrap64_id (by omega) (by omega)]

theorem print_open (env : Env) {s : State} {ls : List Bytes} (h : ShowsOpen s ls) (hc : OpenLines ls) (a b : Nat)
    (h1 : 1 ≤ a) (h2 : a ≤ b) (h3 : b ≤ ls.length) (hb : b < 2 ^ 63) :
    print env s a b = .ok (join [nl] (linesFrom ls a b)) := by
  simp only [print, scanned_open h hc, dropBlank_clean hc.lastNe]
  rw [wrap64_id (by omega) (by omega)]
  have : ((a : Int) - 1) = ((a - 1 : Nat) : Int) := by omega
  rw [this, slice_ok _ _ _ (by omega) (by simp; omega)]
  simp only [linesFrom]
  rw [List.take_append_of_le_length h3]

theorem number_open {s : State} {ls : List Bytes} (h : ShowsOpen s ls) (hc : OpenLines ls) (a b : Nat)
    (h1 : 1 ≤ a) (h2 : a ≤ b) (h3 : b ≤ ls.length) :
    number s a b = .ok (numbered a (linesFrom ls a b)) := by
  simp only [number, getLines_open h hc]
  rw [if_neg (by omega), if_neg (by omega), numberLoop_ok b _ a (by simp; omega)]
  simp only [linesFrom]
  have : ((a : Int) - 1).toNat = a - 1 := by omega
  rw [this, List.drop_take]
  congr 3
  omega

/-- A list keeps its last element if only what comes before is replaced by plain lines. -/
theorem openLines_replace {ls : List Bytes} (hc : OpenLines ls) (k j : Nat) (t : List Bytes) (hp : ∀ l ∈ t, PlainLine l)
    (hj : j < ls.length) : OpenLines (ls.take k ++ t ++ ls.drop j) := by
  have hd : ls.drop j ≠ [] := by intro e; have := congrArg List.length e; simp at this; omega
  refine ⟨?_, by simp [hd], ?_⟩
  · intro l hl
    rcases List.mem_append.1 hl with hl | hl
    · rcases List.mem_append.1 hl with hl | hl
      · exact hc.plain l (List.mem_of_mem_take hl)
      · exact hp l hl
    · exact hc.plain l (List.mem_of_mem_drop hl)
  · have : (ls.drop j).getLast? ≠ none := by simp [hd]
    rw [List.getLast?_append]
    rw [List.getLast?_drop, if_neg (by omega)] at this ⊢
    cases hl : ls.getLast? with
    | none => exact absurd hl this
    | some z => rw [← hl]; simpa [hl] using hc.lastNe

theorem keepsLast_open {st : LState} (hc : OpenLines st.lines) {sc : SCmd} (hok : sc.KeepsLast st) : OpenLines (sc.newLines st) := by
  cases sc with
  | append a t => exact openLines_replace hc _ _ t hok.2.plain hok.1
  | insert a t => exact openLines_replace hc _ _ t hok.2.2.plain (by have := hok.1; have := hok.2.1; omega)
  | change a b t => exact openLines_replace hc _ _ t hok.2.2.plain hok.2.1
  | delete a b =>
    have := openLines_replace hc (a.eval st - 1) (b.eval st) [] (by simp) hok.2
    simpa [SCmd.newLines] using this
  | print a b => exact hc
  | number a b => exact hc
  | lineNo a => exact hc

theorem last_replace (ls : List Bytes) (k j : Nat) (t : List Bytes) (hj : j < ls.length) :
    (ls.take k ++ t ++ ls.drop j).getLast? = ls.getLast? := by
  rw [List.getLast?_append, List.getLast?_drop, if_neg (by omega)]
  cases hl : ls.getLast? with
  | none => simp at hl; subst hl; simp at hj
  | some z => rfl

theorem keepsLast_last {st : LState} (_hc : OpenLines st.lines) {sc : SCmd} (hok : sc.KeepsLast st) :
    (sc.newLines st).getLast? = st.lines.getLast? := by
  cases sc with
  | append a t => exact last_replace _ _ _ t hok.1
  | insert a t => exact last_replace _ _ _ t (by have := hok.1; have := hok.2.1; omega)
  | change a b t => exact last_replace _ _ _ t hok.2.1
  | delete a b =>
    have := last_replace st.lines (a.eval st - 1) (b.eval st) [] hok.2
    simpa [SCmd.newLines] using this
  | print a b => rfl
  | number a b => rfl
  | lineNo a => rfl

/-- One command of the code against one command of the reference editor. -/
theorem step_open (env : Env) {s : State} {st : LState} (h : ShowsOpen s st.lines) (hc : OpenLines st.lines)
    (hcur : s.currentLine = st.cur) (hlen : st.lines.length < 2 ^ 62) {c : Command} {sc : SCmd} (hs : Says c sc)
    (hok : sc.KeepsLast st) (hlen' : (sc.newLines st).length < 2 ^ 62) :
    ∃ s', processCommand env s c = .ok (s', sc.output st) ∧ ShowsOpen s' (sc.newLines st) ∧
      s'.currentLine = sc.newCur st ∧ s'.fs = s.fs ∧ s'.filename = s.filename ∧ s'.writes = s.writes := by
  have hc' := keepsLast_open hc hok
  cases sc with
  | append a t =>
    obtain ⟨h1, h2, h3⟩ := hs
    obtain ⟨o1, o2⟩ := hok
    have ha := addrLine_open env h hc hcur h2 (by omega)
    have hnl : t.length ≤ (SCmd.newLines st (.append a t)).length := by simp [SCmd.newLines]; omega
    have hi : ((a.eval st : Int) + 1 - 1).toNat = a.eval st := by omega
    obtain ⟨pt', e, sh⟩ := insert_open h hc (a.eval st + 1) (by omega) (by omega) (by omega) t o2.ne
    rw [hi] at sh
    refine ⟨{ s with pt := pt', currentLine := SCmd.newCur st (.append a t) }, ?_, ⟨sh.reach, sh.text⟩, rfl, rfl, rfl, rfl⟩
    simp only [processCommand, typ_setDefault, text_setDefault, h1, ha, h3, bind, Except.bind]
    rw [wrap64_id (i := (a.eval st : Int) + 1) (by omega) (by omega), e]
    simp only [lift, linesIn_join t o2, SCmd.newCur, SCmd.output, pure, Except.pure]
    rw [wrap64_id (by omega) (by omega)]
    simp
  | insert a t =>
    obtain ⟨h1, h2, h3⟩ := hs
    obtain ⟨o0, o1, o2⟩ := hok
    have ha := addrLine_open env h hc hcur h2 (by omega)
    have hi : ((a.eval st : Int) - 1).toNat = a.eval st - 1 := by omega
    obtain ⟨pt', e, sh⟩ := insert_open h hc (a.eval st) (by omega) (by omega) (by omega) t o2.ne
    rw [hi] at sh
    refine ⟨{ s with pt := pt' }, ?_, sh, hcur, rfl, rfl, rfl⟩
    simp only [processCommand, typ_setDefault, text_setDefault, h1, ha, h3, bind, Except.bind, e, lift]
    rfl
  | delete a b =>
    obtain ⟨h1, h2, h3⟩ := hs
    obtain ⟨⟨o1, o2, o3⟩, o4⟩ := hok
    have ha := addrLine_open env h hc hcur h2 (by omega)
    have hb := addrLine_open env h hc hcur h3 (by omega)
    obtain ⟨pt', e, sh⟩ := delete_open h hc (a.eval st) (b.eval st) (by omega) (by omega) (by omega) (by omega)
    have ha2 : addrLine env { s with pt := pt' } (setDefaultAddresses c).start =
        .ok (SCmd.newCur st (.delete a b)) := by
      have := addrLine_open env (s := { s with pt := pt' }) (st := { st with lines := SCmd.newLines st (.delete a b) })
        sh hc' hcur h2
      refine this ?_
      cases a with
      | num n => simp only [SAddr.eval] at *; omega
      | dot => simp only [SAddr.eval] at *; omega
      | last => simp only [SAddr.eval]; omega
    refine ⟨{ s with pt := pt', currentLine := SCmd.newCur st (.delete a b) }, ?_, ⟨sh.reach, sh.text⟩, rfl, rfl, rfl, rfl⟩
    simp only [processCommand, typ_setDefault, h1, ha, hb, bind, Except.bind, e, lift, ha2]
    rfl
  | change a b t =>
    obtain ⟨h1, h2, h3, h4⟩ := hs
    obtain ⟨⟨o1, o2, o3⟩, o5, o4⟩ := hok
    have ha := addrLine_open env h hc hcur h2 (by omega)
    have hb := addrLine_open env h hc hcur h3 (by omega)
    obtain ⟨pt', e, sh⟩ := delete_open h hc (a.eval st) (b.eval st) (by omega) (by omega) (by omega) (by omega)
    have again : ∀ pt, addrLine env { s with pt := pt } (setDefaultAddresses c).start = .ok (a.eval st) := by
      intro pt
      cases a with
      | num n => rw [← ha]; simp [addrLine, h2.1]
      | dot => rw [← ha]; simp [addrLine, h2.1]
      | last => exact absurd (show st.lines.length ≤ b.eval st from o2) (by omega)
    have oc : OpenLines (st.lines.take (a.eval st - 1) ++ st.lines.drop (b.eval st)) := by
      have := openLines_replace hc (a.eval st - 1) (b.eval st) [] (by simp) o5
      simpa using this
    have hi2 : ((a.eval st : Int) - 1).toNat = a.eval st - 1 := by omega
    obtain ⟨pt2, e2, sh2⟩ := insert_open sh oc (a.eval st) (by omega) (by omega) (by simp; omega) t o4.ne
    rw [hi2] at sh2
    have hcut : ∀ {xs ys : List Bytes} {k : Nat}, xs.length = k → (xs ++ ys).take k = xs ∧ (xs ++ ys).drop k = ys := by
      intro xs ys k hk; subst hk; simp
    have hk : (st.lines.take (a.eval st - 1)).length = a.eval st - 1 := by simp; omega
    rw [(hcut hk).1, (hcut hk).2] at sh2
    have hnl : t.length ≤ (SCmd.newLines st (.change a b t)).length := by simp [SCmd.newLines]; omega
    refine ⟨{ s with pt := pt2, currentLine := SCmd.newCur st (.change a b t) }, ?_, ⟨sh2.reach, sh2.text⟩, rfl, rfl, rfl, rfl⟩
    simp only [processCommand, typ_setDefault, text_setDefault, h1, ha, hb, h4, bind, Except.bind, e, lift, again, e2]
    simp only [linesIn_join t o4, SCmd.newCur, SCmd.output, pure, Except.pure]
    rw [wrap64_id (by omega) (by omega)]
    simp
  | print a b =>
    obtain ⟨h1, h2, h3⟩ := hs
    obtain ⟨o1, o2, o3⟩ := hok
    have ha := addrLine_open env h hc hcur h2 (by omega)
    have hb := addrLine_open env h hc hcur h3 (by omega)
    refine ⟨s, ?_, h, hcur, rfl, rfl, rfl⟩
    simp only [processCommand, typ_setDefault, h1, ha, hb, bind, Except.bind, print_open env h hc _ _ o1 o2 o3 (by omega), lift]
    rfl
  | number a b =>
    obtain ⟨h1, h2, h3⟩ := hs
    obtain ⟨o1, o2, o3⟩ := hok
    have ha := addrLine_open env h hc hcur h2 (by omega)
    have hb := addrLine_open env h hc hcur h3 (by omega)
    refine ⟨s, ?_, h, hcur, rfl, rfl, rfl⟩
    simp only [processCommand, typ_setDefault, h1, ha, hb, bind, Except.bind, number_open h hc _ _ o1 o2 o3, lift]
    rfl
  | lineNo a =>
    obtain ⟨h1, h2⟩ := hs
    have ha := addrLine_open env h hc hcur h2 hok
    refine ⟨s, ?_, h, hcur, rfl, rfl, rfl⟩
    simp only [processCommand, typ_setDefault, h1, ha, bind, Except.bind]
    rfl

/-- The editor right after `e` on a file with these contents. -/
def openedOn (contents : Bytes) (cur : Int) : State :=
  { pt := Txt.newPieceTable contents true contents.length, filename := [], currentLine := cur, fs := fun _ => none, writes := 0 }

theorem openedOn_open (ls : List Bytes) (cur : Int) : ShowsOpen (openedOn (join [nl] ls) cur) ls := by
  have r : Txt.Reachable (openedOn (join [nl] ls) cur).pt := .new (join [nl] ls) true (join [nl] ls).length (Nat.le_refl _)
  refine ⟨r, ?_⟩
  rw [Txt.string_wf r.good.toWF]
  simp [openedOn, Txt.newPieceTable, Txt.content, Txt.Piece.text, Txt.src]

/-- **C80** What holds: a session none of whose commands touches the last line, on a buffer without a final
newline, prints what the reference editor prints and ends with its lines, and the last line still has no
newline. Blank lines are no exception here. Missing: commands on the last line, see below. -/
theorem C80_session_partial (env : Env) : ∀ (scs : List SCmd) (cs : List Command) {s : State} {st : LState},
    ShowsOpen s st.lines → OpenLines st.lines → s.currentLine = st.cur → st.lines.length < 2 ^ 62 →
    SaysAll cs scs → SessionKeepsLast st scs →
    ∃ s', runAll env s cs = .ok (s', sessionOutputs st scs) ∧ s'.pt.string = .ok (join [nl] (sessionEnd st scs).lines) ∧
      (sessionEnd st scs).lines.getLast? = st.lines.getLast? ∧
      s'.currentLine = (sessionEnd st scs).cur ∧ s'.fs = s.fs ∧ s'.filename = s.filename := by
  intro scs
  induction scs with
  | nil =>
    intro cs s st h hc hcur hlen hf hok
    cases cs with
    | nil => exact ⟨s, rfl, h.text, rfl, hcur, rfl, rfl⟩
    | cons c cs => exact hf.elim
  | cons sc scs ih =>
    intro cs s st h hc hcur hlen hf hok
    cases cs with
    | nil => exact hf.elim
    | cons c cs =>
      obtain ⟨h1, h2⟩ := hf
      obtain ⟨o1, o3, o4⟩ := hok
      obtain ⟨s1, e1, sh1, c1, f1, n1, _⟩ := step_open env h hc hcur hlen h1 o1 o3
      obtain ⟨s2, e2, sh2, g2, c2, f2, n2⟩ := ih _ (st := sc.next st) sh1 (keepsLast_open hc o1) c1 o3 h2 o4
      refine ⟨s2, ?_, sh2, g2.trans (keepsLast_last hc o1), c2, f2.trans f1, n2.trans n1⟩
      simp only [runAll, e1, e2, sessionOutputs]

/-- Lines for the examples. -/
def openDemo : List Bytes := [b!"one", b!"", b!"three"]

theorem openDemo_open : OpenLines openDemo := ⟨plain_of _ (by decide), by decide, by decide⟩

example : ∃ s', runAll demoEnv (openedOn b!"one\n\nthree" 3)
      [{ typ := .change, start := numAddr 1, end_ := numAddr 1, text := join [nl] [b!"x", b!"y"] },
       { typ := .print, start := numAddr 2, end_ := aLast }] = .ok (s', [b!"", b!"y\n\nthree"]) ∧
    s'.pt.string = .ok b!"x\ny\n\nthree" := by
  obtain ⟨s', h1, h2, _⟩ := C80_session_partial demoEnv [.change (.num 1) (.num 1) [b!"x", b!"y"], .print (.num 2) .last]
    [{ typ := .change, start := numAddr 1, end_ := numAddr 1, text := join [nl] [b!"x", b!"y"] },
     { typ := .print, start := numAddr 2, end_ := aLast }]
    (st := ⟨openDemo, 3⟩) (openedOn_open openDemo 3) openDemo_open rfl (by decide)
    ⟨⟨rfl, numAddr_denotes 1, numAddr_denotes 1, rfl⟩, ⟨rfl, numAddr_denotes 2, ⟨rfl, rfl⟩⟩, trivial⟩
    ⟨⟨⟨by decide, by decide, by decide⟩, by decide, demo_text⟩, by decide, ⟨by decide, by decide, by decide⟩, by decide, trivial⟩
  exact ⟨s', h1, h2⟩

/-- **C80** is false for appending: adding text after the last line of a buffer without a final newline
crashes, whatever the buffer, the way the line is named and the text. -/
theorem C80_append_crashes (env : Env) {s : State} {st : LState} (h : ShowsOpen s st.lines) (hc : OpenLines st.lines)
    (hcur : s.currentLine = st.cur) (hlen : st.lines.length < 2 ^ 62) (a : SAddr) (t : List Bytes) {c : Command}
    (hs : Says c (.append a t)) (ha : a.eval st = st.lines.length) : ∃ p, processCommand env s c = .error (.panic p) := by
  obtain ⟨h1, h2, h3⟩ := hs
  have e := addrLine_open env h hc hcur h2 (by omega)
  obtain ⟨p, hp⟩ := insert_past h hc (a.eval st + 1) (by omega) (by omega) (join [nl] t)
  refine ⟨p, ?_⟩
  simp only [processCommand, typ_setDefault, text_setDefault, h1, e, h3, bind, Except.bind]
  rw [wrap64_id (i := (a.eval st : Int) + 1) (by omega) (by omega), hp]
  rfl

example : ∃ p, processCommand demoEnv (openedOn b!"one\n\nthree" 3) { typ := .append, start := aLast, text := b!"x" } = .error (.panic p) :=
  C80_append_crashes demoEnv (st := ⟨openDemo, 3⟩) (openedOn_open openDemo 3) openDemo_open rfl (by decide) .last [b!"x"]
    ⟨rfl, ⟨rfl, rfl⟩, rfl⟩ rfl

/-- **C80** holds for deleting the last lines of a file nothing has been done to yet: what is left is exactly
the lines before. -/
theorem C80_delete_last_partial (env : Env) (pre mid : List Bytes) (hmid : mid ≠ []) (hc : OpenLines (pre ++ mid)) (cur : Nat)
    (hlen : (pre ++ mid).length < 2 ^ 62) (hsize : (unlines (pre ++ mid)).length < 2 ^ 63)
    {c : Command} (ht : c.typ = .delete) (ha : Denotes c.start (.num (pre.length + 1)))
    (b : SAddr) (hb : Denotes c.end_ b) (hbe : b.eval ⟨pre ++ mid, cur⟩ = (pre ++ mid).length) :
    ∃ s', processCommand env (openedOn (join [nl] (pre ++ mid)) cur) c = .ok (s', []) ∧ s'.pt.string = .ok (unlines pre) := by
  have h := openedOn_open (pre ++ mid) cur
  have hm : 0 < mid.length := List.length_pos_iff.2 hmid
  have hl : (pre ++ mid).length = pre.length + mid.length := by simp
  have hd : setDefaultAddresses c = c := setDefault_given c (by rw [ha.1]; decide)
  have ea : ∀ s : State, addrLine env s c.start = .ok ((pre.length + 1 : Nat) : Int) := by
    intro s
    obtain ⟨h1, h2, h3, h4, h5⟩ := ha
    simp only [addrLine, h1, h2, atoi_digits _ h3 h4, h5]
    rw [if_pos (by omega)]
    simp only [Int.add_zero]
    rw [wrap64_id (by omega) (by omega)]
  have eb := addrLine_open env (st := ⟨pre ++ mid, cur⟩) h hc rfl hb (by omega)
  rw [hbe] at eb
  have el : delete (openedOn (join [nl] (pre ++ mid)) cur) ((pre.length + 1 : Nat) : Int) ((pre ++ mid).length : Nat) =
      .ok { openedOn (join [nl] (pre ++ mid)) cur with
        pt := (openedOn (join [nl] (pre ++ mid)) cur).pt.delete (unlines mid).length (unlines pre).length } := by
    simp only [delete, wrap64_id (i := (((pre ++ mid).length : Nat) : Int) + 1) (by omega) (by omega),
      getLineAddr_open h hc (((pre.length + 1 : Nat)) : Int) (by omega) (by omega),
      getLineAddr_open h hc ((((pre ++ mid).length : Nat) : Int) + 1) (by omega) (by omega)]
    have e1 : (((pre.length + 1 : Nat) : Int) - 1).toNat = pre.length := by omega
    have e2 : ((((pre ++ mid).length : Nat) : Int) + 1 - 1).toNat = (pre ++ mid).length := by omega
    rw [e1, e2, List.take_length, List.take_left, unlines_append]
    congr 3
    simp only [List.length_append]
    omega
  refine ⟨{ openedOn (join [nl] (pre ++ mid)) cur with
    pt := (openedOn (join [nl] (pre ++ mid)) cur).pt.delete (unlines mid).length (unlines pre).length,
    currentLine := ((pre.length + 1 : Nat) : Int) }, ?_, ?_⟩
  · simp only [processCommand, hd, ht, ea, eb, bind, Except.bind, el, lift]
    rfl
  · show (Txt.PieceTable.delete _ _ _).string = _
    have hsplit : join [nl] (pre ++ mid) = unlines pre ++ join [nl] mid := join_append pre mid hmid
    have hjm : (unlines mid).length = (join [nl] mid).length + 1 := by
      cases mid with
      | nil => exact absurd rfl hmid
      | cons l ls => rw [← join_nl]; simp
    have := (Txt.C05_delete_past_end_partial h.reach h.text (unlines mid).length (unlines pre).length
      (by rw [hsplit]; simp) (by rw [hsplit, List.length_append]; omega)
      (by rw [unlines_append, List.length_append] at hsize; omega)).2 (join [nl] (pre ++ mid)) true (join [nl] (pre ++ mid)).length
      (Nat.le_refl _) rfl
    rw [this, hsplit, List.take_left]

example : ∃ s', processCommand demoEnv (openedOn b!"one\n\nthree" 3) { typ := .delete, start := numAddr 2, end_ := aLast } = .ok (s', []) ∧
    s'.pt.string = .ok b!"one\n" :=
  C80_delete_last_partial demoEnv [b!"one"] [b!"", b!"three"] (by decide) openDemo_open 3 (by decide) (by decide) rfl (numAddr_denotes 2) .last ⟨rfl, rfl⟩ rfl

/-- **C80** is false for deleting the last line once something has been inserted before it: in `"a\nb"`, after
inserting `x` before line 2, deleting line 3 leaves it there. -/
theorem C80_delete_last_fails :
    ∃ s' t, runAll demoEnv (openedOn b!"a\nb" 2)
        [{ typ := .insert, start := numAddr 2, text := b!"x" }, { typ := .delete, start := numAddr 3, end_ := numAddr 3 }] = .ok (s', t) ∧
      s'.pt.string = .ok b!"a\nx\nb" := by
  have key : (runAll demoEnv (openedOn b!"a\nb" 2)
      [{ typ := .insert, start := numAddr 2, text := b!"x" }, { typ := .delete, start := numAddr 3, end_ := numAddr 3 }]).map
        (fun r => r.1.pt.string) = .ok (.ok b!"a\nx\nb") := by decide +kernel
  cases h : runAll demoEnv (openedOn b!"a\nb" 2)
      [{ typ := .insert, start := numAddr 2, text := b!"x" }, { typ := .delete, start := numAddr 3, end_ := numAddr 3 }] with
  | error f => rw [h] at key; cases key
  | ok r => rw [h] at key; exact ⟨r.1, r.2, rfl, by simpa [Except.map] using key⟩

/-- **C80** `w` writes the lines as they are, without adding the missing newline. -/
theorem C80_write (env : Env) {s : State} {ls : List Bytes} (h : ShowsOpen s ls) (hp : OpenLines ls) (c : Command)
    (hc : c.typ = .write) (hok : (saveTrace (env.outcome s.writes) s.fs s.filename (join [nl] ls)).2 = none) :
    ∃ s', processCommand env s c = .ok (s', []) ∧ s'.fs s.filename = some (join [nl] ls) ∧ s'.filename = s.filename ∧
      ShowsOpen s' ls ∧ s'.currentLine = ls.length := by
  rw [C71_arguments_ignored env s c hc]
  have hfin := ((C70_outcome (env.outcome s.writes) s.fs s.filename (join [nl] ls)).1 hok).1
  let tr := saveTrace (env.outcome s.writes) s.fs s.filename (join [nl] ls)
  let s1 : State := { s with pt := s.pt.close, fs := finalFS s.fs tr.1, writes := s.writes + 1 }
  let s2 : State := { s1 with filename := s.filename, pt := Txt.newPieceTable (join [nl] ls) true (join [nl] ls).length }
  have sh : ShowsOpen s2 ls := ⟨(openedOn_open ls 0).reach, (openedOn_open ls 0).text⟩
  have hg := getLines_open sh hp
  have hw : write env s = .ok ({ s2 with currentLine := ls.length }, none) := by
    simp only [write, h.text, hok, edit, hfin]
    simp only [s2, s1, tr] at hg
    rw [hg]
  refine ⟨{ s2 with currentLine := ls.length }, ?_, hfin, rfl, ⟨sh.reach, sh.text⟩, rfl⟩
  have e : setDefaultAddresses { typ := .write } = { typ := .write, start := aCur, end_ := aLast } := rfl
  simp only [processCommand, e, hw]
  rfl

example : ∃ s', processCommand demoEnv { openedOn b!"one\n\nthree" 3 with filename := b!"f", fs := demoFS } { typ := .write } = .ok (s', []) ∧
    s'.fs b!"f" = some b!"one\n\nthree" := by
  obtain ⟨s', h1, h2, _⟩ := C80_write demoEnv (s := { openedOn b!"one\n\nthree" 3 with filename := b!"f", fs := demoFS }) (ls := openDemo)
    ⟨(openedOn_open openDemo 3).reach, (openedOn_open openDemo 3).text⟩ openDemo_open { typ := .write } rfl rfl
  exact ⟨s', h1, h2⟩

end Ed
