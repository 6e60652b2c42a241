import Verif.Ed.LongLines

/-! # C131, C132: buffers with carriage returns, and saving what was opened -/

namespace Ed
open Go

/-! ## Specification -/

/-- A line that ends in a carriage return (a line of a DOS file). -/
def isDos (l : Bytes) : Bool := l.getLast? == some cr

/-- How many of the lines end in a carriage return. -/
def returns (ls : List Bytes) : Nat := (ls.filter isDos).length

/-- A line without the carriage return it may end in. -/
def sansReturn (l : Bytes) : Bytes := if isDos l then l.dropLast else l

/-- Lines that may end in a carriage return; none is over-long and the last one shows something. -/
structure DosLines (ls : List Bytes) : Prop where
  noNL : ∀ l ∈ ls, nl ∉ l
  short : ∀ l ∈ ls, l.length < maxToken
  lastNe : ∀ l, ls.getLast? = some l → l ≠ [] ∧ l ≠ [cr]

/-- Where the editor takes the lines after the first `k` to begin: one byte too early for every carriage return before. -/
def startOf (ls : List Bytes) (k : Nat) : Nat := (unlines (ls.take k)).length - returns (ls.take k)

/-! ## Lemmas -/

theorem sansReturn_eq (l : Bytes) : sansReturn l = dropCR l := by
  simp only [sansReturn, dropCR, isDos, beq_iff_eq]

theorem returns_nil : returns [] = 0 := rfl

theorem returns_append (xs ys : List Bytes) : returns (xs ++ ys) = returns xs + returns ys := by
  simp [returns]

theorem returns_cons (l : Bytes) (ls : List Bytes) : returns (l :: ls) = (if isDos l then 1 else 0) + returns ls := by
  simp only [returns, List.filter_cons]
  split
  · simp; omega
  · simp

theorem sansReturn_length (l : Bytes) : (sansReturn l).length + (if isDos l then 1 else 0) = l.length := by
  simp only [sansReturn]
  split
  · rename_i h
    cases l with
    | nil => simp [isDos] at h
    | cons c l => simp
  · rfl

theorem width_returns (ls : List Bytes) : width (ls.map sansReturn) + returns ls = (unlines ls).length := by
  induction ls with
  | nil => rfl
  | cons l ls ih =>
    have := sansReturn_length l
    rw [returns_cons, List.map_cons, width, unlines, List.length_append, List.length_cons]
    omega

theorem startOf_eq (ls : List Bytes) (k : Nat) : width ((ls.map sansReturn).take k) = startOf ls k := by
  have := width_returns (ls.take k)
  rw [← List.map_take, startOf]
  omega

theorem scanTokens_dos (ls : List Bytes) (h : ∀ l ∈ ls, l.length < maxToken) : scanTokens ls = (ls.map sansReturn, false) := by
  induction ls with
  | nil => rfl
  | cons l ls ih =>
    rw [scanTokens, if_pos (h l (by simp)), ih (fun m hm => h m (by simp [hm]))]
    simp [sansReturn_eq]

theorem scanned_dos {s : State} {ls : List Bytes} (h : Shows s ls) (hd : DosLines ls) : scanned s = .ok (ls.map sansReturn) := by
  simp [scanned, h.text, scanLines, rawLines_unlines ls hd.noNL, scanTokens_dos ls hd.short]

theorem sansReturn_nil {l : Bytes} (h : sansReturn l = []) : l = [] ∨ l = [cr] := by
  simp only [sansReturn, isDos, beq_iff_eq] at h
  split at h
  · rename_i h2
    cases l with
    | nil => exact .inl rfl
    | cons c l =>
      cases l with
      | nil => simp at h2; exact .inr (by rw [h2])
      | cons d l => simp at h
  · exact .inl h

theorem dropBlank_dos {ls : List Bytes} (hd : DosLines ls) : dropBlank (ls.map sansReturn) = ls.map sansReturn := by
  refine dropBlank_clean fun h => ?_
  rw [List.getLast?_map] at h
  cases hl : ls.getLast? with
  | none => rw [hl] at h; cases h
  | some l =>
    rw [hl] at h
    rcases sansReturn_nil (by simpa using h) with h | h
    · exact (hd.lastNe l hl).1 h
    · exact (hd.lastNe l hl).2 h

theorem getLines_dos {s : State} {ls : List Bytes} (h : Shows s ls) (hd : DosLines ls) : getLines s = .ok (ls.map sansReturn) := by
  simp only [getLines, scanned_dos h hd, dropBlank_dos hd]

theorem getLineAddr_dos {s : State} {ls : List Bytes} (h : Shows s ls) (hd : DosLines ls) (k : Nat) (hk : k + 1 < 2 ^ 63) :
    getLineAddr s ((k : Int) + 1) = .ok (startOf ls k) := by
  simp only [getLineAddr, getLines_dos h hd, ← startOf_eq]
  split
  · rename_i hn
    rw [List.take_of_length_le (by omega)]
  · rename_i hn
    rw [wrap64_id (by omega) (by omega), if_pos (by omega), show ((k : Int) + 1 - 1).toNat = k by omega]

theorem addrLine_dos (env : Env) {s : State} {st : LState} (h : Shows s st.lines) (hd : DosLines st.lines)
    (hcur : s.currentLine = st.cur) {a : Address} {sa : SAddr} (hda : Denotes a sa) (hb : sa.eval st < 2 ^ 63) :
    addrLine env s a = .ok (sa.eval st) := by
  cases sa with
  | num n =>
    obtain ⟨h1, h2, h3, h4, h5⟩ := hda
    simp only [SAddr.eval] at hb ⊢
    simp only [addrLine, h1, h2, atoi_digits _ h3 h4, h5]
    rw [if_pos hb]
    simp only [Int.add_zero]
    rw [wrap64_id (by omega) (by omega)]
  | dot =>
    obtain ⟨h1, h2⟩ := hda
    simp only [SAddr.eval] at hb ⊢
    simp only [addrLine, h1, h2, hcur, Int.add_zero]
    rw [wrap64_id (by omega) (by omega)]
  | last =>
    obtain ⟨h1, h2⟩ := hda
    simp only [SAddr.eval] at hb ⊢
    simp only [addrLine, h1, h2, getLines_dos h hd, Int.add_zero, List.length_map]
    rw [wrap64_id (by omega) (by omega)]

theorem startOf_le (ls : List Bytes) (k : Nat) : startOf ls k ≤ (unlines ls).length := by
  have := congrArg List.length (unlines_split ls k)
  rw [List.length_append] at this
  rw [startOf]; omega

theorem returns_le (ls : List Bytes) : returns ls ≤ (unlines ls).length := by
  have := width_returns ls; omega

theorem startOf_mono (ls : List Bytes) {i j : Nat} (h : i ≤ j) : startOf ls i ≤ startOf ls j := by
  rw [← startOf_eq, ← startOf_eq]
  generalize ls.map sansReturn = ms
  have e := List.take_append_drop i (ms.take j)
  rw [List.take_take, Nat.min_eq_left h] at e
  rw [← e]
  simp only [width_eq, unlines_append, List.length_append]
  omega

/-! ## C131 -/

/-- An editor on a file with DOS line ends. -/
def dosDemo : List Bytes := [b!"ab\r", b!"cd", b!"ef\r"]

theorem dosDemo_ok : DosLines dosDemo := by
  refine ⟨by decide, ?_, ?_⟩
  · intro l hl; simp [dosDemo] at hl; rcases hl with rfl | rfl | rfl <;> decide
  · intro l hl; simp [dosDemo] at hl; subst hl; decide

/-- **C131** `p` and `n` show the lines without the carriage returns they end in, and there is nothing else different about them. -/
theorem C131_printed (env : Env) {s : State} {st : LState} (h : Shows s st.lines) (hd : DosLines st.lines) (hcur : s.currentLine = st.cur)
    (hlen : st.lines.length < 2 ^ 62) (a b : SAddr) (hr : InRange st a b) {c : Command} :
    (Says c (.print a b) → processCommand env s c = .ok (s, join [nl] ((linesFrom st.lines (a.eval st) (b.eval st)).map sansReturn))) ∧
    (Says c (.number a b) → processCommand env s c = .ok (s, numbered (a.eval st) ((linesFrom st.lines (a.eval st) (b.eval st)).map sansReturn))) := by
  obtain ⟨o1, o2, o3⟩ := hr
  have hmap : (linesFrom st.lines (a.eval st) (b.eval st)).map sansReturn = linesFrom (st.lines.map sansReturn) (a.eval st) (b.eval st) := by
    simp [linesFrom]
  rw [hmap]
  generalize hms : st.lines.map sansReturn = ms at *
  have hl : ms.length = st.lines.length := by rw [← hms, List.length_map]
  have hsc := hms ▸ scanned_dos h hd
  have hdb : dropBlank ms = ms := hms ▸ dropBlank_dos hd
  have hg := hms ▸ getLines_dos h hd
  constructor
  · rintro ⟨h1, h2, h3⟩
    have ha := addrLine_dos env h hd hcur h2 (by omega)
    have hb := addrLine_dos env h hd hcur h3 (by omega)
    have hp : print env s (a.eval st) (b.eval st) = .ok (join [nl] (linesFrom ms (a.eval st) (b.eval st))) := by
      simp only [print, hsc, hdb]
      rw [wrap64_id (by omega) (by omega), show ((a.eval st : Int) - 1) = ((a.eval st - 1 : Nat) : Int) by omega,
        slice_ok _ _ _ (by omega) (by simp; omega)]
      simp only [linesFrom]
      rw [List.take_append_of_le_length (by omega)]
    simp only [processCommand, typ_setDefault, h1, ha, hb, bind, Except.bind, hp, lift]
    rfl
  · rintro ⟨h1, h2, h3⟩
    have ha := addrLine_dos env h hd hcur h2 (by omega)
    have hb := addrLine_dos env h hd hcur h3 (by omega)
    have hn : number s (a.eval st) (b.eval st) = .ok (numbered (a.eval st) (linesFrom ms (a.eval st) (b.eval st))) := by
      simp only [number, hg]
      rw [if_neg (by omega), if_neg (by omega), numberLoop_ok (b.eval st) _ (a.eval st) (by simp; omega)]
      simp only [linesFrom]
      rw [show ((a.eval st : Int) - 1).toNat = a.eval st - 1 by omega, List.drop_take]
      congr 3
      omega
    simp only [processCommand, typ_setDefault, h1, ha, hb, bind, Except.bind, hn, lift]
    rfl

example : processCommand demoEnv (opened dosDemo 3) { typ := .print, start := numAddr 1, end_ := numAddr 3 } =
    .ok (opened dosDemo 3, b!"ab\ncd\nef") :=
  (C131_printed demoEnv (st := ⟨dosDemo, 3⟩) (opened_shows _ _) dosDemo_ok rfl (by decide) (.num 1) (.num 3) (by unfold InRange; decide)).1
    ⟨rfl, numAddr_denotes 1, numAddr_denotes 3⟩

theorem insert_dos {s : State} {ls : List Bytes} (h : Shows s ls) (hd : DosLines ls) (k : Nat) (hk : k + 1 < 2 ^ 63) (t : List Bytes) (ht : t ≠ []) :
    ∃ pt', insertBeforeLine s ((k : Int) + 1) (join [nl] t) = .ok { s with pt := pt' } ∧ Txt.Reachable pt' ∧
      pt'.string = .ok ((unlines ls).take (startOf ls k) ++ unlines t ++ (unlines ls).drop (startOf ls k)) := by
  simp only [insertBeforeLine, getLineAddr_dos h hd k hk]
  have e : join [nl] t ++ [nl] = unlines t := by
    cases t with
    | nil => exact absurd rfl ht
    | cons l t => exact join_nl l t
  rw [e]
  obtain ⟨pt', e1, r, t1⟩ := Txt.C01_insert_splices h.reach h.text (unlines t) (startOf ls k) (startOf_le ls k)
  exact ⟨pt', by rw [e1], r, t1⟩

/-- **C131** Expected: text goes in front of (`i`) or behind (`a`) the line named. What happens, exactly: for every line before that place that ends
in a carriage return it goes in one byte too early, into the middle of a line. -/
theorem C131_inserted (env : Env) {s : State} {st : LState} (h : Shows s st.lines) (hd : DosLines st.lines) (hcur : s.currentLine = st.cur)
    (hlen : st.lines.length < 2 ^ 62) (a : SAddr) (t : List Bytes) (ht : TextOK t) {c : Command} (k : Nat) (hk : k ≤ st.lines.length)
    (hc : Says c (.append a t) ∧ a.eval st = k ∨ Says c (.insert a t) ∧ a.eval st = k + 1) :
    ∃ s', processCommand env s c = .ok (s', []) ∧ Txt.Reachable s'.pt ∧
      s'.pt.string = .ok ((unlines st.lines).take (startOf st.lines k) ++ unlines t ++ (unlines st.lines).drop (startOf st.lines k)) := by
  obtain ⟨pt', e, r, ht'⟩ := insert_dos h hd k (by omega) t ht.ne
  rcases hc with ⟨⟨h1, h2, h3⟩, ek⟩ | ⟨⟨h1, h2, h3⟩, ek⟩
  · have ha := addrLine_dos env h hd hcur h2 (by omega)
    refine ⟨{ s with pt := pt', currentLine := wrap64 (wrap64 ((k : Int) + 1) + linesIn (join [nl] t)) }, ?_, r, ht'⟩
    rw [ek] at ha
    simp only [processCommand, typ_setDefault, text_setDefault, h1, ha, h3, bind, Except.bind]
    rw [wrap64_id (i := (k : Int) + 1) (by omega) (by omega), e]
    rfl
  · have ha := addrLine_dos env h hd hcur h2 (by omega)
    refine ⟨{ s with pt := pt' }, ?_, r, ht'⟩
    rw [ek, show ((k + 1 : Nat) : Int) = (k : Int) + 1 by omega] at ha
    simp only [processCommand, typ_setDefault, text_setDefault, h1, ha, h3, bind, Except.bind, e, lift]
    rfl

/-- `3i` with the text `x`: it comes to stand before the newline of `cd`, not after it. -/
example : ∃ s', processCommand demoEnv (opened dosDemo 3) { typ := .insert, start := numAddr 3, text := b!"x" } = .ok (s', []) ∧
    s'.pt.string = .ok b!"ab\r\ncdx\n\nef\r\n" := by
  obtain ⟨s', h1, _, h2⟩ := C131_inserted demoEnv (st := ⟨dosDemo, 3⟩) (opened_shows _ _) dosDemo_ok rfl (by decide) (.num 3) [b!"x"]
    ⟨by decide, plain_of _ (by decide)⟩ (c := { typ := .insert, start := numAddr 3, text := b!"x" }) 2 (by decide)
    (.inr ⟨⟨rfl, numAddr_denotes 3, rfl⟩, rfl⟩)
  exact ⟨s', h1, h2⟩

/-- **C131** What a delete removes, exactly: it begins one byte too early for every line before the first that ends in a carriage return, and ends one
byte too early for every such line before or among those to be deleted. -/
theorem C131_deleted (env : Env) {s : State} {st : LState} (h : Shows s st.lines) (hd : DosLines st.lines) (hcur : s.currentLine = st.cur)
    (hlen : st.lines.length < 2 ^ 62) (a b : SAddr) (hr : InRange st a b) (hna : a ≠ .last) {c : Command} (hc : Says c (.delete a b)) :
    ∃ s', processCommand env s c = .ok (s', []) ∧ Txt.Reachable s'.pt ∧ s'.currentLine = a.eval st ∧
      s'.pt.string = .ok ((unlines st.lines).take (startOf st.lines (a.eval st - 1)) ++ (unlines st.lines).drop (startOf st.lines (b.eval st))) := by
  obtain ⟨h1, h2, h3⟩ := hc
  obtain ⟨o1, o2, o3⟩ := hr
  have ha := addrLine_dos env h hd hcur h2 (by omega)
  have hb := addrLine_dos env h hd hcur h3 (by omega)
  have ga := getLineAddr_dos h hd (a.eval st - 1) (by omega)
  have gb := getLineAddr_dos h hd (b.eval st) (by omega)
  rw [show ((a.eval st - 1 : Nat) : Int) + 1 = (a.eval st : Int) by omega] at ga
  have hle := startOf_mono st.lines (i := a.eval st - 1) (j := b.eval st) (by omega)
  have hle2 := startOf_le st.lines (b.eval st)
  generalize hA : startOf st.lines (a.eval st - 1) = A at *
  generalize hB : startOf st.lines (b.eval st) = B at *
  have again : ∀ pt, addrLine env { s with pt := pt } (setDefaultAddresses c).start = .ok (a.eval st) := by
    intro pt
    cases a with
    | num n => rw [← ha]; simp [addrLine, h2.1]
    | dot => rw [← ha]; simp [addrLine, h2.1]
    | last => exact absurd rfl hna
  have hdel : delete s (a.eval st) (b.eval st) = .ok { s with pt := s.pt.delete ((B - A : Nat) : Int) A } := by
    simp only [delete, ga, wrap64_id (i := (b.eval st : Int) + 1) (by omega) (by omega), gb]
    congr 3
    omega
  refine ⟨{ s with pt := s.pt.delete ((B - A : Nat) : Int) A, currentLine := a.eval st }, ?_,
    reachable_delete h.reach h.text (B - A) A (by omega), rfl, ?_⟩
  · simp only [processCommand, typ_setDefault, h1, ha, hb, bind, Except.bind, hdel, lift, again]
    rfl
  · show (s.pt.delete _ _).string = _
    rw [Txt.C02_delete_cuts h.reach h.text _ _ (by omega), show A + (B - A) = B by omega]

/-- `3d` after two DOS lines: instead of `ef` and its newline the end of line 2 and the `e` go. -/
example : ∃ s', processCommand demoEnv (opened [b!"ab\r", b!"cd\r", b!"ef", b!"gh"] 4) { typ := .delete, start := numAddr 3, end_ := numAddr 3 } = .ok (s', []) ∧
    s'.pt.string = .ok b!"ab\r\ncdf\ngh\n" := by
  obtain ⟨s', h1, _, _, h2⟩ := C131_deleted demoEnv (st := ⟨[b!"ab\r", b!"cd\r", b!"ef", b!"gh"], 4⟩) (opened_shows _ _)
    ⟨by decide, by (intro l hl; simp at hl; rcases hl with rfl | rfl | rfl | rfl <;> decide), by (intro l hl; simp at hl; subst hl; decide)⟩ rfl (by decide)
    (.num 3) (.num 3) (by unfold InRange; decide) (by decide) (c := { typ := .delete, start := numAddr 3, end_ := numAddr 3 })
    ⟨rfl, numAddr_denotes 3, numAddr_denotes 3⟩
  exact ⟨s', h1, h2⟩

/-- **C131** The place is right exactly when none of the lines before it ends in a carriage return. -/
theorem C131_place (pre post : List Bytes) : startOf (pre ++ post) pre.length = (unlines pre).length ↔ ∀ l ∈ pre, isDos l = false := by
  have h1 := returns_le pre
  simp only [startOf, List.take_left]
  have h2 : returns pre = 0 ↔ ∀ l ∈ pre, isDos l = false := by
    simp [returns]
  rw [← h2]; omega

theorem dosLines_take_drop (pre post : List Bytes) (h : ∀ l ∈ pre, isDos l = false) :
    (unlines (pre ++ post)).take (startOf (pre ++ post) pre.length) = unlines pre ∧
    (unlines (pre ++ post)).drop (startOf (pre ++ post) pre.length) = unlines post := by
  rw [(C131_place pre post).2 h, unlines_append]
  simp

/-- **C131** (the part that holds) Text goes in where it should if no line before that place ends in a carriage return, and lines are deleted as they
should be if in addition none of these does; whatever the lines after look like. -/
theorem C131_edits_partial (env : Env) {s : State} {st : LState} (h : Shows s st.lines) (hd : DosLines st.lines) (hcur : s.currentLine = st.cur)
    (hlen : st.lines.length < 2 ^ 62) (a b : SAddr) (t : List Bytes) (ht : TextOK t) {c : Command} :
    (∀ pre post, st.lines = pre ++ post → (∀ l ∈ pre, isDos l = false) →
      (Says c (.append a t) ∧ a.eval st = pre.length ∨ Says c (.insert a t) ∧ a.eval st = pre.length + 1) →
      ∃ s', processCommand env s c = .ok (s', []) ∧ Shows s' (pre ++ t ++ post)) ∧
    (∀ pre mid post, st.lines = pre ++ mid ++ post → mid ≠ [] → (∀ l ∈ pre ++ mid, isDos l = false) → a ≠ .last →
      Says c (.delete a b) → a.eval st = pre.length + 1 → b.eval st = pre.length + mid.length →
      ∃ s', processCommand env s c = .ok (s', []) ∧ Shows s' (pre ++ post)) := by
  constructor
  · intro pre post e hn hc
    obtain ⟨s', h1, h2, h3⟩ := C131_inserted env h hd hcur hlen a t ht pre.length (by rw [e]; simp) hc
    refine ⟨s', h1, h2, ?_⟩
    obtain ⟨e1, e2⟩ := dosLines_take_drop pre post hn
    rw [h3, e, e1, e2, unlines_append, unlines_append]
  · intro pre mid post e hm hn hna hc ea eb
    have hmid : 1 ≤ mid.length := by cases mid with
      | nil => exact absurd rfl hm
      | cons _ _ => simp
    obtain ⟨s', h1, h2, _, h3⟩ := C131_deleted env h hd hcur hlen a b ⟨by omega, by omega, by rw [e, eb]; simp⟩ hna hc
    refine ⟨s', h1, h2, ?_⟩
    obtain ⟨e1, -⟩ := dosLines_take_drop pre (mid ++ post) (fun l hl => hn l (by simp [hl]))
    obtain ⟨-, e2⟩ := dosLines_take_drop (pre ++ mid) post hn
    rw [List.length_append] at e2
    rw [h3, e, ea, eb, e2, Nat.add_sub_cancel, List.append_assoc, e1, unlines_append]

example : ∃ s', processCommand demoEnv (opened [b!"ab", b!"cd", b!"ef\r"] 3) { typ := .delete, start := numAddr 2, end_ := numAddr 2 } = .ok (s', []) ∧
    Shows s' [b!"ab", b!"ef\r"] :=
  (C131_edits_partial demoEnv (st := ⟨[b!"ab", b!"cd", b!"ef\r"], 3⟩) (opened_shows _ _)
    ⟨by decide, by (intro l hl; simp at hl; rcases hl with rfl | rfl | rfl <;> decide), by (intro l hl; simp at hl; subst hl; decide)⟩ rfl (by decide)
    (.num 2) (.num 2) [b!"x"] ⟨by decide, plain_of _ (by decide)⟩).2 [b!"ab"] [b!"cd"] [b!"ef\r"] rfl (by decide) (by decide) (by decide)
    ⟨rfl, numAddr_denotes 2, numAddr_denotes 2⟩ rfl rfl

/-- **C131** is false: deleting the first line of a DOS file leaves a blank line in its place, whatever the file. -/
theorem C131_first_line (env : Env) {s : State} {x : Bytes} {rest : List Bytes} (h : Shows s ((x ++ [cr]) :: rest)) (hd : DosLines ((x ++ [cr]) :: rest))
    (cur : Nat) (hcur : s.currentLine = cur) (hlen : rest.length + 1 < 2 ^ 62) {c : Command} (hc : Says c (.delete (.num 1) (.num 1))) :
    ∃ s', processCommand env s c = .ok (s', []) ∧ Shows s' ([] :: rest) := by
  obtain ⟨s', h1, h2, _, h3⟩ := C131_deleted env (st := ⟨(x ++ [cr]) :: rest, cur⟩) h hd hcur (by simpa using hlen) (.num 1) (.num 1)
    ⟨by simp [SAddr.eval], by simp [SAddr.eval], by simp [SAddr.eval]⟩ (by simp) hc
  refine ⟨s', h1, h2, ?_⟩
  rw [h3]
  have e : startOf ((x ++ [cr]) :: rest) 1 = (x ++ [cr]).length := by
    simp [startOf, returns, isDos, unlines]
  simp only [SAddr.eval, Nat.sub_self, e]
  simp [startOf, returns, unlines]

example : ∃ s', processCommand demoEnv (opened dosDemo 3) { typ := .delete, start := numAddr 1, end_ := numAddr 1 } = .ok (s', []) ∧
    Shows s' [b!"", b!"cd", b!"ef\r"] :=
  C131_first_line demoEnv (x := b!"ab") (opened_shows _ _) dosDemo_ok 3 rfl (by decide) ⟨rfl, numAddr_denotes 1, numAddr_denotes 1⟩

/-- **C131** `1,$d` leaves as many bytes as there are lines ending in a carriage return: the buffer is empty afterwards exactly if there is none. -/
theorem C131_all_deleted (env : Env) {s : State} {st : LState} (h : Shows s st.lines) (hd : DosLines st.lines) (hcur : s.currentLine = st.cur)
    (hlen : st.lines.length < 2 ^ 62) (hne : st.lines ≠ []) {c : Command} (hc : Says c (.delete (.num 1) .last)) :
    ∃ s' t, processCommand env s c = .ok (s', []) ∧ s'.pt.string = .ok t ∧ t.length = returns st.lines ∧
      (t = [] ↔ ∀ l ∈ st.lines, isDos l = false) := by
  have hl : 1 ≤ st.lines.length := by
    cases hx : st.lines with
    | nil => exact absurd hx hne
    | cons _ _ => simp
  obtain ⟨s', h1, h2, _, h3⟩ := C131_deleted env h hd hcur hlen (.num 1) .last ⟨by simp [SAddr.eval], by simpa [SAddr.eval] using hl, by simp [SAddr.eval]⟩
    (by simp) hc
  refine ⟨s', _, h1, h3, ?_, ?_⟩
  all_goals
    have hr := returns_le st.lines
    simp only [SAddr.eval, startOf, List.take_length, Nat.sub_self, List.take_zero, unlines, List.length_nil, Nat.zero_sub, List.nil_append]
  · rw [List.length_drop]; omega
  · rw [List.drop_eq_nil_iff, show ((unlines st.lines).length ≤ (unlines st.lines).length - returns st.lines) ↔ returns st.lines = 0 by
      constructor
      · intro hh; omega
      · intro hh; omega]
    simp [returns]

example : ∃ s' t, processCommand demoEnv (opened dosDemo 3) { typ := .delete, start := numAddr 1, end_ := aLast } = .ok (s', []) ∧
    s'.pt.string = .ok t ∧ t.length = 2 := by
  obtain ⟨s', t, h1, h2, h3, _⟩ := C131_all_deleted demoEnv (st := ⟨dosDemo, 3⟩) (opened_shows _ _) dosDemo_ok rfl (by decide) (by decide)
    (c := { typ := .delete, start := numAddr 1, end_ := aLast }) ⟨rfl, numAddr_denotes 1, ⟨rfl, rfl⟩⟩
  exact ⟨s', t, h1, h2, h3⟩

/-! ## C132 -/

/-- The lines a file is shown as: cut at the newlines, without final carriage returns; one blank line at the end does not count. -/
def shownAs (t : Bytes) : List Bytes := dropBlank ((rawLines t).map sansReturn)

theorem scanTokens_short {ls : List Bytes} (h : (scanTokens ls).2 = false) : ∀ l ∈ ls, l.length < maxToken := by
  induction ls with
  | nil => simp
  | cons l ls ih =>
    rw [scanTokens] at h
    split at h
    · rename_i hl
      intro m hm
      rcases List.mem_cons.1 hm with rfl | hm
      · exact hl
      · exact ih h m hm
    · cases h

theorem getLines_any {s : State} {t : Bytes} (h : s.pt.string = .ok t) (hl : ¬ Long t) : getLines s = .ok (shownAs t) := by
  have h2 : (scanLines t).2 = false := by
    cases hx : (scanLines t).2 with
    | false => rfl
    | true => exact absurd ((scan_long_iff t).1 hx) hl
  have h3 := scanTokens_dos (rawLines t) (scanTokens_short h2)
  simp [getLines, scanned, h, scanLines, h3, shownAs]

/-- **C132** `w` on any buffer (no line over-long, any bytes, the last line terminated or not) that can be saved: the file holds exactly the bytes of the
buffer, so does the buffer afterwards, the current line is the last, no other file has changed and there is no temporary file. -/
theorem C132_write (env : Env) {s : State} {t : Bytes} (ht : s.pt.string = .ok t) (hl : ¬ Long t) (c : Command)
    (hc : c.typ = .write) (hok : (saveTrace (env.outcome s.writes) s.fs s.filename t).2 = none) :
    ∃ s', processCommand env s c = .ok (s', []) ∧ s'.fs s.filename = some t ∧ s'.filename = s.filename ∧
      Txt.Reachable s'.pt ∧ s'.pt.string = .ok t ∧ s'.currentLine = (shownAs t).length ∧ s'.writes = s.writes + 1 ∧
      (∀ n, n ≠ s.filename → n ≠ tmpName s.filename → s'.fs n = s.fs n) ∧ s'.fs (tmpName s.filename) = none := by
  rw [C71_arguments_ignored env s c hc]
  obtain ⟨hfin, htmp⟩ := (C70_outcome (env.outcome s.writes) s.fs s.filename t).1 hok
  let tr := saveTrace (env.outcome s.writes) s.fs s.filename t
  let s1 : State := { s with pt := s.pt.close, fs := finalFS s.fs tr.1, writes := s.writes + 1 }
  let s2 : State := { s1 with filename := s.filename, pt := Txt.newPieceTable t true t.length }
  have r : Txt.Reachable s2.pt := .new t true t.length (Nat.le_refl _)
  have hs2 : s2.pt.string = .ok t := by
    rw [Txt.string_wf r.good.toWF]
    simp [s2, Txt.newPieceTable, Txt.content, Txt.Piece.text, Txt.src]
  have hg := getLines_any hs2 hl
  have hw : write env s = .ok ({ s2 with currentLine := (shownAs t).length }, none) := by
    simp only [write, ht, hok, edit, hfin]
    simp only [s2, s1, tr] at hg
    rw [hg]
  refine ⟨{ s2 with currentLine := (shownAs t).length }, ?_, hfin, rfl, r, hs2, rfl, rfl, ?_, htmp⟩
  · have e : setDefaultAddresses { typ := .write } = { typ := .write, start := aCur, end_ := aLast } := rfl
    simp only [processCommand, e, hw]
    rfl
  · intro n h1 h2
    show finalFS s.fs tr.1 n = s.fs n
    simp only [finalFS]
    cases hlast : tr.1.getLast? with
    | none => rfl
    | some g => exact (C70_atomic _ _ _ _ g (List.mem_of_getLast? hlast)).2 n h1 h2

/-- **C132** `e f` and then `w` change nothing: whatever is in the file, it holds the same bytes afterwards and so do all others (except that there is no
`f.swp` any more). -/
theorem C132_open_and_save (env : Env) (s : State) {name t : Bytes} (hfs : s.fs name = some t) (hl : ¬ Long t) (w : Command) (hw : w.typ = .write)
    (hok : (saveTrace (env.outcome s.writes) s.fs name t).2 = none) :
    ∃ s', runAll env s [{ typ := .edit, params := [name] }, w] = .ok (s', [[], []]) ∧ s'.filename = name ∧ s'.pt.string = .ok t ∧
      (∀ n, n ≠ tmpName name → s'.fs n = s.fs n) ∧ s'.fs (tmpName name) = none := by
  let s1 : State := { s with filename := name, pt := Txt.newPieceTable t true t.length }
  have r : Txt.Reachable s1.pt := .new t true t.length (Nat.le_refl _)
  have hs1 : s1.pt.string = .ok t := by
    rw [Txt.string_wf r.good.toWF]
    simp [s1, Txt.newPieceTable, Txt.content, Txt.Piece.text, Txt.src]
  have hg := getLines_any hs1 hl
  let s2 : State := { s1 with currentLine := (shownAs t).length }
  have he : processCommand env s { typ := .edit, params := [name] } = .ok (s2, []) := by
    have e : (setDefaultAddresses { typ := .edit, params := [name] }).params = [name] := rfl
    simp only [processCommand, typ_setDefault, e, List.headD_cons, edit, hfs]
    simp only [s1] at hg
    rw [hg]
    rfl
  obtain ⟨s', h1, h2, h3, _, h4, _, _, h5, h6⟩ := C132_write env (s := s2) hs1 hl w hw hok
  refine ⟨s', by simp only [runAll, he, h1], h3, h4, fun n hn => ?_, h6⟩
  by_cases hx : n = name
  · subst hx; exact h2.trans hfs.symm
  · exact h5 n hx hn

/-- **C132** Saving twice is saving once: the second `w` leaves every file and the buffer as they were. -/
theorem C132_write_again (env : Env) {s : State} {t : Bytes} (ht : s.pt.string = .ok t) (hl : ¬ Long t) (c d : Command)
    (hc : c.typ = .write) (hd : d.typ = .write) (hok : (saveTrace (env.outcome s.writes) s.fs s.filename t).2 = none)
    (hok2 : ∀ fs, fs s.filename ≠ none → (saveTrace (env.outcome (s.writes + 1)) fs s.filename t).2 = none) :
    ∃ s1 s2, processCommand env s c = .ok (s1, []) ∧ runAll env s [c, d] = .ok (s2, [[], []]) ∧ s2.fs = s1.fs ∧
      s2.pt.string = s1.pt.string ∧ s2.currentLine = s1.currentLine ∧ s2.filename = s1.filename := by
  obtain ⟨s1, h1, h2, h3, _, h4, h5, h6, _, h7⟩ := C132_write env ht hl c hc hok
  obtain ⟨s2, g1, g2, g3, _, g4, g5, _, g6, g7⟩ := C132_write env h4 hl d hd (by rw [h6, h3]; exact hok2 _ (by rw [h2]; simp))
  refine ⟨s1, s2, h1, by simp only [runAll, h1, g1], ?_, by rw [g4, h4], by rw [g5, h5], by rw [g3]⟩
  funext n
  rw [h3] at g2 g6 g7
  by_cases e1 : n = s.filename
  · rw [e1, g2, h2]
  · by_cases e2 : n = tmpName s.filename
    · rw [e2, g7, h7]
    · exact g6 n e1 e2

/-- A DOS file whose last line has no newline. -/
def dosFS : FS := fun n => if n = b!"f" then some b!"a\r\n\r\nb" else none

example (s : State) (hs : s.fs = dosFS) : ∃ s', runAll demoEnv s [{ typ := .edit, params := [b!"f"] }, { typ := .write }] = .ok (s', [[], []]) ∧
    s'.fs b!"f" = some b!"a\r\n\r\nb" := by
  obtain ⟨s', h1, _, _, h2, _⟩ := C132_open_and_save demoEnv s (name := b!"f") (t := b!"a\r\n\r\nb") (by rw [hs]; rfl)
    (by rw [← scan_long_iff]; decide +kernel) { typ := .write } rfl (by rw [hs]; rfl)
  exact ⟨s', h1, by rw [h2 _ (by decide), hs]; rfl⟩

example : ∃ s1 s2, processCommand demoEnv twoLines { typ := .write } = .ok (s1, []) ∧
    runAll demoEnv twoLines [{ typ := .write }, { typ := .write }] = .ok (s2, [[], []]) ∧ s2.fs = s1.fs := by
  obtain ⟨s1, s2, h1, h2, h3, _⟩ := C132_write_again demoEnv (s := twoLines) (t := unlines [b!"one", b!"two"]) (opened_shows [b!"one", b!"two"] 2).text
    (by rw [← scan_long_iff]; decide +kernel) { typ := .write } { typ := .write } rfl rfl rfl (fun fs h => by
      simp only [saveTrace, statError, demoEnv, if_neg (show ¬ fs twoLines.filename = none from h)])
  exact ⟨s1, s2, h1, h2, h3⟩

end Ed
