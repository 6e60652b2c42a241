import Verif.Ed.Lemmas

/-! # C59–C63, C65: editing behaves like editing a list of lines -/

namespace Ed
open Go

/-! ## A concrete editor used in the examples -/

/-- An environment: `CompilePOSIX` accepts everything and matches lines containing the pattern's first
byte; system calls succeed. -/
def demoEnv : Env :=
  { compile := fun re => some (fun l => re.head?.any l.contains), cap := fun n => n, openErr := fun _ => b!"no such file"
    outcome := fun _ => {} }

/-- An editor that opened a file with the given lines. -/
def opened (ls : List Bytes) (cur : Int) : State :=
  { pt := Txt.newPieceTable (unlines ls) true (unlines ls).length, filename := b!"f", currentLine := cur
    fs := fun n => if n = b!"f" then some (unlines ls) else none, writes := 0 }

theorem opened_shows (ls : List Bytes) (cur : Int) : Shows (opened ls cur) ls := by
  have r : Txt.Reachable (opened ls cur).pt := .new (unlines ls) true (unlines ls).length (Nat.le_refl _)
  refine ⟨r, ?_⟩
  rw [Txt.string_wf r.good.toWF]
  simp [opened, Txt.newPieceTable, Txt.content, Txt.Piece.text, Txt.src]

theorem plain_ascii (l : Bytes) (h1 : nl ∉ l) (h2 : l.getLast? ≠ some cr) (h3 : l.length < 100) : PlainLine l :=
  ⟨h1, h2, by simp [maxToken]; omega⟩

/-- The lines of the examples. -/
def demoLines : List Bytes := [b!"one", b!"", b!"three", b!"four"]

theorem demo_clean : Clean demoLines :=
  ⟨by intro l hl; simp [demoLines] at hl; rcases hl with rfl | rfl | rfl | rfl <;> exact plain_ascii _ (by decide) (by decide) (by decide),
    by decide⟩

/-! ## C59 -/

/-- **C59** In a clean buffer the offset of line `n` (1 ≤ n ≤ number of lines) is where that line starts:
the text is what precedes it, the line, a newline and what follows, and what precedes is the first `n-1`
lines. Any larger line number is the end of the text; zero and negative ones are its start. -/
theorem C59_line_offsets {s : State} {ls : List Bytes} (h : Shows s ls) (hc : Clean ls) :
    (∀ (pre : List Bytes) (l : Bytes) (post : List Bytes), ls = pre ++ l :: post → pre.length + 1 < 2 ^ 63 →
      getLineAddr s (pre.length + 1) = .ok (unlines pre).length ∧
      s.pt.string = .ok (unlines pre ++ (l ++ [nl] ++ unlines post))) ∧
    (∀ n : Int, ls.length < n → n < 2 ^ 63 → ∀ t, s.pt.string = .ok t → getLineAddr s n = .ok t.length) ∧
    (∀ n : Int, -2 ^ 63 < n → n ≤ 0 → getLineAddr s n = .ok 0) := by
  refine ⟨fun pre l post e hb => ?_, fun n hn hb t ht => ?_, fun n hb hn => ?_⟩
  · have hb' : (pre.length : Int) + 1 < 2 ^ 63 := by omega
    rw [getLineAddr_shows h hc.plain _ (by omega) hb', dropBlank_clean hc.lastNe, h.text, e]
    simp [unlines_append, unlines]
  · rw [getLineAddr_shows h hc.plain _ (by omega) hb, dropBlank_clean hc.lastNe, List.take_of_length_le (by omega)]
    rw [h.text] at ht
    cases ht; rfl
  · rw [getLineAddr_shows h hc.plain _ hb (by omega)]
    have : (n - 1).toNat = 0 := by omega
    simp [this, unlines]

example : getLineAddr (opened demoLines 4) 3 = .ok 5 ∧ getLineAddr (opened demoLines 4) 9 = .ok 16 :=
  ⟨((C59_line_offsets (opened_shows demoLines 4) demo_clean).1 [b!"one", b!""] b!"three" [b!"four"] rfl (by decide)).1,
    (C59_line_offsets (opened_shows demoLines 4) demo_clean).2.1 9 (by decide) (by decide) _ (opened_shows _ _).text⟩

/-- **C59** is false without the hypothesis on the last line: with a blank last line, line number 2 of
`"a\n\n"` and every later one is given the offset of that blank line, and `$` is 1. -/
theorem C59_trailing_blank (env : Env) (cur : Int) :
    getLineAddr (opened [b!"a", b!""] cur) 2 = .ok 2 ∧ getLineAddr (opened [b!"a", b!""] cur) 3 = .ok 2 ∧
    addrLine env (opened [b!"a", b!""] cur) aLast = .ok 1 := by
  have hs := opened_shows [b!"a", b!""] cur
  have hp : ∀ l ∈ [b!"a", b!""], PlainLine l := by
    intro l hl; simp at hl; rcases hl with rfl | rfl <;> exact plain_ascii _ (by decide) (by decide) (by decide)
  refine ⟨?_, ?_, ?_⟩
  · rw [getLineAddr_shows hs hp _ (by decide) (by decide)]; decide
  · rw [getLineAddr_shows hs hp _ (by decide) (by decide)]; decide
  · have : dropBlank [b!"a", b!""] = [b!"a"] := by decide
    simp only [addrLine, aLast, getLines_shows hs hp, this]
    decide

/-! ## One command -/

theorem addrLine_denotes (env : Env) {s : State} {st : LState} (h : Shows s st.lines) (hc : Clean st.lines)
    (hcur : s.currentLine = st.cur) {a : Address} {sa : SAddr} (hd : Denotes a sa) (hb : sa.eval st < 2 ^ 63) :
    addrLine env s a = .ok (sa.eval st) := by
  cases sa with
  | num n =>
    obtain ⟨h1, h2, h3, h4, h5⟩ := hd
    simp only [SAddr.eval] at hb ⊢
    simp only [addrLine, h1, h2, atoi_digits _ h3 h4, h5]
    rw [if_pos hb]
    simp only [Int.add_zero]
    rw [wrap64_id (by omega) (by omega)]
  | dot =>
    obtain ⟨h1, h2⟩ := hd
    simp only [SAddr.eval] at hb ⊢
    simp only [addrLine, h1, h2, hcur, Int.add_zero]
    rw [wrap64_id (by omega) (by omega)]
  | last =>
    obtain ⟨h1, h2⟩ := hd
    simp only [SAddr.eval] at hb ⊢
    simp only [addrLine, h1, h2, getLines_shows h hc.plain, dropBlank_clean hc.lastNe, Int.add_zero]
    rw [wrap64_id (by omega) (by omega)]

theorem typ_setDefault (c : Command) : (setDefaultAddresses c).typ = c.typ := by
  grind [setDefaultAddresses]

theorem text_setDefault (c : Command) : (setDefaultAddresses c).text = c.text := by
  grind [setDefaultAddresses]

theorem print_shows (env : Env) {s : State} {ls : List Bytes} (h : Shows s ls) (hc : Clean ls) (a b : Nat)
    (h1 : 1 ≤ a) (h2 : a ≤ b) (h3 : b ≤ ls.length) (hb : b < 2 ^ 63) :
    print env s a b = .ok (join [nl] (linesFrom ls a b)) := by
  simp only [print, scanned_shows h hc.plain, dropBlank_clean hc.lastNe]
  rw [wrap64_id (by omega) (by omega)]
  have : ((a : Int) - 1) = ((a - 1 : Nat) : Int) := by omega
  rw [this, slice_ok _ _ _ (by omega) (by simp; omega)]
  simp only [linesFrom]
  rw [List.take_append_of_le_length h3]

theorem numberLoop_ok (e : Nat) : ∀ (ls : List Bytes) (i : Nat), e + 1 ≤ i + ls.length →
    numberLoop e i ls = .ok (numbered i (ls.take (e + 1 - i))) := by
  intro ls
  induction ls with
  | nil => intro i hi; simp at hi; simp [numberLoop, numbered]; omega
  | cons l ls ih =>
    intro i hi
    simp only [numberLoop]
    by_cases h : (i : Int) > e
    · rw [if_pos h]
      have : e + 1 - i = 0 := by omega
      simp [this, numbered]
    · rw [if_neg h]
      have := ih (i + 1) (by simp at hi; omega)
      have hcast : ((i + 1 : Nat) : Int) = (i : Int) + 1 := by omega
      rw [hcast] at this
      rw [this]
      have h2 : e + 1 - i = (e + 1 - (i + 1)) + 1 := by omega
      rw [h2]
      simp [numbered]

theorem number_shows {s : State} {ls : List Bytes} (h : Shows s ls) (hc : Clean ls) (a b : Nat)
    (h1 : 1 ≤ a) (h2 : a ≤ b) (h3 : b ≤ ls.length) :
    number s a b = .ok (numbered a (linesFrom ls a b)) := by
  simp only [number, getLines_shows h hc.plain, dropBlank_clean hc.lastNe]
  rw [if_neg (by omega), if_neg (by omega), numberLoop_ok b _ a (by simp; omega)]
  simp only [linesFrom]
  have : ((a : Int) - 1).toNat = a - 1 := by omega
  rw [this, List.drop_take]
  congr 3
  omega

theorem linesIn_join (t : List Bytes) (h : TextOK t) : linesIn (join [nl] t) = t.length := by
  have aux : ∀ (t : List Bytes), (∀ l ∈ t, nl ∉ l) → (unlines t).count nl = t.length := by
    intro t
    induction t with
    | nil => intro _; rfl
    | cons l t ih =>
      intro hl
      have h1 := ih (fun m hm => hl m (by simp [hm]))
      have h2 := List.count_eq_zero_of_not_mem (hl l (by simp))
      simp only [unlines, List.count_append, List.count_cons, List.count_nil, List.length_cons]
      simp
      omega
  cases t with
  | nil => exact absurd rfl h.ne
  | cons l t =>
    have h1 := aux (l :: t) (fun m hm => (h.plain m hm).noNL)
    rw [← join_nl] at h1
    simp only [linesIn]
    simp at h1 ⊢
    omega

/-- One command of the code against one command of the reference editor. -/
theorem step_refines (env : Env) {s : State} {st : LState} (h : Shows s st.lines) (hc : Clean st.lines)
    (hcur : s.currentLine = st.cur) (hlen : st.lines.length < 2 ^ 62) {c : Command} {sc : SCmd} (hs : Says c sc)
    (hok : sc.Ok st) (hc' : Clean (sc.newLines st)) (hlen' : (sc.newLines st).length < 2 ^ 62) :
    ∃ s', processCommand env s c = .ok (s', sc.output st) ∧ Shows s' (sc.newLines st) ∧
      s'.currentLine = sc.newCur st ∧ s'.fs = s.fs ∧ s'.filename = s.filename ∧ s'.writes = s.writes := by
  cases sc with
  | append a t =>
    obtain ⟨h1, h2, h3⟩ := hs
    obtain ⟨o1, o2⟩ := hok
    have ha := addrLine_denotes env h hc hcur h2 (by omega)
    have hnl : t.length ≤ (SCmd.newLines st (.append a t)).length := by simp [SCmd.newLines]; omega
    obtain ⟨pt', e, sh⟩ := insert_shows h hc.plain (a.eval st + 1) (by omega) (by omega) t o2.ne
    have hi : index st.lines (a.eval st + 1) = a.eval st := by
      have := index_clean hc.lastNe (a.eval st + 1)
      rw [show ((a.eval st + 1 : Nat) : Int) = (a.eval st : Int) + 1 by omega] at this
      rw [this]; omega
    rw [hi] at sh
    refine ⟨{ s with pt := pt', currentLine := SCmd.newCur st (.append a t) }, ?_, ⟨sh.reach, sh.text⟩, rfl, rfl, rfl, rfl⟩
    simp only [processCommand, typ_setDefault, text_setDefault, h1, ha, h3, bind, Except.bind]
    rw [wrap64_id (i := (a.eval st : Int) + 1) (by omega) (by omega), e]
    simp only [lift, linesIn_join t o2, SCmd.newCur, SCmd.output, pure, Except.pure]
    rw [wrap64_id (by omega) (by omega)]
    simp
  | insert a t =>
    obtain ⟨h1, h2, h3⟩ := hs
    obtain ⟨o0, o1, o2⟩ := hok
    have ha := addrLine_denotes env h hc hcur h2 (by omega)
    obtain ⟨pt', e, sh⟩ := insert_shows h hc.plain (a.eval st) (by omega) (by omega) t o2.ne
    have hi : index st.lines (a.eval st) = a.eval st - 1 := by
      rw [index_clean hc.lastNe]; omega
    rw [hi] at sh
    refine ⟨{ s with pt := pt' }, ?_, sh, hcur, rfl, rfl, rfl⟩
    simp only [processCommand, typ_setDefault, text_setDefault, h1, ha, h3, bind, Except.bind, e, lift]
    rfl
  | delete a b =>
    obtain ⟨h1, h2, h3⟩ := hs
    obtain ⟨o1, o2, o3⟩ := hok
    have ha := addrLine_denotes env h hc hcur h2 (by omega)
    have hb := addrLine_denotes env h hc hcur h3 (by omega)
    obtain ⟨pt', e, sh⟩ := delete_shows h hc.plain (a.eval st) (b.eval st) (by omega) (by omega) (by omega)
    have hi : index st.lines (a.eval st) = a.eval st - 1 := by rw [index_clean hc.lastNe]; omega
    have hj : index st.lines (b.eval st + 1) = b.eval st := by
      have := index_clean hc.lastNe (b.eval st + 1)
      rw [show ((b.eval st + 1 : Nat) : Int) = (b.eval st : Int) + 1 by omega] at this
      rw [this]; omega
    rw [hi, hj] at sh
    -- the start address is looked up again
    have ha2 : addrLine env { s with pt := pt' } (setDefaultAddresses c).start =
        .ok (SCmd.newCur st (.delete a b)) := by
      have := addrLine_denotes env (s := { s with pt := pt' }) (st := { st with lines := SCmd.newLines st (.delete a b) })
        sh hc' hcur h2
      refine this ?_
      cases a with
      | num n => simp only [SAddr.eval] at *; omega
      | dot => simp only [SAddr.eval] at *; omega
      | last => simp only [SAddr.eval]; omega
    refine ⟨{ s with pt := pt', currentLine := SCmd.newCur st (.delete a b) }, ?_, ⟨sh.reach, sh.text⟩, rfl, rfl, rfl, rfl⟩
    simp only [processCommand, typ_setDefault, h1, ha, hb, bind, Except.bind, e, lift, ha2]
    rfl
  | change a b t =>
    obtain ⟨h1, h2, h3, h4⟩ := hs
    obtain ⟨⟨o1, o2, o3⟩, hnl, o4, oc⟩ := hok
    have ha := addrLine_denotes env h hc hcur h2 (by omega)
    have hb := addrLine_denotes env h hc hcur h3 (by omega)
    obtain ⟨pt', e, sh⟩ := delete_shows h hc.plain (a.eval st) (b.eval st) (by omega) (by omega) (by omega)
    have hi : index st.lines (a.eval st) = a.eval st - 1 := by rw [index_clean hc.lastNe]; omega
    have hj : index st.lines (b.eval st + 1) = b.eval st := by
      have := index_clean hc.lastNe (b.eval st + 1)
      rw [show ((b.eval st + 1 : Nat) : Int) = (b.eval st : Int) + 1 by omega] at this
      rw [this]; omega
    rw [hi, hj] at sh
    have again : ∀ pt, addrLine env { s with pt := pt } (setDefaultAddresses c).start = .ok (a.eval st) := by
      intro pt
      cases a with
      | num n => rw [← ha]; simp [addrLine, h2.1]
      | dot => rw [← ha]; simp [addrLine, h2.1]
      | last => exact absurd rfl hnl
    obtain ⟨pt2, e2, sh2⟩ := insert_shows sh oc.plain (a.eval st) (by omega) (by omega) t o4.ne
    have hi2 : index (st.lines.take (a.eval st - 1) ++ st.lines.drop (b.eval st)) (a.eval st) = a.eval st - 1 := by
      rw [index_clean oc.lastNe]; simp; omega
    rw [hi2] at sh2
    have hcut : ∀ {xs ys : List Bytes} {k : Nat}, xs.length = k → (xs ++ ys).take k = xs ∧ (xs ++ ys).drop k = ys := by
      intro xs ys k hk; subst hk; simp
    have hk : (st.lines.take (a.eval st - 1)).length = a.eval st - 1 := by simp; omega
    rw [(hcut hk).1, (hcut hk).2] at sh2
    have hnl : t.length ≤ (SCmd.newLines st (.change a b t)).length := by simp [SCmd.newLines]; omega
    refine ⟨{ s with pt := pt2, currentLine := SCmd.newCur st (.change a b t) }, ?_, ⟨sh2.reach, sh2.text⟩, rfl, rfl, rfl, rfl⟩
    simp only [processCommand, typ_setDefault, text_setDefault, h1, ha, hb, h4, bind, Except.bind, e, lift, again, e2]
    simp only [linesIn_join t o4, SCmd.newCur, SCmd.output, pure, Except.pure]
    rw [wrap64_id (by omega) (by omega)]
    simp
  | print a b =>
    obtain ⟨h1, h2, h3⟩ := hs
    obtain ⟨o1, o2, o3⟩ := hok
    have ha := addrLine_denotes env h hc hcur h2 (by omega)
    have hb := addrLine_denotes env h hc hcur h3 (by omega)
    refine ⟨s, ?_, h, hcur, rfl, rfl, rfl⟩
    simp only [processCommand, typ_setDefault, h1, ha, hb, bind, Except.bind, print_shows env h hc _ _ o1 o2 o3 (by omega), lift]
    rfl
  | number a b =>
    obtain ⟨h1, h2, h3⟩ := hs
    obtain ⟨o1, o2, o3⟩ := hok
    have ha := addrLine_denotes env h hc hcur h2 (by omega)
    have hb := addrLine_denotes env h hc hcur h3 (by omega)
    refine ⟨s, ?_, h, hcur, rfl, rfl, rfl⟩
    simp only [processCommand, typ_setDefault, h1, ha, hb, bind, Except.bind, number_shows h hc _ _ o1 o2 o3, lift]
    rfl
  | lineNo a =>
    obtain ⟨h1, h2⟩ := hs
    have ha := addrLine_denotes env h hc hcur h2 hok
    refine ⟨s, ?_, h, hcur, rfl, rfl, rfl⟩
    simp only [processCommand, typ_setDefault, h1, ha, bind, Except.bind]
    rfl

/-! ## C60: printing -/

/-- Commands as the parser builds them, used in the examples. -/
def numAddr (n : Nat) : Address := ⟨.num, natToDec n, 0⟩

theorem numAddr_denotes (n : Nat) : Denotes (numAddr n) (.num n) := by
  obtain ⟨h1, h2, h3, _⟩ := natToDec_spec n
  exact ⟨rfl, rfl, h1, h2, h3⟩

theorem setDefault_given (c : Command) (h : c.start.typ ≠ .null) : setDefaultAddresses c = c := by
  simp [setDefaultAddresses, h]

/-- **C60** `a,bp` outputs exactly lines `a..b` joined by newlines and `a,bn` the same lines each after its
number and a tab, for any addresses inside the buffer; neither changes anything. -/
theorem C60_print_and_number (env : Env) {s : State} {st : LState} (h : Shows s st.lines) (hc : Clean st.lines)
    (hcur : s.currentLine = st.cur) (hlen : st.lines.length < 2 ^ 62) (a b : SAddr) (hr : InRange st a b)
    {cp cn : Command} (hp : Says cp (.print a b)) (hn : Says cn (.number a b)) :
    ∃ pre ls post, st.lines = pre ++ ls ++ post ∧ pre.length + 1 = a.eval st ∧ pre.length + ls.length = b.eval st ∧
      processCommand env s cp = .ok (s, join [nl] ls) ∧
      processCommand env s cn = .ok (s, numbered (a.eval st) ls) := by
  obtain ⟨o1, o2, o3⟩ := hr
  refine ⟨st.lines.take (a.eval st - 1), linesFrom st.lines (a.eval st) (b.eval st), st.lines.drop (b.eval st), ?_, ?_, ?_, ?_, ?_⟩
  · simp only [linesFrom]
    have e : (st.lines.take (b.eval st)).take (a.eval st - 1) = st.lines.take (a.eval st - 1) := by
      rw [List.take_take]; congr 1; omega
    rw [← e, List.take_append_drop, List.take_append_drop]
  · simp; omega
  · simp [linesFrom]; omega
  · obtain ⟨h1, h2, h3⟩ := hp
    simp only [processCommand, typ_setDefault, h1, addrLine_denotes env h hc hcur h2 (by omega),
      addrLine_denotes env h hc hcur h3 (by omega), bind, Except.bind, print_shows env h hc _ _ o1 o2 o3 (by omega), lift]
    rfl
  · obtain ⟨h1, h2, h3⟩ := hn
    simp only [processCommand, typ_setDefault, h1, addrLine_denotes env h hc hcur h2 (by omega),
      addrLine_denotes env h hc hcur h3 (by omega), bind, Except.bind, number_shows h hc _ _ o1 o2 o3, lift]
    rfl

example : ∃ pre ls post, demoLines = pre ++ ls ++ post ∧ pre.length + 1 = 2 ∧ pre.length + ls.length = 3 ∧
    processCommand demoEnv (opened demoLines 4) { typ := .print, start := numAddr 2, end_ := numAddr 3 } =
      .ok (opened demoLines 4, join [nl] ls) ∧
    processCommand demoEnv (opened demoLines 4) { typ := .number, start := numAddr 2, end_ := numAddr 3 } =
      .ok (opened demoLines 4, numbered 2 ls) :=
  C60_print_and_number demoEnv (st := ⟨demoLines, 4⟩) (opened_shows demoLines 4) demo_clean rfl (by decide) (.num 2) (.num 3)
    ⟨by decide, by decide, by decide⟩ ⟨rfl, numAddr_denotes 2, numAddr_denotes 3⟩ ⟨rfl, numAddr_denotes 2, numAddr_denotes 3⟩

/-! ## C61, C62: editing -/

/-- **C61** `a,bd` removes exactly lines `a..b`: if the buffer is `pre ++ mid ++ post` with `pre` ending
before line `a` and `mid` at line `b`, it becomes `pre ++ post`. No file is touched. -/
theorem C61_delete (env : Env) {s : State} {cur : Nat} {pre mid post : List Bytes} (h : Shows s (pre ++ mid ++ post))
    (hc : Clean (pre ++ mid ++ post)) (hc' : Clean (pre ++ post)) (hcur : s.currentLine = cur)
    (hlen : (pre ++ mid ++ post).length < 2 ^ 62) (hmid : mid ≠ []) (a b : SAddr)
    (ha : a.eval ⟨pre ++ mid ++ post, cur⟩ = pre.length + 1)
    (hb : b.eval ⟨pre ++ mid ++ post, cur⟩ = pre.length + mid.length)
    {c : Command} (hs : Says c (.delete a b)) :
    ∃ s', processCommand env s c = .ok (s', []) ∧ Shows s' (pre ++ post) ∧ s'.fs = s.fs ∧ s'.filename = s.filename := by
  have hm : 0 < mid.length := List.length_pos_iff.2 hmid
  have e : SCmd.newLines ⟨pre ++ mid ++ post, cur⟩ (.delete a b) = pre ++ post := by
    simp only [SCmd.newLines, ha, hb]
    simp
  obtain ⟨s', h1, h2, _, h4, h5, _⟩ := step_refines env (st := ⟨pre ++ mid ++ post, cur⟩) h hc hcur hlen hs
    ⟨by omega, by omega, by rw [hb]; simp⟩ (by rw [e]; exact hc') (by rw [e]; simp at hlen ⊢; omega)
  rw [e] at h2
  exact ⟨s', h1, h2, h4, h5⟩

/-- **C61** does not even need the hypothesis on what is left: any plain buffer with a non-blank last line
loses exactly lines `a..b` (numeric addresses). -/
theorem C61_delete_numeric (env : Env) {s : State} {pre mid post : List Bytes} (h : Shows s (pre ++ mid ++ post))
    (hc : Clean (pre ++ mid ++ post)) (hlen : (pre ++ mid ++ post).length < 2 ^ 62) (hmid : mid ≠ [])
    {c : Command} (ht : c.typ = .delete) (ha : Denotes c.start (.num (pre.length + 1)))
    (hb : Denotes c.end_ (.num (pre.length + mid.length))) :
    ∃ s', processCommand env s c = .ok (s', []) ∧ Shows s' (pre ++ post) ∧ s'.currentLine = pre.length + 1 := by
  have hm : 0 < mid.length := List.length_pos_iff.2 hmid
  simp at hlen
  have hd : setDefaultAddresses c = c := setDefault_given c (by rw [ha.1]; decide)
  have ea : ∀ s : State, addrLine env s c.start = .ok ((pre.length + 1 : Nat) : Int) := by
    intro s
    obtain ⟨h1, h2, h3, h4, h5⟩ := ha
    simp only [addrLine, h1, h2, atoi_digits _ h3 h4, h5]
    rw [if_pos (by omega)]
    simp only [Int.add_zero]
    rw [wrap64_id (by omega) (by omega)]
  have eb : addrLine env s c.end_ = .ok ((pre.length + mid.length : Nat) : Int) := by
    obtain ⟨h1, h2, h3, h4, h5⟩ := hb
    simp only [addrLine, h1, h2, atoi_digits _ h3 h4, h5]
    rw [if_pos (by omega)]
    simp only [Int.add_zero]
    rw [wrap64_id (by omega) (by omega)]
  obtain ⟨pt', e, sh⟩ := delete_shows h hc.plain ((pre.length + 1 : Nat) : Int) ((pre.length + mid.length : Nat) : Int)
    (by omega) (by omega) (by omega)
  have hi : index (pre ++ mid ++ post) ((pre.length + 1 : Nat) : Int) = pre.length := by
    rw [index_clean hc.lastNe]; simp
  have hj : index (pre ++ mid ++ post) (((pre.length + mid.length : Nat) : Int) + 1) = pre.length + mid.length := by
    have := index_clean hc.lastNe (pre.length + mid.length + 1)
    rw [show ((pre.length + mid.length + 1 : Nat) : Int) = ((pre.length + mid.length : Nat) : Int) + 1 by omega] at this
    rw [this]; simp
  rw [hi, hj] at sh
  have e1 : (pre ++ mid ++ post).take pre.length ++ (pre ++ mid ++ post).drop (pre.length + mid.length) = pre ++ post := by
    simp
  rw [e1] at sh
  refine ⟨{ s with pt := pt', currentLine := ((pre.length + 1 : Nat) : Int) }, ?_, ⟨sh.reach, sh.text⟩, by simp⟩
  simp only [processCommand, hd, ht, ea, eb, bind, Except.bind, e, lift]
  rfl

example : ∃ s', processCommand demoEnv (opened demoLines 4) { typ := .delete, start := numAddr 3, end_ := numAddr 4 } = .ok (s', []) ∧
    Shows s' [b!"one", b!""] ∧ s'.currentLine = ((2 : Nat) : Int) + 1 :=
  C61_delete_numeric demoEnv (pre := [b!"one", b!""]) (mid := [b!"three", b!"four"]) (post := [])
    (opened_shows demoLines 4) demo_clean (by decide) (by decide) rfl (numAddr_denotes 3) (numAddr_denotes 4)

/-- **C62** `na` puts the text after line `n`, `ni` before line `n`, `a,bc` in place of lines `a..b`; all
other lines keep their place and content. -/
theorem C62_append_insert_change_partial (env : Env) {s : State} {st : LState} (h : Shows s st.lines) (hc : Clean st.lines)
    (hcur : s.currentLine = st.cur) (t : List Bytes) (ht : TextOK t) (hlen : st.lines.length + t.length < 2 ^ 62)
    (a b : SAddr) {c : Command} :
    (∀ pre post, st.lines = pre ++ post → a.eval st = pre.length → Says c (.append a t) → Clean (pre ++ t ++ post) →
      ∃ s', processCommand env s c = .ok (s', []) ∧ Shows s' (pre ++ t ++ post)) ∧
    (∀ pre post, st.lines = pre ++ post → a.eval st = pre.length + 1 → Says c (.insert a t) → Clean (pre ++ t ++ post) →
      ∃ s', processCommand env s c = .ok (s', []) ∧ Shows s' (pre ++ t ++ post)) ∧
    (∀ pre mid post, st.lines = pre ++ mid ++ post → mid ≠ [] → a.eval st = pre.length + 1 →
      b.eval st = pre.length + mid.length → a ≠ .last → Says c (.change a b t) →
      Clean (pre ++ post) → Clean (pre ++ t ++ post) →
      ∃ s', processCommand env s c = .ok (s', []) ∧ Shows s' (pre ++ t ++ post)) := by
  refine ⟨fun pre post e ea hs cl => ?_, fun pre post e ea hs cl => ?_, fun pre mid post e hm ea eb hnl hs cl0 cl => ?_⟩
  · have en : SCmd.newLines st (.append a t) = pre ++ t ++ post := by simp [SCmd.newLines, ea, e]
    have hl : pre.length + post.length = st.lines.length := by rw [e]; simp
    obtain ⟨s', h1, h2, _⟩ := step_refines env h hc hcur (by omega) hs ⟨by omega, ht⟩ (by rw [en]; exact cl)
      (by rw [en]; simp; omega)
    rw [en] at h2
    exact ⟨s', h1, h2⟩
  · have en : SCmd.newLines st (.insert a t) = pre ++ t ++ post := by simp [SCmd.newLines, ea, e]
    have hl : pre.length + post.length = st.lines.length := by rw [e]; simp
    obtain ⟨s', h1, h2, _⟩ := step_refines env h hc hcur (by omega) hs ⟨by omega, by omega, ht⟩ (by rw [en]; exact cl)
      (by rw [en]; simp; omega)
    rw [en] at h2
    exact ⟨s', h1, h2⟩
  · have en : SCmd.newLines st (.change a b t) = pre ++ t ++ post := by simp [SCmd.newLines, ea, eb, e]
    have hl : pre.length + mid.length + post.length = st.lines.length := by rw [e]; simp; omega
    have hm' : 0 < mid.length := List.length_pos_iff.2 hm
    have e0 : st.lines.take (a.eval st - 1) ++ st.lines.drop (b.eval st) = pre ++ post := by simp [ea, eb, e]
    obtain ⟨s', h1, h2, _⟩ := step_refines env h hc hcur (by omega) hs
      ⟨⟨by omega, by omega, by omega⟩, hnl, ht, by rw [e0]; exact cl0⟩ (by rw [en]; exact cl)
      (by rw [en]; simp; omega)
    rw [en] at h2
    exact ⟨s', h1, h2⟩

theorem demo_text : TextOK [b!"x", b!"y"] :=
  ⟨by decide, by intro l hl; simp at hl; rcases hl with rfl | rfl <;> exact plain_ascii _ (by decide) (by decide) (by decide)⟩

theorem clean_of (ls : List Bytes) (h : ∀ l ∈ ls, nl ∉ l ∧ l.getLast? ≠ some cr ∧ l.length < 100) (h2 : ls.getLast? ≠ some []) :
    Clean ls := ⟨fun l hl => plain_ascii l (h l hl).1 (h l hl).2.1 (h l hl).2.2, h2⟩

example : ∃ s', processCommand demoEnv (opened demoLines 4)
      { typ := .change, start := numAddr 1, end_ := numAddr 2, text := join [nl] [b!"x", b!"y"] } = .ok (s', []) ∧
    Shows s' [b!"x", b!"y", b!"three", b!"four"] :=
  (C62_append_insert_change_partial demoEnv (st := ⟨demoLines, 4⟩) (opened_shows demoLines 4) demo_clean rfl _ demo_text (by decide)
    (.num 1) (.num 2)).2.2 [] [b!"one", b!""] [b!"three", b!"four"] rfl (by decide) rfl rfl (by decide)
    ⟨rfl, numAddr_denotes 1, numAddr_denotes 2, rfl⟩ (clean_of _ (by decide) (by decide)) (clean_of _ (by decide) (by decide))

theorem plain_of (ls : List Bytes) (h : ∀ l ∈ ls, nl ∉ l ∧ l.getLast? ≠ some cr ∧ l.length < 100) : ∀ l ∈ ls, PlainLine l :=
  fun l hl => plain_ascii l (h l hl).1 (h l hl).2.1 (h l hl).2.2

/-- **C62** is false for `$c`: the start address is looked up again after the deletion, so changing the last
of three lines puts the text before the second one. -/
theorem C62_change_last_fails (env : Env) (cur : Int) :
    ∃ s', processCommand env (opened [b!"1", b!"2", b!"3"] cur) { typ := .change, start := aLast, end_ := aLast, text := b!"x" } =
        .ok (s', []) ∧ Shows s' [b!"1", b!"x", b!"2"] := by
  have hs := opened_shows [b!"1", b!"2", b!"3"] cur
  have hc := clean_of [b!"1", b!"2", b!"3"] (by decide) (by decide)
  have h1 : addrLine env (opened [b!"1", b!"2", b!"3"] cur) aLast = .ok 3 := by
    simp only [addrLine, aLast, getLines_shows hs hc.plain, dropBlank_clean hc.lastNe]; decide
  obtain ⟨pt1, e1, s1⟩ := delete_shows hs hc.plain 3 3 (by decide) (by decide) (by decide)
  have i1 : List.take (index [b!"1", b!"2", b!"3"] 3) [b!"1", b!"2", b!"3"] ++
      List.drop (index [b!"1", b!"2", b!"3"] (3 + 1)) [b!"1", b!"2", b!"3"] = [b!"1", b!"2"] := by decide
  rw [i1] at s1
  have again : ∀ s2 : State, ∀ ls, Shows s2 ls → Clean ls → ls.length < 100 → addrLine env s2 aLast = .ok ls.length := by
    intro s2 ls sh cl hl
    simp only [addrLine, aLast, getLines_shows sh cl.plain, dropBlank_clean cl.lastNe, Int.add_zero]
    rw [wrap64_id (by omega) (by omega)]
  have h2 : addrLine env _ aLast = .ok ((2 : Nat) : Int) := again _ _ s1 (clean_of _ (by decide) (by decide)) (by decide)
  obtain ⟨pt2, e2, s2⟩ := insert_shows s1 (plain_of _ (by decide)) 2 (by decide) (by decide) [b!"x"] (by decide)
  have i2 : List.take (index [b!"1", b!"2"] 2) [b!"1", b!"2"] ++ [b!"x"] ++ List.drop (index [b!"1", b!"2"] 2) [b!"1", b!"2"] =
      [b!"1", b!"x", b!"2"] := by decide
  rw [i2] at s2
  have h3 : addrLine env _ aLast = .ok ((3 : Nat) : Int) := again _ _ s2 (clean_of _ (by decide) (by decide)) (by decide)
  refine ⟨_, ?_, (⟨s2.reach, s2.text⟩ : Shows { opened [b!"1", b!"2", b!"3"] cur with
    pt := pt2, currentLine := wrap64 ((3 : Nat) + linesIn b!"x") } _)⟩
  rw [show processCommand env (opened [b!"1", b!"2", b!"3"] cur) { typ := .change, start := aLast, end_ := aLast, text := b!"x" } =
    (do
      let a ← addrLine env (opened [b!"1", b!"2", b!"3"] cur) aLast
      let b ← addrLine env (opened [b!"1", b!"2", b!"3"] cur) aLast
      let s ← lift (delete (opened [b!"1", b!"2", b!"3"] cur) a b)
      let c ← addrLine env s aLast
      let s ← lift (insertBeforeLine s c b!"x")
      let d ← addrLine env s aLast
      return ({ s with currentLine := wrap64 (d + linesIn b!"x") }, [])) from rfl]
  have e2' : insertBeforeLine { opened [b!"1", b!"2", b!"3"] cur with pt := pt1 } ((2 : Nat) : Int) b!"x" = _ := e2
  simp only [h1, bind, Except.bind, e1, lift, h2, e2', h3]
  rfl

/-- **C62** is false when what `c` leaves in between ends in a blank line: in `"a", "", "b"`, changing line 3
puts the text before the blank line. -/
theorem C62_change_after_blank_fails (env : Env) (cur : Int) :
    ∃ s', processCommand env (opened [b!"a", b!"", b!"b"] cur)
        { typ := .change, start := aFirst, end_ := aFirst, text := b!"x" } = .ok (s', []) ∧ Shows s' [b!"x", b!"", b!"b"] ∧
    ∃ s'', processCommand env (opened [b!"a", b!"", b!"b"] cur)
        { typ := .change, start := numAddr 3, end_ := numAddr 3, text := b!"x" } = .ok (s'', []) ∧
      Shows s'' [b!"a", b!"x", b!""] := by
  have hs := opened_shows [b!"a", b!"", b!"b"] cur
  have hc := clean_of [b!"a", b!"", b!"b"] (by decide) (by decide)
  have key : ∀ (k : Nat) (ad : Address), Denotes ad (.num k) → k < 100 → 1 ≤ k → ∀ l1 l2,
      List.take (index [b!"a", b!"", b!"b"] k) [b!"a", b!"", b!"b"] ++
        List.drop (index [b!"a", b!"", b!"b"] ((k : Int) + 1)) [b!"a", b!"", b!"b"] = l1 →
      (∀ l ∈ l1, PlainLine l) →
      List.take (index l1 k) l1 ++ [b!"x"] ++ List.drop (index l1 k) l1 = l2 →
      ∃ s', processCommand env (opened [b!"a", b!"", b!"b"] cur) { typ := .change, start := ad, end_ := ad, text := b!"x" } =
        .ok (s', []) ∧ Shows s' l2 := by
    intro k ad hd hk h1k l1 l2 i1 p1 i2
    have ha : ∀ s2 : State, addrLine env s2 ad = .ok (k : Int) := by
      intro s2
      obtain ⟨h1, h2, h3, h4, h5⟩ := hd
      simp only [addrLine, h1, h2, atoi_digits _ h3 h4, h5]
      rw [if_pos (by omega)]
      simp only [Int.add_zero]
      rw [wrap64_id (by omega) (by omega)]
    obtain ⟨pt1, e1, s1⟩ := delete_shows hs hc.plain k k (by omega) (by omega) (by omega)
    rw [i1] at s1
    obtain ⟨pt2, e2, s2⟩ := insert_shows s1 p1 k (by omega) (by omega) [b!"x"] (by decide)
    rw [i2] at s2
    have hdf : setDefaultAddresses { typ := .change, start := ad, end_ := ad, text := b!"x" } =
        { typ := .change, start := ad, end_ := ad, text := b!"x" } := setDefault_given _ (by simp [hd.1])
    refine ⟨{ opened [b!"a", b!"", b!"b"] cur with pt := pt2, currentLine := wrap64 (k + linesIn b!"x") }, ?_, s2.reach, s2.text⟩
    have e2' : insertBeforeLine { opened [b!"a", b!"", b!"b"] cur with pt := pt1 } (k : Int) b!"x" = _ := e2
    simp only [processCommand, hdf, ha, bind, Except.bind, e1, lift, e2']
    rfl
  obtain ⟨s', h1, h2⟩ := key 1 aFirst ⟨rfl, rfl, by decide, by decide, by decide⟩ (by decide) (by decide) [b!"", b!"b"]
    [b!"x", b!"", b!"b"] (by decide) (plain_of _ (by decide)) (by decide)
  exact ⟨s', h1, h2, key 3 (numAddr 3) (numAddr_denotes 3) (by decide) (by decide) [b!"a", b!""] [b!"a", b!"x", b!""]
    (by decide) (plain_of _ (by decide)) (by decide)⟩

/-! ## C63: sessions -/

/-- **C63** Any session: if every command is in range for the reference editor and the buffers stay clean,
the code runs through without panic, prints exactly what the reference editor prints, ends with exactly its
lines and its current line, and touches no file. -/
theorem C63_session (env : Env) : ∀ (scs : List SCmd) (cs : List Command) {s : State} {st : LState},
    Shows s st.lines → Clean st.lines → s.currentLine = st.cur → st.lines.length < 2 ^ 62 →
    SaysAll cs scs → SessionOk st scs →
    ∃ s', runAll env s cs = .ok (s', sessionOutputs st scs) ∧ Shows s' (sessionEnd st scs).lines ∧
      s'.currentLine = (sessionEnd st scs).cur ∧ s'.fs = s.fs ∧ s'.filename = s.filename := by
  intro scs
  induction scs with
  | nil =>
    intro cs s st h hc hcur hlen hf hok
    cases cs with
    | nil => exact ⟨s, rfl, h, hcur, rfl, rfl⟩
    | cons c cs => exact hf.elim
  | cons sc scs ih =>
    intro cs s st h hc hcur hlen hf hok
    cases cs with
    | nil => exact hf.elim
    | cons c cs =>
      obtain ⟨h1, h2⟩ := hf
      obtain ⟨o1, o2, o3, o4⟩ := hok
      obtain ⟨s1, e1, sh1, c1, f1, n1, _⟩ := step_refines env h hc hcur hlen h1 o1 o2 o3
      obtain ⟨s2, e2, sh2, c2, f2, n2⟩ := ih _ (st := sc.next st) sh1 o2 c1 o3 h2 o4
      refine ⟨s2, ?_, sh2, c2, f2.trans f1, n2.trans n1⟩
      simp only [runAll, e1, e2, sessionOutputs]

/-- Non-blank lines. -/
def NonBlank (ls : List Bytes) : Prop := ∀ l ∈ ls, PlainLine l ∧ l ≠ []

theorem NonBlank.clean {ls : List Bytes} (h : NonBlank ls) : Clean ls :=
  ⟨fun l hl => (h l hl).1, fun hl => (h [] (List.mem_of_getLast? hl)).2 rfl⟩

/-- The text of a command. -/
def SCmd.text : SCmd → List Bytes
  | .append _ t | .insert _ t | .change _ _ t => t
  | _ => []

/-- Commands in range, nothing else. -/
def SCmd.InBounds (st : LState) : SCmd → Prop
  | .append a t => a.eval st ≤ st.lines.length ∧ t ≠ []
  | .insert a t => 1 ≤ a.eval st ∧ a.eval st ≤ st.lines.length + 1 ∧ t ≠ []
  | .change a b t => InRange st a b ∧ a ≠ .last ∧ t ≠ []
  | .delete a b => InRange st a b
  | .print a b => InRange st a b
  | .number a b => InRange st a b
  | .lineNo a => a.eval st < 2 ^ 63

/-- A session whose commands are all in range. -/
def SessionInBounds : LState → List SCmd → Prop
  | _, [] => True
  | st, c :: cs => c.InBounds st ∧ (c.newLines st).length < 2 ^ 62 ∧ SessionInBounds (c.next st) cs

/-- **C63** without conditions on intermediate buffers: if neither the file nor any text has blank lines,
being in range is enough. -/
theorem C63_session_nonblank (env : Env) (scs : List SCmd) (cs : List Command) {s : State} {st : LState}
    (h : Shows s st.lines) (hn : NonBlank st.lines) (hcur : s.currentLine = st.cur) (hlen : st.lines.length < 2 ^ 62)
    (hf : SaysAll cs scs) (ht : ∀ sc ∈ scs, NonBlank sc.text) (hb : SessionInBounds st scs) :
    ∃ s', runAll env s cs = .ok (s', sessionOutputs st scs) ∧ Shows s' (sessionEnd st scs).lines ∧
      s'.currentLine = (sessionEnd st scs).cur ∧ s'.fs = s.fs ∧ s'.filename = s.filename := by
  refine C63_session env scs cs h hn.clean hcur hlen hf ?_
  clear hf h hcur hlen
  induction scs generalizing st with
  | nil => trivial
  | cons sc scs ih =>
    obtain ⟨b1, b2, b3⟩ := hb
    have htx := ht sc (by simp)
    have hn' : NonBlank (sc.newLines st) := by
      intro l hl
      cases sc <;> simp only [SCmd.newLines, List.mem_append] at hl <;>
        first
        | exact hn l hl
        | (rcases hl with (hl | hl) | hl
           · exact hn l (List.mem_of_mem_take hl)
           · exact htx l hl
           · exact hn l (List.mem_of_mem_drop hl))
        | (rcases hl with hl | hl
           · exact hn l (List.mem_of_mem_take hl)
           · exact hn l (List.mem_of_mem_drop hl))
    have tok : ∀ t, t ≠ [] → NonBlank t → TextOK t := fun t h1 h2 => ⟨h1, fun l hl => (h2 l hl).1⟩
    refine ⟨?_, hn'.clean, b2, ih hn' (fun c hc => ht c (by simp [hc])) b3⟩
    cases sc with
    | append a t => exact ⟨b1.1, tok t b1.2 htx⟩
    | insert a t => exact ⟨b1.1, b1.2.1, tok t b1.2.2 htx⟩
    | change a b t =>
      refine ⟨b1.1, b1.2.1, tok t b1.2.2 htx, NonBlank.clean ?_⟩
      intro l hl
      rcases List.mem_append.1 hl with hl | hl
      · exact hn l (List.mem_of_mem_take hl)
      · exact hn l (List.mem_of_mem_drop hl)
    | delete a b => exact b1
    | print a b => exact b1
    | number a b => exact b1
    | lineNo a => exact b1

/-- The session of the example: `1,2d`, `$a` with two lines, `1p`, `=`. -/
example : ∃ s', runAll demoEnv (opened demoLines 4)
      [{ typ := .delete, start := numAddr 1, end_ := numAddr 2 },
       { typ := .append, start := aLast, text := join [nl] [b!"x", b!"y"] },
       { typ := .print, start := numAddr 1, end_ := numAddr 3 },
       { typ := .lineNumber }] = .ok (s', [[], [], b!"three\nfour\nx", b!"4"]) ∧
    Shows s' [b!"three", b!"four", b!"x", b!"y"] := by
  obtain ⟨s', e, sh, _⟩ := C63_session demoEnv
    [.delete (.num 1) (.num 2), .append .last [b!"x", b!"y"], .print (.num 1) (.num 3), .lineNo .last]
    [{ typ := .delete, start := numAddr 1, end_ := numAddr 2 },
     { typ := .append, start := aLast, text := join [nl] [b!"x", b!"y"] },
     { typ := .print, start := numAddr 1, end_ := numAddr 3 }, { typ := .lineNumber }]
    (st := ⟨demoLines, 4⟩) (opened_shows demoLines 4) demo_clean rfl (by decide)
    ⟨⟨rfl, numAddr_denotes 1, numAddr_denotes 2⟩, ⟨rfl, ⟨rfl, rfl⟩, rfl⟩,
      ⟨rfl, numAddr_denotes 1, numAddr_denotes 3⟩, ⟨rfl, ⟨rfl, rfl⟩⟩, trivial⟩
    ⟨⟨by decide, by decide, by decide⟩, clean_of _ (by decide) (by decide), by decide,
      ⟨by decide, demo_text⟩, clean_of _ (by decide) (by decide), by decide,
      ⟨by decide, by decide, by decide⟩, clean_of _ (by decide) (by decide), by decide,
      (show 4 < 2 ^ 63 by decide), clean_of _ (by decide) (by decide), by decide, trivial⟩
  exact ⟨s', e, sh⟩

end Ed
