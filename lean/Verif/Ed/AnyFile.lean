import Verif.Ed.AnyText
import Verif.Ed.TypedRun

/-! # C174: command lines typed at an editor on any files

The reference of C84 works on lists of lines that are all plain and end in one that is not blank. This one works on strings of bytes:
the files that are opened may have carriage returns, blank lines at the end and last lines without a newline, and so may the buffers on the way. -/

namespace Ed
open Go

/-! ## Specification -/

/-- The text of the buffer, the current line, the name of the file being edited and all the files. -/
structure FState where
  text : Bytes
  cur : Nat
  name : Bytes
  files : Bytes → Option Bytes

/-- The first line an address part stands for in a text; `d` is the line meant if there is none. -/
def RangeSyn.firstIn (comp : Bytes → Option (Bytes → Bool)) (t : Bytes) (cur d : Nat) (r : RangeSyn) : Option Nat := r.first comp (seen t) cur d

/-- The last one. -/
def RangeSyn.lastIn (comp : Bytes → Option (Bytes → Bool)) (t : Bytes) (cur d : Nat) (r : RangeSyn) : Option Nat := r.last comp (seen t) cur d

/-- What a command does: the state before, the state after and the result. -/
inductive Acts (comp : Bytes → Option (Bytes → Bool)) (openErr : Bytes → Bytes) : TCmd → FState → FState → Bytes → Prop
  | print {r st a b} : r.firstIn comp st.text st.cur st.cur = some a → r.lastIn comp st.text st.cur st.cur = some b →
      1 ≤ a → a ≤ b → b ≤ (seen st.text).length →
      Acts comp openErr ⟨r, .print⟩ st st (join [nl] (linesFrom (seen st.text) a b))
  | number {r st a b} : r.firstIn comp st.text st.cur st.cur = some a → r.lastIn comp st.text st.cur st.cur = some b →
      1 ≤ a → a ≤ b → b ≤ (seen st.text).length →
      Acts comp openErr ⟨r, .number⟩ st st (numbered a (linesFrom (seen st.text) a b))
  | equals {r st} {a : Nat} : r.firstIn comp st.text st.cur (seen st.text).length = some a → a < 2 ^ 63 →
      Acts comp openErr ⟨r, .equals⟩ st st (itoa a)
  | null {r st a} {l : Bytes} : r.firstIn comp st.text st.cur (st.cur + 1) = some a → 1 ≤ a → (seen st.text)[a - 1]? = some l →
      Acts comp openErr ⟨r, .null⟩ st { st with cur := a } l
  | delete {r st} {a b c : Nat} {t1 : Bytes} : r.firstIn comp st.text st.cur st.cur = some a → r.lastIn comp st.text st.cur st.cur = some b →
      a ≤ b + 1 → b < 2 ^ 62 → place st.text b ≤ st.text.length →
      t1 = cutAt st.text (place st.text (a - 1)) (place st.text b) → r.firstIn comp t1 st.cur st.cur = some c → c < 2 ^ 62 →
      Acts comp openErr ⟨r, .delete⟩ st { st with text := t1, cur := c } []
  | append {r st t} {a : Nat} : r.firstIn comp st.text st.cur st.cur = some a → a + t.length < 2 ^ 62 →
      place st.text a ≤ st.text.length → Typed t →
      Acts comp openErr ⟨r, .append t⟩ st { st with text := putAt st.text (place st.text a) (unlines t), cur := a + 1 + t.length } []
  | insert {r st t} {a : Nat} : r.firstIn comp st.text st.cur st.cur = some a → a < 2 ^ 62 → place st.text (a - 1) ≤ st.text.length → Typed t →
      Acts comp openErr ⟨r, .insert t⟩ st { st with text := putAt st.text (place st.text (a - 1)) (unlines t) } []
  | change {r st t} {a b a1 a2 : Nat} {t1 t2 : Bytes} : r.firstIn comp st.text st.cur st.cur = some a → r.lastIn comp st.text st.cur st.cur = some b →
      a ≤ b + 1 → b < 2 ^ 62 → place st.text b ≤ st.text.length →
      t1 = cutAt st.text (place st.text (a - 1)) (place st.text b) → ¬ Long t1 →
      r.firstIn comp t1 st.cur st.cur = some a1 → a1 < 2 ^ 62 → place t1 (a1 - 1) ≤ t1.length → Typed t →
      t2 = putAt t1 (place t1 (a1 - 1)) (unlines t) → r.firstIn comp t2 st.cur st.cur = some a2 → a2 + t.length < 2 ^ 62 →
      Acts comp openErr ⟨r, .change t⟩ st { st with text := t2, cur := a2 + t.length } []
  | write {r st} : st.files st.name ≠ none →
      Acts comp openErr ⟨r, .write⟩ st { st with files := saved st.files st.name st.text, cur := (seen st.text).length } []
  | edit {st name t} : st.files name = some t →
      Acts comp openErr ⟨.none, .edit name⟩ st { st with text := t, cur := (seen t).length, name := name } []
  | noFile {st name} : st.files name = none → Acts comp openErr ⟨.none, .edit name⟩ st st (openErr name)
  | unsupported {r l st} : Acts comp openErr ⟨r, .unsupported l⟩ st st b!"? (NYI)"

/-- A session: the commands one after the other, no text on the way too long to be read. -/
inductive Run (comp : Bytes → Option (Bytes → Bool)) (openErr : Bytes → Bytes) : List TCmd → FState → FState → List Bytes → Prop
  | nil {st} : Run comp openErr [] st st []
  | cons {c cs st st1 st2 o os} : Acts comp openErr c st st1 o → Sane st1.text →
      Run comp openErr cs st1 st2 os → Run comp openErr (c :: cs) st st2 (o :: os)

/-! ## Addresses -/

theorem addrLine_lines (env : Env) {s : State} {st : LState} (hg : getLines s = .ok st.lines) (hcur : s.currentLine = st.cur)
    {a : Address} {sa : SAddr} (hda : Denotes a sa) (hb : sa.eval st < 2 ^ 63) : addrLine env s a = .ok (sa.eval st) := by
  cases sa with
  | num n =>
    obtain ⟨h1, h2, h3, h4, h5⟩ := hda
    simp only [SAddr.eval] at hb ⊢
    simp only [addrLine, h1, h2, atoi_digits _ h3 h4, h5]
    rw [if_pos hb]
    simp only [Int.add_zero]
    rw [wrap64_id (by omega) (by omega)]
  | dot =>
    obtain ⟨h1, h2⟩ := hda
    simp only [SAddr.eval] at hb ⊢
    simp only [addrLine, h1, h2, hcur, Int.add_zero]
    rw [wrap64_id (by omega) (by omega)]
  | last =>
    obtain ⟨h1, h2⟩ := hda
    simp only [SAddr.eval] at hb ⊢
    simp only [addrLine, h1, h2, hg, Int.add_zero]
    rw [wrap64_id (by omega) (by omega)]

theorem regexMatch_lines (env : Env) {s : State} {ls : List Bytes} (hg : getLines s = .ok ls) {cur n : Nat}
    (hcur : s.currentLine = cur) {re : Bytes} {m : Bytes → Bool} (hm : env.compile re = some m)
    (hn : nextMatch m ls cur = some n) : regexMatch env s re = .ok ((n : Int), true) := by
  obtain ⟨k, hk, rfl, hmk, hno⟩ := nextMatch_some hn
  have hpos : 0 < ls.length := by omega
  have ha := around_lt (len := ls.length) (x := cur + 1) hpos
  simp only [regexMatch, hg, hm]
  rw [if_neg (by omega), hcur, start_eq]
  have key : ∀ i, around ls.length (around ls.length (cur + 1) + i) = around ls.length (cur + 1 + i) := by
    intro i
    cases i with
    | zero => simp only [Nat.add_zero]; rw [around_self ha.1 ha.2]
    | succ i =>
      simp only [around, Nat.add_sub_cancel]
      have e1 : cur % ls.length + 1 + (i + 1) - 1 = cur % ls.length + (i + 1) := by omega
      have e2 : cur + 1 + (i + 1) - 1 = cur + (i + 1) := by omega
      rw [e1, e2, Nat.mod_add_mod]
  rw [search_found m ls cur k ls.length (around ls.length (cur + 1)) ha.1 ha.2 hk (by rw [key]; exact hmk)
    (fun i hi => by rw [key]; exact ⟨hno i hi, around_ne_cur (by omega)⟩), key]
  rfl

theorem addrLine_syn (env : Env) {s : State} {ls : List Bytes} (hg : getLines s = .ok ls) {cur n : Nat}
    (hcur : s.currentLine = cur) {a : AddrSyn} (ha : a.OK) (hn : a.line env.compile ls cur = some n) (hb : n < 2 ^ 63) :
    addrLine env s a.address = .ok n := by
  cases a with
  | lit ds =>
    simp only [AddrSyn.line, Option.some.injEq] at hn
    exact addrLine_lines env (st := ⟨ls, cur⟩) hg hcur (sa := .num n) ⟨rfl, rfl, ha.1, ha.2, hn⟩ hb
  | dot =>
    simp only [AddrSyn.line, Option.some.injEq] at hn
    subst hn
    exact addrLine_lines env (st := ⟨ls, cur⟩) hg hcur (sa := .dot) ⟨rfl, rfl⟩ hb
  | dollar =>
    simp only [AddrSyn.line, Option.some.injEq] at hn
    subst hn
    exact addrLine_lines env (st := ⟨ls, cur⟩) hg hcur (sa := .last) ⟨rfl, rfl⟩ hb
  | re body =>
    simp only [AddrSyn.line] at hn
    split at hn
    · cases hn
    rename_i hl
    simp only [Option.bind_eq_some_iff] at hn
    obtain ⟨m, hm, hn⟩ := hn
    have ht : trimSlash (AddrSyn.re body).bytes = body := trimSlash_body body ha hl
    simp only [addrLine, AddrSyn.address, AddrSyn.typ, ht, regexMatch_lines env hg hcur hm hn, Int.add_zero]
    rw [wrap64_id (by omega) (by omega)]
  | mark | back | off => cases hn

theorem first_text (env : Env) {s : State} {t : Bytes} (ht0 : s.pt.string = .ok t) (hlong : ¬ Long t) {cur n : Nat}
    (hcur : s.currentLine = cur) {r : RangeSyn} (hr : r.OK) (c : Command) (ht : Addressed c.typ) (hs : c.start = r.start)
    (hn : r.firstIn env.compile t cur (dflt c.typ (seen t) cur) = some n) (hb : n < 2 ^ 63) :
    addrLine env s (setDefaultAddresses c).start = .ok n := by
  have hg : getLines s = .ok (seen t) := getLines_any ht0 hlong
  simp only [RangeSyn.firstIn] at hn
  generalize seen t = ls at hn hg
  have given : ∀ a : AddrSyn, a.OK → r.start = a.address → a.line env.compile ls cur = some n →
      addrLine env s (setDefaultAddresses c).start = .ok n := by
    intro a ha e hl
    rw [setDefault_given c (by rw [hs, e]; exact address_typ_ne a), hs, e]
    exact addrLine_syn env hg hcur ha hl hb
  cases r with
  | none =>
    simp only [RangeSyn.first, Option.some.injEq] at hn
    have hnull : c.start.typ = .null := by rw [hs]; rfl
    have e : (setDefaultAddresses c).start = (defaultAddresses c.typ).1 := by
      simp only [setDefaultAddresses, hnull, if_true]
      split <;> rfl
    rw [e]
    rcases ht with ht | ht | ht | ht | ht | ht | ht | ht <;> rw [ht] at hn ⊢ <;> simp only [dflt] at hn <;> subst hn <;>
      simp only [defaultAddresses]
    case inr.inr.inr.inr.inr.inr.inr =>
      exact addrLine_lines env (st := ⟨ls, cur⟩) hg hcur (sa := .last) ⟨rfl, rfl⟩ hb
    case inr.inr.inr.inr.inr.inr.inl =>
      simp only [aCurPlusOne, addrLine, hcur]
      rw [wrap64_id (by omega) (by omega)]
      rfl
    all_goals exact addrLine_lines env (st := ⟨ls, cur⟩) hg hcur (sa := .dot) ⟨rfl, rfl⟩ hb
  | one a w => exact given a hr.1 rfl hn
  | both semi a w1 w2 b w3 => exact given a hr.1 rfl hn
  | startOnly semi a w => exact given a hr.1 rfl hn
  | endOnly semi w1 b w2 =>
    cases semi
    · exact given (.lit b!"1") ⟨by decide, by decide⟩ rfl hn
    · exact given .dot trivial rfl hn
  | all semi =>
    cases semi
    · exact given (.lit b!"1") ⟨by decide, by decide⟩ rfl hn
    · exact given .dot trivial rfl hn

theorem last_text (env : Env) {s : State} {t : Bytes} (ht0 : s.pt.string = .ok t) (hlong : ¬ Long t) {cur n : Nat}
    (hcur : s.currentLine = cur) {r : RangeSyn} (hr : r.OK) (c : Command) (ht : c.typ = .print ∨ c.typ = .number ∨ c.typ = .delete ∨ c.typ = .change)
    (hs : c.start = r.start) (he : c.end_ = r.end_)
    (hn : r.lastIn env.compile t cur cur = some n) (hb : n < 2 ^ 63) :
    addrLine env s (setDefaultAddresses c).end_ = .ok n := by
  have hg : getLines s = .ok (seen t) := getLines_any ht0 hlong
  simp only [RangeSyn.lastIn] at hn
  generalize seen t = ls at hn hg
  have given : ∀ a : AddrSyn, a.OK → c.start.typ ≠ .null → r.end_ = a.address → a.line env.compile ls cur = some n →
      addrLine env s (setDefaultAddresses c).end_ = .ok n := by
    intro a ha hne e hl
    rw [setDefault_given c hne, he, e]
    exact addrLine_syn env hg hcur ha hl hb
  have first_ne : ∀ semi : Bool, (if semi then aCur else aFirst : Address).typ ≠ .null := by intro semi; cases semi <;> decide
  cases r with
  | none =>
    simp only [RangeSyn.last, Option.some.injEq] at hn
    have hnull : c.start.typ = .null := by rw [hs]; rfl
    have hnull2 : c.end_.typ = .null := by rw [he]; rfl
    have e : (setDefaultAddresses c).end_ = (defaultAddresses c.typ).2 := by
      simp only [setDefaultAddresses, hnull, hnull2, if_true]
    rw [e]
    subst hn
    rcases ht with ht | ht | ht | ht <;> rw [ht] <;> simp only [defaultAddresses] <;>
      exact addrLine_lines env (st := ⟨ls, _⟩) hg hcur (sa := .dot) ⟨rfl, rfl⟩ hb
  | one a w => exact given a hr.1 (by rw [hs]; exact address_typ_ne a) rfl hn
  | both semi a w1 w2 b w3 => exact given b hr.2.1 (by rw [hs]; exact address_typ_ne a) rfl hn
  | startOnly semi a w => exact given a hr.1 (by rw [hs]; exact address_typ_ne a) rfl hn
  | endOnly semi w1 b w2 => exact given b hr.1 (by rw [hs]; exact first_ne semi) rfl hn
  | all semi => exact given .dollar trivial (by rw [hs]; exact first_ne semi) rfl hn

/-! ## One command -/

/-- The editor is in the state of the reference. -/
structure Matches (s : State) (st : FState) : Prop where
  reach : Txt.Reachable s.pt
  text : s.pt.string = .ok st.text
  sane : Sane st.text
  cur : s.currentLine = st.cur
  named : s.filename = st.name
  files : s.fs = st.files

theorem print_text (env : Env) {s : State} {t : Bytes} (ht : s.pt.string = .ok t) (hl : ¬ Long t) (a b : Nat) (h1 : 1 ≤ a) (h2 : a ≤ b)
    (h3 : b ≤ (seen t).length) (h4 : b < 2 ^ 63) : print env s a b = .ok (join [nl] (linesFrom (seen t) a b)) := by
  have hg := getLines_any ht hl
  simp only [getLines] at hg
  cases hsc : scanned s with
  | error p => rw [hsc] at hg; cases hg
  | ok ls =>
    rw [hsc] at hg
    simp only [Except.ok.injEq] at hg
    simp only [print, hsc, hg, seen_eq]
    rw [wrap64_id (by omega) (by omega)]
    have : ((a : Int) - 1) = ((a - 1 : Nat) : Int) := by omega
    rw [this, slice_ok _ _ _ (by omega) (by simp; omega)]
    simp only [linesFrom]
    rw [List.take_append_of_le_length h3]

theorem number_text {s : State} {t : Bytes} (ht : s.pt.string = .ok t) (hl : ¬ Long t) (a b : Nat) (h1 : 1 ≤ a) (h2 : a ≤ b)
    (h3 : b ≤ (seen t).length) : number s a b = .ok (numbered a (linesFrom (seen t) a b)) := by
  simp only [number, getLines_any ht hl, seen_eq]
  rw [if_neg (by omega), if_neg (by omega), numberLoop_ok _ _ _ (by simp; omega)]
  simp only [linesFrom]
  have : ((a : Int) - 1).toNat = a - 1 := by omega
  rw [this, List.drop_take]
  congr 3
  omega

/-- **C174** One command line, on any text and any files. -/
theorem C174_command (env : Env) (hsave : Saves env) {s : State} {st st1 : FState} {c : TCmd} {o : Bytes}
    (h : Matches s st) (hwf : c.WF) (hd : Acts env.compile env.openErr c st st1 o) (hs1 : Sane st1.text) :
    ∃ s', processCommand env s c.parsed = .ok (s', o) ∧ Matches s' st1 := by
  obtain ⟨hrch, htx, hsane, hcur, hname, hfile⟩ := h
  obtain ⟨hr, hw⟩ := hwf
  have hlong := hsane.1
  have hlen : (seen st.text).length < 2 ^ 61 := Nat.lt_of_le_of_lt (seen_length _) hsane.2
  cases hd with
  | @print r _ a b ha hb h1 h2 h3 =>
    have e1 := first_text env htx hlong hcur hr (TCmd.parsed ⟨r, .print⟩) (by simp [Addressed, TCmd.parsed]) rfl ha (by omega)
    have e2 := last_text env htx hlong hcur hr (TCmd.parsed ⟨r, .print⟩) (by simp [TCmd.parsed]) rfl rfl hb (by omega)
    refine ⟨s, ?_, ⟨hrch, htx, hsane, hcur, hname, hfile⟩⟩
    simp only [processCommand, typ_setDefault, e1, e2, bind, Except.bind, print_text env htx hlong _ _ h1 h2 h3 (by omega), lift]
    rfl
  | @number r _ a b ha hb h1 h2 h3 =>
    have e1 := first_text env htx hlong hcur hr (TCmd.parsed ⟨r, .number⟩) (by simp [Addressed, TCmd.parsed]) rfl ha (by omega)
    have e2 := last_text env htx hlong hcur hr (TCmd.parsed ⟨r, .number⟩) (by simp [TCmd.parsed]) rfl rfl hb (by omega)
    refine ⟨s, ?_, ⟨hrch, htx, hsane, hcur, hname, hfile⟩⟩
    simp only [processCommand, typ_setDefault, e1, e2, bind, Except.bind, number_text htx hlong _ _ h1 h2 h3, lift]
    rfl
  | @equals r _ a ha hb =>
    have e1 := first_text env htx hlong hcur hr (TCmd.parsed ⟨r, .equals⟩) (by simp [Addressed, TCmd.parsed]) rfl ha hb
    refine ⟨s, ?_, ⟨hrch, htx, hsane, hcur, hname, hfile⟩⟩
    simp only [processCommand, typ_setDefault, e1, bind, Except.bind]
    rfl
  | @null r _ a l ha h1 h2 =>
    obtain ⟨hlt, -⟩ := List.getElem?_eq_some_iff.1 h2
    have e1 := first_text env htx hlong hcur hr (TCmd.parsed ⟨r, .null⟩) (by simp [Addressed, TCmd.parsed]) rfl ha (by omega)
    refine ⟨{ s with currentLine := (a : Int) }, ?_, ⟨hrch, htx, hsane, rfl, hname, hfile⟩⟩
    have ep := print_text env (s := { s with currentLine := (a : Int) }) htx hlong a a h1 (by omega) (by omega) (by omega)
    rw [linesFrom_one h1 h2] at ep
    simp only [processCommand, typ_setDefault, e1, bind, Except.bind, ep, lift]
    rfl
  | @delete r _ a b d t1 ha hb h1 h2 h3 ht1 hd2 h4 =>
    have e1 := first_text env htx hlong hcur hr (TCmd.parsed ⟨r, .delete⟩) (by simp [Addressed, TCmd.parsed]) rfl ha (by omega)
    have e2 := last_text env htx hlong hcur hr (TCmd.parsed ⟨r, .delete⟩) (by simp [TCmd.parsed]) rfl rfl hb (by omega)
    obtain ⟨pt', e, r1, x1⟩ := delete_any hrch htx hlong a b h1 (by omega) h3
    rw [← ht1] at x1
    have e3 := first_text env (s := { s with pt := pt' }) x1 hs1.1 hcur hr (TCmd.parsed ⟨r, .delete⟩) (by simp [Addressed, TCmd.parsed]) rfl hd2
      (by omega)
    refine ⟨{ s with pt := pt', currentLine := (d : Int) }, ?_, ⟨r1, x1, hs1, rfl, hname, hfile⟩⟩
    simp only [processCommand, typ_setDefault, e1, e2, bind, Except.bind, e, lift, e3]
    rfl
  | @append r _ t a ha h1 h2 ht =>
    have e1 := first_text env htx hlong hcur hr (TCmd.parsed ⟨r, .append t⟩) (by simp [Addressed, TCmd.parsed]) rfl ha (by omega)
    have e0 : ((a : Int) + 1 - 1).toNat = a := by omega
    obtain ⟨pt', e, r1, x1⟩ := insert_any hrch htx hlong ((a : Int) + 1) (by omega) (by omega) ht.1 (by rw [e0]; exact h2)
    rw [e0] at x1
    refine ⟨{ s with pt := pt', currentLine := ((a + 1 + t.length : Nat) : Int) }, ?_, ⟨r1, x1, hs1, rfl, hname, hfile⟩⟩
    simp only [processCommand, typ_setDefault, text_setDefault, e1, bind, Except.bind]
    rw [show (TCmd.parsed ⟨r, .append t⟩).typ = .append from rfl, show (TCmd.parsed ⟨r, .append t⟩).text = join [nl] t from rfl]
    simp only
    rw [wrap64_id (i := (a : Int) + 1) (by omega) (by omega), e]
    simp only [lift, linesIn_typed ht, pure, Except.pure]
    rw [wrap64_id (by omega) (by omega)]
    simp
  | @insert r _ t a ha h1 h2 ht =>
    have e1 := first_text env htx hlong hcur hr (TCmd.parsed ⟨r, .insert t⟩) (by simp [Addressed, TCmd.parsed]) rfl ha (by omega)
    have e0 : ((a : Int) - 1).toNat = a - 1 := by omega
    obtain ⟨pt', e, r1, x1⟩ := insert_any hrch htx hlong (a : Int) (by omega) (by omega) ht.1 (by rw [e0]; exact h2)
    rw [e0] at x1
    refine ⟨{ s with pt := pt' }, ?_, ⟨r1, x1, hs1, hcur, hname, hfile⟩⟩
    simp only [processCommand, typ_setDefault, text_setDefault, e1, bind, Except.bind]
    rw [show (TCmd.parsed ⟨r, .insert t⟩).typ = .insert from rfl, show (TCmd.parsed ⟨r, .insert t⟩).text = join [nl] t from rfl]
    simp only [e, lift]
    rfl
  | @change r _ t a b a1 a2 t1 t2 ha hb h1 h2 h3 ht1 hl1 ha1 hb1 hp1 ht ht2 ha2 hb2 =>
    have e1 := first_text env htx hlong hcur hr (TCmd.parsed ⟨r, .change t⟩) (by simp [Addressed, TCmd.parsed]) rfl ha (by omega)
    have e2 := last_text env htx hlong hcur hr (TCmd.parsed ⟨r, .change t⟩) (by simp [TCmd.parsed]) rfl rfl hb (by omega)
    obtain ⟨pt', e, r1, x1⟩ := delete_any hrch htx hlong a b h1 (by omega) h3
    rw [← ht1] at x1
    have e3 := first_text env (s := { s with pt := pt' }) x1 hl1 hcur hr (TCmd.parsed ⟨r, .change t⟩) (by simp [Addressed, TCmd.parsed]) rfl ha1
      (by omega)
    have e0 : ((a1 : Int) - 1).toNat = a1 - 1 := by omega
    obtain ⟨pt2, e4, r2, x2⟩ := insert_any (s := { s with pt := pt' }) r1 x1 hl1 (a1 : Int) (by omega) (by omega) ht.1 (by rw [e0]; exact hp1)
    rw [e0, ← ht2] at x2
    have e5 := first_text env (s := { s with pt := pt2 }) x2 hs1.1 hcur hr (TCmd.parsed ⟨r, .change t⟩) (by simp [Addressed, TCmd.parsed]) rfl ha2
      (by omega)
    refine ⟨{ s with pt := pt2, currentLine := ((a2 + t.length : Nat) : Int) }, ?_, ⟨r2, x2, hs1, rfl, hname, hfile⟩⟩
    simp only [processCommand, typ_setDefault, text_setDefault, e1, e2, bind, Except.bind]
    rw [show (TCmd.parsed ⟨r, .change t⟩).typ = .change from rfl, show (TCmd.parsed ⟨r, .change t⟩).text = join [nl] t from rfl]
    simp only [e, lift, e3, e4, e5, linesIn_typed ht, pure, Except.pure]
    rw [wrap64_id (by omega) (by omega)]
    simp
  | @write r _ hex =>
    have hsv : (saveTrace (env.outcome s.writes) s.fs s.filename st.text).2 = none := by
      obtain ⟨a, b, c⟩ := hsave s.writes
      obtain ⟨x, hx⟩ := Option.ne_none_iff_exists'.1 hex
      simp [saveTrace, statError, hname, hfile, hx, a, b, c]
    obtain ⟨s', h1, h2, h3, h4, h5, h6, -, h7, h8⟩ := C132_write env htx hlong (TCmd.parsed ⟨r, .write⟩) rfl hsv
    rw [hname] at h2 h3 h7 h8
    refine ⟨s', h1, ⟨h4, h5, hsane, h6, h3, ?_⟩⟩
    funext n
    simp only [saved]
    by_cases hn1 : n = st.name ++ b!".swp"
    · rw [if_pos hn1, hn1]
      exact h8
    · rw [if_neg hn1]
      by_cases hn2 : n = st.name
      · rw [if_pos hn2, hn2, h2]
      · rw [if_neg hn2, h7 n hn2 hn1, hfile]
  | @edit _ name t hf =>
    rw [← hfile] at hf
    let s1 : State := { s with filename := name, pt := Txt.newPieceTable t true t.length, currentLine := (seen t).length }
    have r1 : Txt.Reachable s1.pt := .new t true t.length (Nat.le_refl _)
    have x1 : s1.pt.string = .ok t := by
      rw [Txt.string_wf r1.good.toWF]
      simp [s1, Txt.newPieceTable, Txt.content, Txt.Piece.text, Txt.src]
    refine ⟨s1, ?_, ⟨r1, x1, hs1, rfl, rfl, hfile⟩⟩
    have hg := getLines_any (s := { s1 with currentLine := s.currentLine }) x1 hs1.1
    have hed : edit env s name = .ok (s1, none) := by
      simp only [s1] at hg ⊢
      simp only [edit, hf, hg, seen_eq]
    have e : setDefaultAddresses (TCmd.parsed ⟨.none, .edit name⟩) = { typ := .edit, params := [name], start := aCur, end_ := aCur } := rfl
    simp only [processCommand, e, List.headD_cons, hed]
    rfl
  | @noFile _ name hf =>
    rw [← hfile] at hf
    refine ⟨s, ?_, ⟨hrch, htx, hsane, hcur, hname, hfile⟩⟩
    have e : setDefaultAddresses (TCmd.parsed ⟨.none, .edit name⟩) = { typ := .edit, params := [name], start := aCur, end_ := aCur } := rfl
    simp only [processCommand, e, List.headD_cons, edit, hf]
    rfl
  | @unsupported r l _ =>
    refine ⟨s, ?_, ⟨hrch, htx, hsane, hcur, hname, hfile⟩⟩
    have e : (setDefaultAddresses (TCmd.parsed ⟨r, .unsupported l⟩)).typ = unsupportedTyp l := typ_setDefault _
    have hl : l ∈ b!"hHPQujl" := by
      rcases hw with ⟨-, h⟩ | h <;> simp at h ⊢ <;> grind
    simp only [processCommand, e]
    simp at hl
    rcases hl with rfl | rfl | rfl | rfl | rfl | rfl | rfl <;> rfl

/-- The commands of a session, one after the other. -/
theorem run_matches (env : Env) (hsave : Saves env) : ∀ {cs : List TCmd} {s : State} {st st' : FState} {os : List Bytes},
    Matches s st → (∀ c ∈ cs, c.WF) → Run env.compile env.openErr cs st st' os →
    ∃ s' ms, RunOk env s (cs.map TCmd.parsed) s' ms ∧ results ms = os.map (· ++ [nl]) ∧ Matches s' st' := by
  intro cs
  induction cs with
  | nil =>
    intro s st st' os h _ hs
    cases hs
    exact ⟨s, [], ⟨rfl, rfl⟩, rfl, h⟩
  | cons c cs ih =>
    intro s st st' os h hwf hs
    cases hs with
    | cons hd hc1 hrest =>
      obtain ⟨s1, e1, h1⟩ := C174_command env hsave h (hwf c (by simp)) hd hc1
      obtain ⟨s2, ms, r2, o2, h2⟩ := ih h1 (fun x hx => hwf x (by simp [hx])) hrest
      refine ⟨s2, _, ⟨c.parsed_not_quit (hwf c (by simp)), s1, _, ms, e1, rfl, r2⟩, ?_, h2⟩
      simp [results_append, results_preamble, results, o2]

/-- **C174** `ed name` on any file, given any command lines the reference can carry out, and then `q` or the end of the input: for every
schedule of its goroutines, when it has stopped it has stopped because of `q` or of the end of input, the results are those of the reference in
order (an empty one for opening the first file), there is no error message, and all files are as the reference leaves them. -/
theorem C174_session (env : Env) (hsave : Saves env) (errText : Bytes → Bytes) (s0 : State) (name : Bytes) (hn : NameOK name)
    (hnp : PlainLine (b!"e " ++ name)) (t : Bytes) (hfs : s0.fs name = some t) (hsane : Sane t)
    (cs : List TCmd) (ht : ∀ c ∈ cs, c.WF) (hp : ∀ l ∈ cs.flatMap TCmd.typed, PlainLine l) (quits : Bool)
    (st' : FState) (os : List Bytes) (hses : Run env.compile env.openErr cs ⟨t, (seen t).length, name, s0.fs⟩ st' os) (st : Sys) (how : End)
    (hs : Steps env (initial errText s0 (mainInput (some name) (unlines (cs.flatMap TCmd.typed ++ lastLine quits)))) st)
    (he : st.cons.ended = some how) :
    how = (if quits then .quit else .finished) ∧ results st.out = ([] :: os).map (· ++ [nl]) ∧ errors st.out = [] ∧
    st.ed.fs = st'.files := by
  have hprog := program_tcmds errText name hn hnp cs ht hp quits
  obtain ⟨h1, h2, _⟩ := C69_schedule_independent env errText s0 _ st how hs he
  rw [hprog] at h1 h2
  rw [reports_evs] at h2
  rw [sends_evs] at h1
  let s1 : State := { s0 with filename := name, pt := Txt.newPieceTable t true t.length, currentLine := (seen t).length }
  have r1 : Txt.Reachable s1.pt := .new t true t.length (Nat.le_refl _)
  have t1 : s1.pt.string = .ok t := by
    rw [Txt.string_wf r1.good.toWF]
    simp [s1, Txt.newPieceTable, Txt.content, Txt.Piece.text, Txt.src]
  have hopen : processCommand env s0 { typ := .edit, params := [name] } = .ok (s1, []) := by
    have hg := getLines_any (s := { s1 with currentLine := s0.currentLine }) t1 hsane.1
    have hed : edit env s0 name = .ok (s1, none) := by
      simp only [s1] at hg ⊢
      simp only [edit, hfs, hg, seen_eq]
    have e : setDefaultAddresses { typ := .edit, params := [name] } = { typ := .edit, params := [name], start := aCur, end_ := aCur } := rfl
    simp only [processCommand, e, List.headD_cons, hed]
    rfl
  have ag : Matches s1 ⟨t, (seen t).length, name, s0.fs⟩ := ⟨r1, t1, hsane, rfl, rfl, rfl⟩
  obtain ⟨s2, ms, r2, o2, ag2⟩ := run_matches env hsave ag ht hses
  have hr : RunOk env s0 ({ typ := .edit, params := [name] } :: cs.map TCmd.parsed) s2 (preamble s0 { typ := .edit, params := [name] } ++
      .result ([] ++ [nl]) :: ms) := ⟨by simp, s1, [], ms, hopen, rfl, r2⟩
  have hseq := hr.sequential (lastCommand quits)
  have hlast : Ed.sequential env s2 (lastCommand quits) = (if quits then .quit else .finished, s2, []) := by
    cases quits <;> simp [lastCommand, Ed.sequential]
  rw [hseq, hlast] at h1
  simp only [Prod.mk.injEq, List.append_nil] at h1
  obtain ⟨rfl, rfl, hres⟩ := h1
  refine ⟨rfl, ?_, by simpa using h2, ag2.files⟩
  rw [← hres]
  simp [results_append, results_preamble, results, o2]

/-- **C174** The reference says one thing only: the state after a command and its result are settled by the state before. -/
theorem C174_settled {comp : Bytes → Option (Bytes → Bool)} {openErr : Bytes → Bytes} {c : TCmd} {st st1 st2 : FState} {o1 o2 : Bytes}
    (h1 : Acts comp openErr c st st1 o1) (h2 : Acts comp openErr c st st2 o2) : st1 = st2 ∧ o1 = o2 := by
  cases h1 <;> cases h2 <;> simp_all

/-! ## Two files -/

/-- A file of DOS lines whose last line has no end, and a file that ends in a blank line. -/
def oddFiles : Bytes → Option Bytes := fun n => if n = b!"f" then some b!"ab\r\ncd" else if n = b!"g" then some b!"x\n\n" else none

/-- `/c/p`, `1d`, `w`, `e g`, `$a`, `y`, `.`, `w`. -/
def oddScript : List TCmd :=
  [⟨.one (.re b!"c") [], .print⟩, ⟨.one (.lit b!"1") [], .delete⟩, ⟨.none, .write⟩, ⟨.none, .edit b!"g"⟩, ⟨.one .dollar [], .append [b!"y"]⟩, ⟨.none, .write⟩]

theorem oddScript_run : Run demoEnv.compile demoEnv.openErr oddScript ⟨b!"ab\r\ncd", 2, b!"f", oddFiles⟩
    ⟨b!"x\ny\n\n", 2, b!"g", saved (saved oddFiles b!"f" b!"\ncd") b!"g" b!"x\ny\n\n"⟩ [b!"cd", [], [], [], [], []] := by
  refine .cons (st1 := ⟨b!"ab\r\ncd", 2, b!"f", oddFiles⟩) (.print (a := 2) (b := 2) (by decide +kernel) (by decide +kernel) (by decide) (by decide) (by decide +kernel))
    (short_sane (by decide)) ?_
  refine .cons (st1 := ⟨b!"\ncd", 1, b!"f", oddFiles⟩) (.delete (a := 1) (b := 1) (by decide +kernel) (by decide +kernel) (by decide) (by decide) (by decide +kernel)
    (by decide +kernel) (by decide +kernel) (by decide)) (short_sane (by decide)) ?_
  refine .cons (st1 := ⟨b!"\ncd", 2, b!"f", saved oddFiles b!"f" b!"\ncd"⟩) (.write (st := ⟨b!"\ncd", 1, b!"f", oddFiles⟩) (by decide)) (short_sane (by decide)) ?_
  refine .cons (st1 := ⟨b!"x\n\n", 1, b!"g", saved oddFiles b!"f" b!"\ncd"⟩)
    (.edit (st := ⟨b!"\ncd", 2, b!"f", saved oddFiles b!"f" b!"\ncd"⟩) (t := b!"x\n\n") (by decide)) (short_sane (by decide)) ?_
  refine .cons (st1 := ⟨b!"x\ny\n\n", 3, b!"g", saved oddFiles b!"f" b!"\ncd"⟩)
    (.append (st := ⟨b!"x\n\n", 1, b!"g", saved oddFiles b!"f" b!"\ncd"⟩) (a := 1) (by decide +kernel) (by decide) (by decide +kernel) ⟨by decide, by decide, by decide⟩)
    (short_sane (by decide)) ?_
  exact .cons (.write (st := ⟨b!"x\ny\n\n", 3, b!"g", saved oddFiles b!"f" b!"\ncd"⟩) (by decide)) (short_sane (by decide)) .nil

/-- The run of the program on these files and this script. -/
example (errText : Bytes → Bytes) : ∃ st, Steps demoEnv (initial errText { fresh with fs := oddFiles }
      (mainInput (some b!"f") (unlines [b!"/c/p", b!"1d", b!"w", b!"e g", b!"$a", b!"y", b!".", b!"w", b!"q"]))) st ∧
    st.cons = .quit ∧ st.ed.fs b!"f" = some b!"\ncd" ∧ st.ed.fs b!"g" = some b!"x\ny\n\n" := by
  obtain ⟨st, how, hs, he⟩ := C69_stops demoEnv _ (initial errText { fresh with fs := oddFiles }
    (mainInput (some b!"f") (unlines (oddScript.flatMap TCmd.typed ++ lastLine true)))) (Nat.le_refl _)
  obtain ⟨rfl, h2, _, h4⟩ := C174_session demoEnv (fun _ => ⟨rfl, rfl, rfl⟩) errText { fresh with fs := oddFiles } b!"f"
    ⟨by decide, by decide, by decide, by rintro c cs ⟨⟩; decide⟩
    (plain_ascii _ (by decide) (by decide) (by decide)) b!"ab\r\ncd" rfl (short_sane (by decide)) oddScript
    (by
      intro c hc
      simp only [oddScript, List.mem_cons, List.not_mem_nil, or_false] at hc
      rcases hc with rfl | rfl | rfl | rfl | rfl | rfl
      · exact ⟨⟨PatternOK.plain (by decide) (by decide), by intro c hc; cases hc⟩, trivial⟩
      · exact ⟨⟨⟨by decide, by decide⟩, by intro c hc; cases hc⟩, trivial⟩
      · exact ⟨trivial, trivial⟩
      · exact ⟨trivial, rfl, ⟨by decide, by decide, by decide, by rintro c cs ⟨⟩; decide⟩⟩
      · exact ⟨⟨trivial, by intro c hc; cases hc⟩, trivial, trivial, ⟨by decide, by decide, by decide, by decide⟩, by decide⟩
      · exact ⟨trivial, trivial⟩)
    (plain_of _ (by decide)) true _ _ oddScript_run st how hs he
  refine ⟨st, hs, ?_, ?_, ?_⟩
  · cases hk : st.cons <;> rw [hk] at he <;> simp [Cons.ended] at he
  · rw [h4]; decide
  · rw [h4]; decide

/-! ## On clean buffers this is the reference of C84 -/

theorem seen_clean {ls : List Bytes} (h : Clean ls) : seen (unlines ls) = ls := by
  have e : rawLines (unlines ls) = ls := rawLines_unlines ls (fun l hl => (h.plain l hl).noNL)
  have e2 : ls.map sansReturn = ls := map_noReturn fun l hl => by
    have := (h.plain l hl).noCR
    simpa [isDos] using this
  simp only [seen, e, e2, if_neg h.lastNe]

theorem place_clean {ls : List Bytes} (h : Clean ls) (k : Nat) : place (unlines ls) k = (unlines (ls.take k)).length := by
  rw [place, seen_clean h]

theorem put_clean {pre post t : List Bytes} (h : Clean (pre ++ post)) :
    putAt (unlines (pre ++ post)) (place (unlines (pre ++ post)) pre.length) (unlines t) = unlines (pre ++ t ++ post) := by
  rw [place_clean h, putAt, take_unlines, drop_unlines]
  simp [unlines_append]

theorem cut_clean {pre mid post : List Bytes} (h : Clean (pre ++ mid ++ post)) :
    cutAt (unlines (pre ++ mid ++ post)) (place (unlines (pre ++ mid ++ post)) pre.length)
      (place (unlines (pre ++ mid ++ post)) (pre.length + mid.length)) = unlines (pre ++ post) := by
  rw [place_clean h, place_clean h, cutAt, take_unlines, drop_unlines, ← unlines_append]
  simp

theorem first_const {comp : Bytes → Option (Bytes → Bool)} {r : RangeSyn} (hd : r.Direct) (hl : ¬ r.fromLast) (ls ls' : List Bytes) (cur d : Nat) :
    r.first comp ls cur d = r.first comp ls' cur d := by
  have line : ∀ a : AddrSyn, a.NoSearch → a ≠ .dollar → a.line comp ls cur = a.line comp ls' cur := by
    intro a h1 h2
    cases a with
    | dollar => exact absurd rfl h2
    | lit | dot => rfl
    | re | mark | back | off => exact h1.elim
  cases r with
  | none => rfl
  | one a w => exact line a hd hl
  | both semi a w1 w2 b w3 => exact line a hd.2.1 hl
  | startOnly semi a w => exact line a hd.2 hl
  | endOnly | all => rfl

/-- The state on bytes a state on lines stands for. -/
def RState.asBytes (st : RState) : FState := ⟨unlines st.lines, st.cur, st.name, st.files⟩

theorem clean_terminated (ls : List Bytes) (k : Nat) : place (unlines ls) k ≤ (unlines ls).length := place_term (terminated_unlines ls) k

/-- **C174** Whatever the reference editor of C84, which knows only lists of lines, says of a clean buffer, this reference says too: nothing there
depends on bytes. -/
theorem C174_covers {comp : Bytes → Option (Bytes → Bool)} {openErr : Bytes → Bytes} {c : TCmd} {st st1 : RState} {o : Bytes} (hwf : c.WF)
    (h : Does comp openErr c st st1 o) (hc : Clean st.lines) (hc1 : Clean st1.lines) (hlen : st.lines.length < 2 ^ 61) (hlen1 : st1.lines.length < 2 ^ 61) :
    Acts comp openErr c st.asBytes st1.asBytes o := by
  have hv : seen st.asBytes.text = st.lines := seen_clean hc
  cases h with
  | @print r _ a b ha hb h1 h2 h3 =>
    have := Acts.print (comp := comp) (openErr := openErr) (r := r) (st := st.asBytes) (a := a) (b := b)
      (by rw [RangeSyn.firstIn, hv]; exact ha) (by rw [RangeSyn.lastIn, hv]; exact hb) h1 h2 (by rw [hv]; exact h3)
    rwa [hv] at this
  | @number r _ a b ha hb h1 h2 h3 =>
    have := Acts.number (comp := comp) (openErr := openErr) (r := r) (st := st.asBytes) (a := a) (b := b)
      (by rw [RangeSyn.firstIn, hv]; exact ha) (by rw [RangeSyn.lastIn, hv]; exact hb) h1 h2 (by rw [hv]; exact h3)
    rwa [hv] at this
  | @equals r _ a ha hb => exact Acts.equals (st := st.asBytes) (by rw [RangeSyn.firstIn, hv]; exact ha) hb
  | @null r _ a l ha h1 h2 => exact Acts.null (st := st.asBytes) (by rw [RangeSyn.firstIn, hv]; exact ha) h1 (by rw [hv]; exact h2)
  | @delete r _ a b d pre mid post ha hb hls hmid ea eb hd2 =>
    obtain ⟨ls, cur, name, files⟩ := st
    simp only at hls ha hb hd2 hlen hc hc1 hlen1
    subst hls ea eb
    have hm : 0 < mid.length := List.length_pos_iff.2 hmid
    simp only [List.length_append] at hlen
    have := Acts.delete (comp := comp) (openErr := openErr) (r := r) (st := RState.asBytes ⟨pre ++ mid ++ post, cur, name, files⟩)
      (a := pre.length + 1) (b := pre.length + mid.length) (c := d) (t1 := unlines (pre ++ post))
      (by rw [RangeSyn.firstIn, hv]; exact ha) (by rw [RangeSyn.lastIn, hv]; exact hb) (by omega) (by omega) (clean_terminated _ _)
      (cut_clean hc).symm (by rw [RangeSyn.firstIn, seen_clean hc1]; exact hd2) (first_lt ha hd2 (by omega) (by simp; omega))
    exact this
  | @append r _ t pre post ha hls ht =>
    obtain ⟨ls, cur, name, files⟩ := st
    simp only at hls ha hlen hc hc1 hlen1
    subst hls
    simp only [List.length_append] at hlen hlen1
    have := Acts.append (comp := comp) (openErr := openErr) (r := r) (st := RState.asBytes ⟨pre ++ post, cur, name, files⟩) (t := t)
      (a := pre.length) (by rw [RangeSyn.firstIn, hv]; exact ha) (by omega) (clean_terminated _ _)
      ⟨ht.ne, fun l hl => (ht.plain l hl).noNL, by omega⟩
    rw [show (RState.asBytes ⟨pre ++ post, cur, name, files⟩).text = unlines (pre ++ post) from rfl, put_clean hc] at this
    exact this
  | @insert r _ t pre post ha hls ht =>
    obtain ⟨ls, cur, name, files⟩ := st
    simp only at hls ha hlen hc hc1 hlen1
    subst hls
    simp only [List.length_append] at hlen hlen1
    have := Acts.insert (comp := comp) (openErr := openErr) (r := r) (st := RState.asBytes ⟨pre ++ post, cur, name, files⟩) (t := t)
      (a := pre.length + 1) (by rw [RangeSyn.firstIn, hv]; exact ha) (by omega) (clean_terminated _ _)
      ⟨ht.ne, fun l hl => (ht.plain l hl).noNL, by omega⟩
    rw [show (RState.asBytes ⟨pre ++ post, cur, name, files⟩).text = unlines (pre ++ post) from rfl, Nat.add_sub_cancel, put_clean hc] at this
    exact this
  | @change r _ t b pre mid post ha hb hls hmid eb hnl ht oc =>
    obtain ⟨ls, cur, name, files⟩ := st
    simp only at hls ha hb hlen hc hc1 hlen1
    subst hls eb
    have hm : 0 < mid.length := List.length_pos_iff.2 hmid
    simp only [List.length_append] at hlen hlen1
    have hdir : r.Direct := hwf.2.1
    have hshort : ¬ Long (unlines (pre ++ post)) := by
      rintro ⟨x, l, y, e, hn, hl⟩
      have h1 := (scan_long_iff (unlines (pre ++ post))).2 ⟨x, l, y, e, hn, hl⟩
      rw [scanLines, rawLines_unlines _ (fun l hl => (oc.plain l hl).noNL), scanTokens_dos _ (fun l hl => (oc.plain l hl).short)] at h1
      cases h1
    have := Acts.change (comp := comp) (openErr := openErr) (r := r) (st := RState.asBytes ⟨pre ++ mid ++ post, cur, name, files⟩) (t := t)
      (a := pre.length + 1) (b := pre.length + mid.length) (a1 := pre.length + 1) (a2 := pre.length + 1)
      (t1 := unlines (pre ++ post)) (t2 := unlines (pre ++ t ++ post))
      (by rw [RangeSyn.firstIn, hv]; exact ha) (by rw [RangeSyn.lastIn, hv]; exact hb) (by omega) (by omega) (clean_terminated _ _)
      (cut_clean hc).symm hshort (by rw [RangeSyn.firstIn, first_const hdir hnl _ (pre ++ mid ++ post)]; exact ha) (by omega)
      (clean_terminated _ _) ⟨ht.ne, fun l hl => (ht.plain l hl).noNL, by omega⟩
      (by rw [Nat.add_sub_cancel]; exact (put_clean oc).symm)
      (by rw [RangeSyn.firstIn, first_const hdir hnl _ (pre ++ mid ++ post)]; exact ha) (by omega)
    exact this
  | @write r _ hex =>
    have := Acts.write (comp := comp) (openErr := openErr) (r := r) (st := st.asBytes) hex
    rw [hv] at this
    exact this
  | @edit _ name ls hf =>
    have := Acts.edit (comp := comp) (openErr := openErr) (st := st.asBytes) (name := name) (t := unlines ls) hf
    rw [seen_clean hc1] at this
    exact this
  | @noFile _ name hf => exact Acts.noFile (st := st.asBytes) hf
  | @unsupported r l _ => exact Acts.unsupported

/-- `2d` on two lines. -/
example : Acts demoEnv.compile demoEnv.openErr ⟨.one (.lit b!"2") [], .delete⟩ ⟨b!"one\ntwo\n", 2, b!"f", oddFiles⟩ ⟨b!"one\n", 2, b!"f", oddFiles⟩ [] :=
  C174_covers (st := ⟨[b!"one", b!"two"], 2, b!"f", oddFiles⟩) (st1 := ⟨[b!"one"], 2, b!"f", oddFiles⟩)
    ⟨⟨⟨by decide, by decide⟩, by intro c hc; cases hc⟩, trivial⟩
    (.delete (st := ⟨[b!"one", b!"two"], 2, b!"f", oddFiles⟩) (pre := [b!"one"]) (mid := [b!"two"]) (post := []) (a := 2) (b := 2) (c := 2)
      (by decide +kernel) (by decide +kernel) rfl (by decide) rfl rfl (by decide +kernel))
    ⟨plain_of _ (by decide), by decide⟩ ⟨plain_of _ (by decide), by decide⟩ (by decide) (by decide)

end Ed
