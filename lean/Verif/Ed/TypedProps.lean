import Verif.Ed.Typed

/-!
# Typed sessions (C84)

The code carries out command lines as the reference editor of `Verif.Ed.Typed` does.
-/

namespace Ed
open Go

/-! ## Addresses -/

theorem pattern_head {body : Bytes} (h : PatternOK 47 body) : ∀ c cs, body = c :: cs → c ≠ 47 := by
  rintro c cs rfl rfl
  have := h.esc [] cs rfl
  simp at this

/-- Slashes are taken off both ends. -/
theorem trimSlash_both (x y : Bytes) (hx : ∀ c cs, x = c :: cs → c ≠ 47) (hne : x ≠ []) (hl : x.getLast? ≠ some 47) (hy : ∀ c ∈ y, c = 47) :
    trimSlash (b!"/" ++ x ++ y) = x := by
  have e1 : (b!"/" ++ x ++ y).dropWhile (· == 47) = x ++ y := by
    cases x with
    | nil => exact absurd rfl hne
    | cons c cs => simp [List.dropWhile_cons, hx c cs rfl]
  have e2 : ∀ y : Bytes, (∀ c ∈ y, c = 47) → ∀ z : Bytes, (z.head? ≠ some 47) → (y ++ z).dropWhile (· == 47) = z := by
    intro y
    induction y with
    | nil =>
      intro _ z hz
      cases z with
      | nil => rfl
      | cons c cs =>
        have : c ≠ 47 := fun e => hz (by simp [e])
        simp [List.dropWhile_cons, this]
    | cons c y ih =>
      intro hy z hz
      have : c = 47 := hy c (by simp)
      subst this
      simpa [List.dropWhile_cons] using ih (fun c hc => hy c (by simp [hc])) z hz
  simp only [trimSlash, e1, List.reverse_append]
  rw [e2 y.reverse (by simpa using hy) x.reverse (by simpa using hl)]
  simp

theorem trimSlash_body (body : Bytes) (h : PatternOK 47 body) (hl : body.getLast? ≠ some 47) : trimSlash (b!"/" ++ body ++ b!"/") = body :=
  trimSlash_both body b!"/" (pattern_head h) h.ne hl (by simp)

theorem nextMatch_some {m : Bytes → Bool} {ls : List Bytes} {cur n : Nat} (h : nextMatch m ls cur = some n) :
    ∃ k, k < ls.length ∧ n = around ls.length (cur + 1 + k) ∧ LineMatches m ls n ∧
      ∀ j < k, ¬ LineMatches m ls (around ls.length (cur + 1 + j)) := by
  have any_iff : ∀ i, (ls[i - 1]?).any m = true ↔ LineMatches m ls i := by
    intro i
    simp only [LineMatches]
    cases ls[i - 1]? <;> simp
  simp only [nextMatch, List.find?_map, Option.map_eq_some_iff] at h
  obtain ⟨k, hk, rfl⟩ := h
  obtain ⟨h1, h2⟩ := List.find?_range_eq_some.1 hk
  refine ⟨k, by simpa using h2.1, rfl, (any_iff _).1 (by simpa using h1), fun j hj => ?_⟩
  have := h2.2 j hj
  intro hm
  have := (any_iff _).2 hm
  simp_all

theorem nextMatch_le {m : Bytes → Bool} {ls : List Bytes} {cur n : Nat} (h : nextMatch m ls cur = some n) : 1 ≤ n ∧ n ≤ ls.length := by
  obtain ⟨k, hk, rfl, -, -⟩ := nextMatch_some h
  exact around_lt (by omega)

theorem around_ne_cur {len cur i : Nat} (h : i + 1 < len) : ((around len (cur + 1 + i) : Nat) : Int) ≠ (cur : Int) := by
  intro e
  have e : around len (cur + 1 + i) = cur := by omega
  have hl := around_lt (len := len) (x := cur + 1 + i) (by omega)
  rw [e] at hl
  simp only [around] at e
  have h1 : cur + 1 + i - 1 = cur + i := by omega
  rw [h1] at e
  by_cases hc : cur + i < len
  · rw [Nat.mod_eq_of_lt hc] at e
    omega
  · have h2 : (cur + i) % len = cur + i - len := by
      rw [Nat.mod_eq_sub_mod (by omega), Nat.mod_eq_of_lt (by omega)]
    omega

theorem regexMatch_next (env : Env) {s : State} {ls : List Bytes} (h : Shows s ls) (hc : Clean ls) {cur n : Nat}
    (hcur : s.currentLine = cur) {re : Bytes} {m : Bytes → Bool} (hm : env.compile re = some m)
    (hn : nextMatch m ls cur = some n) : regexMatch env s re = .ok ((n : Int), true) := by
  obtain ⟨k, hk, rfl, hmk, hno⟩ := nextMatch_some hn
  have hpos : 0 < ls.length := by omega
  have ha := around_lt (len := ls.length) (x := cur + 1) hpos
  simp only [regexMatch, getLines_shows h hc.plain, dropBlank_clean hc.lastNe, hm]
  rw [if_neg (by omega), hcur, start_eq]
  have key : ∀ i, around ls.length (around ls.length (cur + 1) + i) = around ls.length (cur + 1 + i) := by
    intro i
    cases i with
    | zero => simp only [Nat.add_zero]; rw [around_self ha.1 ha.2]
    | succ i =>
      simp only [around, Nat.add_sub_cancel]
      have e1 : cur % ls.length + 1 + (i + 1) - 1 = cur % ls.length + (i + 1) := by omega
      have e2 : cur + 1 + (i + 1) - 1 = cur + (i + 1) := by omega
      rw [e1, e2, Nat.mod_add_mod]
  rw [search_found m ls cur k ls.length (around ls.length (cur + 1)) ha.1 ha.2 hk (by rw [key]; exact hmk)
    (fun i hi => by rw [key]; exact ⟨hno i hi, around_ne_cur (by omega)⟩), key]
  rfl

theorem addrLine_line (env : Env) {s : State} {ls : List Bytes} (h : Shows s ls) (hc : Clean ls) {cur n : Nat}
    (hcur : s.currentLine = cur) {a : AddrSyn} (ha : a.OK) (hn : a.line env.compile ls cur = some n) (hb : n < 2 ^ 63) :
    addrLine env s a.address = .ok n := by
  cases a with
  | lit ds =>
    simp only [AddrSyn.line, Option.some.injEq] at hn
    exact addrLine_denotes env (st := ⟨ls, cur⟩) h hc hcur (sa := .num n) ⟨rfl, rfl, ha.1, ha.2, hn⟩ hb
  | dot =>
    simp only [AddrSyn.line, Option.some.injEq] at hn
    subst hn
    exact addrLine_denotes env (st := ⟨ls, cur⟩) h hc hcur (sa := .dot) ⟨rfl, rfl⟩ hb
  | dollar =>
    simp only [AddrSyn.line, Option.some.injEq] at hn
    subst hn
    exact addrLine_denotes env (st := ⟨ls, cur⟩) h hc hcur (sa := .last) ⟨rfl, rfl⟩ hb
  | re body =>
    simp only [AddrSyn.line] at hn
    split at hn
    · cases hn
    rename_i hl
    simp only [Option.bind_eq_some_iff] at hn
    obtain ⟨m, hm, hn⟩ := hn
    have ht : trimSlash (AddrSyn.re body).bytes = body := trimSlash_body body ha hl
    simp only [addrLine, AddrSyn.address, AddrSyn.typ, ht, regexMatch_next env h hc hcur hm hn, Int.add_zero]
    rw [wrap64_id (by omega) (by omega)]
  | mark | back | off => cases hn

theorem address_typ_ne (a : AddrSyn) : a.address.typ ≠ .null := by
  induction a with
  | off a m ds ih => exact ih
  | _ => simp [AddrSyn.address]

/-- The line a default address stands for. -/
def dflt (typ : CmdType) (ls : List Bytes) (cur : Nat) : Nat :=
  match typ with
  | .null => cur + 1
  | .lineNumber => ls.length
  | _ => cur

/-- The commands with addresses. -/
def Addressed (typ : CmdType) : Prop :=
  typ = .print ∨ typ = .number ∨ typ = .delete ∨ typ = .append ∨ typ = .insert ∨ typ = .change ∨ typ = .null ∨ typ = .lineNumber

theorem first_line (env : Env) {s : State} {ls : List Bytes} (h : Shows s ls) (hc : Clean ls) {cur n : Nat}
    (hcur : s.currentLine = cur) {r : RangeSyn} (hr : r.OK) (c : Command) (ht : Addressed c.typ) (hs : c.start = r.start)
    (hn : r.first env.compile ls cur (dflt c.typ ls cur) = some n) (hb : n < 2 ^ 63) :
    addrLine env s (setDefaultAddresses c).start = .ok n := by
  have given : ∀ a : AddrSyn, a.OK → r.start = a.address → a.line env.compile ls cur = some n →
      addrLine env s (setDefaultAddresses c).start = .ok n := by
    intro a ha e hl
    rw [setDefault_given c (by rw [hs, e]; exact address_typ_ne a), hs, e]
    exact addrLine_line env h hc hcur ha hl hb
  cases r with
  | none =>
    simp only [RangeSyn.first, Option.some.injEq] at hn
    have hnull : c.start.typ = .null := by rw [hs]; rfl
    have e : (setDefaultAddresses c).start = (defaultAddresses c.typ).1 := by
      simp only [setDefaultAddresses, hnull, if_true]
      split <;> rfl
    rw [e]
    rcases ht with ht | ht | ht | ht | ht | ht | ht | ht <;> rw [ht] at hn ⊢ <;> simp only [dflt] at hn <;> subst hn <;>
      simp only [defaultAddresses]
    case inr.inr.inr.inr.inr.inr.inr =>
      exact addrLine_denotes env (st := ⟨ls, cur⟩) h hc hcur (sa := .last) ⟨rfl, rfl⟩ hb
    case inr.inr.inr.inr.inr.inr.inl =>
      simp only [aCurPlusOne, addrLine, hcur]
      rw [wrap64_id (by omega) (by omega)]
      rfl
    all_goals exact addrLine_denotes env (st := ⟨ls, cur⟩) h hc hcur (sa := .dot) ⟨rfl, rfl⟩ hb
  | one a w => exact given a hr.1 rfl hn
  | both semi a w1 w2 b w3 => exact given a hr.1 rfl hn
  | startOnly semi a w => exact given a hr.1 rfl hn
  | endOnly semi w1 b w2 =>
    cases semi
    · exact given (.lit b!"1") ⟨by decide, by decide⟩ rfl hn
    · exact given .dot trivial rfl hn
  | all semi =>
    cases semi
    · exact given (.lit b!"1") ⟨by decide, by decide⟩ rfl hn
    · exact given .dot trivial rfl hn

theorem last_line (env : Env) {s : State} {ls : List Bytes} (h : Shows s ls) (hc : Clean ls) {cur n : Nat}
    (hcur : s.currentLine = cur) {r : RangeSyn} (hr : r.OK) (c : Command) (ht : c.typ = .print ∨ c.typ = .number ∨ c.typ = .delete ∨ c.typ = .change)
    (hs : c.start = r.start) (he : c.end_ = r.end_)
    (hn : r.last env.compile ls cur cur = some n) (hb : n < 2 ^ 63) :
    addrLine env s (setDefaultAddresses c).end_ = .ok n := by
  have given : ∀ a : AddrSyn, a.OK → c.start.typ ≠ .null → r.end_ = a.address → a.line env.compile ls cur = some n →
      addrLine env s (setDefaultAddresses c).end_ = .ok n := by
    intro a ha hne e hl
    rw [setDefault_given c hne, he, e]
    exact addrLine_line env h hc hcur ha hl hb
  have first_ne : ∀ semi : Bool, (if semi then aCur else aFirst : Address).typ ≠ .null := by intro semi; cases semi <;> decide
  cases r with
  | none =>
    simp only [RangeSyn.last, Option.some.injEq] at hn
    have hnull : c.start.typ = .null := by rw [hs]; rfl
    have hnull2 : c.end_.typ = .null := by rw [he]; rfl
    have e : (setDefaultAddresses c).end_ = (defaultAddresses c.typ).2 := by
      simp only [setDefaultAddresses, hnull, hnull2, if_true]
    rw [e]
    subst hn
    rcases ht with ht | ht | ht | ht <;> rw [ht] <;> simp only [defaultAddresses] <;>
      exact addrLine_denotes env (st := ⟨ls, _⟩) h hc hcur (sa := .dot) ⟨rfl, rfl⟩ hb
  | one a w => exact given a hr.1 (by rw [hs]; exact address_typ_ne a) rfl hn
  | both semi a w1 w2 b w3 => exact given b hr.2.1 (by rw [hs]; exact address_typ_ne a) rfl hn
  | startOnly semi a w => exact given a hr.1 (by rw [hs]; exact address_typ_ne a) rfl hn
  | endOnly semi w1 b w2 => exact given b hr.1 (by rw [hs]; exact first_ne semi) rfl hn
  | all semi => exact given .dollar trivial (by rw [hs]; exact first_ne semi) rfl hn

/-! ## One command -/

/-- The type of an unsupported command. -/
def unsupportedTyp (l : UInt8) : CmdType :=
  if l = 104 then .help else if l = 72 then .helpMode else if l = 80 then .prompt else if l = 81 then .quitForce
  else if l = 117 then .undo else if l = 106 then .join else .list

/-- The command structure a command line becomes. -/
def TCmd.parsed (c : TCmd) : Command :=
  match c.verb with
  | .print => { typ := .print, start := c.range.start, end_ := c.range.end_ }
  | .number => { typ := .number, start := c.range.start, end_ := c.range.end_ }
  | .delete => { typ := .delete, start := c.range.start, end_ := c.range.end_ }
  | .equals => { typ := .lineNumber, start := c.range.start }
  | .null => { start := c.range.start }
  | .write => { typ := .write, start := c.range.start, end_ := c.range.end_ }
  | .append t => { typ := .append, start := c.range.start, text := join [nl] t }
  | .insert t => { typ := .insert, start := c.range.start, text := join [nl] t }
  | .change t => { typ := .change, start := c.range.start, end_ := c.range.end_, text := join [nl] t }
  | .edit n => { typ := .edit, params := [n] }
  | .unsupported l => { typ := unsupportedTyp l, start := c.range.start, end_ := c.range.end_ }

/-- The system calls of every save succeed. -/
def Saves (env : Env) : Prop := ∀ k, (env.outcome k).stat = none ∧ (env.outcome k).writeFile = none ∧ (env.outcome k).rename = none

/-- The editor is in the state of the reference editor. -/
structure Agrees (s : State) (st : RState) : Prop where
  shows_ : Shows s st.lines
  clean : Clean st.lines
  cur : s.currentLine = st.cur
  len : st.lines.length < 2 ^ 62
  curLt : st.cur ≤ 2 ^ 62
  named : s.filename = st.name
  files : s.fs = st.files

theorem line_lt {comp : Bytes → Option (Bytes → Bool)} {ls ls' : List Bytes} {cur n n' : Nat} {a : AddrSyn}
    (h : a.line comp ls cur = some n) (h' : a.line comp ls' cur = some n') (hn : n < 2 ^ 62) (hl : ls'.length < 2 ^ 62) : n' < 2 ^ 62 := by
  cases a with
  | lit ds => simp only [AddrSyn.line, Option.some.injEq] at h h'; omega
  | dot => simp only [AddrSyn.line, Option.some.injEq] at h h'; omega
  | dollar => simp only [AddrSyn.line, Option.some.injEq] at h h'; omega
  | re body =>
    simp only [AddrSyn.line] at h'
    split at h'
    · cases h'
    simp only [Option.bind_eq_some_iff] at h'
    obtain ⟨m, _, h'⟩ := h'
    have := nextMatch_le h'
    omega
  | mark | back | off => cases h

theorem first_lt {comp : Bytes → Option (Bytes → Bool)} {ls ls' : List Bytes} {cur d n n' : Nat} {r : RangeSyn}
    (h : r.first comp ls cur d = some n) (h' : r.first comp ls' cur d = some n') (hn : n < 2 ^ 62) (hl : ls'.length < 2 ^ 62) : n' < 2 ^ 62 := by
  cases r with
  | none => simp only [RangeSyn.first, Option.some.injEq] at h h'; omega
  | one a w => exact line_lt h h' hn hl
  | both semi a w1 w2 b w3 => exact line_lt h h' hn hl
  | startOnly semi a w => exact line_lt h h' hn hl
  | endOnly semi w1 b w2 => simp only [RangeSyn.first, Option.some.injEq] at h h'; omega
  | all semi => simp only [RangeSyn.first, Option.some.injEq] at h h'; omega

theorem linesFrom_one {ls : List Bytes} {a : Nat} {l : Bytes} (h1 : 1 ≤ a) (h : ls[a - 1]? = some l) : linesFrom ls a a = [l] := by
  obtain ⟨hlt, he⟩ := List.getElem?_eq_some_iff.1 h
  have : a = (a - 1) + 1 := by omega
  obtain ⟨k, rfl⟩ : ∃ k, a = k + 1 := ⟨a - 1, this⟩
  simp only [Nat.add_sub_cancel] at hlt he
  simp only [linesFrom]
  rw [List.take_succ_eq_append_getElem hlt, Nat.add_sub_cancel, List.drop_append]
  simp [he, Nat.min_eq_left (Nat.le_of_lt hlt)]

/-- Without a search and without `$`, the first address is the same line in every buffer. -/
theorem first_same {env : Env} {s : State} {r : RangeSyn} (hd : r.Direct) (hl : ¬ r.fromLast) (c : Command)
    (hc : c.typ = .change) (hs : c.start = r.start) (pt : Txt.PieceTable) :
    addrLine env { s with pt := pt } (setDefaultAddresses c).start = addrLine env s (setDefaultAddresses c).start := by
  have given : ∀ a : AddrSyn, a.NoSearch → a ≠ .dollar → r.start = a.address →
      addrLine env { s with pt := pt } (setDefaultAddresses c).start = addrLine env s (setDefaultAddresses c).start := by
    intro a h1 h2 e
    rw [setDefault_given c (by rw [hs, e]; exact address_typ_ne a), hs, e]
    cases a with
    | lit ds => simp [addrLine, AddrSyn.address]
    | dot => simp [addrLine, AddrSyn.address]
    | dollar => exact absurd rfl h2
    | re | mark | back | off => exact h1.elim
  cases r with
  | none =>
    have hnull : c.start.typ = .null := by rw [hs]; rfl
    have e : (setDefaultAddresses c).start = aCur := by
      simp only [setDefaultAddresses, hnull, hc, if_true, defaultAddresses]
      split <;> rfl
    rw [e]; rfl
  | one a w => exact given a hd hl rfl
  | both semi a w1 w2 b w3 => exact given a hd.2.1 hl rfl
  | startOnly semi a w => exact given a hd.2 hl rfl
  | endOnly semi w1 b w2 =>
    obtain ⟨rfl, -⟩ := hd
    exact given (.lit b!"1") trivial (by decide) rfl
  | all semi =>
    cases hd
    exact given (.lit b!"1") trivial (by decide) rfl

/-- Opening a file that is there. -/
theorem processCommand_edit (env : Env) {s : State} {name : Bytes} {ls : List Bytes} (hfs : s.fs name = some (unlines ls)) (hc : Clean ls) :
    processCommand env s { typ := .edit, params := [name] } =
      .ok ({ s with filename := name, pt := Txt.newPieceTable (unlines ls) true (unlines ls).length, currentLine := ls.length }, []) := by
  let s1 : State := { s with filename := name, pt := Txt.newPieceTable (unlines ls) true (unlines ls).length, currentLine := ls.length }
  have sh1 : Shows s1 ls := ⟨(opened_shows ls 0).reach, (opened_shows ls 0).text⟩
  have sh : Shows { s1 with currentLine := s.currentLine } ls := ⟨sh1.reach, sh1.text⟩
  have hg := getLines_shows sh hc.plain
  have hed : edit env s name = .ok (s1, none) := by
    simp only [s1] at hg ⊢
    simp only [edit, hfs, hg, dropBlank_clean hc.lastNe]
  have e : setDefaultAddresses { typ := .edit, params := [name] } = { typ := .edit, params := [name], start := aCur, end_ := aCur } := rfl
  simp only [processCommand, e, List.headD_cons, hed]
  rfl

/-- One command of the code against one command line of the reference editor. -/
theorem does_refines (env : Env) (hsave : Saves env) {s : State} {st st1 : RState} {c : TCmd} {o : Bytes}
    (h : Agrees s st) (hwf : c.WF) (hd : Does env.compile env.openErr c st st1 o) (hc1 : Clean st1.lines) (hl1 : st1.lines.length < 2 ^ 62) :
    ∃ s', processCommand env s c.parsed = .ok (s', o) ∧ Agrees s' st1 := by
  obtain ⟨sh, cl, hcur, hlen, hcl, hname, hfile⟩ := h
  obtain ⟨hr, hw⟩ := hwf
  cases hd with
  | @print r _ a b ha hb h1 h2 h3 =>
    have e1 := first_line env sh cl hcur hr (TCmd.parsed ⟨r, .print⟩) (by simp [Addressed, TCmd.parsed]) rfl ha (by omega)
    have e2 := last_line env sh cl hcur hr (TCmd.parsed ⟨r, .print⟩) (by simp [TCmd.parsed]) rfl rfl hb (by omega)
    refine ⟨s, ?_, ⟨sh, cl, hcur, hlen, hcl, hname, hfile⟩⟩
    simp only [processCommand, typ_setDefault, e1, e2, bind, Except.bind, print_shows env sh cl _ _ h1 h2 h3 (by omega), lift]
    rfl
  | @number r _ a b ha hb h1 h2 h3 =>
    have e1 := first_line env sh cl hcur hr (TCmd.parsed ⟨r, .number⟩) (by simp [Addressed, TCmd.parsed]) rfl ha (by omega)
    have e2 := last_line env sh cl hcur hr (TCmd.parsed ⟨r, .number⟩) (by simp [TCmd.parsed]) rfl rfl hb (by omega)
    refine ⟨s, ?_, ⟨sh, cl, hcur, hlen, hcl, hname, hfile⟩⟩
    simp only [processCommand, typ_setDefault, e1, e2, bind, Except.bind, number_shows sh cl _ _ h1 h2 h3, lift]
    rfl
  | @equals r _ a ha hb =>
    have e1 := first_line env sh cl hcur hr (TCmd.parsed ⟨r, .equals⟩) (by simp [Addressed, TCmd.parsed]) rfl ha hb
    refine ⟨s, ?_, ⟨sh, cl, hcur, hlen, hcl, hname, hfile⟩⟩
    simp only [processCommand, typ_setDefault, e1, bind, Except.bind]
    rfl
  | @null r _ a l ha h1 h2 =>
    obtain ⟨hlt, -⟩ := List.getElem?_eq_some_iff.1 h2
    have e1 := first_line env sh cl hcur hr (TCmd.parsed ⟨r, .null⟩) (by simp [Addressed, TCmd.parsed]) rfl ha (by omega)
    have sh' : Shows { s with currentLine := (a : Int) } st.lines := ⟨sh.reach, sh.text⟩
    refine ⟨{ s with currentLine := (a : Int) }, ?_, ⟨sh', cl, rfl, hlen, by show a ≤ 2 ^ 62; omega, hname, hfile⟩⟩
    have ep := print_shows env sh' cl a a h1 (by omega) (by omega) (by omega)
    rw [linesFrom_one h1 h2] at ep
    simp only [processCommand, typ_setDefault, e1, bind, Except.bind, ep, lift]
    rfl
  | @delete r _ a b d pre mid post ha hb hls hmid ea eb hd2 =>
    have hm : 0 < mid.length := List.length_pos_iff.2 hmid
    have hn : st.lines.length = pre.length + mid.length + post.length := by rw [hls]; simp; omega
    have hcb : d < 2 ^ 62 := first_lt ha hd2 (by omega) (by simp; omega)
    have e1 := first_line env sh cl hcur hr (TCmd.parsed ⟨r, .delete⟩) (by simp [Addressed, TCmd.parsed]) rfl ha (by omega)
    have e2 := last_line env sh cl hcur hr (TCmd.parsed ⟨r, .delete⟩) (by simp [TCmd.parsed]) rfl rfl hb (by omega)
    obtain ⟨pt', e, sh1⟩ := delete_shows sh cl.plain a b (by omega) (by omega) (by omega)
    have hi : index st.lines a = pre.length := by rw [index_clean cl.lastNe]; omega
    have hj : index st.lines ((b : Int) + 1) = pre.length + mid.length := by
      have := index_clean cl.lastNe (b + 1)
      rw [show ((b + 1 : Nat) : Int) = (b : Int) + 1 by omega] at this
      rw [this]; omega
    rw [hi, hj, hls] at sh1
    have ecut : (pre ++ mid ++ post).take pre.length ++ (pre ++ mid ++ post).drop (pre.length + mid.length) = pre ++ post := by simp
    rw [ecut] at sh1
    have e3 := first_line env (s := { s with pt := pt' }) sh1 hc1 hcur hr (TCmd.parsed ⟨r, .delete⟩) (by simp [Addressed, TCmd.parsed]) rfl hd2
      (by omega)
    refine ⟨{ s with pt := pt', currentLine := (d : Int) }, ?_,
      ⟨⟨sh1.reach, sh1.text⟩, hc1, rfl, hl1, by show d ≤ 2 ^ 62; omega, hname, hfile⟩⟩
    simp only [processCommand, typ_setDefault, e1, e2, bind, Except.bind, e, lift, e3]
    rfl
  | @append r _ t pre post ha hls ht =>
    have hn : st.lines.length = pre.length + post.length := by rw [hls]; simp
    have ht1 : pre.length + t.length + post.length < 2 ^ 62 := by simp at hl1; omega
    have e1 := first_line env sh cl hcur hr (TCmd.parsed ⟨r, .append t⟩) (by simp [Addressed, TCmd.parsed]) rfl ha (by omega)
    obtain ⟨pt', e, sh1⟩ := insert_shows sh cl.plain ((pre.length : Int) + 1) (by omega) (by omega) t ht.ne
    have hi : index st.lines ((pre.length : Int) + 1) = pre.length := by
      have := index_clean cl.lastNe (pre.length + 1)
      rw [show ((pre.length + 1 : Nat) : Int) = (pre.length : Int) + 1 by omega] at this
      rw [this]; omega
    rw [hi, hls] at sh1
    simp only [List.take_left, List.drop_left] at sh1
    refine ⟨{ s with pt := pt', currentLine := ((pre.length + 1 + t.length : Nat) : Int) }, ?_,
      ⟨⟨sh1.reach, sh1.text⟩, hc1, rfl, hl1, by show pre.length + 1 + t.length ≤ 2 ^ 62; omega, hname, hfile⟩⟩
    simp only [processCommand, typ_setDefault, text_setDefault, e1, bind, Except.bind]
    rw [show (TCmd.parsed ⟨r, .append t⟩).typ = .append from rfl, show (TCmd.parsed ⟨r, .append t⟩).text = join [nl] t from rfl]
    simp only
    rw [wrap64_id (i := (pre.length : Int) + 1) (by omega) (by omega), e]
    simp only [lift, linesIn_join t ht, pure, Except.pure]
    rw [wrap64_id (by omega) (by omega)]
    simp
  | @insert r _ t pre post ha hls ht =>
    have hn : st.lines.length = pre.length + post.length := by rw [hls]; simp
    have e1 := first_line env sh cl hcur hr (TCmd.parsed ⟨r, .insert t⟩) (by simp [Addressed, TCmd.parsed]) rfl ha (by omega)
    obtain ⟨pt', e, sh1⟩ := insert_shows sh cl.plain ((pre.length + 1 : Nat) : Int) (by omega) (by omega) t ht.ne
    have hi : index st.lines ((pre.length + 1 : Nat) : Int) = pre.length := by rw [index_clean cl.lastNe]; omega
    rw [hi, hls] at sh1
    simp only [List.take_left, List.drop_left] at sh1
    refine ⟨{ s with pt := pt' }, ?_, ⟨sh1, hc1, hcur, hl1, hcl, hname, hfile⟩⟩
    simp only [processCommand, typ_setDefault, text_setDefault, e1, bind, Except.bind]
    rw [show (TCmd.parsed ⟨r, .insert t⟩).typ = .insert from rfl, show (TCmd.parsed ⟨r, .insert t⟩).text = join [nl] t from rfl]
    simp only [e, lift]
    rfl
  | @change r _ t b pre mid post ha hb hls hmid eb hnl ht oc =>
    have hm : 0 < mid.length := List.length_pos_iff.2 hmid
    have hn : st.lines.length = pre.length + mid.length + post.length := by rw [hls]; simp; omega
    have ht1 : pre.length + t.length + post.length < 2 ^ 62 := by simp at hl1; omega
    have e1 := first_line env sh cl hcur hr (TCmd.parsed ⟨r, .change t⟩) (by simp [Addressed, TCmd.parsed]) rfl ha (by omega)
    have e2 := last_line env sh cl hcur hr (TCmd.parsed ⟨r, .change t⟩) (by simp [TCmd.parsed]) rfl rfl hb (by omega)
    obtain ⟨pt', e, sh1⟩ := delete_shows sh cl.plain ((pre.length + 1 : Nat) : Int) b (by omega) (by omega) (by omega)
    have hi : index st.lines ((pre.length + 1 : Nat) : Int) = pre.length := by rw [index_clean cl.lastNe]; omega
    have hj : index st.lines ((b : Int) + 1) = pre.length + mid.length := by
      have := index_clean cl.lastNe (b + 1)
      rw [show ((b + 1 : Nat) : Int) = (b : Int) + 1 by omega] at this
      rw [this]; omega
    rw [hi, hj, hls] at sh1
    have ecut : (pre ++ mid ++ post).take pre.length ++ (pre ++ mid ++ post).drop (pre.length + mid.length) = pre ++ post := by simp
    rw [ecut] at sh1
    have again : ∀ pt, addrLine env { s with pt := pt } (setDefaultAddresses (TCmd.parsed ⟨r, .change t⟩)).start =
        .ok ((pre.length + 1 : Nat) : Int) := by
      intro pt
      rw [first_same hw.1 hnl _ rfl rfl pt]
      exact e1
    obtain ⟨pt2, e3, sh2⟩ := insert_shows sh1 oc.plain ((pre.length + 1 : Nat) : Int) (by omega) (by omega) t ht.ne
    have hi2 : index (pre ++ post) ((pre.length + 1 : Nat) : Int) = pre.length := by
      rw [index_clean oc.lastNe]; simp
    rw [hi2] at sh2
    simp only [List.take_left, List.drop_left] at sh2
    refine ⟨{ s with pt := pt2, currentLine := ((pre.length + 1 + t.length : Nat) : Int) }, ?_,
      ⟨⟨sh2.reach, sh2.text⟩, hc1, rfl, hl1, by show pre.length + 1 + t.length ≤ 2 ^ 62; omega, hname, hfile⟩⟩
    simp only [processCommand, typ_setDefault, text_setDefault, e1, e2, bind, Except.bind]
    rw [show (TCmd.parsed ⟨r, .change t⟩).typ = .change from rfl, show (TCmd.parsed ⟨r, .change t⟩).text = join [nl] t from rfl]
    simp only [e, lift, again, e3, linesIn_join t ht, pure, Except.pure]
    rw [wrap64_id (by omega) (by omega)]
    simp
  | @write r _ hex =>
    have hsv : (saveTrace (env.outcome s.writes) s.fs s.filename (unlines st.lines)).2 = none := by
      obtain ⟨a, b, c⟩ := hsave s.writes
      obtain ⟨x, hx⟩ := Option.ne_none_iff_exists'.1 hex
      simp [saveTrace, statError, hname, hfile, hx, a, b, c]
    obtain ⟨s', h1, h2, h3, h4, h5, h6, h7⟩ := C71_whole_partial env sh cl.plain (TCmd.parsed ⟨r, .write⟩) rfl hsv
    rw [hname] at h2 h3 h6 h7
    refine ⟨s', h1, ⟨h4, cl, ?_, hlen, ?_, h3, ?_⟩⟩
    · rw [h5, dropBlank_clean cl.lastNe]
    · show st.lines.length ≤ 2 ^ 62
      omega
    · funext n
      simp only [saved]
      by_cases hn1 : n = st.name ++ b!".swp"
      · rw [if_pos hn1, hn1]
        exact h7
      · rw [if_neg hn1]
        by_cases hn2 : n = st.name
        · rw [if_pos hn2, hn2, h2]
        · rw [if_neg hn2, h6 n hn2 hn1, hfile]
  | @edit _ name ls hf =>
    rw [← hfile] at hf
    exact ⟨_, processCommand_edit env hf hc1, ⟨⟨(opened_shows ls 0).reach, (opened_shows ls 0).text⟩, hc1, rfl, hl1, Nat.le_of_lt hl1, rfl, hfile⟩⟩
  | @noFile _ name hf =>
    rw [← hfile] at hf
    refine ⟨s, ?_, ⟨sh, cl, hcur, hlen, hcl, hname, hfile⟩⟩
    have e : setDefaultAddresses (TCmd.parsed ⟨.none, .edit name⟩) = { typ := .edit, params := [name], start := aCur, end_ := aCur } := rfl
    simp only [processCommand, e, List.headD_cons, edit, hf]
    rfl
  | @unsupported r l _ =>
    refine ⟨s, ?_, ⟨sh, cl, hcur, hlen, hcl, hname, hfile⟩⟩
    have e : (setDefaultAddresses (TCmd.parsed ⟨r, .unsupported l⟩)).typ = unsupportedTyp l := typ_setDefault _
    have hl : l ∈ b!"hHPQujl" := by
      rcases hw with ⟨-, h⟩ | h <;> simp at h ⊢ <;> grind
    simp only [processCommand, e]
    simp at hl
    rcases hl with rfl | rfl | rfl | rfl | rfl | rfl | rfl <;> rfl

end Ed
