import Verif.Ed.AnyFile
import Verif.Ed.Unsupported

/-! # C175: what becomes of every command, whatever its address comes to

The references of C84 and C174 say what commands do that can be carried out. This one says of every command line what becomes of it: it is
carried out, it ends the program, or it never comes back; also for line numbers out of range, searches that find nothing, marks, offsets, and
from a current line that is not in the buffer. -/

namespace Ed
open Go

/-! ## Specification -/

instance (t : Bytes) : Decidable (Long t) := decidable_of_iff _ (scan_long_iff t)

instance (t : Bytes) : Decidable (Sane t) := inferInstanceAs (Decidable (_ ∧ _))

/-- What an address comes to: a number, a crash or an endless search. -/
inductive Goal where
  | line (n : Int)
  | crash
  | never
  deriving DecidableEq

/-- A search among lines from a current line, which need not be one of them. From 0 or a line behind the last one the search begins at the
remainder; from a negative line it begins at the first line if the number of lines divides it, and crashes otherwise. Finding nothing is
noticed only when the search comes by the current line again. -/
def sought (m : Bytes → Bool) (ls : List Bytes) (cur : Int) : Goal :=
  if ls = [] then .crash
  else if cur < 0 ∧ cur % ls.length ≠ 0 then .crash
  else
    match nextMatch m ls (cur % ls.length).toNat with
    | some n => .line n
    | none => if 1 ≤ cur ∧ cur ≤ ls.length then .line (-1) else .never

/-- A search for an expression. One that is not well formed is not found. -/
def soughtFor (comp : Bytes → Option (Bytes → Bool)) (ls : List Bytes) (cur : Int) (re : Bytes) : Goal :=
  match comp re with
  | none => .line (-1)
  | some m => sought m ls cur

/-- A pattern without the slashes at its end. -/
def sansSlashes (body : Bytes) : Bytes := (body.reverse.dropWhile (· == 47)).reverse

/-- What an address comes to. An offset makes a number unreadable, becomes part of an expression, and is ignored otherwise. -/
def AddrSyn.goal (comp : Bytes → Option (Bytes → Bool)) (ls : List Bytes) (cur : Int) : AddrSyn → Goal
  | .lit ds => .line (min (digitsVal ds) (2 ^ 63 - 1))
  | .dot => .line cur
  | .dollar => .line ls.length
  | .re body => soughtFor comp ls cur (sansSlashes body)
  | .off (.lit ds) _ _ => .line (if digitsVal ds < 2 ^ 64 then 0 else 2 ^ 63 - 1)
  | .off .dot _ _ => .line cur
  | .off .dollar _ _ => .line ls.length
  | .off (.re body) m ds => soughtFor comp ls cur (body ++ 47 :: signByte m :: ds)
  | .mark _ | .back _ | .off .. => .crash

/-- The first line of an address part; `d` is the line meant if there is none. -/
def RangeSyn.goal1 (comp : Bytes → Option (Bytes → Bool)) (ls : List Bytes) (cur d : Int) : RangeSyn → Goal
  | .none => .line d
  | .one a _ | .both _ a _ _ _ _ | .startOnly _ a _ => a.goal comp ls cur
  | .endOnly semi _ _ _ | .all semi => .line (if semi then cur else 1)

/-- The last line of an address part. -/
def RangeSyn.goal2 (comp : Bytes → Option (Bytes → Bool)) (ls : List Bytes) (cur d : Int) : RangeSyn → Goal
  | .none => .line d
  | .one a _ | .startOnly _ a _ => a.goal comp ls cur
  | .both _ _ _ _ b _ | .endOnly _ _ b _ => b.goal comp ls cur
  | .all _ => .line ls.length

/-- The text of the buffer, the current line, which may be any integer, the name of the file being edited and all the files. -/
structure IState where
  text : Bytes
  cur : Int
  name : Bytes
  files : Bytes → Option Bytes

/-- What becomes of a command: it is carried out, it ends the program, it never comes back. `unsaid` where this depends on more than the text:
see C106, C151. -/
inductive Fate where
  | done (st : IState) (out : Bytes)
  | crash
  | never
  | unsaid

/-- What becomes of a command with an address. -/
def Goal.to (g : Goal) (f : Int → Fate) : Fate :=
  match g with
  | .line n => f n
  | .crash => .crash
  | .never => .never

/-- What becomes of a command line. `room` is the capacity of a table of lines, `openErr` the message for files that cannot be opened. -/
def fate (comp : Bytes → Option (Bytes → Bool)) (room : Nat → Nat) (openErr : Bytes → Bytes) (c : TCmd) (st : IState) : Fate :=
  let first (t : Bytes) (d : Int) := c.range.goal1 comp (seen t) st.cur d
  let last (t : Bytes) (d : Int) := c.range.goal2 comp (seen t) st.cur d
  match c.verb with
  | .print => (first st.text st.cur).to fun a => (last st.text st.cur).to fun b =>
      if 1 ≤ a ∧ a ≤ b + 1 ∧ b ≤ room (rawLines st.text).length then .done st (join [nl] (paddedLines (seen st.text) a.toNat b.toNat)) else .crash
  | .number => (first st.text st.cur).to fun a => (last st.text st.cur).to fun b =>
      if b < a then .done st []
      else if 1 ≤ a ∧ b ≤ (seen st.text).length then .done st (numbered a.toNat (linesFrom (seen st.text) a.toNat b.toNat)) else .crash
  | .equals => (first st.text (seen st.text).length).to fun a => .done st (itoa a)
  | .null => (first st.text (wrap64 (st.cur + 1))).to fun a =>
      if 1 ≤ a ∧ a ≤ room (rawLines st.text).length then .done { st with cur := a } ((seen st.text).getD (a.toNat - 1) []) else .crash
  | .delete => (first st.text st.cur).to fun a => (last st.text st.cur).to fun b =>
      let p := place st.text (a - 1).toNat
      let q := place st.text b.toNat
      if a = -2 ^ 63 ∨ b = 2 ^ 63 - 1 then .crash
      else if p ≤ q ∧ q ≤ st.text.length ∧ ¬ Long (cutAt st.text p q) then
        (first (cutAt st.text p q) st.cur).to fun c => .done { st with text := cutAt st.text p q, cur := c } []
      else .unsaid
  | .append t => (first st.text st.cur).to fun a =>
      if a = 2 ^ 63 - 1 ∨ st.text.length < place st.text a.toNat then .crash
      else .done { st with text := putAt st.text (place st.text a.toNat) (unlines t), cur := wrap64 (a + 1 + t.length) } []
  | .insert t => (first st.text st.cur).to fun a =>
      if a = -2 ^ 63 ∨ st.text.length < place st.text (a - 1).toNat then .crash
      else .done { st with text := putAt st.text (place st.text (a - 1).toNat) (unlines t) } []
  | .change t => (first st.text st.cur).to fun a => (last st.text st.cur).to fun b =>
      let p := place st.text (a - 1).toNat
      let q := place st.text b.toNat
      let t1 := cutAt st.text p q
      if a = -2 ^ 63 ∨ b = 2 ^ 63 - 1 then .crash
      else if p ≤ q ∧ q ≤ st.text.length ∧ ¬ Long t1 then
        (first t1 st.cur).to fun a1 =>
          let p1 := place t1 (a1 - 1).toNat
          let t2 := putAt t1 p1 (unlines t)
          if a1 = -2 ^ 63 ∨ t1.length < p1 then .crash
          else if Sane t2 then (first t2 st.cur).to fun a2 => .done { st with text := t2, cur := wrap64 (a2 + t.length) } []
          else .unsaid
      else .unsaid
  | .write =>
      if st.files st.name = none then .unsaid
      else .done { st with files := saved st.files st.name st.text, cur := (seen st.text).length } []
  | .edit name =>
      match st.files name with
      | none => .done st (openErr name)
      | some t => if Long t then .crash else if Sane t then .done { st with text := t, cur := (seen t).length, name := name } [] else .unsaid
  | .unsupported _ => .done st b!"? (NYI)"

/-! ## Addresses -/

/-- The line number the code computes is the one meant, and it crashes or loops if there is none. -/
def Comes (r : R Int) : Goal → Prop
  | .line n => r = .ok n ∧ -2 ^ 63 ≤ n ∧ n < 2 ^ 63
  | .crash => ∃ p, r = .error (.panic p)
  | .never => r = .error .hang

theorem around_mod {len cur k : Nat} : around len (cur % len + 1 + k) = around len (cur + 1 + k) := by
  simp only [around]
  rw [show cur % len + 1 + k - 1 = cur % len + k by omega, show cur + 1 + k - 1 = cur + k by omega, Nat.mod_add_mod]

theorem nextMatch_mod (m : Bytes → Bool) (ls : List Bytes) (cur : Nat) : nextMatch m ls (cur % ls.length) = nextMatch m ls cur := by
  simp only [nextMatch]
  congr 1
  apply List.map_congr_left
  intro k _
  exact around_mod

/-- **C175** What a search comes to, from any current line, exactly. -/
theorem C175_search (env : Env) {s : State} {ls : List Bytes} (hg : getLines s = .ok ls) (hlen : ls.length < 2 ^ 62) (re : Bytes) :
    match soughtFor env.compile ls s.currentLine re with
    | .line n => (regexMatch env s re = .ok (n, decide (n ≠ -1))) ∧ -1 ≤ n ∧ n ≤ ls.length
    | .crash => ∃ p, regexMatch env s re = .error (.panic p)
    | .never => regexMatch env s re = .error .hang := by
  simp only [soughtFor, regexMatch, hg]
  cases hm : env.compile re with
  | none => simp
  | some m =>
    simp only [sought]
    by_cases h0 : ls = []
    · subst h0; simp
    rw [if_neg h0]
    have hpos : 0 < ls.length := List.length_pos_iff.2 h0
    rw [if_neg (show ¬ ls.length = 0 by omega)]
    generalize s.currentLine = cur
    -- a search that begins at line c + 1
    have start : ∀ c : Nat, cur.tmod ls.length = c → c < ls.length → (cur % ls.length).toNat = c → (0 ≤ cur → c = cur.toNat % ls.length) →
        match (match nextMatch m ls (cur % ls.length).toNat with
          | some n => Goal.line n
          | none => if 1 ≤ cur ∧ cur ≤ ls.length then .line (-1) else .never) with
        | .line n => ((match searchLoop m ls cur ls.length (cur.tmod ls.length + 1) with
            | none => Except.error Fault.hang
            | some r => lift r) = .ok (n, decide (n ≠ -1))) ∧ -1 ≤ n ∧ n ≤ ls.length
        | .crash => ∃ p, (match searchLoop m ls cur ls.length (cur.tmod ls.length + 1) with
            | none => Except.error Fault.hang
            | some r => lift r) = .error (.panic p)
        | .never => (match searchLoop m ls cur ls.length (cur.tmod ls.length + 1) with
            | none => Except.error Fault.hang
            | some r => lift r) = .error .hang := by
      intro c e1 hc e2 e3
      rw [e2, e1]
      have ec : ((c : Int) + 1) = ((c + 1 : Nat) : Int) := by omega
      rw [ec]
      cases hn : nextMatch m ls c with
      | some n =>
        obtain ⟨k, hk, rfl, hmk, hno⟩ := nextMatch_some hn
        have hr := around_lt (len := ls.length) (x := c + 1 + k) hpos
        simp only
        rw [search_found m ls cur k ls.length (c + 1) (by omega) (by omega) hk hmk
          (fun i hi => ⟨hno i hi, ?_⟩)]
        · simp only [lift]
          refine ⟨?_, by omega, by omega⟩
          have : ((around ls.length (c + 1 + k) : Nat) : Int) ≠ -1 := by omega
          simp [this]
        · intro e
          have hr' := around_lt (len := ls.length) (x := c + 1 + i) hpos
          have h1 : 0 ≤ cur := by omega
          have h2 : c = cur.toNat % ls.length := e3 h1
          refine around_ne_cur (len := ls.length) (cur := cur.toNat) (i := i) (by omega) ?_
          rw [← around_mod, ← h2, e]
          omega
      | none =>
        have hall := nextMatch_none hn
        have hnm : ∀ i, ¬ LineMatches m ls i := by
          rintro i ⟨l, hl, hml⟩
          rw [hall l (List.mem_of_getElem? hl)] at hml
          cases hml
        simp only
        by_cases hin : 1 ≤ cur ∧ cur ≤ ls.length
        · rw [if_pos hin]
          have h2 := e3 (by omega)
          obtain ⟨u, rfl⟩ : ∃ u : Nat, cur = u := ⟨cur.toNat, by omega⟩
          simp only [Int.toNat_natCast] at h2
          have hlast : ((around ls.length (c + 1 + (ls.length - 1)) : Nat) : Int) = (u : Int) := by
            rw [h2, around_mod]
            simp only [around]
            have : u + 1 + (ls.length - 1) - 1 = u - 1 + ls.length := by omega
            rw [this, Nat.add_mod_right, Nat.mod_eq_of_lt (by omega)]
            omega
          rw [search_stops m ls u (ls.length - 1) ls.length (c + 1) (by omega) (by omega) (by omega) (fun i _ => hnm _)
            (fun i hi => ?_) hlast]
          · simp only [lift]
            refine ⟨by simp, by omega, by omega⟩
          · have := around_ne_cur (len := ls.length) (cur := u) (i := i) (by omega)
            rw [← around_mod, ← h2] at this
            exact this
        · rw [if_neg hin, search_forever m ls cur hall hin ls.length (c + 1) (by omega) (by omega)]
    by_cases hneg : cur < 0
    · by_cases hdvd : cur % ls.length = 0
      · rw [if_neg (by simp [hdvd])]
        have hd : (ls.length : Int) ∣ cur := Int.dvd_of_emod_eq_zero hdvd
        exact start 0 (by rw [Int.tmod_eq_zero_of_dvd hd]; rfl) hpos (by rw [hdvd]; rfl) (by omega)
      · rw [if_pos ⟨hneg, hdvd⟩]
        have hb : cur.tmod ls.length < 0 := by
          have h1 : cur.tmod ls.length ≤ 0 := by
            have := Int.tmod_nonneg (b := (ls.length : Int)) (a := -cur) (by omega)
            rw [Int.neg_tmod] at this
            omega
          have h2 : cur.tmod ls.length ≠ 0 := by
            intro h
            exact hdvd (Int.emod_eq_zero_of_dvd (Int.dvd_of_tmod_eq_zero h))
          omega
        obtain ⟨f, hf⟩ : ∃ f, ls.length = f + 1 := ⟨ls.length - 1, by omega⟩
        generalize hx : cur.tmod ls.length = x at hb
        rw [hf]
        simp only [searchLoop]
        rw [if_pos (by omega)]
        exact ⟨_, rfl⟩
    · rw [if_neg (by omega)]
      obtain ⟨u, rfl⟩ : ∃ u : Nat, cur = u := ⟨cur.toNat, by omega⟩
      exact start (u % ls.length) (by rw [← Int.ofNat_tmod]) (Nat.mod_lt _ hpos) (by omega) (by simp)

theorem search_comes (env : Env) {s : State} {ls : List Bytes} (hg : getLines s = .ok ls) (hlen : ls.length < 2 ^ 62) {a : Address}
    (h1 : a.typ = .regex) (h2 : a.offset = 0) {re : Bytes} (h3 : trimSlash a.text = re) :
    Comes (addrLine env s a) (soughtFor env.compile ls s.currentLine re) := by
  have h := C175_search env hg hlen re
  simp only [addrLine, h1, h2, h3, Int.add_zero]
  cases hs : soughtFor env.compile ls s.currentLine re with
  | line n =>
    rw [hs] at h
    obtain ⟨e, b1, b2⟩ := h
    simp only [Comes, e]
    refine ⟨?_, by omega, by omega⟩
    rw [wrap64_id (by omega) (by omega)]
  | crash =>
    rw [hs] at h
    obtain ⟨p, e⟩ := h
    simp only [Comes, e]
    exact ⟨p, rfl⟩
  | never =>
    rw [hs] at h
    simp only at h
    simp only [Comes, h]

theorem trim_pattern {body : Bytes} (h : PatternOK 47 body) : trimSlash (b!"/" ++ body ++ b!"/") = sansSlashes body := by
  have hh := pattern_head h
  cases body with
  | nil => exact absurd rfl h.ne
  | cons c cs =>
    have hc := hh c cs rfl
    simp [trimSlash, sansSlashes, List.dropWhile_cons, hc]

theorem trim_offset {body : Bytes} (h : PatternOK 47 body) (m : Bool) (ds : Bytes) (hd : ∀ c ∈ ds, isDigit c = true) :
    trimSlash ((AddrSyn.re body).bytes ++ signByte m :: ds) = body ++ 47 :: signByte m :: ds := by
  have e : (AddrSyn.re body).bytes ++ signByte m :: ds = b!"/" ++ (body ++ 47 :: signByte m :: ds) ++ [] := by
    simp [AddrSyn.bytes]
  rw [e]
  refine trimSlash_both _ [] ?_ (by simp) ?_ (by simp)
  · intro c cs hcs
    cases body with
    | nil => exact absurd rfl h.ne
    | cons x xs =>
      have := pattern_head h x xs rfl
      simp only [List.cons_append, List.cons.injEq] at hcs
      rw [← hcs.1]; exact this
  · rw [List.getLast?_append, show (47 :: signByte m :: ds : Bytes) = [47] ++ (signByte m :: ds) from rfl, List.getLast?_append]
    have : (signByte m :: ds).getLast? ≠ none := by simp
    cases hl : (signByte m :: ds).getLast? with
    | none => exact absurd hl this
    | some x =>
      have hx := List.mem_of_getLast? hl
      simp only [Option.some_or, ne_eq, Option.some.injEq]
      rintro rfl
      rcases List.mem_cons.1 hx with hx | hx
      · cases m <;> simp [signByte] at hx
      · have := hd _ hx; revert this; decide

theorem digits_then (c : UInt8) (hc : isDigit c = false) (rest : Bytes) : ∀ (ds : Bytes) (n : Nat), (∀ c ∈ ds, isDigit c = true) → n < 2 ^ 64 →
    parseUintLoop n (ds ++ c :: rest) = .error (if n * 10 ^ ds.length + digitsVal ds < 2 ^ 64 then .syntax else .range) := by
  intro ds
  induction ds with
  | nil => intro n _ hn; simp [parseUintLoop, hc, digitsVal, hn]
  | cons d ds ih =>
    intro n h hn
    simp only [List.cons_append, parseUintLoop, h d (by simp), if_true]
    have e : n * 10 ^ (d :: ds).length + digitsVal (d :: ds) = (n * 10 + (d.toNat - 48)) * 10 ^ ds.length + digitsVal ds := by
      simp only [List.length_cons, digitsVal, Nat.pow_succ, Nat.add_mul]
      rw [Nat.mul_comm (10 ^ ds.length) 10, Nat.mul_assoc n 10]
      omega
    by_cases hb : n * 10 + (d.toNat - 48) ≥ 2 ^ 64
    · rw [if_pos hb, if_neg]
      rw [e]
      have h1 : 1 ≤ 10 ^ ds.length := Nat.one_le_pow _ _ (by decide)
      have h2 := Nat.le_mul_of_pos_right (n * 10 + (d.toNat - 48)) h1
      omega
    · rw [if_neg hb, ih _ (fun x hx => h x (by simp [hx])) (by omega), e]

theorem atoi_offset {ds : Bytes} (hne : ds ≠ []) (h : ∀ c ∈ ds, isDigit c = true) (m : Bool) (e : Bytes) :
    (atoi (ds ++ signByte m :: e)).1 = if digitsVal ds < 2 ^ 64 then 0 else 2 ^ 63 - 1 := by
  have hl := digits_then (signByte m) (by cases m <;> decide) e ds 0 h (by decide)
  simp only [Nat.zero_mul, Nat.zero_add] at hl
  cases ds with
  | nil => exact absurd rfl hne
  | cons c cs =>
    have hs := isDigit_ne_sign (h c (by simp))
    simp only [List.cons_append, atoi, hs.1, hs.2, if_false, parseUint]
    rw [if_neg (by simp), show c :: (cs ++ signByte m :: e) = (c :: cs) ++ signByte m :: e from rfl, hl]
    split <;> simp [finishInt]

/-- What an address comes to. -/
theorem addr_comes (env : Env) {s : State} {ls : List Bytes} (hg : getLines s = .ok ls) (hlen : ls.length < 2 ^ 62)
    (h1 : -2 ^ 63 ≤ s.currentLine) (h2 : s.currentLine < 2 ^ 63) {a : AddrSyn} (ha : a.OK) :
    Comes (addrLine env s a.address) (a.goal env.compile ls s.currentLine) := by
  have dot : ∀ a : AddrSyn, a.typ = .current → Comes (addrLine env s a.address) (.line s.currentLine) := by
    intro a e
    simp only [addrLine, AddrSyn.address, e, Int.add_zero, wrap64_id h1 h2, Comes]
    exact ⟨trivial, h1, h2⟩
  have dollar : ∀ a : AddrSyn, a.typ = .last → Comes (addrLine env s a.address) (.line ls.length) := by
    intro a e
    simp only [addrLine, AddrSyn.address, e, hg, Int.add_zero, Comes]
    rw [wrap64_id (by omega) (by omega)]
    exact ⟨rfl, by omega, by omega⟩
  have other : ∀ a : AddrSyn, a.typ = .mark ∨ a.typ = .regexReverse → Comes (addrLine env s a.address) .crash := by
    intro a e
    rcases e with e | e <;> simp only [addrLine, AddrSyn.address, e, Comes] <;> exact ⟨_, rfl⟩
  cases a with
  | lit ds =>
    simp only [AddrSyn.goal, addrLine, AddrSyn.address, AddrSyn.typ, AddrSyn.bytes, atoi_digits ds ha.1 ha.2, Comes, Int.add_zero]
    refine ⟨?_, by omega, by omega⟩
    by_cases hb : digitsVal ds < 2 ^ 63
    · rw [if_pos hb]
      simp only
      rw [wrap64_id (by omega) (by omega)]
      congr 1
      omega
    · rw [if_neg hb]
      simp only
      rw [wrap64_id (by omega) (by omega)]
      congr 1
      omega
  | dot => exact dot .dot rfl
  | dollar => exact dollar .dollar rfl
  | re body => exact search_comes env hg hlen rfl rfl (trim_pattern ha)
  | mark c => exact other (.mark c) (.inl rfl)
  | back b => exact other (.back b) (.inr rfl)
  | off a m ds =>
    obtain ⟨ha, hp, hd⟩ := ha
    cases a with
    | lit e =>
      simp only [AddrSyn.goal, addrLine, AddrSyn.address, AddrSyn.typ, AddrSyn.bytes, atoi_offset ha.1 ha.2, Comes, Int.add_zero]
      split
      · exact ⟨by rw [wrap64_id (by omega) (by omega)], by omega, by omega⟩
      · exact ⟨by rw [wrap64_id (by omega) (by omega)], by omega, by omega⟩
    | dot => exact dot (.off .dot m ds) rfl
    | dollar => exact dollar (.off .dollar m ds) rfl
    | re body => exact search_comes env hg hlen rfl rfl (trim_offset ha m ds hd)
    | mark c => exact other (.off (.mark c) m ds) (.inl rfl)
    | back b => exact other (.off (.back b) m ds) (.inr rfl)
    | off => exact absurd hp (by simp [AddrSyn.Plain])

/-- The line meant if no address is given. -/
def meant (typ : CmdType) (n : Nat) (cur : Int) : Int :=
  match typ with
  | .null => wrap64 (cur + 1)
  | .lineNumber => n
  | _ => cur

theorem first_comes (env : Env) {s : State} {ls : List Bytes} (hg : getLines s = .ok ls) (hlen : ls.length < 2 ^ 62)
    (h1 : -2 ^ 63 ≤ s.currentLine) (h2 : s.currentLine < 2 ^ 63) {r : RangeSyn} (hr : r.OK) (c : Command) (ht : Addressed c.typ) (hs : c.start = r.start) :
    Comes (addrLine env s (setDefaultAddresses c).start) (r.goal1 env.compile ls s.currentLine (meant c.typ ls.length s.currentLine)) := by
  have given : ∀ a : AddrSyn, a.OK → r.start = a.address → Comes (addrLine env s (setDefaultAddresses c).start) (a.goal env.compile ls s.currentLine) := by
    intro a ha e
    rw [setDefault_given c (by rw [hs, e]; exact address_typ_ne a), hs, e]
    exact addr_comes env hg hlen h1 h2 ha
  have one : min ((digitsVal b!"1" : Nat) : Int) (2 ^ 63 - 1) = 1 := by decide
  cases r with
  | none =>
    have hnull : c.start.typ = .null := by rw [hs]; rfl
    have e : (setDefaultAddresses c).start = (defaultAddresses c.typ).1 := by
      simp only [setDefaultAddresses, hnull, if_true]
      split <;> rfl
    rw [e]
    simp only [RangeSyn.goal1]
    rcases ht with ht | ht | ht | ht | ht | ht | ht | ht <;> rw [ht] <;> simp only [meant, defaultAddresses]
    case inr.inr.inr.inr.inr.inr.inr =>
      exact addr_comes env hg hlen h1 h2 (a := .dollar) trivial
    case inr.inr.inr.inr.inr.inr.inl =>
      simp only [aCurPlusOne, addrLine, Comes]
      exact ⟨trivial, by simp only [wrap64]; omega, by simp only [wrap64]; omega⟩
    all_goals exact addr_comes env hg hlen h1 h2 (a := .dot) trivial
  | one a w => exact given a hr.1 rfl
  | both semi a w1 w2 b w3 => exact given a hr.1 rfl
  | startOnly semi a w => exact given a hr.1 rfl
  | endOnly semi w1 b w2 =>
    cases semi
    · have := given (.lit b!"1") ⟨by decide, by decide⟩ rfl
      simp only [AddrSyn.goal, one] at this
      exact this
    · exact given .dot trivial rfl
  | all semi =>
    cases semi
    · have := given (.lit b!"1") ⟨by decide, by decide⟩ rfl
      simp only [AddrSyn.goal, one] at this
      exact this
    · exact given .dot trivial rfl

theorem last_comes (env : Env) {s : State} {ls : List Bytes} (hg : getLines s = .ok ls) (hlen : ls.length < 2 ^ 62)
    (h1 : -2 ^ 63 ≤ s.currentLine) (h2 : s.currentLine < 2 ^ 63) {r : RangeSyn} (hr : r.OK) (c : Command)
    (ht : c.typ = .print ∨ c.typ = .number ∨ c.typ = .delete ∨ c.typ = .change) (hs : c.start = r.start) (he : c.end_ = r.end_) :
    Comes (addrLine env s (setDefaultAddresses c).end_) (r.goal2 env.compile ls s.currentLine s.currentLine) := by
  have given : ∀ a : AddrSyn, a.OK → c.start.typ ≠ .null → r.end_ = a.address →
      Comes (addrLine env s (setDefaultAddresses c).end_) (a.goal env.compile ls s.currentLine) := by
    intro a ha hne e
    rw [setDefault_given c hne, he, e]
    exact addr_comes env hg hlen h1 h2 ha
  have first_ne : ∀ semi : Bool, (if semi then aCur else aFirst : Address).typ ≠ .null := by intro semi; cases semi <;> decide
  cases r with
  | none =>
    have hnull : c.start.typ = .null := by rw [hs]; rfl
    have hnull2 : c.end_.typ = .null := by rw [he]; rfl
    have e : (setDefaultAddresses c).end_ = (defaultAddresses c.typ).2 := by
      simp only [setDefaultAddresses, hnull, hnull2, if_true]
    rw [e]
    rcases ht with ht | ht | ht | ht <;> rw [ht] <;> simp only [defaultAddresses] <;>
      exact addr_comes env hg hlen h1 h2 (a := .dot) trivial
  | one a w => exact given a hr.1 (by rw [hs]; exact address_typ_ne a) rfl
  | both semi a w1 w2 b w3 => exact given b hr.2.1 (by rw [hs]; exact address_typ_ne a) rfl
  | startOnly semi a w => exact given a hr.1 (by rw [hs]; exact address_typ_ne a) rfl
  | endOnly semi w1 b w2 => exact given b hr.1 (by rw [hs]; exact first_ne semi) rfl
  | all semi => exact given .dollar trivial (by rw [hs]; exact first_ne semi) rfl

/-! ## Printing and editing -/

theorem scanned_any {s : State} {t : Bytes} (h : s.pt.string = .ok t) (hl : ¬ Long t) :
    ∃ ls, scanned s = .ok ls ∧ ls.length = (rawLines t).length ∧ dropBlank ls = seen t := by
  have hg := getLines_any h hl
  have h2 : (scanLines t).2 = false := by
    cases hx : (scanLines t).2 with
    | false => rfl
    | true => exact absurd ((scan_long_iff t).1 hx) hl
  have h3 := scanTokens_dos (rawLines t) (scanTokens_short h2)
  refine ⟨(rawLines t).map sansReturn, ?_, by simp, rfl⟩
  simp [scanned, h, scanLines, h3]

theorem room_ge (env : Env) (n : Nat) : n ≤ room env n := by
  rw [room]; split <;> omega

theorem seen_le_raw (t : Bytes) : (seen t).length ≤ (rawLines t).length := by
  simp only [seen]; split <;> simp

/-- The tables of lines the editor makes have a capacity that is far below the greatest integer. -/
def Memory (env : Env) : Prop := ∀ n, n < 2 ^ 61 → env.cap n < 2 ^ 62

theorem print_exact (env : Env) (hmem : Memory env) {s : State} {t : Bytes} (ht : s.pt.string = .ok t) (hl : Sane t) (a b : Int)
    (ha1 : -2 ^ 63 ≤ a) (ha2 : a < 2 ^ 63) (hb : b < 2 ^ 63) :
    print env s a b = if 1 ≤ a ∧ a ≤ b + 1 ∧ b ≤ room env (rawLines t).length then .ok (join [nl] (paddedLines (seen t) a.toNat b.toNat))
      else .error .index := by
  obtain ⟨ls, e1, e2, e3⟩ := scanned_any ht hl.1
  have hr := room_ge env (rawLines t).length
  have hs := seen_le_raw t
  have hraw : (rawLines t).length < 2 ^ 61 := Nat.lt_of_le_of_lt (raw_length t) hl.2
  have hcap : room env (rawLines t).length < 2 ^ 62 := by
    have := hmem _ hraw
    rw [room]; split <;> omega
  simp only [print, e1, e2, e3]
  generalize room env (rawLines t).length = k at *
  by_cases h : 1 ≤ a ∧ a ≤ b + 1 ∧ b ≤ k
  · rw [if_pos h]
    obtain ⟨h1, h2, h3⟩ := h
    obtain ⟨u, rfl⟩ : ∃ u : Nat, a = u := ⟨a.toNat, by omega⟩
    obtain ⟨v, rfl⟩ : ∃ v : Nat, b = v := ⟨b.toNat, by omega⟩
    rw [wrap64_id (by omega) (by omega)]
    have : ((u : Int) - 1) = ((u - 1 : Nat) : Int) := by omega
    rw [this, slice_ok _ _ _ (by omega) (by simp; omega), paddedLines_slice _ _ _ _ (by omega) (by omega)]
    rfl
  · rw [if_neg h]
    have : ¬ (0 ≤ wrap64 (a - 1) ∧ wrap64 (a - 1) ≤ b ∧ b ≤ ((seen t ++ List.replicate (k - (seen t).length) []).length : Nat)) := by
      simp only [List.length_append, List.length_replicate]
      simp only [wrap64]
      omega
    simp only [slice, if_neg this]

theorem numberLoop_short (b : Nat) : ∀ (xs : List Bytes) (i : Nat), i + xs.length ≤ b → numberLoop b i xs = .error .index := by
  intro xs
  induction xs with
  | nil => intro i hi; simp only [List.length_nil] at hi; rw [numberLoop, if_neg (by omega)]
  | cons x xs ih =>
    intro i hi
    simp only [List.length_cons] at hi
    rw [numberLoop, if_neg (by omega)]
    have := ih (i + 1) (by omega)
    have e : ((i + 1 : Nat) : Int) = (i : Int) + 1 := by omega
    rw [e] at this
    rw [this]

theorem number_exact {s : State} {t : Bytes} (ht : s.pt.string = .ok t) (hl : ¬ Long t) (a b : Int) :
    number s a b = if b < a then .ok [] else if 1 ≤ a ∧ b ≤ (seen t).length then .ok (numbered a.toNat (linesFrom (seen t) a.toNat b.toNat))
      else .error .index := by
  by_cases h1 : b < a
  · simp only [number, getLines_any ht hl, seen_eq]
    rw [if_pos (by omega), if_pos h1]
  rw [if_neg h1]
  by_cases h2 : 1 ≤ a ∧ b ≤ (seen t).length
  · rw [if_pos h2]
    obtain ⟨u, rfl⟩ : ∃ u : Nat, a = u := ⟨a.toNat, by omega⟩
    obtain ⟨v, rfl⟩ : ∃ v : Nat, b = v := ⟨b.toNat, by omega⟩
    exact number_text ht hl u v (by omega) (by omega) (by omega)
  · rw [if_neg h2]
    simp only [number, getLines_any ht hl, seen_eq]
    rw [if_neg (by omega)]
    by_cases h3 : 1 ≤ a
    · rw [if_neg (by omega)]
      obtain ⟨u, rfl⟩ : ∃ u : Nat, a = u := ⟨a.toNat, by omega⟩
      obtain ⟨v, rfl⟩ : ∃ v : Nat, b = v := ⟨b.toNat, by omega⟩
      rw [show ((u : Int) - 1).toNat = u - 1 by omega]
      exact numberLoop_short _ _ _ (by simp; omega)
    · rw [if_pos (by omega)]

theorem lineAddr_least_any {s : State} {t : Bytes} (ht : s.pt.string = .ok t) (hl : Sane t) : getLineAddr s (-2 ^ 63) = .error .index := by
  have := Nat.lt_of_le_of_lt (seen_length t) hl.2
  simp only [getLineAddr, getLines_any ht hl.1, seen_eq]
  rw [if_neg (by omega), show wrap64 (-2 ^ 63 - 1) = 2 ^ 63 - 1 by decide, if_neg (by omega)]

theorem insert_exact {s : State} {t : Bytes} (hr : Txt.Reachable s.pt) (ht : s.pt.string = .ok t) (hl : Sane t) (n : Int)
    (h1 : -2 ^ 63 ≤ n) (h2 : n < 2 ^ 63) {x : List Bytes} (hx : x ≠ []) :
    if n = -2 ^ 63 ∨ t.length < place t (n - 1).toNat then ∃ p, insertBeforeLine s n (join [nl] x) = .error p
    else ∃ pt', insertBeforeLine s n (join [nl] x) = .ok { s with pt := pt' } ∧ Txt.Reachable pt' ∧
      pt'.string = .ok (putAt t (place t (n - 1).toNat) (unlines x)) := by
  by_cases hm : n = -2 ^ 63
  · rw [if_pos (.inl hm), hm]
    exact ⟨.index, by simp only [insertBeforeLine, lineAddr_least_any ht hl]⟩
  by_cases hp : t.length < place t (n - 1).toNat
  · rw [if_pos (.inr hp)]
    obtain ⟨p, he⟩ := (Txt.C04_insert_panics_iff hr ht (unlines x) _).2 hp
    exact ⟨p, by simp only [insertBeforeLine, getLineAddr_any ht hl.1 n (by omega) h2, join_typed hx, he]⟩
  · rw [if_neg (by rintro (h | h) <;> contradiction)]
    exact insert_any hr ht hl.1 n (by omega) h2 hx (by omega)

theorem delete_exact {s : State} {t : Bytes} (hr : Txt.Reachable s.pt) (ht : s.pt.string = .ok t) (hl : Sane t) (a b : Int)
    (ha1 : -2 ^ 63 ≤ a) (ha2 : a < 2 ^ 63) (hb1 : -2 ^ 63 ≤ b) (hb2 : b < 2 ^ 63) :
    (a = -2 ^ 63 ∨ b = 2 ^ 63 - 1 → ∃ p, delete s a b = .error p) ∧
    (¬ (a = -2 ^ 63 ∨ b = 2 ^ 63 - 1) → place t (a - 1).toNat ≤ place t b.toNat → place t b.toNat ≤ t.length →
      ∃ pt', delete s a b = .ok { s with pt := pt' } ∧ Txt.Reachable pt' ∧
        pt'.string = .ok (cutAt t (place t (a - 1).toNat) (place t b.toNat))) := by
  constructor
  · intro h
    by_cases hm : a = -2 ^ 63
    · exact ⟨.index, by simp only [delete, hm, lineAddr_least_any ht hl]⟩
    · have hb : b = 2 ^ 63 - 1 := by omega
      have : wrap64 (2 ^ 63 - 1 + 1) = -2 ^ 63 := by decide
      exact ⟨.index, by simp only [delete, hb, this, getLineAddr_any ht hl.1 a (by omega) ha2, lineAddr_least_any ht hl]⟩
  · intro h hm hp
    have e : place t (a - 1).toNat + (place t b.toNat - place t (a - 1).toNat) = place t b.toNat := by omega
    refine ⟨s.pt.delete ((place t b.toNat - place t (a - 1).toNat : Nat)) (place t (a - 1).toNat), ?_, reachable_delete hr ht _ _ (by omega), ?_⟩
    · simp only [delete, getLineAddr_any ht hl.1 a (by omega) ha2, wrap64_id (i := b + 1) (by omega) (by omega),
        getLineAddr_any ht hl.1 (b + 1) (by omega) (by omega)]
      rw [show (b + 1 - 1).toNat = b.toNat by omega]
      congr 3
      omega
    · rw [Txt.C02_delete_cuts hr ht _ _ (by omega), e]; rfl

/-! ## C175 -/

/-- The editor is in the state of the reference. -/
structure Mirrors (s : State) (st : IState) : Prop where
  reach : Txt.Reachable s.pt
  text : s.pt.string = .ok st.text
  cur : s.currentLine = st.cur
  low : -2 ^ 63 ≤ st.cur
  high : st.cur < 2 ^ 63
  named : s.filename = st.name
  files : s.fs = st.files

/-- What a command does is what is said to become of it. -/
def Meets (r : R (State × Bytes)) : Fate → Prop
  | .done st o => ∃ s', r = .ok (s', o) ∧ Mirrors s' st
  | .crash => ∃ p, r = .error (.panic p)
  | .never => r = .error .hang
  | .unsaid => True

theorem meets_to {x : R Int} {g : Goal} (h : Comes x g) {k : Int → R (State × Bytes)} {f : Int → Fate}
    (hk : ∀ n, -2 ^ 63 ≤ n → n < 2 ^ 63 → Meets (k n) (f n)) : Meets (x >>= k) (g.to f) := by
  cases g with
  | line n =>
    obtain ⟨rfl, h1, h2⟩ := h
    exact hk n h1 h2
  | crash =>
    obtain ⟨p, rfl⟩ := h
    exact ⟨p, rfl⟩
  | never =>
    simp only [Comes] at h
    subst h
    rfl

/-- The text typed for `a i c` is one or more lines without newlines in them. -/
def TCmd.Texts (c : TCmd) : Prop :=
  match c.verb with
  | .append t | .insert t | .change t => Typed t
  | _ => True

/-- **C175** Whatever the text, the current line and the address part: what the editor does with a command line is what the reference says
becomes of it. -/
theorem C175_command (env : Env) (hsave : Saves env) (hmem : Memory env) {s : State} {st : IState} (h : Mirrors s st) (hsane : Sane st.text)
    {c : TCmd} (hwf : c.WF) (htx : c.Texts) :
    Meets (processCommand env s c.parsed) (fate env.compile (room env) env.openErr c st) := by
  obtain ⟨hrch, ht, hcur, hlo, hhi, hname, hfile⟩ := h
  obtain ⟨r, v⟩ := c
  obtain ⟨hr, hw⟩ := hwf
  have hlen : (seen st.text).length < 2 ^ 62 := Nat.lt_trans (Nat.lt_of_le_of_lt (seen_length _) hsane.2) (by decide)
  have hg : getLines s = .ok (seen st.text) := getLines_any ht hsane.1
  have h1 : -2 ^ 63 ≤ s.currentLine := by omega
  have h2 : s.currentLine < 2 ^ 63 := by omega
  have me : Mirrors s st := ⟨hrch, ht, hcur, hlo, hhi, hname, hfile⟩
  have fst := fun (c : Command) (hty : Addressed c.typ) (hs : c.start = r.start) => first_comes env hg hlen h1 h2 hr c hty hs
  have lst := fun (c : Command) (hty : c.typ = .print ∨ c.typ = .number ∨ c.typ = .delete ∨ c.typ = .change) (hs : c.start = r.start)
    (he : c.end_ = r.end_) => last_comes env hg hlen h1 h2 hr c hty hs he
  rw [hcur] at fst lst
  cases v with
  | print =>
    simp only [processCommand, typ_setDefault, fate]
    refine meets_to (fst (TCmd.parsed ⟨r, .print⟩) (by simp [Addressed, TCmd.parsed]) rfl) (fun a a1 a2 => ?_)
    refine meets_to (lst (TCmd.parsed ⟨r, .print⟩) (by simp [TCmd.parsed]) rfl rfl) (fun b b1 b2 => ?_)
    rw [print_exact env hmem ht hsane a b a1 a2 b2]
    split
    · exact ⟨s, rfl, me⟩
    · exact ⟨_, rfl⟩
  | number =>
    simp only [processCommand, typ_setDefault, fate]
    refine meets_to (fst (TCmd.parsed ⟨r, .number⟩) (by simp [Addressed, TCmd.parsed]) rfl) (fun a a1 a2 => ?_)
    refine meets_to (lst (TCmd.parsed ⟨r, .number⟩) (by simp [TCmd.parsed]) rfl rfl) (fun b b1 b2 => ?_)
    rw [number_exact ht hsane.1 a b]
    split
    · exact ⟨s, rfl, me⟩
    · split
      · exact ⟨s, rfl, me⟩
      · exact ⟨_, rfl⟩
  | equals =>
    simp only [processCommand, typ_setDefault, fate]
    refine meets_to (fst (TCmd.parsed ⟨r, .equals⟩) (by simp [Addressed, TCmd.parsed]) rfl) (fun a a1 a2 => ?_)
    exact ⟨s, rfl, me⟩
  | null =>
    simp only [processCommand, typ_setDefault, fate]
    refine meets_to (fst (TCmd.parsed ⟨r, .null⟩) (by simp [Addressed, TCmd.parsed]) rfl) (fun a a1 a2 => ?_)
    rw [print_exact env hmem (s := { s with currentLine := a }) ht hsane a a a1 a2 a2]
    by_cases hc : 1 ≤ a ∧ a ≤ room env (rawLines st.text).length
    · rw [if_pos hc, if_pos ⟨hc.1, by omega, hc.2⟩]
      refine ⟨{ s with currentLine := a }, ?_, ⟨hrch, ht, rfl, a1, a2, hname, hfile⟩⟩
      have e : a.toNat + 1 - a.toNat = 1 := by omega
      simp [paddedLines, e, join, lift, bind, Except.bind, pure, Except.pure]
    · rw [if_neg hc, if_neg (by omega)]
      exact ⟨_, rfl⟩
  | delete =>
    simp only [processCommand, typ_setDefault, fate]
    refine meets_to (fst (TCmd.parsed ⟨r, .delete⟩) (by simp [Addressed, TCmd.parsed]) rfl) (fun a a1 a2 => ?_)
    refine meets_to (lst (TCmd.parsed ⟨r, .delete⟩) (by simp [TCmd.parsed]) rfl rfl) (fun b b1 b2 => ?_)
    obtain ⟨d1, d2⟩ := delete_exact hrch ht hsane a b a1 a2 b1 b2
    by_cases hc : a = -2 ^ 63 ∨ b = 2 ^ 63 - 1
    · rw [if_pos hc]
      obtain ⟨p, e⟩ := d1 hc
      exact ⟨p, by simp only [e, lift, bind, Except.bind]⟩
    · rw [if_neg hc]
      split
      · rename_i hp
        obtain ⟨pt', e, r1, x1⟩ := d2 hc hp.1 hp.2.1
        simp only [e, lift, ok_bind]
        have hs1 : Sane (cutAt st.text (place st.text (a - 1).toNat) (place st.text b.toNat)) :=
          ⟨hp.2.2, by have := hsane.2; have := hp.1; simp only [cutAt, List.length_append, List.length_take, List.length_drop]; omega⟩
        have hg1 := getLines_any (s := { s with pt := pt' }) x1 hs1.1
        have f1 : Comes (addrLine env { s with pt := pt' } (setDefaultAddresses (TCmd.parsed ⟨r, .delete⟩)).start)
            (r.goal1 env.compile (seen (cutAt st.text (place st.text (a - 1).toNat) (place st.text b.toNat))) st.cur st.cur) := by
          rw [← hcur]
          exact first_comes env hg1 (Nat.lt_trans (Nat.lt_of_le_of_lt (seen_length _) hs1.2) (by decide)) (s := { s with pt := pt' }) h1 h2 hr
            (TCmd.parsed ⟨r, .delete⟩) (by simp [Addressed, TCmd.parsed]) rfl
        refine meets_to f1 (fun d e1 e2 => ?_)
        exact ⟨_, rfl, ⟨r1, x1, rfl, e1, e2, hname, hfile⟩⟩
      · trivial
  | append t =>
    have hty : Typed t := htx
    simp only [processCommand, typ_setDefault, text_setDefault, fate]
    refine meets_to (fst (TCmd.parsed ⟨r, .append t⟩) (by simp [Addressed, TCmd.parsed]) rfl) (fun a a1 a2 => ?_)
    rw [show (TCmd.parsed ⟨r, .append t⟩).text = join [nl] t from rfl, linesIn_typed hty]
    have wb : -2 ^ 63 ≤ wrap64 (a + 1) ∧ wrap64 (a + 1) < 2 ^ 63 := by simp only [wrap64]; omega
    have hi := insert_exact hrch ht hsane (wrap64 (a + 1)) wb.1 wb.2 hty.1
    by_cases hm : a = 2 ^ 63 - 1
    · rw [if_pos (.inl hm)]
      rw [if_pos (.inl (by rw [hm]; decide))] at hi
      obtain ⟨p, e⟩ := hi
      exact ⟨p, by simp only [e, lift, bind, Except.bind]⟩
    · have ew : wrap64 (a + 1) = a + 1 := wrap64_id (by omega) (by omega)
      rw [ew, show (a + 1 - 1).toNat = a.toNat by omega] at hi
      rw [ew]
      by_cases hp : st.text.length < place st.text a.toNat
      · rw [if_pos (.inr hp)]
        rw [if_pos (.inr hp)] at hi
        obtain ⟨p, e⟩ := hi
        exact ⟨p, by simp only [e, lift, bind, Except.bind]⟩
      · rw [if_neg (by rintro (h | h) <;> contradiction)]
        rw [if_neg (by rintro (h | h) <;> omega)] at hi
        obtain ⟨pt', e, r1, x1⟩ := hi
        refine ⟨{ s with pt := pt', currentLine := wrap64 (a + 1 + t.length) }, by simp only [e, lift, bind, Except.bind]; rfl,
          ⟨r1, x1, rfl, by simp only [wrap64]; omega, by simp only [wrap64]; omega, hname, hfile⟩⟩
  | insert t =>
    have hty : Typed t := htx
    simp only [processCommand, typ_setDefault, text_setDefault, fate]
    refine meets_to (fst (TCmd.parsed ⟨r, .insert t⟩) (by simp [Addressed, TCmd.parsed]) rfl) (fun a a1 a2 => ?_)
    rw [show (TCmd.parsed ⟨r, .insert t⟩).text = join [nl] t from rfl]
    have hi := insert_exact hrch ht hsane a a1 a2 hty.1
    split
    · rename_i hc
      rw [if_pos hc] at hi
      obtain ⟨p, e⟩ := hi
      exact ⟨p, by simp only [e, lift, bind, Except.bind]⟩
    · rename_i hc
      rw [if_neg hc] at hi
      obtain ⟨pt', e, r1, x1⟩ := hi
      exact ⟨{ s with pt := pt' }, by simp only [e, lift, bind, Except.bind]; rfl, ⟨r1, x1, hcur, hlo, hhi, hname, hfile⟩⟩
  | change t =>
    have hty : Typed t := htx
    simp only [processCommand, typ_setDefault, text_setDefault, fate]
    refine meets_to (fst (TCmd.parsed ⟨r, .change t⟩) (by simp [Addressed, TCmd.parsed]) rfl) (fun a a1 a2 => ?_)
    refine meets_to (lst (TCmd.parsed ⟨r, .change t⟩) (by simp [TCmd.parsed]) rfl rfl) (fun b b1 b2 => ?_)
    rw [show (TCmd.parsed ⟨r, .change t⟩).text = join [nl] t from rfl, linesIn_typed hty]
    obtain ⟨d1, d2⟩ := delete_exact hrch ht hsane a b a1 a2 b1 b2
    by_cases hc : a = -2 ^ 63 ∨ b = 2 ^ 63 - 1
    · rw [if_pos hc]
      obtain ⟨p, e⟩ := d1 hc
      exact ⟨p, by simp only [e, lift, bind, Except.bind]⟩
    · rw [if_neg hc]
      generalize hp0 : place st.text (a - 1).toNat = p at *
      generalize hq0 : place st.text b.toNat = q at *
      split
      · rename_i hp
        obtain ⟨pt', e, r1, x1⟩ := d2 hc hp.1 hp.2.1
        simp only [e, lift, ok_bind]
        have hs1 : Sane (cutAt st.text p q) :=
          ⟨hp.2.2, by have := hsane.2; have := hp.1; simp only [cutAt, List.length_append, List.length_take, List.length_drop]; omega⟩
        generalize ht1 : cutAt st.text p q = t1 at *
        have hg1 := getLines_any (s := { s with pt := pt' }) x1 hs1.1
        have f1 : Comes (addrLine env { s with pt := pt' } (setDefaultAddresses (TCmd.parsed ⟨r, .change t⟩)).start)
            (r.goal1 env.compile (seen t1) st.cur st.cur) := by
          rw [← hcur]
          exact first_comes env hg1 (Nat.lt_trans (Nat.lt_of_le_of_lt (seen_length _) hs1.2) (by decide)) (s := { s with pt := pt' }) h1 h2 hr
            (TCmd.parsed ⟨r, .change t⟩) (by simp [Addressed, TCmd.parsed]) rfl
        refine meets_to f1 (fun d e1 e2 => ?_)
        have hi := insert_exact (s := { s with pt := pt' }) r1 x1 hs1 d e1 e2 hty.1
        by_cases hc2 : d = -2 ^ 63 ∨ t1.length < place t1 (d - 1).toNat
        · rw [if_pos hc2] at hi ⊢
          obtain ⟨p, e⟩ := hi
          exact ⟨p, by simp only [e, lift, bind, Except.bind]⟩
        · rw [if_neg hc2] at hi ⊢
          obtain ⟨pt2, e3, r2, x2⟩ := hi
          by_cases hs2 : Sane (putAt t1 (place t1 (d - 1).toNat) (unlines t))
          · rw [if_pos hs2]
            simp only [e3, lift, ok_bind]
            have hg2 := getLines_any (s := { s with pt := pt2 }) x2 hs2.1
            have f2 : Comes (addrLine env { s with pt := pt2 } (setDefaultAddresses (TCmd.parsed ⟨r, .change t⟩)).start)
                (r.goal1 env.compile (seen (putAt t1 (place t1 (d - 1).toNat) (unlines t))) st.cur st.cur) := by
              rw [← hcur]
              exact first_comes env hg2 (Nat.lt_trans (Nat.lt_of_le_of_lt (seen_length _) hs2.2) (by decide)) (s := { s with pt := pt2 }) h1 h2 hr
                (TCmd.parsed ⟨r, .change t⟩) (by simp [Addressed, TCmd.parsed]) rfl
            refine meets_to f2 (fun d' e1' e2' => ?_)
            exact ⟨_, rfl, ⟨r2, x2, rfl, by simp only [wrap64]; omega, by simp only [wrap64]; omega, hname, hfile⟩⟩
          · rw [if_neg hs2]; trivial
      · trivial
  | write =>
    simp only [fate]
    split
    · trivial
    · rename_i hex
      have hsv : (saveTrace (env.outcome s.writes) s.fs s.filename st.text).2 = none := by
        obtain ⟨a, b, c⟩ := hsave s.writes
        obtain ⟨x, hx⟩ := Option.ne_none_iff_exists'.1 hex
        simp [saveTrace, statError, hname, hfile, hx, a, b, c]
      obtain ⟨s', h1, h2, h3, h4, h5, h6, -, h7, h8⟩ := C132_write env ht hsane.1 (TCmd.parsed ⟨r, .write⟩) rfl hsv
      rw [hname] at h2 h3 h7 h8
      refine ⟨s', h1, ⟨h4, h5, h6, by simp only; omega, by simp only; omega, h3, ?_⟩⟩
      funext n
      simp only [saved]
      by_cases hn1 : n = st.name ++ b!".swp"
      · rw [if_pos hn1, hn1]
        exact h8
      · rw [if_neg hn1]
        by_cases hn2 : n = st.name
        · rw [if_pos hn2, hn2, h2]
        · rw [if_neg hn2, h7 n hn2 hn1, hfile]
  | edit name =>
    obtain ⟨rfl, -⟩ := hw
    have e : setDefaultAddresses (TCmd.parsed ⟨.none, .edit name⟩) = { typ := .edit, params := [name], start := aCur, end_ := aCur } := rfl
    simp only [fate]
    cases hf : st.files name with
    | none =>
      rw [← hfile] at hf
      refine ⟨s, ?_, me⟩
      simp only [processCommand, e, List.headD_cons, edit, hf]
      rfl
    | some t =>
      rw [← hfile] at hf
      simp only
      split
      · rename_i hlong
        exact ⟨_, (C94_open_partial env s hf).1 hlong⟩
      · rename_i hlong
        split
        case isFalse => trivial
        rename_i hsn
        let s1 : State := { s with filename := name, pt := Txt.newPieceTable t true t.length, currentLine := (seen t).length }
        have r1 : Txt.Reachable s1.pt := .new t true t.length (Nat.le_refl _)
        have x1 : s1.pt.string = .ok t := by
          rw [Txt.string_wf r1.good.toWF]
          simp [s1, Txt.newPieceTable, Txt.content, Txt.Piece.text, Txt.src]
        have hg := getLines_any (s := { s1 with currentLine := s.currentLine }) x1 hlong
        have hed : edit env s name = .ok (s1, none) := by
          simp only [s1] at hg ⊢
          simp only [edit, hf, hg, seen_eq]
        refine ⟨s1, ?_, ⟨r1, x1, rfl, by simp only; omega, ?_, rfl, hfile⟩⟩
        · simp only [processCommand, e, List.headD_cons, hed]
          rfl
        · have := seen_length t; have := hsn.2; simp only; omega
  | unsupported l =>
    refine ⟨s, ?_, me⟩
    have e : (setDefaultAddresses (TCmd.parsed ⟨r, .unsupported l⟩)).typ = unsupportedTyp l := typ_setDefault _
    have hl : l ∈ b!"hHPQujl" := by
      rcases hw with ⟨-, h⟩ | h <;> simp at h ⊢ <;> grind
    simp only [processCommand, e]
    simp at hl
    rcases hl with rfl | rfl | rfl | rfl | rfl | rfl | rfl <;> rfl

/-! ## Sessions -/

/-- How a session ends: all commands were carried out, or one of them ended the program or never came back. -/
inductive Outlook where
  | through
  | crash
  | never
  deriving DecidableEq

/-- A session: the commands one after the other until one is not carried out; the state then, the results and how it ended. -/
inductive Course (comp : Bytes → Option (Bytes → Bool)) (room : Nat → Nat) (openErr : Bytes → Bytes) :
    List TCmd → IState → IState → List Bytes → Outlook → Prop
  | nil {st} : Course comp room openErr [] st st [] .through
  | crash {c cs st} : fate comp room openErr c st = .crash → Course comp room openErr (c :: cs) st st [] .crash
  | never {c cs st} : fate comp room openErr c st = .never → Course comp room openErr (c :: cs) st st [] .never
  | done {c cs st st1 st2 o os x} : fate comp room openErr c st = .done st1 o → Sane st1.text → Course comp room openErr cs st1 st2 os x →
      Course comp room openErr (c :: cs) st st2 (o :: os) x

/-- The end of the program that goes with it. -/
def Outlook.ends (quits : Bool) : Outlook → End → Prop
  | .through, how => how = if quits then .quit else .finished
  | .crash, how => ∃ p, how = .crashed (.panic p)
  | .never, how => how = .crashed .hang

theorem fate_write_ends {comp : Bytes → Option (Bytes → Bool)} {room : Nat → Nat} {openErr : Bytes → Bytes} {c : TCmd} {st : IState} (h : c.verb = .write) :
    fate comp room openErr c st ≠ .crash ∧ fate comp room openErr c st ≠ .never := by
  simp only [fate, h]
  split <;> simp

theorem parsed_write {c : TCmd} (hwf : c.WF) (h : c.verb ≠ .write) : c.parsed.typ ≠ .write := by
  obtain ⟨r, v⟩ := c
  obtain ⟨-, hw⟩ := hwf
  cases v with
  | write => exact absurd rfl h
  | unsupported l =>
    have hl : l ∈ b!"hHPQujl" := by
      rcases hw with ⟨-, h⟩ | h <;> simp at h ⊢ <;> grind
    simp at hl
    simp only [TCmd.parsed]
    rcases hl with rfl | rfl | rfl | rfl | rfl | rfl | rfl <;> decide
  | _ => simp [TCmd.parsed]

theorem course_sequential (env : Env) (hsave : Saves env) (hmem : Memory env) (quits : Bool) : ∀ (cs : List TCmd) {s : State} {st st' : IState} {os : List Bytes}
    {x : Outlook}, Mirrors s st → Sane st.text → (∀ c ∈ cs, c.WF ∧ c.Texts) → Course env.compile (room env) env.openErr cs st st' os x →
    x.ends quits (sequential env s (cs.map TCmd.parsed ++ lastCommand quits)).1 ∧
    (sequential env s (cs.map TCmd.parsed ++ lastCommand quits)).2.1.fs = st'.files ∧
    (sequential env s (cs.map TCmd.parsed ++ lastCommand quits)).2.2 = os.map (· ++ [nl]) := by
  intro cs
  induction cs with
  | nil =>
    intro s st st' os x h _ _ hc
    cases hc
    cases quits <;> simp [lastCommand, sequential, Outlook.ends, h.files]
  | cons c cs ih =>
    intro s st st' os x h hsane hwf hc
    have hq := c.parsed_not_quit (hwf c (by simp)).1
    have hm := C175_command env hsave hmem h hsane (hwf c (by simp)).1 (hwf c (by simp)).2
    have still : (fate env.compile (room env) env.openErr c st = .crash ∨ fate env.compile (room env) env.openErr c st = .never) →
        crashState env s c.parsed = s := by
      intro hf
      have hv : c.verb ≠ .write := by
        intro hv
        have := fate_write_ends (comp := env.compile) (room := room env) (openErr := env.openErr) (st := st) hv
        rcases hf with hf | hf
        · exact this.1 hf
        · exact this.2 hf
      simp [crashState, parsed_write (hwf c (by simp)).1 hv]
    cases hc with
    | crash hf =>
      rw [hf] at hm
      obtain ⟨p, e⟩ := hm
      simp only [List.map_cons, List.cons_append, sequential, if_neg hq, e, still (.inl hf)]
      exact ⟨⟨p, rfl⟩, h.files, rfl⟩
    | never hf =>
      rw [hf] at hm
      simp only [Meets] at hm
      simp only [List.map_cons, List.cons_append, sequential, if_neg hq, hm, still (.inr hf)]
      exact ⟨rfl, h.files, rfl⟩
    | done hf hs1 hrest =>
      rw [hf] at hm
      obtain ⟨s1, e, m1⟩ := hm
      have := ih m1 hs1 (fun y hy => hwf y (by simp [hy])) hrest
      simp only [List.map_cons, List.cons_append, sequential, if_neg hq, e]
      exact ⟨this.1, this.2.1, by rw [this.2.2]⟩

/-- **C175** `ed name` on any file, given any command lines and then `q` or the end of the input, for every schedule of its goroutines: if the
reference says how the session goes, the program ends that way when it has stopped (through, by a crash, or in an endless search), the results
up to there are those of the reference, and all files are as the reference leaves them. -/
theorem C175_session (env : Env) (hsave : Saves env) (hmem : Memory env) (errText : Bytes → Bytes) (s0 : State) (name : Bytes) (hn : NameOK name)
    (hnp : PlainLine (b!"e " ++ name)) (t : Bytes) (hfs : s0.fs name = some t) (hsane : Sane t)
    (cs : List TCmd) (ht : ∀ c ∈ cs, c.WF ∧ c.Texts) (hp : ∀ l ∈ cs.flatMap TCmd.typed, PlainLine l) (quits : Bool)
    (st' : IState) (os : List Bytes) (x : Outlook)
    (hses : Course env.compile (room env) env.openErr cs ⟨t, (seen t).length, name, s0.fs⟩ st' os x) (st : Sys) (how : End)
    (hs : Steps env (initial errText s0 (mainInput (some name) (unlines (cs.flatMap TCmd.typed ++ lastLine quits)))) st)
    (he : st.cons.ended = some how) :
    x.ends quits how ∧ results st.out = ([] :: os).map (· ++ [nl]) ∧ errors st.out = [] ∧ st.ed.fs = st'.files := by
  have hprog := program_tcmds errText name hn hnp cs (fun c hc => (ht c hc).1) hp quits
  obtain ⟨h1, h2, _⟩ := C69_schedule_independent env errText s0 _ st how hs he
  rw [hprog] at h1 h2
  rw [reports_evs] at h2
  rw [sends_evs] at h1
  let s1 : State := { s0 with filename := name, pt := Txt.newPieceTable t true t.length, currentLine := (seen t).length }
  have r1 : Txt.Reachable s1.pt := .new t true t.length (Nat.le_refl _)
  have t1 : s1.pt.string = .ok t := by
    rw [Txt.string_wf r1.good.toWF]
    simp [s1, Txt.newPieceTable, Txt.content, Txt.Piece.text, Txt.src]
  have hopen : processCommand env s0 { typ := .edit, params := [name] } = .ok (s1, []) := by
    have hg := getLines_any (s := { s1 with currentLine := s0.currentLine }) t1 hsane.1
    have hed : edit env s0 name = .ok (s1, none) := by
      simp only [s1] at hg ⊢
      simp only [edit, hfs, hg, seen_eq]
    have e : setDefaultAddresses { typ := .edit, params := [name] } = { typ := .edit, params := [name], start := aCur, end_ := aCur } := rfl
    simp only [processCommand, e, List.headD_cons, hed]
    rfl
  have hlen := Nat.lt_of_le_of_lt (seen_length t) hsane.2
  have ag : Mirrors s1 ⟨t, (seen t).length, name, s0.fs⟩ := ⟨r1, t1, rfl, by simp only; omega, by simp only; omega, rfl, rfl⟩
  obtain ⟨k1, k2, k3⟩ := course_sequential env hsave hmem quits cs ag hsane ht hses
  simp only [List.cons_append, sequential, hopen, if_neg (show ¬ ({ typ := .edit, params := [name] } : Command).typ = .quit by simp)] at h1
  simp only [Prod.mk.injEq] at h1
  obtain ⟨e1, e2, e3⟩ := h1
  rw [e1] at k1
  rw [e2] at k2
  rw [k3] at e3
  exact ⟨k1, by rw [← e3]; simp, by simpa using h2, k2⟩

/-! ## What follows -/

/-- **C175** The reference leaves open only what becomes of a range given backwards, of a `w` without the file, and of texts with lines too long to
be read: in a text that ends in a newline, everything else is said. -/
theorem C175_said {comp : Bytes → Option (Bytes → Bool)} {room : Nat → Nat} {openErr : Bytes → Bytes} {c : TCmd} {st : IState}
    (ht : Terminated st.text) (h : fate comp room openErr c st = .unsaid) :
    (c.verb = .write ∧ st.files st.name = none) ∨ (∃ n t, c.verb = .edit n ∧ st.files n = some t ∧ ¬ Sane t) ∨
    ((c.verb = .delete ∨ ∃ t, c.verb = .change t) ∧ ∃ a b, c.range.goal1 comp (seen st.text) st.cur st.cur = .line a ∧
      c.range.goal2 comp (seen st.text) st.cur st.cur = .line b ∧
      (b + 1 < a ∨ Long (cutAt st.text (place st.text (a - 1).toNat) (place st.text b.toNat)) ∨
        ∃ p t, c.verb = .change t ∧ ¬ Sane (putAt (cutAt st.text (place st.text (a - 1).toNat) (place st.text b.toNat)) p (unlines t)))) := by
  have to_unsaid : ∀ {g : Goal} {f : Int → Fate}, g.to f = .unsaid → ∃ n, g = .line n ∧ f n = .unsaid := by
    intro g f hg
    cases g with
    | line n => exact ⟨n, rfl, hg⟩
    | crash => cases hg
    | never => cases hg
  have range : ∀ a b : Int, ¬ (place st.text (a - 1).toNat ≤ place st.text b.toNat ∧ place st.text b.toNat ≤ st.text.length ∧
      ¬ Long (cutAt st.text (place st.text (a - 1).toNat) (place st.text b.toNat))) →
      b + 1 < a ∨ Long (cutAt st.text (place st.text (a - 1).toNat) (place st.text b.toNat)) := by
    intro a b hn
    by_cases hab : b + 1 < a
    · exact .inl hab
    · refine .inr (Classical.byContradiction fun hl => hn ⟨place_mono _ (by omega), place_term ht _, hl⟩)
  obtain ⟨r, v⟩ := c
  cases v with
  | print =>
    obtain ⟨a, -, h⟩ := to_unsaid h
    obtain ⟨b, -, h⟩ := to_unsaid h
    revert h; simp only; split <;> simp
  | number =>
    obtain ⟨a, -, h⟩ := to_unsaid h
    obtain ⟨b, -, h⟩ := to_unsaid h
    revert h; simp only; split
    · simp
    · split <;> simp
  | equals =>
    obtain ⟨a, -, h⟩ := to_unsaid h
    cases h
  | null =>
    obtain ⟨a, -, h⟩ := to_unsaid h
    revert h; simp only; split <;> simp
  | append t =>
    obtain ⟨a, -, h⟩ := to_unsaid h
    revert h; simp only; split <;> simp
  | insert t =>
    obtain ⟨a, -, h⟩ := to_unsaid h
    revert h; simp only; split <;> simp
  | write =>
    revert h; simp only [fate]; split
    · rename_i hf; intro _; exact .inl ⟨trivial, hf⟩
    · intro h; cases h
  | edit n =>
    revert h; simp only [fate]
    cases hf : st.files n with
    | none => intro h; cases h
    | some t =>
      simp only
      split
      · intro h; cases h
      · split
        · intro h; cases h
        · rename_i hs; intro _; exact .inr (.inl ⟨n, t, rfl, hf, hs⟩)
  | unsupported l => cases h
  | delete =>
    obtain ⟨a, ha, h⟩ := to_unsaid h
    obtain ⟨b, hb, h⟩ := to_unsaid h
    revert h; simp only; split
    · intro h; cases h
    · split
      · intro h
        obtain ⟨x, -, h⟩ := to_unsaid h
        cases h
      · rename_i hn
        intro _
        refine .inr (.inr ⟨.inl (by trivial), a, b, ha, hb, ?_⟩)
        rcases range a b hn with h | h
        · exact .inl h
        · exact .inr (.inl h)
  | change t =>
    obtain ⟨a, ha, h⟩ := to_unsaid h
    obtain ⟨b, hb, h⟩ := to_unsaid h
    revert h; simp only; split
    · intro h; cases h
    · split
      · intro h
        obtain ⟨x, -, h⟩ := to_unsaid h
        revert h; split
        · intro h; cases h
        · split
          · intro h
            obtain ⟨x, -, h⟩ := to_unsaid h
            cases h
          · rename_i hs
            intro _
            exact .inr (.inr ⟨.inr ⟨t, rfl⟩, a, b, ha, hb, .inr (.inr ⟨_, t, rfl, hs⟩)⟩)
      · rename_i hn
        intro _
        refine .inr (.inr ⟨.inr ⟨t, rfl⟩, a, b, ha, hb, ?_⟩)
        rcases range a b hn with h | h
        · exact .inl h
        · exact .inr (.inl h)

/-- **C175** A search that finds nothing is not noticed by `d`: from any line of the buffer `/re/d` deletes nothing and says nothing, but the
current line is -1 after it. Then `p`, `n`, the empty command and every further search with a well-formed expression end the program (if there
is more than one line), `=` answers for `.` with -1, and `a` puts its text before the first line. -/
theorem C175_adrift {comp : Bytes → Option (Bytes → Bool)} {room : Nat → Nat} {openErr : Bytes → Bytes} {st : IState} (hs : ¬ Long st.text)
    (h1 : 1 ≤ st.cur) (h2 : st.cur ≤ (seen st.text).length) {body w : Bytes} {m : Bytes → Bool} (hm : comp (sansSlashes body) = some m)
    (hno : ∀ l ∈ seen st.text, m l = false) :
    fate comp room openErr ⟨.one (.re body) w, .delete⟩ st = .done { st with cur := -1 } [] ∧
    fate comp room openErr ⟨.none, .print⟩ { st with cur := -1 } = .crash ∧
    fate comp room openErr ⟨.none, .number⟩ { st with cur := -1 } = .crash ∧
    fate comp room openErr ⟨.none, .null⟩ { st with cur := -1 } = .crash ∧
    (∀ b x v, comp (sansSlashes b) ≠ none → 2 ≤ (seen st.text).length → v = .print ∨ v = .number ∨ v = .null ∨ v = .equals ∨ v = .delete →
      fate comp room openErr ⟨.one (.re b) x, v⟩ { st with cur := -1 } = .crash) ∧
    fate comp room openErr ⟨.one .dot [], .equals⟩ { st with cur := -1 } = .done { st with cur := -1 } b!"-1" ∧
    ∀ t, fate comp room openErr ⟨.none, .append t⟩ { st with cur := -1 } = .done { st with text := unlines t ++ st.text, cur := wrap64 t.length } [] := by
  have hne : seen st.text ≠ [] := by intro e; rw [e] at h2; simp at h2; omega
  have hnone : ∀ k, nextMatch m (seen st.text) k = none := by
    intro k
    cases hk : nextMatch m (seen st.text) k with
    | none => rfl
    | some n =>
      obtain ⟨-, -, -, ⟨l, hl, hml⟩, -⟩ := nextMatch_some hk
      rw [hno l (List.mem_of_getElem? hl)] at hml
      cases hml
  have p0 : place st.text 0 = 0 := by simp [place, unlines]
  have c0 : cutAt st.text 0 0 = st.text := by simp [cutAt]
  have sg : soughtFor comp (seen st.text) st.cur (sansSlashes body) = .line (-1) := by
    simp only [soughtFor, hm, sought, if_neg hne, hnone]
    rw [if_neg (by omega), if_pos ⟨h1, h2⟩]
  refine ⟨?_, ?_, ?_, ?_, ?_, ?_, ?_⟩
  · simp only [fate, RangeSyn.goal1, RangeSyn.goal2, AddrSyn.goal, sg, Goal.to]
    simp [p0, c0, hs, sg]
  · simp [fate, RangeSyn.goal1, RangeSyn.goal2, Goal.to]
  · simp [fate, RangeSyn.goal1, RangeSyn.goal2, Goal.to]
  · have : wrap64 0 = 0 := by decide
    simp [fate, RangeSyn.goal1, Goal.to, this]
  · intro b x v hb hlen hv
    have sg2 : soughtFor comp (seen st.text) (-1) (sansSlashes b) = .crash := by
      cases hc : comp (sansSlashes b) with
      | none => exact absurd hc hb
      | some m2 =>
        have : (-1 : Int) % (seen st.text).length = (seen st.text).length - 1 := by
          rw [← Int.add_mul_emod_self_left (-1) ((seen st.text).length : Int) 1, Int.emod_eq_of_lt (by omega) (by omega)]
          omega
        simp only [soughtFor, hc, sought, if_neg hne, this]
        rw [if_pos (by omega)]
    rcases hv with rfl | rfl | rfl | rfl | rfl <;> simp [fate, RangeSyn.goal1, RangeSyn.goal2, AddrSyn.goal, sg2, Goal.to]
  · have : itoa (-1) = b!"-1" := by decide
    simp [fate, RangeSyn.goal1, AddrSyn.goal, Goal.to, this]
  · intro t
    simp [fate, RangeSyn.goal1, Goal.to, p0, putAt]

/-- With the demonstration environment: memory is granted as asked, files are saved. -/
theorem demo_memory : Memory demoEnv := by
  intro n hn
  show n < 2 ^ 62
  exact Nat.lt_trans hn (by decide)

/-- `1p`, `/z/d`, `.=`, `/c/p`. -/
def adriftScript : List TCmd :=
  [⟨.one (.lit b!"1") [], .print⟩, ⟨.one (.re b!"z") [], .delete⟩, ⟨.one .dot [], .equals⟩, ⟨.one (.re b!"c") [], .print⟩]

/-- On the file `ab\r\ncd`: the search for `z` fails unnoticed, the search for the `c` that is there then ends the program. -/
theorem adrift_course : Course demoEnv.compile (room demoEnv) demoEnv.openErr adriftScript ⟨b!"ab\r\ncd", 2, b!"f", oddFiles⟩
    ⟨b!"ab\r\ncd", -1, b!"f", oddFiles⟩ [b!"ab", [], b!"-1"] .crash := by
  have hs : ¬ Long b!"ab\r\ncd" := (short_sane (t := b!"ab\r\ncd") (by decide)).1
  obtain ⟨h1, -, -, -, h5, h6, -⟩ := C175_adrift (comp := demoEnv.compile) (room := room demoEnv) (openErr := demoEnv.openErr)
    (st := ⟨b!"ab\r\ncd", 2, b!"f", oddFiles⟩) hs (by decide) (by decide +kernel) (body := b!"z") (w := []) (m := fun l => (b!"z").head?.any l.contains)
    (by rfl) (by decide +kernel)
  refine .done (st1 := ⟨b!"ab\r\ncd", 2, b!"f", oddFiles⟩) ?_ (short_sane (by decide)) (.done h1 (short_sane (by decide)) (.done h6 (short_sane (by decide))
    (.crash (h5 b!"c" [] .print (by intro h; cases h) (by decide +kernel) (.inl rfl)))))
  rfl

/-- The run of the program on this file and this script, under any schedule. -/
example (errText : Bytes → Bytes) (st : Sys) (how : End) (hs : Steps demoEnv (initial errText { fresh with fs := oddFiles }
      (mainInput (some b!"f") (unlines [b!"1p", b!"/z/d", b!".=", b!"/c/p", b!"q"]))) st) (he : st.cons.ended = some how) :
    (∃ p, how = .crashed (.panic p)) ∧ results st.out = [b!"\n", b!"ab\n", b!"\n", b!"-1\n"] := by
  obtain ⟨h1, h2, -⟩ := C175_session demoEnv (fun _ => ⟨rfl, rfl, rfl⟩) demo_memory errText { fresh with fs := oddFiles } b!"f"
    ⟨by decide, by decide, by decide, by rintro c cs ⟨⟩; decide⟩
    (plain_ascii _ (by decide) (by decide) (by decide)) b!"ab\r\ncd" rfl (short_sane (by decide)) adriftScript
    (by
      intro c hc
      simp only [adriftScript, List.mem_cons, List.not_mem_nil, or_false] at hc
      rcases hc with rfl | rfl | rfl | rfl
      · exact ⟨⟨⟨⟨by decide, by decide⟩, by intro c hc; cases hc⟩, trivial⟩, trivial⟩
      · exact ⟨⟨⟨PatternOK.plain (by decide) (by decide), by intro c hc; cases hc⟩, trivial⟩, trivial⟩
      · exact ⟨⟨⟨trivial, by intro c hc; cases hc⟩, trivial, rfl⟩, trivial⟩
      · exact ⟨⟨⟨PatternOK.plain (by decide) (by decide), by intro c hc; cases hc⟩, trivial⟩, trivial⟩)
    (plain_of _ (by decide)) true _ _ _ adrift_course st how hs he
  exact ⟨h1, h2⟩

/-- An offset on a number is read together with it as a number, which fails and gives line 0: `2+1p` ends the program. A search from behind the
last line that finds nothing never comes back. -/
example : fate demoEnv.compile (room demoEnv) demoEnv.openErr ⟨.one (.off (.lit b!"2") false b!"1") [], .print⟩ ⟨b!"a\nb\nc\n", 3, b!"f", oddFiles⟩ = .crash ∧
    fate demoEnv.compile (room demoEnv) demoEnv.openErr ⟨.one (.re b!"z") [], .print⟩ ⟨b!"a\nb\nc\n", 4, b!"f", oddFiles⟩ = .never := by
  constructor <;> rfl

end Ed
