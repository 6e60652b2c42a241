import Verif.Ed.EndToEnd

/-! # C150: buffers that end in a blank line, and every other buffer of plain lines

The reference here does not assume that buffers end in a line with something on it, nor that a `c` does not start at
`$`: it says what ed does with any buffer of plain lines. -/

namespace Ed
open Go

/-! ## Specification -/

/-- The lines that can be seen: all but one blank line at the end. -/
def visible (ls : List Bytes) : List Bytes := if ls.getLast? = some [] then ls.dropLast else ls

/-- The line number an address stands for; `$` is the last visible line. -/
def SAddr.at (ls : List Bytes) (cur : Nat) (a : SAddr) : Nat := a.eval ⟨visible ls, cur⟩

/-- Text put behind the first `k` lines, or behind the visible ones if there are fewer. -/
def putAfter (ls t : List Bytes) (k : Nat) : List Bytes :=
  ls.take (min k (visible ls).length) ++ t ++ ls.drop (min k (visible ls).length)

/-- Without the lines behind the first `k` up to line `m`, as far as they are visible. -/
def cutOut (ls : List Bytes) (k m : Nat) : List Bytes :=
  ls.take (min k (visible ls).length) ++ ls.drop (min m (visible ls).length)

/-- What a command makes of a buffer and a current line. `c` first deletes, then looks its start address up again, puts the
text there, and looks it up once more for the current line. -/
def SCmd.makes (st : LState) : SCmd → LState
  | .append a t => ⟨putAfter st.lines t (a.at st.lines st.cur), a.at st.lines st.cur + 1 + t.length⟩
  | .insert a t => ⟨putAfter st.lines t (a.at st.lines st.cur - 1), st.cur⟩
  | .delete a b =>
    ⟨cutOut st.lines (a.at st.lines st.cur - 1) (b.at st.lines st.cur),
      a.at (cutOut st.lines (a.at st.lines st.cur - 1) (b.at st.lines st.cur)) st.cur⟩
  | .change a b t =>
    let l1 := cutOut st.lines (a.at st.lines st.cur - 1) (b.at st.lines st.cur)
    let l2 := putAfter l1 t (a.at l1 st.cur - 1)
    ⟨l2, a.at l2 st.cur + t.length⟩
  | _ => st

/-- What it prints. -/
def SCmd.prints (st : LState) (c : SCmd) : Bytes := c.output ⟨visible st.lines, st.cur⟩

/-- When: texts are plain and not empty, ranges are not backwards, printing stays among the visible lines. -/
def SCmd.Fine (st : LState) : SCmd → Prop
  | .append a t => a.at st.lines st.cur < 2 ^ 62 ∧ TextOK t
  | .insert a t => a.at st.lines st.cur < 2 ^ 62 ∧ TextOK t
  | .change a b t => a.at st.lines st.cur ≤ b.at st.lines st.cur + 1 ∧ b.at st.lines st.cur < 2 ^ 62 ∧ TextOK t
  | .delete a b => a.at st.lines st.cur ≤ b.at st.lines st.cur + 1 ∧ b.at st.lines st.cur < 2 ^ 62
  | .print a b => InRange ⟨visible st.lines, st.cur⟩ a b
  | .number a b => InRange ⟨visible st.lines, st.cur⟩ a b
  | .lineNo a => a.at st.lines st.cur < 2 ^ 63

/-- A session of such commands; buffers have fewer than 2^62 lines. -/
def SessionFine : LState → List SCmd → Prop
  | _, [] => True
  | st, c :: cs => c.Fine st ∧ (c.makes st).lines.length < 2 ^ 62 ∧ SessionFine (c.makes st) cs

/-- The last state of a session. -/
def sessionMakes : LState → List SCmd → LState
  | st, [] => st
  | st, c :: cs => sessionMakes (c.makes st) cs

/-- What it prints. -/
def sessionSays : LState → List SCmd → List Bytes
  | _, [] => []
  | st, c :: cs => c.prints st :: sessionSays (c.makes st) cs

/-! ## Lemmas -/

theorem visible_eq (ls : List Bytes) : dropBlank ls = visible ls := rfl

theorem visible_length_le (ls : List Bytes) : (visible ls).length ≤ ls.length := by
  unfold visible; split <;> simp

theorem index_visible (ls : List Bytes) (n : Nat) : index ls n = min (n - 1) (visible ls).length := by
  simp only [index, visible_eq]; congr 1; omega

theorem index_succ (ls : List Bytes) (n : Nat) : index ls ((n : Int) + 1) = min n (visible ls).length := by
  simp only [index, visible_eq]; congr 1; omega

theorem addr_at (env : Env) {s : State} {ls : List Bytes} {cur : Nat} (h : Shows s ls) (hp : ∀ l ∈ ls, PlainLine l)
    (hcur : s.currentLine = cur) {a : Address} {sa : SAddr} (hd : Denotes a sa) (hb : sa.at ls cur < 2 ^ 63) :
    addrLine env s a = .ok (sa.at ls cur) := by
  cases sa with
  | num n =>
    obtain ⟨h1, h2, h3, h4, h5⟩ := hd
    simp only [SAddr.at, SAddr.eval] at hb ⊢
    simp only [addrLine, h1, h2, atoi_digits _ h3 h4, h5]
    rw [if_pos hb]
    simp only [Int.add_zero]
    rw [wrap64_id (by omega) (by omega)]
  | dot =>
    obtain ⟨h1, h2⟩ := hd
    simp only [SAddr.at, SAddr.eval] at hb ⊢
    simp only [addrLine, h1, h2, hcur, Int.add_zero]
    rw [wrap64_id (by omega) (by omega)]
  | last =>
    obtain ⟨h1, h2⟩ := hd
    simp only [SAddr.at, SAddr.eval] at hb ⊢
    simp only [addrLine, h1, h2, getLines_shows h hp, visible_eq, Int.add_zero]
    rw [wrap64_id (by omega) (by omega)]

/-- An address looked up in another buffer is still small. -/
theorem at_bound {sa : SAddr} {ls ls' : List Bytes} {cur n : Nat} (h : sa.at ls cur < n) (hl : ls'.length < n) : sa.at ls' cur < n := by
  cases sa with
  | num k => exact h
  | dot => exact h
  | last => exact Nat.lt_of_le_of_lt (visible_length_le ls') hl

theorem cutOut_length (ls : List Bytes) (k m : Nat) (h : k ≤ m) : (cutOut ls k m).length ≤ ls.length := by
  simp only [cutOut, List.length_append, List.length_take, List.length_drop]
  have := visible_length_le ls
  omega

theorem plain_cut {ls : List Bytes} (hp : ∀ l ∈ ls, PlainLine l) (k m : Nat) : ∀ l ∈ cutOut ls k m, PlainLine l := by
  intro l hl
  rcases List.mem_append.1 hl with hl | hl
  · exact hp l (List.mem_of_mem_take hl)
  · exact hp l (List.mem_of_mem_drop hl)

theorem plain_put {ls t : List Bytes} (hp : ∀ l ∈ ls, PlainLine l) (ht : ∀ l ∈ t, PlainLine l) (k : Nat) :
    ∀ l ∈ putAfter ls t k, PlainLine l := by
  intro l hl
  simp only [putAfter, List.mem_append] at hl
  rcases hl with (hl | hl) | hl
  · exact hp l (List.mem_of_mem_take hl)
  · exact ht l hl
  · exact hp l (List.mem_of_mem_drop hl)

theorem plain_makes {st : LState} (hp : ∀ l ∈ st.lines, PlainLine l) {sc : SCmd} (hok : sc.Fine st) :
    ∀ l ∈ (sc.makes st).lines, PlainLine l := by
  cases sc with
  | append a t => exact plain_put hp hok.2.plain _
  | insert a t => exact plain_put hp hok.2.plain _
  | change a b t => exact plain_put (plain_cut hp _ _) hok.2.2.plain _
  | delete a b => exact plain_cut hp _ _
  | print a b => exact hp
  | number a b => exact hp
  | lineNo a => exact hp

theorem take_visible {ls : List Bytes} {b : Nat} (h : b ≤ (visible ls).length) : ls.take b = (visible ls).take b := by
  rw [← visible_eq] at h ⊢
  exact (take_dropBlank ls b h).symm

/-! ## One command -/

/-- **C150** One command, on any buffer of plain lines. -/
theorem C150_command (env : Env) {s : State} {st : LState} (h : Shows s st.lines) (hp : ∀ l ∈ st.lines, PlainLine l)
    (hcur : s.currentLine = st.cur) (hlen : st.lines.length < 2 ^ 62) {c : Command} {sc : SCmd} (hs : Says c sc)
    (hok : sc.Fine st) (hlen' : (sc.makes st).lines.length < 2 ^ 62) :
    ∃ s', processCommand env s c = .ok (s', sc.prints st) ∧ Shows s' (sc.makes st).lines ∧
      s'.currentLine = (sc.makes st).cur ∧ s'.fs = s.fs ∧ s'.filename = s.filename ∧ s'.writes = s.writes := by
  cases sc with
  | append a t =>
    obtain ⟨h1, h2, h3⟩ := hs
    obtain ⟨o1, o2⟩ := hok
    have ha := addr_at env h hp hcur h2 (by omega)
    have hnl : t.length ≤ (SCmd.makes st (.append a t)).lines.length := by simp [SCmd.makes, putAfter]; omega
    obtain ⟨pt', e, sh⟩ := insert_shows h hp ((a.at st.lines st.cur : Int) + 1) (by omega) (by omega) t o2.ne
    rw [index_succ] at sh
    refine ⟨{ s with pt := pt', currentLine := (SCmd.makes st (.append a t)).cur }, ?_, ⟨sh.reach, sh.text⟩, rfl, rfl, rfl, rfl⟩
    simp only [processCommand, typ_setDefault, text_setDefault, h1, ha, h3, bind, Except.bind]
    rw [wrap64_id (i := (a.at st.lines st.cur : Int) + 1) (by omega) (by omega), e]
    simp only [lift, linesIn_join t o2, SCmd.makes, pure, Except.pure]
    rw [wrap64_id (by omega) (by omega)]
    simp [SCmd.prints, SCmd.output]
  | insert a t =>
    obtain ⟨h1, h2, h3⟩ := hs
    obtain ⟨o1, o2⟩ := hok
    have ha := addr_at env h hp hcur h2 (by omega)
    obtain ⟨pt', e, sh⟩ := insert_shows h hp (a.at st.lines st.cur : Int) (by omega) (by omega) t o2.ne
    rw [index_visible] at sh
    refine ⟨{ s with pt := pt' }, ?_, sh, hcur, rfl, rfl, rfl⟩
    simp only [processCommand, typ_setDefault, text_setDefault, h1, ha, h3, bind, Except.bind, e, lift]
    rfl
  | delete a b =>
    obtain ⟨h1, h2, h3⟩ := hs
    obtain ⟨o1, o2⟩ := hok
    have ha := addr_at env h hp hcur h2 (by omega)
    have hb := addr_at env h hp hcur h3 (by omega)
    obtain ⟨pt', e, sh⟩ := delete_shows h hp (a.at st.lines st.cur : Int) (b.at st.lines st.cur : Int) (by omega) (by omega) (by omega)
    rw [index_visible, index_succ] at sh
    have ha2 : addrLine env { s with pt := pt' } (setDefaultAddresses c).start = .ok ((SCmd.makes st (.delete a b)).cur : Int) :=
      addr_at env (s := { s with pt := pt' }) sh (plain_cut hp _ _) hcur h2
        (Nat.lt_trans (at_bound (Nat.lt_of_le_of_lt o1 (show _ < 2 ^ 62 + 1 by omega)) (Nat.lt_succ_of_lt hlen')) (by decide))
    refine ⟨{ s with pt := pt', currentLine := (SCmd.makes st (.delete a b)).cur }, ?_, ⟨sh.reach, sh.text⟩, rfl, rfl, rfl, rfl⟩
    simp only [processCommand, typ_setDefault, h1, ha, hb, bind, Except.bind, e, lift, ha2]
    rfl
  | change a b t =>
    obtain ⟨h1, h2, h3, h4⟩ := hs
    obtain ⟨o1, o2, o3⟩ := hok
    have ha := addr_at env h hp hcur h2 (by omega)
    have hb := addr_at env h hp hcur h3 (by omega)
    have hab : a.at st.lines st.cur < 2 ^ 62 + 1 := by omega
    obtain ⟨pt', e, sh⟩ := delete_shows h hp (a.at st.lines st.cur : Int) (b.at st.lines st.cur : Int) (by omega) (by omega) (by omega)
    rw [index_visible, index_succ] at sh
    have p1 := plain_cut hp (a.at st.lines st.cur - 1) (b.at st.lines st.cur)
    have l1 := cutOut_length st.lines (a.at st.lines st.cur - 1) (b.at st.lines st.cur) (by omega)
    change Shows _ (cutOut st.lines (a.at st.lines st.cur - 1) (b.at st.lines st.cur)) at sh
    generalize hl1 : cutOut st.lines (a.at st.lines st.cur - 1) (b.at st.lines st.cur) = m1 at sh p1 l1
    have hm : (SCmd.makes st (.change a b t)) = ⟨putAfter m1 t (a.at m1 st.cur - 1), a.at (putAfter m1 t (a.at m1 st.cur - 1)) st.cur + t.length⟩ := by
      simp only [SCmd.makes, hl1]
    have b1 : a.at m1 st.cur < 2 ^ 62 + 1 := at_bound hab (by omega)
    have ha1 : addrLine env { s with pt := pt' } (setDefaultAddresses c).start = .ok (a.at m1 st.cur : Int) :=
      addr_at env (s := { s with pt := pt' }) sh p1 hcur h2 (by omega)
    obtain ⟨pt2, e2, sh2⟩ := insert_shows sh p1 (a.at m1 st.cur : Int) (by omega) (by omega) t o3.ne
    rw [index_visible] at sh2
    change Shows _ (putAfter m1 t (a.at m1 st.cur - 1)) at sh2
    rw [hm] at hlen' ⊢
    simp only at hlen'
    have hnl : t.length ≤ (putAfter m1 t (a.at m1 st.cur - 1)).length := by simp [putAfter]; omega
    have p2 := plain_put p1 o3.plain (a.at m1 st.cur - 1)
    generalize putAfter m1 t (a.at m1 st.cur - 1) = m2 at sh2 hlen' hnl p2
    have b2 : a.at m2 st.cur < 2 ^ 62 + 1 := at_bound hab (by omega)
    have ha2 : addrLine env { s with pt := pt2 } (setDefaultAddresses c).start = .ok (a.at m2 st.cur : Int) :=
      addr_at env (s := { s with pt := pt2 }) sh2 p2 hcur h2 (by omega)
    refine ⟨{ s with pt := pt2, currentLine := (a.at m2 st.cur + t.length : Nat) }, ?_, ⟨sh2.reach, sh2.text⟩, rfl, rfl, rfl, rfl⟩
    simp only [processCommand, typ_setDefault, text_setDefault, h1, ha, hb, h4, bind, Except.bind, e, lift, ha1, e2, ha2]
    simp only [linesIn_join t o3, SCmd.prints, SCmd.output, pure, Except.pure]
    rw [wrap64_id (by omega) (by omega)]
    simp
  | print a b =>
    obtain ⟨h1, h2, h3⟩ := hs
    obtain ⟨o1, o2, o3⟩ := hok
    have hv := visible_length_le st.lines
    have ha := addr_at env h hp hcur h2 (by simp only [SAddr.at]; simp only at o3; omega)
    have hb := addr_at env h hp hcur h3 (by simp only [SAddr.at]; simp only at o3; omega)
    refine ⟨s, ?_, h, hcur, rfl, rfl, rfl⟩
    have hpr : print env s (a.at st.lines st.cur) (b.at st.lines st.cur) =
        .ok (join [nl] (linesFrom (visible st.lines) (a.at st.lines st.cur) (b.at st.lines st.cur))) := by
      change 1 ≤ a.at st.lines st.cur at o1
      change a.at st.lines st.cur ≤ b.at st.lines st.cur at o2
      change b.at st.lines st.cur ≤ (visible st.lines).length at o3
      simp only [print, scanned_shows h hp, visible_eq]
      rw [wrap64_id (by omega) (by omega)]
      have : ((a.at st.lines st.cur : Int) - 1) = ((a.at st.lines st.cur - 1 : Nat) : Int) := by omega
      rw [this, slice_ok _ _ _ (by omega) (by simp; omega)]
      simp only [linesFrom]
      rw [List.take_append_of_le_length o3]
    simp only [processCommand, typ_setDefault, h1, ha, hb, bind, Except.bind, hpr, lift]
    rfl
  | number a b =>
    obtain ⟨h1, h2, h3⟩ := hs
    obtain ⟨o1, o2, o3⟩ := hok
    have hv := visible_length_le st.lines
    have ha := addr_at env h hp hcur h2 (by simp only [SAddr.at]; simp only at o3; omega)
    have hb := addr_at env h hp hcur h3 (by simp only [SAddr.at]; simp only at o3; omega)
    refine ⟨s, ?_, h, hcur, rfl, rfl, rfl⟩
    have hnr : number s (a.at st.lines st.cur) (b.at st.lines st.cur) =
        .ok (numbered (a.at st.lines st.cur) (linesFrom (visible st.lines) (a.at st.lines st.cur) (b.at st.lines st.cur))) := by
      change 1 ≤ a.at st.lines st.cur at o1
      change a.at st.lines st.cur ≤ b.at st.lines st.cur at o2
      change b.at st.lines st.cur ≤ (visible st.lines).length at o3
      simp only [number, getLines_shows h hp, visible_eq]
      rw [if_neg (by omega), if_neg (by omega), numberLoop_ok _ _ _ (by simp; omega)]
      simp only [linesFrom]
      have : ((a.at st.lines st.cur : Int) - 1).toNat = a.at st.lines st.cur - 1 := by omega
      rw [this, List.drop_take]
      congr 3
      omega
    simp only [processCommand, typ_setDefault, h1, ha, hb, bind, Except.bind, hnr, lift]
    rfl
  | lineNo a =>
    obtain ⟨h1, h2⟩ := hs
    have ha := addr_at env h hp hcur h2 hok
    refine ⟨s, ?_, h, hcur, rfl, rfl, rfl⟩
    simp only [processCommand, typ_setDefault, h1, ha, bind, Except.bind]
    rfl

/-! ## Sessions -/

/-- **C150** Any session on any buffer of plain lines: no panic, and prints, buffer, current line are what the reference says.
There is no condition on how buffers end, on where a `c` starts, or on how far addresses of `a i c d` lie beyond the end. -/
theorem C150_session (env : Env) : ∀ (scs : List SCmd) (cs : List Command) {s : State} {st : LState},
    Shows s st.lines → (∀ l ∈ st.lines, PlainLine l) → s.currentLine = st.cur → st.lines.length < 2 ^ 62 →
    SaysAll cs scs → SessionFine st scs →
    ∃ s', runAll env s cs = .ok (s', sessionSays st scs) ∧ Shows s' (sessionMakes st scs).lines ∧
      s'.currentLine = (sessionMakes st scs).cur ∧ s'.fs = s.fs ∧ s'.filename = s.filename := by
  intro scs
  induction scs with
  | nil =>
    intro cs s st h hp hcur hlen hf hok
    cases cs with
    | nil => exact ⟨s, rfl, h, hcur, rfl, rfl⟩
    | cons c cs => exact hf.elim
  | cons sc scs ih =>
    intro cs s st h hp hcur hlen hf hok
    cases cs with
    | nil => exact hf.elim
    | cons c cs =>
      obtain ⟨h1, h2⟩ := hf
      obtain ⟨o1, o2, o3⟩ := hok
      obtain ⟨s1, e1, sh1, c1, f1, n1, _⟩ := C150_command env h hp hcur hlen h1 o1 o2
      obtain ⟨s2, e2, sh2, c2, f2, n2⟩ := ih _ (st := sc.makes st) sh1 (plain_makes hp o1) c1 o2 h2 o3
      refine ⟨s2, ?_, sh2, c2, f2.trans f1, n2.trans n1⟩
      simp only [runAll, e1, e2, sessionSays]

/-! ## What that means for a blank line at the end -/

theorem visible_blank (v : List Bytes) : visible (v ++ [[]]) = v := by
  simp [visible]

theorem visible_other {ls : List Bytes} (h : ls.getLast? ≠ some []) : visible ls = ls := by
  simp [visible, h]

theorem at_blank (v : List Bytes) (cur : Nat) (a : SAddr) : a.at (v ++ [[]]) cur = a.eval ⟨v, cur⟩ := by
  rw [SAddr.at, visible_blank]

theorem putAfter_blank (v t : List Bytes) (k : Nat) (hk : k ≤ v.length) :
    putAfter (v ++ [[]]) t k = (v.take k ++ t ++ v.drop k) ++ [[]] := by
  simp only [putAfter, visible_blank, Nat.min_eq_left hk]
  rw [List.take_append_of_le_length hk, List.drop_append_of_le_length hk]
  simp

theorem cutOut_blank (v : List Bytes) (k m : Nat) (hk : k ≤ v.length) (hm : m ≤ v.length) :
    cutOut (v ++ [[]]) k m = (v.take k ++ v.drop m) ++ [[]] := by
  simp only [cutOut, visible_blank, Nat.min_eq_left hk, Nat.min_eq_left hm]
  rw [List.take_append_of_le_length hk, List.drop_append_of_le_length hm]
  simp

/-- With a blank line at the end, a command in range does what the list-of-lines editor does to the lines before it. -/
theorem makes_blank {v : List Bytes} {cur : Nat} {sc : SCmd} (h : sc.InBounds ⟨v, cur⟩) :
    sc.makes ⟨v ++ [[]], cur⟩ = ⟨(sc.next ⟨v, cur⟩).lines ++ [[]], (sc.next ⟨v, cur⟩).cur⟩ := by
  cases sc with
  | append a t =>
    simp only [SCmd.makes, at_blank, SCmd.next, SCmd.newLines, SCmd.newCur]
    rw [putAfter_blank _ _ _ h.1]
  | insert a t =>
    obtain ⟨h1, h2, _⟩ := h
    simp only [SCmd.makes, at_blank, SCmd.next, SCmd.newLines, SCmd.newCur]
    rw [putAfter_blank _ _ _ (by simp only at h2; omega)]
  | delete a b =>
    obtain ⟨h1, h2, h3⟩ := h
    simp only [SCmd.makes, at_blank, SCmd.next, SCmd.newLines, SCmd.newCur]
    change _ ≤ v.length at h3
    rw [cutOut_blank _ _ _ (by omega) h3, at_blank]
  | change a b t =>
    obtain ⟨⟨h1, h2, h3⟩, h4, _⟩ := h
    simp only at h3
    have e : ∀ ls, a.at ls cur = a.eval ⟨v, cur⟩ := by
      intro ls
      cases a with
      | num n => rfl
      | dot => rfl
      | last => exact absurd rfl h4
    simp only [SCmd.makes, e, at_blank, SCmd.next, SCmd.newLines, SCmd.newCur]
    rw [cutOut_blank _ _ _ (by omega) h3, putAfter_blank _ _ _ (by simp; omega)]
    have hk : (v.take (a.eval ⟨v, cur⟩ - 1)).length = a.eval ⟨v, cur⟩ - 1 := by simp; omega
    congr 2
    rw [List.take_append_of_le_length (by omega), List.drop_append_of_le_length (by omega), List.take_of_length_le (by omega),
      List.drop_of_length_le (by omega), List.nil_append]
  | print a b => rfl
  | number a b => rfl
  | lineNo a => rfl

theorem prints_blank (v : List Bytes) (cur : Nat) (sc : SCmd) : sc.prints ⟨v ++ [[]], cur⟩ = sc.output ⟨v, cur⟩ := by
  simp only [SCmd.prints, visible_blank]

theorem fine_blank {v : List Bytes} {cur : Nat} (hl : v.length < 2 ^ 62 - 1) {sc : SCmd} (h : sc.InBounds ⟨v, cur⟩)
    (ht : ∀ l ∈ sc.text, PlainLine l) : sc.Fine ⟨v ++ [[]], cur⟩ := by
  cases sc with
  | append a t =>
    simp only [SCmd.Fine, at_blank]
    have : a.eval ⟨v, cur⟩ ≤ v.length := h.1
    exact ⟨by omega, h.2, ht⟩
  | insert a t =>
    simp only [SCmd.Fine, at_blank]
    have : a.eval ⟨v, cur⟩ ≤ v.length + 1 := h.2.1
    exact ⟨by omega, h.2.2, ht⟩
  | delete a b =>
    simp only [SCmd.Fine, at_blank]
    obtain ⟨h1, h2, h3⟩ := h
    change _ ≤ v.length at h3
    exact ⟨by omega, by omega⟩
  | change a b t =>
    simp only [SCmd.Fine, at_blank]
    obtain ⟨⟨h1, h2, h3⟩, h4, h5⟩ := h
    change _ ≤ v.length at h3
    exact ⟨by omega, by omega, h5, ht⟩
  | print a b => simp only [SCmd.Fine, visible_blank]; exact h
  | number a b => simp only [SCmd.Fine, visible_blank]; exact h
  | lineNo a => simp only [SCmd.Fine, at_blank]; exact h

/-- Sessions in range of the lines before a blank last line. -/
theorem session_blank : ∀ (scs : List SCmd) (v : List Bytes) (cur : Nat), SessionInBounds ⟨v, cur⟩ scs → v.length < 2 ^ 62 - 1 →
    (∀ sc ∈ scs, ∀ l ∈ sc.text, PlainLine l) → (∀ pre post, scs = pre ++ post → (sessionEnd ⟨v, cur⟩ pre).lines.length < 2 ^ 62 - 1) →
    SessionFine ⟨v ++ [[]], cur⟩ scs ∧ sessionSays ⟨v ++ [[]], cur⟩ scs = sessionOutputs ⟨v, cur⟩ scs ∧
    sessionMakes ⟨v ++ [[]], cur⟩ scs = ⟨(sessionEnd ⟨v, cur⟩ scs).lines ++ [[]], (sessionEnd ⟨v, cur⟩ scs).cur⟩ := by
  intro scs
  induction scs with
  | nil => intro v cur _ _ _ _; exact ⟨trivial, rfl, rfl⟩
  | cons sc scs ih =>
    intro v cur hb hl ht hall
    obtain ⟨b1, b2, b3⟩ := hb
    have e := makes_blank b1
    have hl' : (sc.next ⟨v, cur⟩).lines.length < 2 ^ 62 - 1 := hall [sc] scs rfl
    obtain ⟨i1, i2, i3⟩ := ih (sc.next ⟨v, cur⟩).lines (sc.next ⟨v, cur⟩).cur b3 hl' (fun c hc => ht c (by simp [hc])) (by
      intro pre post e
      exact hall (sc :: pre) post (by rw [e]; rfl))
    refine ⟨⟨fine_blank hl b1 (ht sc (by simp)), ?_, ?_⟩, ?_, ?_⟩
    · rw [e]; simp; omega
    · rw [e]; exact i1
    · simp only [sessionSays, sessionOutputs, prints_blank, e, i2]
    · simp only [sessionMakes, sessionEnd, e, i3]

/-- The sizes of a session's buffers. -/
def SessionSmall (st : LState) (scs : List SCmd) : Prop :=
  ∀ pre post, scs = pre ++ post → (sessionEnd st pre).lines.length < 2 ^ 62 - 1

/-- **C150** A blank last line is out of reach and stays: on a buffer of the lines `v` and a blank line, every session that is
in range for the list-of-lines editor on `v` prints what that editor prints and leaves its lines followed by the blank line. This
needs nothing about blank lines elsewhere (without the blank line at the end it would, see C62): texts and `v` may end in any. -/
theorem C150_blank_stays (env : Env) (v : List Bytes) (cur : Nat) (scs : List SCmd) (cs : List Command) {s : State}
    (h : Shows s (v ++ [[]])) (hp : ∀ l ∈ v, PlainLine l) (hcur : s.currentLine = cur) (hs : SaysAll cs scs)
    (hb : SessionInBounds ⟨v, cur⟩ scs) (ht : ∀ sc ∈ scs, ∀ l ∈ sc.text, PlainLine l) (hsm : SessionSmall ⟨v, cur⟩ scs) :
    ∃ s', runAll env s cs = .ok (s', sessionOutputs ⟨v, cur⟩ scs) ∧ Shows s' ((sessionEnd ⟨v, cur⟩ scs).lines ++ [[]]) ∧
      s'.currentLine = (sessionEnd ⟨v, cur⟩ scs).cur ∧ s'.fs = s.fs ∧ s'.filename = s.filename := by
  have hl : v.length < 2 ^ 62 - 1 := hsm [] scs rfl
  obtain ⟨f, e1, e2⟩ := session_blank scs v cur hb hl ht hsm
  obtain ⟨s', r1, r2, r3, r4, r5⟩ := C150_session env scs cs (st := ⟨v ++ [[]], cur⟩) h (by
    intro l hm
    rcases List.mem_append.1 hm with hm | hm
    · exact hp l hm
    · rw [List.mem_singleton.1 hm]; exact ⟨by simp, by simp, by simp [maxToken]⟩) hcur (by simp; omega) hs f
  rw [e1] at r1
  rw [e2] at r2 r3
  exact ⟨s', r1, r2, r3, r4, r5⟩

/-- Three lines, the second and the last blank: `2,2c` with two lines, of which the second is blank, `$a` with a blank line, `1,$p`. -/
example : ∃ s', runAll demoEnv (opened [b!"a", b!"", b!""] 2)
      [{ typ := .change, start := numAddr 2, end_ := numAddr 2, text := join [nl] [b!"x", b!""] },
       { typ := .append, start := aLast, text := join [nl] [b!""] },
       { typ := .print, start := numAddr 1, end_ := aLast }] = .ok (s', [[], [], b!"a\nx\n\n"]) ∧
    Shows s' [b!"a", b!"x", b!"", b!"", b!""] := by
  obtain ⟨s', e, sh, _⟩ := C150_blank_stays demoEnv [b!"a", b!""] 2
    [.change (.num 2) (.num 2) [b!"x", b!""], .append .last [b!""], .print (.num 1) .last]
    [{ typ := .change, start := numAddr 2, end_ := numAddr 2, text := join [nl] [b!"x", b!""] },
     { typ := .append, start := aLast, text := join [nl] [b!""] },
     { typ := .print, start := numAddr 1, end_ := aLast }] (opened_shows [b!"a", b!"", b!""] 2) (plain_of _ (by decide)) rfl
    ⟨⟨rfl, numAddr_denotes 2, numAddr_denotes 2, rfl⟩, ⟨rfl, ⟨rfl, rfl⟩, rfl⟩, ⟨rfl, numAddr_denotes 1, ⟨rfl, rfl⟩⟩, trivial⟩
    ⟨⟨⟨by decide, by decide, by decide⟩, by decide, by decide⟩, by decide, ⟨by decide, by decide⟩, by decide,
      ⟨by decide, by decide, by decide⟩, by decide, trivial⟩
    (by
      intro sc hsc
      simp only [List.mem_cons, List.not_mem_nil, or_false] at hsc
      rcases hsc with rfl | rfl | rfl <;> exact plain_of _ (by decide))
    (by
      intro pre post e
      rcases pre with _ | ⟨x, _ | ⟨y, _ | ⟨z, _ | ⟨w, pre⟩⟩⟩⟩
      · decide
      · simp only [List.cons_append, List.nil_append, List.cons.injEq] at e
        obtain ⟨rfl, _⟩ := e; decide
      · simp only [List.cons_append, List.nil_append, List.cons.injEq] at e
        obtain ⟨rfl, rfl, _⟩ := e; decide
      · simp only [List.cons_append, List.nil_append, List.cons.injEq] at e
        obtain ⟨rfl, rfl, rfl, _⟩ := e; decide
      · simp at e)
  exact ⟨s', e, sh⟩

/-- **C150** The blank line gets out of reach the moment a command leaves it last: whatever the buffer before, after an `a`, `i` or
`d` that leaves `v` and a blank line, the following commands work on `v` as if it were not there. -/
theorem C150_blank_goes (env : Env) {s : State} {st : LState} (h : Shows s st.lines) (hc : Clean st.lines) (hcur : s.currentLine = st.cur)
    (hlen : st.lines.length < 2 ^ 62) {sc : SCmd} {c : Command} (hsc : Says c sc) (hnc : ∀ a b t, sc ≠ .change a b t) (hfine : sc.Fine st)
    (hin : sc.InBounds st)
    (v : List Bytes) (hv : sc.newLines st = v ++ [[]]) (scs : List SCmd) (cs : List Command) (hs : SaysAll cs scs) (cur : Nat)
    (hcur' : cur = (sc.makes st).cur)
    (hb : SessionInBounds ⟨v, cur⟩ scs) (ht : ∀ sc ∈ scs, ∀ l ∈ sc.text, PlainLine l) (hsm : SessionSmall ⟨v, cur⟩ scs) :
    ∃ s', runAll env s (c :: cs) = .ok (s', sc.output st :: sessionOutputs ⟨v, cur⟩ scs) ∧
      Shows s' ((sessionEnd ⟨v, cur⟩ scs).lines ++ [[]]) ∧ s'.currentLine = (sessionEnd ⟨v, cur⟩ scs).cur := by
  have hvis := visible_other hc.lastNe
  have hat : ∀ a : SAddr, a.at st.lines st.cur = a.eval st := by intro a; rw [SAddr.at, hvis]
  have hm : (sc.makes st).lines = v ++ [[]] := by
    rw [← hv]
    cases sc with
    | append a t =>
      have := hin.1
      simp only [SCmd.makes, SCmd.newLines, putAfter, hat, hvis, Nat.min_eq_left this]
    | insert a t =>
      have := hin.2.1
      simp only [SCmd.makes, SCmd.newLines, putAfter, hat, hvis]
      rw [Nat.min_eq_left (by omega)]
    | delete a b =>
      obtain ⟨_, h2, h3⟩ := hin
      simp only [SCmd.makes, SCmd.newLines, cutOut, hat, hvis]
      rw [Nat.min_eq_left (by omega), Nat.min_eq_left h3]
    | change a b t => exact absurd rfl (hnc a b t)
    | print a b => rfl
    | number a b => rfl
    | lineNo a => rfl
  have hl : v.length < 2 ^ 62 - 1 := hsm [] scs rfl
  obtain ⟨s1, e1, sh1, c1, _⟩ := C150_command env h hc.plain hcur hlen hsc hfine (by rw [hm]; simp; omega)
  have hpv := plain_makes hc.plain hfine
  rw [hm] at sh1 hpv
  obtain ⟨s2, e2, sh2, c2, _⟩ := C150_blank_stays env v cur scs cs sh1 (fun l hl => hpv l (by simp [hl])) (by rw [c1, hcur']) hs hb ht hsm
  refine ⟨s2, ?_, sh2, c2⟩
  have hp : sc.prints st = sc.output st := by simp only [SCmd.prints, hvis]
  simp only [runAll, e1, e2, hp]

theorem put_ends (ls t : List Bytes) (k : Nat) (h : ls.getLast? = some []) : (putAfter ls t k).getLast? = some [] := by
  obtain ⟨v, rfl⟩ : ∃ v, ls = v ++ [[]] := List.getLast?_eq_some_iff.1 h
  simp only [putAfter, visible_blank]
  rw [List.drop_append_of_le_length (by omega)]
  simp

theorem cut_ends (ls : List Bytes) (k m : Nat) (h : ls.getLast? = some []) : (cutOut ls k m).getLast? = some [] := by
  obtain ⟨v, rfl⟩ : ∃ v, ls = v ++ [[]] := List.getLast?_eq_some_iff.1 h
  simp only [cutOut, visible_blank]
  rw [List.drop_append_of_le_length (by omega)]
  simp

/-- **C150** Expected of a line editor: that every line can be deleted. False for a blank line at the end: whatever the session and
however its commands name lines, the buffer still ends in a blank line. -/
theorem C150_blank_cannot_be_deleted (env : Env) (scs : List SCmd) (cs : List Command) {s : State} {st : LState}
    (h : Shows s st.lines) (hp : ∀ l ∈ st.lines, PlainLine l) (hcur : s.currentLine = st.cur) (hlen : st.lines.length < 2 ^ 62)
    (hs : SaysAll cs scs) (hok : SessionFine st scs) (hb : st.lines.getLast? = some []) :
    ∃ s' outs ls, runAll env s cs = .ok (s', outs) ∧ Shows s' ls ∧ ls.getLast? = some [] := by
  obtain ⟨s', r1, r2, r3⟩ := C150_session env scs cs h hp hcur hlen hs hok
  refine ⟨s', _, _, r1, r2, ?_⟩
  clear r3 h hp hcur hlen hs hok r1 r2
  induction scs generalizing st with
  | nil => exact hb
  | cons sc scs ih =>
    refine ih (st := sc.makes st) ?_
    cases sc with
    | append a t => exact put_ends _ _ _ hb
    | insert a t => exact put_ends _ _ _ hb
    | delete a b => exact cut_ends _ _ _ hb
    | change a b t => exact put_ends _ _ _ (cut_ends _ _ _ hb)
    | print a b => exact hb
    | number a b => exact hb
    | lineNo a => exact hb

/-- `$d` in the buffer `"a", ""` deletes the first line; `1,9d` afterwards deletes nothing. -/
example : ∃ s' outs ls, runAll demoEnv (opened [b!"a", b!""] 1) [{ typ := .delete, start := aLast, end_ := aLast },
      { typ := .delete, start := numAddr 1, end_ := numAddr 9 }] = .ok (s', outs) ∧ Shows s' ls ∧ ls.getLast? = some [] :=
  C150_blank_cannot_be_deleted demoEnv [.delete .last .last, .delete (.num 1) (.num 9)] _ (st := ⟨[b!"a", b!""], 1⟩) (opened_shows _ _)
    (plain_of _ (by decide)) rfl (by decide) ⟨⟨rfl, ⟨rfl, rfl⟩, ⟨rfl, rfl⟩⟩, ⟨rfl, numAddr_denotes 1, numAddr_denotes 9⟩, trivial⟩
    ⟨⟨by decide, by decide⟩, by decide, ⟨by decide, by decide⟩, by decide, trivial⟩ rfl

/-! ## `c` at the end of the buffer -/

theorem take_len {xs ys : List Bytes} {k : Nat} (h : xs.length = k) : (xs ++ ys).take k = xs ∧ (xs ++ ys).drop k = ys := by
  subst h; simp

/-- **C150** `$c` (or `$,$c`) puts the text one line too early: the line before the last ends up behind it. Only in a buffer of one
line does it do what it should. -/
theorem C150_change_last (env : Env) {s : State} (ls : List Bytes) (cur : Nat) (h : Shows s ls) (hc : Clean ls) (hcur : s.currentLine = cur)
    (t : List Bytes) (ht : TextOK t) (hlen : ls.length + t.length < 2 ^ 62) {c : Command} (hs : Says c (.change .last .last t)) :
    (∀ pre l m, ls = pre ++ [l, m] → l ≠ [] → ∃ s', processCommand env s c = .ok (s', []) ∧ Shows s' (pre ++ t ++ [l])) ∧
    (∀ m, ls = [m] → ∃ s', processCommand env s c = .ok (s', []) ∧ Shows s' t) ∧
    (∀ pre k m, ls = pre ++ [k, [], m] → ∃ s', processCommand env s c = .ok (s', []) ∧ Shows s' (pre ++ t ++ [k, []])) := by
  have hvis := visible_other hc.lastNe
  have run : ∀ l1 l2, cutOut ls (ls.length - 1) ls.length = l1 → putAfter l1 t ((visible l1).length - 1) = l2 →
      ∃ s', processCommand env s c = .ok (s', []) ∧ Shows s' l2 := by
    intro l1 l2 e1 e2
    have hm : ((SCmd.change .last .last t).makes ⟨ls, cur⟩).lines = l2 := by
      simp only [SCmd.makes, SAddr.at, SAddr.eval, hvis, e1, e2]
    have hl1 := cutOut_length ls (ls.length - 1) ls.length (by omega)
    rw [e1] at hl1
    have hl2 : l2.length = l1.length + t.length := by
      rw [← e2]
      simp only [putAfter, List.length_append, List.length_take, List.length_drop]
      omega
    obtain ⟨s', r1, r2, _⟩ := C150_command env (st := ⟨ls, cur⟩) h hc.plain hcur (by simp only; omega) hs
      ⟨by simp only [SAddr.at, SAddr.eval]; omega, by simp only [SAddr.at, SAddr.eval, hvis]; omega, ht⟩ (by rw [hm]; omega)
    rw [hm] at r2
    exact ⟨s', r1, r2⟩
  refine ⟨fun pre l m e hl => ?_, fun m e => ?_, fun pre k m e => ?_⟩
  · have e1 : cutOut ls (ls.length - 1) ls.length = pre ++ [l] := by
      simp only [cutOut, hvis]
      rw [e, Nat.min_self, List.drop_length, Nat.min_eq_left (by omega), show pre ++ [l, m] = (pre ++ [l]) ++ [m] by simp]
      rw [(take_len (by simp)).1, List.append_nil]
    refine run _ _ e1 ?_
    have hv : visible (pre ++ [l]) = pre ++ [l] := visible_other (by simpa using hl)
    simp only [putAfter, hv]
    rw [Nat.min_eq_left (by omega), (take_len (by simp)).1, (take_len (by simp)).2]
  · have e1 : cutOut ls (ls.length - 1) ls.length = [] := by
      simp only [cutOut, hvis]; rw [e]; simp
    refine run _ _ e1 ?_
    simp [putAfter, visible]
  · have e1 : cutOut ls (ls.length - 1) ls.length = pre ++ [k] ++ [[]] := by
      simp only [cutOut, hvis]
      rw [e, Nat.min_self, List.drop_length, Nat.min_eq_left (by omega), show pre ++ [k, [], m] = (pre ++ [k] ++ [[]]) ++ [m] by simp]
      rw [(take_len (by simp)).1, List.append_nil]
    refine run _ _ e1 ?_
    rw [visible_blank, putAfter_blank _ _ _ (by omega), (take_len (by simp)).1, (take_len (by simp)).2]
    simp

/-- **C150** Changing the lines from some line to the end, if the line before them is blank, puts the text before that blank line. -/
theorem C150_change_after_blank (env : Env) {s : State} (pre mid : List Bytes) (cur : Nat) (h : Shows s (pre ++ [[]] ++ mid))
    (hc : Clean (pre ++ [[]] ++ mid)) (hcur : s.currentLine = cur) (t : List Bytes) (ht : TextOK t) (b : SAddr)
    (hb : b.eval ⟨pre ++ [[]] ++ mid, cur⟩ = (pre ++ [[]] ++ mid).length)
    (hlen : (pre ++ [[]] ++ mid).length + t.length < 2 ^ 62) {c : Command} (hs : Says c (.change (.num (pre.length + 2)) b t)) :
    ∃ s', processCommand env s c = .ok (s', []) ∧ Shows s' (pre ++ t ++ [[]]) := by
  have hvis := visible_other hc.lastNe
  have hbat : b.at (pre ++ [[]] ++ mid) cur = (pre ++ [[]] ++ mid).length := by rw [SAddr.at, hvis]; exact hb
  have e1 : cutOut (pre ++ [[]] ++ mid) (pre.length + 1) (pre ++ [[]] ++ mid).length = pre ++ [[]] := by
    simp only [cutOut, hvis]
    rw [Nat.min_self, List.drop_length, Nat.min_eq_left (by simp), (take_len (by simp)).1, List.append_nil]
  have hm : ((SCmd.change (.num (pre.length + 2)) b t).makes ⟨pre ++ [[]] ++ mid, cur⟩).lines = pre ++ t ++ [[]] := by
    simp only [SCmd.makes, hbat]
    simp only [SAddr.at, SAddr.eval, show pre.length + 2 - 1 = pre.length + 1 from rfl, e1]
    simp only [putAfter, visible_blank]
    rw [Nat.min_eq_right (by omega), (take_len rfl).1, (take_len rfl).2]
  simp only [List.length_append, List.length_cons, List.length_nil] at hlen
  obtain ⟨s', r1, r2, _⟩ := C150_command env (st := ⟨pre ++ [[]] ++ mid, cur⟩) h hc.plain hcur (by simp; omega) hs
    ⟨by simp only [hbat]; simp [SAddr.at, SAddr.eval], by simp only [hbat]; simp; omega, ht⟩ (by rw [hm]; simp; omega)
  rw [hm] at r2
  exact ⟨s', r1, r2⟩

example (env : Env) : ∃ s', processCommand env (opened [b!"a", b!"", b!"b", b!"c"] 4)
      { typ := .change, start := numAddr 3, end_ := aLast, text := join [nl] [b!"x", b!"y"] } = .ok (s', []) ∧
    Shows s' [b!"a", b!"x", b!"y", b!""] :=
  C150_change_after_blank env [b!"a"] [b!"b", b!"c"] 4 (opened_shows _ _) (clean_of _ (by decide) (by decide)) rfl _ demo_text .last rfl
    (by decide) ⟨rfl, numAddr_denotes 3, ⟨rfl, rfl⟩, rfl⟩

theorem session_plain : ∀ (scs : List SCmd) {st : LState}, (∀ l ∈ st.lines, PlainLine l) → SessionFine st scs →
    ∀ l ∈ (sessionMakes st scs).lines, PlainLine l := by
  intro scs
  induction scs with
  | nil => intro st h _; exact h
  | cons sc scs ih => intro st h hok; exact ih (plain_makes h hok.1) hok.2.2

/-! ## The whole program -/

/-- **C150** `ed name` on any file of plain lines, each ended by a newline, given any script of such commands followed by `w` and `q`,
whatever the schedule of its goroutines: the file ends up with exactly the lines of the reference, the results are printed in order, no
other file but the temporary one changes, and there is no error message. -/
theorem C150_script (env : Env) (errText : Bytes → Bytes) (s0 : State) (name : Bytes) (hn : NameOK name) (hnp : PlainLine (b!"e " ++ name))
    (ls : List Bytes) (hfs : s0.fs name = some (unlines ls)) (hpl : ∀ l ∈ ls, PlainLine l) (hlen : ls.length < 2 ^ 62)
    (scs : List SCmd) (hok : SessionFine ⟨ls, (visible ls).length⟩ scs) (ht : ∀ sc ∈ scs, sc.Typeable)
    (hp : ∀ l ∈ scs.flatMap SCmd.typed, PlainLine l)
    (hsave : ∀ k, (env.outcome k).stat = none ∧ (env.outcome k).writeFile = none ∧ (env.outcome k).rename = none)
    (st : Sys) (how : End)
    (hs : Steps env (initial errText s0 (mainInput (some name) (unlines (scs.flatMap SCmd.typed ++ [b!"w", b!"q"])))) st)
    (he : st.cons.ended = some how) :
    how = .quit ∧ st.ed.fs name = some (unlines (sessionMakes ⟨ls, (visible ls).length⟩ scs).lines) ∧
    (∀ n, n ≠ name → n ≠ tmpName name → st.ed.fs n = s0.fs n) ∧
    results st.out = ([] :: (sessionSays ⟨ls, (visible ls).length⟩ scs ++ [[]])).map (· ++ [nl]) ∧ errors st.out = [] := by
  have hprog := program_script errText name hn hnp scs ht hp
  obtain ⟨h1, h2, _⟩ := C69_schedule_independent env errText s0 _ st how hs he
  rw [hprog] at h1 h2
  have hrep : errors st.out = [] := by
    rw [reports_evs, List.prefix_nil] at h2
    exact h2
  -- the editor opens the file
  let s1 : State := { s0 with filename := name, pt := Txt.newPieceTable (unlines ls) true (unlines ls).length, currentLine := (visible ls).length }
  have sh1 : Shows s1 ls := ⟨(opened_shows ls 0).reach, (opened_shows ls 0).text⟩
  have hopen : processCommand env s0 { typ := .edit, params := [name] } = .ok (s1, []) := by
    have sh : Shows { s1 with currentLine := s0.currentLine } ls := ⟨sh1.reach, sh1.text⟩
    have hg := getLines_shows sh hpl
    have hed : edit env s0 name = .ok (s1, none) := by
      simp only [s1] at hg ⊢
      simp only [edit, hfs, hg, visible_eq]
    have e : setDefaultAddresses { typ := .edit, params := [name] } = { typ := .edit, params := [name], start := aCur, end_ := aCur } := rfl
    simp only [processCommand, e, List.headD_cons, hed]
    rfl
  -- the script
  obtain ⟨s2, hrun, sh2, _, hfs2, hname⟩ := C150_session env scs (scs.map SCmd.parsed) (s := s1) (st := ⟨ls, (visible ls).length⟩) sh1 hpl rfl hlen
    (saysAll_parsed scs) hok
  have hn2 : s2.filename = name := hname
  -- saving
  have hend := session_plain scs (st := ⟨ls, (visible ls).length⟩) hpl hok
  have hsv : (saveTrace (env.outcome s2.writes) s2.fs s2.filename (unlines (sessionMakes ⟨ls, (visible ls).length⟩ scs).lines)).2 = none := by
    obtain ⟨a, b, c⟩ := hsave s2.writes
    have hex : s2.fs s2.filename = some (unlines ls) := by rw [hfs2, hn2]; exact hfs
    simp [saveTrace, statError, hex, a, b, c]
  obtain ⟨s3, hw, hfile, hname3, _, _, hother, _⟩ := C71_whole_partial env sh2 hend { typ := .write } rfl hsv
  obtain ⟨hl, hrun'⟩ := runOk_of_runAll (env := env) (by
      intro c hc
      obtain ⟨sc, _, rfl⟩ := List.mem_map.1 hc
      exact ⟨sc.parsed_not_quit, by cases sc <;> simp [SCmd.parsed]⟩) hrun
  have hpre : preamble s2 { typ := .write } = [.trace (traceLine { typ := .write }), .trace (saveLine s2)] := by
    simp [preamble, sh2.text]
  let ms : List Msg := [.trace (traceLine { typ := .edit, params := [name] }), .result [nl]] ++
      (((scs.map SCmd.parsed).zip (sessionSays ⟨ls, (visible ls).length⟩ scs)).flatMap fun p => [.trace (traceLine p.1), .result (p.2 ++ [nl])]) ++
      [.trace (traceLine { typ := .write }), .trace (saveLine s2), .result [nl]]
  have hr : RunOk env s0 ({ typ := .edit, params := [name] } :: (scs.map SCmd.parsed ++ [{ typ := .write }])) s3 ms := by
    have := hrun'.snoc (c := { typ := .write }) (by simp) hw
    refine ⟨by simp, s1, [], _, hopen, ?_, this⟩
    rw [hpre]
    simp [ms, preamble]
  have hresms : results ms = ([] :: (sessionSays ⟨ls, (visible ls).length⟩ scs ++ [[]])).map (· ++ [nl]) := by
    simp only [ms, results_append, results_zip _ _ hl]
    simp [results]
  have hseq := hr.sequential [{ typ := .quit }]
  have hsends : sends (({ typ := .edit, params := [name] } :: (scs.map SCmd.parsed ++ [{ typ := .write }, { typ := .quit }])).flatMap evs) =
      ({ typ := .edit, params := [name] } :: (scs.map SCmd.parsed ++ [{ typ := .write }])) ++ [{ typ := .quit }] := by
    rw [sends_evs]; simp
  rw [hsends, hseq] at h1
  have hlast : Ed.sequential env s3 [{ typ := .quit }] = (.quit, s3, []) := by simp [Ed.sequential]
  rw [hlast] at h1
  simp only [Prod.mk.injEq, List.append_nil] at h1
  obtain ⟨rfl, rfl, hres⟩ := h1
  refine ⟨rfl, ?_, ?_, by rw [← hres, hresms], hrep⟩
  · rw [hn2] at hfile
    exact hfile
  · intro n hn1 hn3
    rw [hother n (by rw [hn2]; exact hn1) (by rw [hn2]; exact hn3), hfs2]

/-- The file `"one", ""`: `$a` with a line, `1,$p`, `w`, `q`. The blank line is still there, behind the added line. -/
example (errText : Bytes → Bytes) : ∃ st, Steps demoEnv (initial errText { fresh with fs := fun n => if n = b!"f" then some b!"one\n\n" else none }
      (mainInput (some b!"f") (unlines [b!"$a", b!"two", b!".", b!"1,$p", b!"w", b!"q"]))) st ∧
    st.cons = .quit ∧ st.ed.fs b!"f" = some b!"one\ntwo\n\n" ∧ results st.out = [b!"\n", b!"\n", b!"one\ntwo\n", b!"\n"] := by
  obtain ⟨st, how, hs, he⟩ := C69_stops demoEnv _ (initial errText { fresh with fs := fun n => if n = b!"f" then some b!"one\n\n" else none }
    (mainInput (some b!"f") (unlines ([SCmd.append .last [b!"two"], .print (.num 1) .last].flatMap SCmd.typed ++ [b!"w", b!"q"])))) (Nat.le_refl _)
  obtain ⟨rfl, h2, _, h4, _⟩ := C150_script demoEnv errText { fresh with fs := fun n => if n = b!"f" then some b!"one\n\n" else none } b!"f"
    ⟨by decide, by decide, by decide, by rintro c cs ⟨⟩; decide⟩
    (plain_ascii _ (by decide) (by decide) (by decide)) [b!"one", b!""] rfl (plain_of _ (by decide)) (by decide)
    [.append .last [b!"two"], .print (.num 1) .last]
    ⟨⟨by decide, by decide, plain_of _ (by decide)⟩, by decide, ⟨by decide, by decide, by decide⟩, by decide, trivial⟩
    (by
      intro sc hsc
      simp only [List.mem_cons, List.not_mem_nil, or_false] at hsc
      rcases hsc with rfl | rfl
      · exact ⟨⟨by decide, by decide, by decide, by decide⟩, by decide⟩
      · trivial)
    (plain_of _ (by decide)) (fun _ => ⟨rfl, rfl, rfl⟩) st how hs he
  refine ⟨st, hs, ?_, h2, h4⟩
  cases hk : st.cons <;> rw [hk] at he <;> simp [Cons.ended] at he

end Ed
