import Verif.Ed.OpenEnd
import Verif.Ed.History
import Verif.Ed.Returns

/-! # C173: commands on any text at all, byte by byte

C09, C80, C131 and C150 say what `a i c d p n =` do to buffers of plain lines, to buffers whose last line is not terminated, to
DOS files and to buffers that end in a blank line. Here there is one reference for all texts. -/

namespace Ed
open Go

/-! ## Specification -/

/-- The lines a text is seen as: cut at the newlines, without the carriage return a line may end in, without one blank line at
the end. -/
def seen (t : Bytes) : List Bytes :=
  let ls := (rawLines t).map sansReturn
  if ls.getLast? = some [] then ls.dropLast else ls

/-- The byte the editor takes the line after the first `k` to begin at: the bytes of the first `k` lines as they are seen, and one
more for each. -/
def place (t : Bytes) (k : Nat) : Nat := (unlines ((seen t).take k)).length

/-- The text of the buffer, and the current line. -/
structure BState where
  text : Bytes
  cur : Nat
  deriving DecidableEq

/-- The line number an address stands for. -/
def SAddr.on (a : SAddr) (t : Bytes) (cur : Nat) : Nat := a.eval ⟨seen t, cur⟩

/-- A text with other bytes put in at a place. -/
def putAt (t : Bytes) (p : Nat) (x : Bytes) : Bytes := t.take p ++ x ++ t.drop p

/-- A text without the bytes from one place to another. -/
def cutAt (t : Bytes) (p q : Nat) : Bytes := t.take p ++ t.drop q

/-- The text after `c` has deleted and before it inserts, and after `d`. -/
def BState.rest (b : BState) (x y : SAddr) : Bytes :=
  cutAt b.text (place b.text (x.on b.text b.cur - 1)) (place b.text (y.on b.text b.cur))

/-- The text after `c`: the start address is looked up again in what is left. -/
def BState.renewed (b : BState) (x y : SAddr) (t : List Bytes) : Bytes :=
  putAt (b.rest x y) (place (b.rest x y) (x.on (b.rest x y) b.cur - 1)) (unlines t)

/-- What a command makes of a text and a current line. -/
def SCmd.turns (b : BState) : SCmd → BState
  | .append a t => ⟨putAt b.text (place b.text (a.on b.text b.cur)) (unlines t), a.on b.text b.cur + 1 + t.length⟩
  | .insert a t => ⟨putAt b.text (place b.text (a.on b.text b.cur - 1)) (unlines t), b.cur⟩
  | .delete x y => ⟨b.rest x y, x.on (b.rest x y) b.cur⟩
  | .change x y t => ⟨b.renewed x y t, x.on (b.renewed x y t) b.cur + t.length⟩
  | _ => b

/-- What it prints. -/
def SCmd.tells (b : BState) (c : SCmd) : Bytes := c.output ⟨seen b.text, b.cur⟩

/-- Lines typed for `a i c`: at least one, any bytes but newlines in them. -/
def Typed (t : List Bytes) : Prop := t ≠ [] ∧ (∀ l ∈ t, nl ∉ l) ∧ t.length < 2 ^ 62

/-- When a command works: the places lie inside the text, ranges are not backwards, nothing is over-long. -/
def SCmd.Works (b : BState) : SCmd → Prop
  | .append a t => a.on b.text b.cur < 2 ^ 62 ∧ place b.text (a.on b.text b.cur) ≤ b.text.length ∧ Typed t
  | .insert a t => a.on b.text b.cur < 2 ^ 62 ∧ place b.text (a.on b.text b.cur - 1) ≤ b.text.length ∧ Typed t
  | .delete x y => x.on b.text b.cur ≤ y.on b.text b.cur + 1 ∧ y.on b.text b.cur < 2 ^ 62 ∧
      place b.text (y.on b.text b.cur) ≤ b.text.length
  | .change x y t => x.on b.text b.cur ≤ y.on b.text b.cur + 1 ∧ y.on b.text b.cur < 2 ^ 62 ∧
      place b.text (y.on b.text b.cur) ≤ b.text.length ∧ ¬ Long (b.rest x y) ∧
      place (b.rest x y) (x.on (b.rest x y) b.cur - 1) ≤ (b.rest x y).length ∧ Typed t
  | .print x y => InRange ⟨seen b.text, b.cur⟩ x y
  | .number x y => InRange ⟨seen b.text, b.cur⟩ x y
  | .lineNo a => a.on b.text b.cur < 2 ^ 63

/-- Texts the editor can read: no line over-long, fewer than 2^61 bytes. -/
def Sane (t : Bytes) : Prop := ¬ Long t ∧ t.length < 2 ^ 61

/-- A session in which every command works. -/
def SessionWorks : BState → List SCmd → Prop
  | _, [] => True
  | b, c :: cs => c.Works b ∧ Sane (c.turns b).text ∧ SessionWorks (c.turns b) cs

/-- Text and current line at its end. -/
def sessionTurns : BState → List SCmd → BState
  | b, [] => b
  | b, c :: cs => sessionTurns (c.turns b) cs

/-- What it prints. -/
def sessionTells : BState → List SCmd → List Bytes
  | _, [] => []
  | b, c :: cs => c.tells b :: sessionTells (c.turns b) cs

/-- An editor holds a text and has a current line. -/
structure Holds (s : State) (b : BState) : Prop where
  reach : Txt.Reachable s.pt
  text : s.pt.string = .ok b.text
  cur : s.currentLine = b.cur

/-! ## Lemmas -/

theorem seen_eq (t : Bytes) : shownAs t = seen t := rfl

theorem raw_length (t : Bytes) : (rawLines t).length ≤ t.length := by
  induction t with
  | nil => simp [rawLines]
  | cons c t ih =>
    simp only [rawLines]
    split
    · simp; exact ih
    · split
      · simp
      · rename_i h; rw [h] at ih; simp at ih ⊢; omega

theorem seen_length (t : Bytes) : (seen t).length ≤ t.length := by
  have := raw_length t
  simp only [seen]
  split <;> simp <;> omega

theorem getLineAddr_any {s : State} {t : Bytes} (ht : s.pt.string = .ok t) (hl : ¬ Long t) (n : Int) (h1 : -2 ^ 63 < n)
    (h2 : n < 2 ^ 63) : getLineAddr s n = .ok (place t (n - 1).toNat) := by
  simp only [getLineAddr, getLines_any ht hl, seen_eq, place, width_eq]
  split
  · rw [List.take_of_length_le (by omega)]
  · rw [wrap64_id (by omega) (by omega), if_pos (by omega)]

theorem addrLine_text (env : Env) {s : State} {t : Bytes} {cur : Nat} (ht : s.pt.string = .ok t) (hl : ¬ Long t)
    (hcur : s.currentLine = cur) {a : Address} {sa : SAddr} (hda : Denotes a sa) (hb : sa.on t cur < 2 ^ 63) :
    addrLine env s a = .ok (sa.on t cur) := by
  cases sa with
  | num n =>
    obtain ⟨h1, h2, h3, h4, h5⟩ := hda
    simp only [SAddr.on, SAddr.eval] at hb ⊢
    simp only [addrLine, h1, h2, atoi_digits _ h3 h4, h5]
    rw [if_pos hb]
    simp only [Int.add_zero]
    rw [wrap64_id (by omega) (by omega)]
  | dot =>
    obtain ⟨h1, h2⟩ := hda
    simp only [SAddr.on, SAddr.eval] at hb ⊢
    simp only [addrLine, h1, h2, hcur, Int.add_zero]
    rw [wrap64_id (by omega) (by omega)]
  | last =>
    obtain ⟨h1, h2⟩ := hda
    simp only [SAddr.on, SAddr.eval] at hb ⊢
    simp only [addrLine, h1, h2, getLines_any ht hl, seen_eq, Int.add_zero]
    rw [wrap64_id (by omega) (by omega)]

theorem on_bound {a : SAddr} {t t' : Bytes} {cur m : Nat} (h : a.on t cur < m) (hl : t'.length < m) : a.on t' cur < m := by
  cases a with
  | num n => exact h
  | dot => exact h
  | last => exact Nat.lt_of_le_of_lt (seen_length t') hl

theorem join_typed {t : List Bytes} (h : t ≠ []) : join [nl] t ++ [nl] = unlines t := by
  cases t with
  | nil => exact absurd rfl h
  | cons l t => exact join_nl l t

theorem linesIn_typed {t : List Bytes} (h : Typed t) : linesIn (join [nl] t) = t.length := by
  have aux : ∀ (t : List Bytes), (∀ l ∈ t, nl ∉ l) → (unlines t).count nl = t.length := by
    intro t
    induction t with
    | nil => intro _; rfl
    | cons l t ih =>
      intro hl
      have h1 := ih (fun m hm => hl m (by simp [hm]))
      have h2 := List.count_eq_zero_of_not_mem (hl l (by simp))
      simp only [unlines, List.count_append, List.count_cons, List.count_nil, List.length_cons]
      simp
      omega
  have h1 := aux t h.2.1
  rw [← join_typed h.1] at h1
  simp only [linesIn]
  simp at h1 ⊢
  omega

theorem insert_any {s : State} {t : Bytes} (hr : Txt.Reachable s.pt) (ht : s.pt.string = .ok t) (hl : ¬ Long t) (n : Int)
    (h1 : -2 ^ 63 < n) (h2 : n < 2 ^ 63) {x : List Bytes} (hx : x ≠ []) (hp : place t (n - 1).toNat ≤ t.length) :
    ∃ pt', insertBeforeLine s n (join [nl] x) = .ok { s with pt := pt' } ∧ Txt.Reachable pt' ∧
      pt'.string = .ok (putAt t (place t (n - 1).toNat) (unlines x)) := by
  obtain ⟨pt', e, r, e2⟩ := Txt.C01_insert_splices hr ht (unlines x) _ hp
  refine ⟨pt', ?_, r, e2⟩
  simp only [insertBeforeLine, getLineAddr_any ht hl n h1 h2, join_typed hx, e]

theorem place_mono (t : Bytes) {j k : Nat} (h : j ≤ k) : place t j ≤ place t k := by
  have := congrArg List.length (unlines_split ((seen t).take k) j)
  rw [List.length_append, List.take_take, Nat.min_eq_left h] at this
  simp only [place]; omega

theorem delete_any {s : State} {t : Bytes} (hr : Txt.Reachable s.pt) (ht : s.pt.string = .ok t) (hl : ¬ Long t) (a b : Nat)
    (h1 : a ≤ b + 1) (h2 : b + 1 < 2 ^ 63) (hp : place t b ≤ t.length) :
    ∃ pt', delete s a b = .ok { s with pt := pt' } ∧ Txt.Reachable pt' ∧
      pt'.string = .ok (cutAt t (place t (a - 1)) (place t b)) := by
  have hm : place t (a - 1) ≤ place t b := place_mono t (by omega)
  have e : place t (a - 1) + (place t b - place t (a - 1)) = place t b := by omega
  refine ⟨s.pt.delete ((place t b - place t (a - 1) : Nat)) (place t (a - 1)), ?_, reachable_delete hr ht _ _ (by omega), ?_⟩
  · simp only [delete, getLineAddr_any ht hl (a : Int) (by omega) (by omega), wrap64_id (i := (b : Int) + 1) (by omega) (by omega),
      getLineAddr_any ht hl ((b : Int) + 1) (by omega) (by omega)]
    rw [show ((a : Int) - 1).toNat = a - 1 by omega, show ((b : Int) + 1 - 1).toNat = b by omega]
    congr 3
    omega
  · rw [Txt.C02_delete_cuts hr ht _ _ (by omega), e]; rfl

/-! ## C173 -/

/-- **C173** One command on any text: whatever bytes it consists of, wherever carriage returns stand and however it ends. -/
theorem C173_command (env : Env) {s : State} {b : BState} (h : Holds s b) (hb : Sane b.text) {c : Command} {sc : SCmd} (hs : Says c sc)
    (hok : sc.Works b) (hb' : Sane (sc.turns b).text) :
    ∃ s', processCommand env s c = .ok (s', sc.tells b) ∧ Holds s' (sc.turns b) ∧
      s'.fs = s.fs ∧ s'.filename = s.filename ∧ s'.writes = s.writes := by
  obtain ⟨hr, ht, hcur⟩ := h
  obtain ⟨hl, hlen⟩ := hb
  have hsl := seen_length b.text
  cases sc with
  | append a t =>
    obtain ⟨h1, h2, h3⟩ := hs
    obtain ⟨o1, o2, o3⟩ := hok
    have ha := addrLine_text env ht hl hcur h2 (by omega)
    have e0 : ((a.on b.text b.cur : Int) + 1 - 1).toNat = a.on b.text b.cur := by omega
    obtain ⟨pt', e, r, e2⟩ := insert_any hr ht hl ((a.on b.text b.cur : Int) + 1) (by omega) (by omega) o3.1 (by rw [e0]; exact o2)
    rw [e0] at e2
    refine ⟨{ s with pt := pt', currentLine := (SCmd.turns b (.append a t)).cur }, ?_, ⟨r, e2, rfl⟩, rfl, rfl, rfl⟩
    have o33 := o3.2.2
    simp only [processCommand, typ_setDefault, text_setDefault, h1, ha, h3, bind, Except.bind]
    rw [wrap64_id (i := (a.on b.text b.cur : Int) + 1) (by omega) (by omega), e]
    simp only [lift, linesIn_typed o3, SCmd.turns, pure, Except.pure]
    rw [wrap64_id (by omega) (by omega)]
    simp [SCmd.tells, SCmd.output]
  | insert a t =>
    obtain ⟨h1, h2, h3⟩ := hs
    obtain ⟨o1, o2, o3⟩ := hok
    have ha := addrLine_text env ht hl hcur h2 (by omega)
    have e0 : ((a.on b.text b.cur : Int) - 1).toNat = a.on b.text b.cur - 1 := by omega
    obtain ⟨pt', e, r, e2⟩ := insert_any hr ht hl (a.on b.text b.cur : Int) (by omega) (by omega) o3.1 (by rw [e0]; exact o2)
    rw [e0] at e2
    refine ⟨{ s with pt := pt' }, ?_, ⟨r, e2, hcur⟩, rfl, rfl, rfl⟩
    simp only [processCommand, typ_setDefault, text_setDefault, h1, ha, h3, bind, Except.bind, e, lift]
    rfl
  | delete x y =>
    obtain ⟨h1, h2, h3⟩ := hs
    obtain ⟨o1, o2, o3⟩ := hok
    have ha := addrLine_text env ht hl hcur h2 (by omega)
    have hy := addrLine_text env ht hl hcur h3 (by omega)
    obtain ⟨pt', e, r, e2⟩ := delete_any hr ht hl _ _ o1 (by omega) o3
    have ha2 : addrLine env { s with pt := pt' } (setDefaultAddresses c).start = .ok ((SCmd.turns b (.delete x y)).cur : Int) :=
      addrLine_text env (s := { s with pt := pt' }) e2 hb'.1 hcur h2
        (on_bound (t := b.text) (by omega) (Nat.lt_trans hb'.2 (by decide)))
    refine ⟨{ s with pt := pt', currentLine := (SCmd.turns b (.delete x y)).cur }, ?_, ⟨r, e2, rfl⟩, rfl, rfl, rfl⟩
    simp only [processCommand, typ_setDefault, h1, ha, hy, bind, Except.bind, e, lift, ha2]
    rfl
  | change x y t =>
    obtain ⟨h1, h2, h3, h4⟩ := hs
    obtain ⟨o1, o2, o3, o4, o5, o6⟩ := hok
    have ha := addrLine_text env ht hl hcur h2 (by omega)
    have hy := addrLine_text env ht hl hcur h3 (by omega)
    obtain ⟨pt', e, r, e2⟩ := delete_any hr ht hl _ _ o1 (by omega) o3
    change pt'.string = .ok (b.rest x y) at e2
    have hrl : (b.rest x y).length < 2 ^ 62 + 1 := by
      have : (b.rest x y).length ≤ b.text.length + b.text.length := by
        simp only [BState.rest, cutAt, List.length_append, List.length_take, List.length_drop]; omega
      omega
    have bx : x.on (b.rest x y) b.cur < 2 ^ 62 + 1 := on_bound (t := b.text) (by omega) hrl
    have ha1 : addrLine env { s with pt := pt' } (setDefaultAddresses c).start = .ok (x.on (b.rest x y) b.cur : Int) :=
      addrLine_text env (s := { s with pt := pt' }) e2 o4 hcur h2 (by omega)
    have e0 : ((x.on (b.rest x y) b.cur : Int) - 1).toNat = x.on (b.rest x y) b.cur - 1 := by omega
    obtain ⟨pt2, e3, r2, e4⟩ := insert_any (s := { s with pt := pt' }) r e2 o4 (x.on (b.rest x y) b.cur : Int) (by omega) (by omega) o6.1
      (by rw [e0]; exact o5)
    rw [e0] at e4
    change pt2.string = .ok (b.renewed x y t) at e4
    obtain ⟨hl2, hn2⟩ := hb'
    change ¬ Long (b.renewed x y t) at hl2
    change (b.renewed x y t).length < 2 ^ 61 at hn2
    have bx2 : x.on (b.renewed x y t) b.cur < 2 ^ 62 + 1 := on_bound (t := b.text) (by omega) (by omega)
    have ha2 : addrLine env { s with pt := pt2 } (setDefaultAddresses c).start = .ok (x.on (b.renewed x y t) b.cur : Int) :=
      addrLine_text env (s := { s with pt := pt2 }) e4 hl2 hcur h2 (by omega)
    have o63 := o6.2.2
    refine ⟨{ s with pt := pt2, currentLine := (x.on (b.renewed x y t) b.cur + t.length : Nat) }, ?_, ⟨r2, e4, rfl⟩, rfl, rfl, rfl⟩
    simp only [processCommand, typ_setDefault, text_setDefault, h1, ha, hy, h4, bind, Except.bind, e, lift, ha1, e3, ha2]
    simp only [linesIn_typed o6, SCmd.tells, SCmd.output, pure, Except.pure]
    rw [wrap64_id (by omega) (by omega)]
    simp
  | print x y =>
    obtain ⟨h1, h2, h3⟩ := hs
    obtain ⟨o1, o2, o3⟩ := hok
    change 1 ≤ x.on b.text b.cur at o1
    change x.on b.text b.cur ≤ y.on b.text b.cur at o2
    change y.on b.text b.cur ≤ (seen b.text).length at o3
    have ha := addrLine_text env ht hl hcur h2 (by omega)
    have hy := addrLine_text env ht hl hcur h3 (by omega)
    refine ⟨s, ?_, ⟨hr, ht, hcur⟩, rfl, rfl, rfl⟩
    have hg := getLines_any ht hl
    have hpr : print env s (x.on b.text b.cur) (y.on b.text b.cur) =
        .ok (join [nl] (linesFrom (seen b.text) (x.on b.text b.cur) (y.on b.text b.cur))) := by
      simp only [getLines] at hg
      cases hsc : scanned s with
      | error p => rw [hsc] at hg; cases hg
      | ok ls =>
        rw [hsc] at hg
        simp only [Except.ok.injEq] at hg
        simp only [print, hsc, hg, seen_eq]
        rw [wrap64_id (by omega) (by omega)]
        have : ((x.on b.text b.cur : Int) - 1) = ((x.on b.text b.cur - 1 : Nat) : Int) := by omega
        rw [this, slice_ok _ _ _ (by omega) (by simp; omega)]
        simp only [linesFrom]
        rw [List.take_append_of_le_length o3]
    simp only [processCommand, typ_setDefault, h1, ha, hy, bind, Except.bind, hpr, lift]
    rfl
  | number x y =>
    obtain ⟨h1, h2, h3⟩ := hs
    obtain ⟨o1, o2, o3⟩ := hok
    change 1 ≤ x.on b.text b.cur at o1
    change x.on b.text b.cur ≤ y.on b.text b.cur at o2
    change y.on b.text b.cur ≤ (seen b.text).length at o3
    have ha := addrLine_text env ht hl hcur h2 (by omega)
    have hy := addrLine_text env ht hl hcur h3 (by omega)
    refine ⟨s, ?_, ⟨hr, ht, hcur⟩, rfl, rfl, rfl⟩
    have hnr : number s (x.on b.text b.cur) (y.on b.text b.cur) =
        .ok (numbered (x.on b.text b.cur) (linesFrom (seen b.text) (x.on b.text b.cur) (y.on b.text b.cur))) := by
      simp only [number, getLines_any ht hl, seen_eq]
      rw [if_neg (by omega), if_neg (by omega), numberLoop_ok _ _ _ (by simp; omega)]
      simp only [linesFrom]
      have : ((x.on b.text b.cur : Int) - 1).toNat = x.on b.text b.cur - 1 := by omega
      rw [this, List.drop_take]
      congr 3
      omega
    simp only [processCommand, typ_setDefault, h1, ha, hy, bind, Except.bind, hnr, lift]
    rfl
  | lineNo a =>
    obtain ⟨h1, h2⟩ := hs
    have ha := addrLine_text env ht hl hcur h2 hok
    refine ⟨s, ?_, ⟨hr, ht, hcur⟩, rfl, rfl, rfl⟩
    simp only [processCommand, typ_setDefault, h1, ha, bind, Except.bind]
    rfl

/-- **C173** Any session on any text: no panic, and prints, bytes and current line are what the reference says. -/
theorem C173_session (env : Env) : ∀ (scs : List SCmd) (cs : List Command) {s : State} {b : BState},
    Holds s b → Sane b.text → SaysAll cs scs → SessionWorks b scs →
    ∃ s', runAll env s cs = .ok (s', sessionTells b scs) ∧ Holds s' (sessionTurns b scs) ∧ s'.fs = s.fs ∧ s'.filename = s.filename := by
  intro scs
  induction scs with
  | nil =>
    intro cs s b h hb hf hok
    cases cs with
    | nil => exact ⟨s, rfl, h, rfl, rfl⟩
    | cons c cs => exact hf.elim
  | cons sc scs ih =>
    intro cs s b h hb hf hok
    cases cs with
    | nil => exact hf.elim
    | cons c cs =>
      obtain ⟨h1, h2⟩ := hf
      obtain ⟨o1, o2, o3⟩ := hok
      obtain ⟨s1, e1, sh1, f1, n1, _⟩ := C173_command env h hb h1 o1 o2
      obtain ⟨s2, e2, sh2, f2, n2⟩ := ih _ (b := sc.turns b) sh1 o2 h2 o3
      refine ⟨s2, ?_, sh2, f2.trans f1, n2.trans n1⟩
      simp only [runAll, e1, e2, sessionTells]

/-- **C173** Where the editor puts text that does not fit: `a` and `i` whose place lies behind the end of the text crash. -/
theorem C173_crash (env : Env) {s : State} {b : BState} (h : Holds s b) (hb : Sane b.text) {c : Command} (a : SAddr) (t : List Bytes)
    (hn : a.on b.text b.cur < 2 ^ 62) (ht : t ≠ []) :
    (Says c (.append a t) → b.text.length < place b.text (a.on b.text b.cur) → ∃ p, processCommand env s c = .error p) ∧
    (Says c (.insert a t) → b.text.length < place b.text (a.on b.text b.cur - 1) → ∃ p, processCommand env s c = .error p) := by
  obtain ⟨hr, htx, hcur⟩ := h
  have key : ∀ n : Int, -2 ^ 63 < n → n < 2 ^ 63 → b.text.length < place b.text (n - 1).toNat →
      ∃ p, insertBeforeLine s n (join [nl] t) = .error p := by
    intro n h1 h2 h3
    obtain ⟨p, hp⟩ := (Txt.C04_insert_panics_iff hr htx (unlines t) _).2 h3
    exact ⟨p, by simp only [insertBeforeLine, getLineAddr_any htx hb.1 n h1 h2, join_typed ht, hp]⟩
  constructor
  · rintro ⟨h1, h2, h3⟩ hp
    have ha := addrLine_text env htx hb.1 hcur h2 (by omega)
    obtain ⟨p, e⟩ := key ((a.on b.text b.cur : Int) + 1) (by omega) (by omega)
      (by rw [show ((a.on b.text b.cur : Int) + 1 - 1).toNat = a.on b.text b.cur by omega]; exact hp)
    simp only [processCommand, typ_setDefault, text_setDefault, h1, ha, h3, bind, Except.bind]
    rw [wrap64_id (i := (a.on b.text b.cur : Int) + 1) (by omega) (by omega), e]
    exact ⟨_, rfl⟩
  · rintro ⟨h1, h2, h3⟩ hp
    have ha := addrLine_text env htx hb.1 hcur h2 (by omega)
    obtain ⟨p, e⟩ := key (a.on b.text b.cur : Int) (by omega) (by omega)
      (by rw [show ((a.on b.text b.cur : Int) - 1).toNat = a.on b.text b.cur - 1 by omega]; exact hp)
    simp only [processCommand, typ_setDefault, text_setDefault, h1, ha, h3, bind, Except.bind, e]
    exact ⟨_, rfl⟩

/-! ## When the places lie inside the text -/

theorem seen_sub (t : Bytes) : ∃ r, (rawLines t).map sansReturn = seen t ++ r := by
  simp only [seen]
  split
  · exact ⟨((rawLines t).map sansReturn).drop (((rawLines t).map sansReturn).length - 1), by
      rw [List.dropLast_eq_take, List.take_append_drop]⟩
  · exact ⟨[], by simp⟩

theorem place_le_all (t : Bytes) (k : Nat) : place t k ≤ (unlines (seen t)).length := by
  have := congrArg List.length (unlines_split (seen t) k)
  rw [List.length_append] at this
  simp only [place]; omega

theorem seen_width (t : Bytes) : (unlines (seen t)).length + returns (rawLines t) ≤ (unlines (rawLines t)).length := by
  obtain ⟨r, e⟩ := seen_sub t
  have h := width_returns (rawLines t)
  rw [e, width_eq, unlines_append, List.length_append] at h
  omega

theorem map_noReturn {ls : List Bytes} (h : ∀ l ∈ ls, isDos l = false) : ls.map sansReturn = ls := by
  induction ls with
  | nil => rfl
  | cons l ls ih =>
    rw [List.map_cons, ih (fun m hm => h m (by simp [hm]))]
    simp [sansReturn, h l (by simp)]

theorem last_open {t : Bytes} (h : ¬ Terminated t) : (rawLines t).getLast? ≠ some [] := by
  intro hl
  simp only [Terminated, not_or] at h
  obtain ⟨h1, -⟩ := (unlines_rawLines t).2 h.1 h.2
  obtain ⟨i, hi⟩ := List.getLast?_eq_some_iff.1 hl
  rw [hi, unlines_append] at h1
  simp only [unlines, List.nil_append] at h1
  have := List.append_cancel_right h1
  rcases terminated_unlines i with h2 | h2
  · exact h.1 (by rw [← this]; exact h2)
  · exact h.2 (by rw [← this]; exact h2)

/-- **C173** A place lies behind the end of the text only if the text does not end in a newline, no line of it ends in a carriage return,
and the place is the one behind the last line; then it is one byte behind. -/
theorem C173_fits (t : Bytes) (k : Nat) :
    place t k ≤ t.length + 1 ∧
    (t.length < place t k ↔ ¬ Terminated t ∧ (∀ l ∈ rawLines t, isDos l = false) ∧ (rawLines t).length ≤ k) := by
  have h1 := place_le_all t k
  have h2 := seen_width t
  by_cases hT : Terminated t
  · rw [(unlines_rawLines t).1 hT] at h2
    exact ⟨by omega, ⟨fun h => by omega, fun h => absurd hT h.1⟩⟩
  · have hT' := hT
    simp only [Terminated, not_or] at hT'
    obtain ⟨e, -⟩ := (unlines_rawLines t).2 hT'.1 hT'.2
    have e' := congrArg List.length e
    rw [List.length_append] at e'
    simp at e'
    refine ⟨by omega, ?_⟩
    by_cases hD : ∀ l ∈ rawLines t, isDos l = false
    · have es : seen t = rawLines t := by
        simp only [seen, map_noReturn hD, if_neg (last_open hT)]
      constructor
      · intro h
        refine ⟨hT, hD, ?_⟩
        by_cases hk : (rawLines t).length ≤ k
        · exact hk
        · exfalso
          have hs := congrArg List.length (unlines_split (rawLines t) k)
          rw [List.length_append] at hs
          rw [place, es] at h
          have : (rawLines t).drop k ≠ [] := by simp; omega
          cases hd : (rawLines t).drop k with
          | nil => exact this hd
          | cons l ls => rw [hd] at hs; simp [unlines] at hs; omega
      · rintro ⟨-, -, h⟩
        rw [place, es, List.take_of_length_le h]; omega
    · constructor
      · intro h
        exfalso
        apply hD
        have : returns (rawLines t) = 0 := by omega
        simpa [returns] using this
      · exact fun h => absurd h.2.1 hD

/-! ## Texts that end in a newline -/

theorem dropCR_map (ls : List Bytes) : ls.map sansReturn = ls.map dropCR := by
  refine List.map_congr_left fun l _ => ?_
  rw [sansReturn_eq]

theorem seen_raw (t : Bytes) : ∃ raw' rest, rawLines t = raw' ++ rest ∧ seen t = raw'.map dropCR := by
  simp only [seen, dropCR_map]
  split
  · exact ⟨(rawLines t).dropLast, (rawLines t).drop ((rawLines t).length - 1), by
      rw [List.dropLast_eq_take, List.take_append_drop], List.map_dropLast.symm⟩
  · exact ⟨rawLines t, [], by simp, rfl⟩

theorem place_term {t : Bytes} (h : Terminated t) (k : Nat) : place t k ≤ t.length := by
  have := (C173_fits t k).2
  by_cases hp : place t k ≤ t.length
  · exact hp
  · exact absurd h (this.1 (by omega)).1

theorem put_term {t : Bytes} (h : Terminated t) (p : Nat) {x : List Bytes} (hx : x ≠ []) : Terminated (putAt t p (unlines x)) := by
  rw [putAt, ← join_typed hx]
  exact terminated_insert h p

theorem cut_term {t : Bytes} (h : Terminated t) {j k : Nat} (hjk : j ≤ k) : Terminated (cutAt t (place t j) (place t k)) := by
  obtain ⟨raw', rest, e1, e2⟩ := seen_raw t
  have key := (terminated_delete h raw' rest e1 (min j raw'.length) (min k raw'.length) (by omega) (by omega)).2.2
  have hm : ∀ i, width ((raw'.map dropCR).take (min i raw'.length)) = place t i := by
    intro i
    rw [place, width_eq, e2]
    congr 2
    by_cases hi : i ≤ raw'.length
    · rw [Nat.min_eq_left hi]
    · rw [Nat.min_eq_right (by omega), List.take_of_length_le (by simp), List.take_of_length_le (by simp; omega)]
  rw [hm, hm] at key
  exact key

/-- Commands whose ranges are not backwards, with lines to put in, and `p` and `n` inside the buffer. -/
def SCmd.Sound (b : BState) : SCmd → Prop
  | .append a t => a.on b.text b.cur < 2 ^ 62 ∧ Typed t
  | .insert a t => a.on b.text b.cur < 2 ^ 62 ∧ Typed t
  | .delete x y => x.on b.text b.cur ≤ y.on b.text b.cur + 1 ∧ y.on b.text b.cur < 2 ^ 62
  | .change x y t => x.on b.text b.cur ≤ y.on b.text b.cur + 1 ∧ y.on b.text b.cur < 2 ^ 62 ∧ ¬ Long (b.rest x y) ∧ Typed t
  | .print x y => InRange ⟨seen b.text, b.cur⟩ x y
  | .number x y => InRange ⟨seen b.text, b.cur⟩ x y
  | .lineNo a => a.on b.text b.cur < 2 ^ 63

/-- A session of such commands, in which no text gets too long. -/
def SessionSound : BState → List SCmd → Prop
  | _, [] => True
  | b, c :: cs => c.Sound b ∧ Sane (c.turns b).text ∧ SessionSound (c.turns b) cs

theorem sound_works {b : BState} (h : Terminated b.text) {c : SCmd} (hc : c.Sound b) : c.Works b ∧ Terminated (c.turns b).text := by
  cases c with
  | append a t => exact ⟨⟨hc.1, place_term h _, hc.2⟩, put_term h _ hc.2.1⟩
  | insert a t => exact ⟨⟨hc.1, place_term h _, hc.2⟩, put_term h _ hc.2.1⟩
  | delete x y =>
    obtain ⟨h1, h2⟩ := hc
    exact ⟨⟨h1, h2, place_term h _⟩, cut_term h (by omega)⟩
  | change x y t =>
    obtain ⟨h1, h2, h3, h4⟩ := hc
    have hr : Terminated (b.rest x y) := cut_term h (by omega)
    exact ⟨⟨h1, h2, place_term h _, h3, place_term hr _, h4⟩, put_term hr _ h4.1⟩
  | print x y => exact ⟨hc, h⟩
  | number x y => exact ⟨hc, h⟩
  | lineNo a => exact ⟨hc, h⟩

theorem session_sound : ∀ (scs : List SCmd) {b : BState}, Terminated b.text → SessionSound b scs →
    SessionWorks b scs ∧ Terminated (sessionTurns b scs).text := by
  intro scs
  induction scs with
  | nil => exact fun h _ => ⟨trivial, h⟩
  | cons c cs ih =>
    intro b h ⟨h1, h2, h3⟩
    obtain ⟨w, t⟩ := sound_works h h1
    obtain ⟨w2, t2⟩ := ih t h3
    exact ⟨⟨w, h2, w2⟩, t2⟩

/-- **C173** A text that ends in a newline, with carriage returns wherever they may be: no command of a session crashes, however far behind
the end its addresses lie, the text always ends in a newline again, and it is the one the reference says. -/
theorem C173_terminated (env : Env) (scs : List SCmd) (cs : List Command) {s : State} {b : BState} (h : Holds s b) (hb : Sane b.text)
    (ht : Terminated b.text) (hc : SaysAll cs scs) (hok : SessionSound b scs) :
    ∃ s', runAll env s cs = .ok (s', sessionTells b scs) ∧ Holds s' (sessionTurns b scs) ∧ Terminated (sessionTurns b scs).text ∧
      s'.fs = s.fs ∧ s'.filename = s.filename := by
  obtain ⟨w, t⟩ := session_sound scs ht hok
  obtain ⟨s', e1, e2, e3, e4⟩ := C173_session env scs cs h hb hc w
  exact ⟨s', e1, e2, t, e3, e4⟩

/-! ## An editor on a file from DOS without an end -/

/-- A text with DOS lines, a Unix line and a last line without an end. -/
def oddText : Bytes := b!"ab\r\ncd\nef"

theorem oddText_holds : Holds (openedOn oddText 3) ⟨oddText, 3⟩ := by
  have r : Txt.Reachable (openedOn oddText 3).pt := .new oddText true oddText.length (Nat.le_refl _)
  refine ⟨r, ?_, rfl⟩
  rw [Txt.string_wf r.good.toWF]
  decide +kernel

theorem short_sane {t : Bytes} (h : t.length < 65536) : Sane t := by
  refine ⟨?_, by omega⟩
  rintro ⟨pre, l, rest, e, -, hl⟩
  have := congrArg List.length e
  simp at this; omega

/-- `$a x .`, `2d`, `1p`: the text is put behind the last line without a newline between. -/
example : ∃ s', runAll demoEnv (openedOn oddText 3)
      [{ typ := .append, start := aLast, end_ := aLast, text := b!"x" }, { typ := .delete, start := numAddr 2, end_ := numAddr 2 },
       { typ := .print, start := numAddr 1, end_ := numAddr 1 }] = .ok (s', [[], [], b!"ab"]) ∧
    s'.pt.string = .ok b!"ab\r\nefx\n" ∧ s'.currentLine = 2 := by
  obtain ⟨s', h1, h2, -⟩ := C173_session demoEnv [.append .last [b!"x"], .delete (.num 2) (.num 2), .print (.num 1) (.num 1)]
    [{ typ := .append, start := aLast, end_ := aLast, text := b!"x" }, { typ := .delete, start := numAddr 2, end_ := numAddr 2 },
       { typ := .print, start := numAddr 1, end_ := numAddr 1 }] oddText_holds (short_sane (by decide))
    ⟨⟨rfl, ⟨rfl, rfl⟩, rfl⟩, ⟨rfl, numAddr_denotes 2, numAddr_denotes 2⟩, ⟨rfl, numAddr_denotes 1, numAddr_denotes 1⟩, trivial⟩
    ⟨⟨by decide +kernel, by decide +kernel, by decide, by decide, by decide⟩, short_sane (by decide +kernel),
      ⟨by decide +kernel, by decide +kernel, by decide +kernel⟩, short_sane (by decide +kernel),
      ⟨by decide +kernel, by decide +kernel, by decide +kernel⟩, short_sane (by decide +kernel), trivial⟩
  refine ⟨s', ?_, ?_, ?_⟩
  · rw [h1]; congr 2
  · rw [h2.text]; congr 1
  · rw [h2.cur]; decide +kernel

/-! ## The whole program -/

theorem sessionTurns_sane : ∀ (scs : List SCmd) {b : BState}, Sane b.text → SessionWorks b scs → Sane (sessionTurns b scs).text := by
  intro scs
  induction scs with
  | nil => exact fun h _ => h
  | cons c cs ih => exact fun _ h => ih h.2.1 h.2.2

/-- **C173** `ed name` on any file, given any script of such commands followed by `w` and `q`, whatever the schedule of its goroutines: the file
ends up with exactly the bytes of the reference, the results are printed in order, no other file but the temporary one changes, and there is no
error message. -/
theorem C173_script (env : Env) (errText : Bytes → Bytes) (s0 : State) (name : Bytes) (hn : NameOK name) (hnp : PlainLine (b!"e " ++ name))
    (t : Bytes) (hfs : s0.fs name = some t) (hsane : Sane t)
    (scs : List SCmd) (hok : SessionWorks ⟨t, (seen t).length⟩ scs) (ht : ∀ sc ∈ scs, sc.Typeable)
    (hp : ∀ l ∈ scs.flatMap SCmd.typed, PlainLine l)
    (hsave : ∀ k, (env.outcome k).stat = none ∧ (env.outcome k).writeFile = none ∧ (env.outcome k).rename = none)
    (st : Sys) (how : End)
    (hs : Steps env (initial errText s0 (mainInput (some name) (unlines (scs.flatMap SCmd.typed ++ [b!"w", b!"q"])))) st)
    (he : st.cons.ended = some how) :
    how = .quit ∧ st.ed.fs name = some (sessionTurns ⟨t, (seen t).length⟩ scs).text ∧
    (∀ n, n ≠ name → n ≠ tmpName name → st.ed.fs n = s0.fs n) ∧
    results st.out = ([] :: (sessionTells ⟨t, (seen t).length⟩ scs ++ [[]])).map (· ++ [nl]) ∧ errors st.out = [] := by
  have hprog := program_script errText name hn hnp scs ht hp
  obtain ⟨h1, h2, _⟩ := C69_schedule_independent env errText s0 _ st how hs he
  rw [hprog] at h1 h2
  have hrep : errors st.out = [] := by
    rw [reports_evs, List.prefix_nil] at h2
    exact h2
  -- the editor opens the file
  let s1 : State := { s0 with filename := name, pt := Txt.newPieceTable t true t.length, currentLine := (seen t).length }
  have r1 : Txt.Reachable s1.pt := .new t true t.length (Nat.le_refl _)
  have t1 : s1.pt.string = .ok t := by
    rw [Txt.string_wf r1.good.toWF]
    simp [s1, Txt.newPieceTable, Txt.content, Txt.Piece.text, Txt.src]
  have hopen : processCommand env s0 { typ := .edit, params := [name] } = .ok (s1, []) := by
    have hg := getLines_any (s := { s1 with currentLine := s0.currentLine }) t1 hsane.1
    have hed : edit env s0 name = .ok (s1, none) := by
      simp only [s1] at hg ⊢
      simp only [edit, hfs, hg, seen_eq]
    have e : setDefaultAddresses { typ := .edit, params := [name] } = { typ := .edit, params := [name], start := aCur, end_ := aCur } := rfl
    simp only [processCommand, e, List.headD_cons, hed]
    rfl
  -- the script
  obtain ⟨s2, hrun, sh2, hfs2, hname⟩ := C173_session env scs (scs.map SCmd.parsed) (s := s1) (b := ⟨t, (seen t).length⟩) ⟨r1, t1, rfl⟩ hsane
    (saysAll_parsed scs) hok
  have hn2 : s2.filename = name := hname
  -- saving
  have hend := sessionTurns_sane scs (b := ⟨t, (seen t).length⟩) hsane hok
  have hsv : (saveTrace (env.outcome s2.writes) s2.fs s2.filename (sessionTurns ⟨t, (seen t).length⟩ scs).text).2 = none := by
    obtain ⟨a, b, c⟩ := hsave s2.writes
    have hex : s2.fs s2.filename = some t := by rw [hfs2, hn2]; exact hfs
    simp [saveTrace, statError, hex, a, b, c]
  obtain ⟨s3, hw, hfile, hname3, _, _, _, _, hother, _⟩ := C132_write env sh2.text hend.1 { typ := .write } rfl hsv
  obtain ⟨hl, hrun'⟩ := runOk_of_runAll (env := env) (by
      intro c hc
      obtain ⟨sc, _, rfl⟩ := List.mem_map.1 hc
      exact ⟨sc.parsed_not_quit, by cases sc <;> simp [SCmd.parsed]⟩) hrun
  have hpre : preamble s2 { typ := .write } = [.trace (traceLine { typ := .write }), .trace (saveLine s2)] := by
    simp [preamble, sh2.text]
  let ms : List Msg := [.trace (traceLine { typ := .edit, params := [name] }), .result [nl]] ++
      (((scs.map SCmd.parsed).zip (sessionTells ⟨t, (seen t).length⟩ scs)).flatMap fun p => [.trace (traceLine p.1), .result (p.2 ++ [nl])]) ++
      [.trace (traceLine { typ := .write }), .trace (saveLine s2), .result [nl]]
  have hr : RunOk env s0 ({ typ := .edit, params := [name] } :: (scs.map SCmd.parsed ++ [{ typ := .write }])) s3 ms := by
    have := hrun'.snoc (c := { typ := .write }) (by simp) hw
    refine ⟨by simp, s1, [], _, hopen, ?_, this⟩
    rw [hpre]
    simp [ms, preamble]
  have hresms : results ms = ([] :: (sessionTells ⟨t, (seen t).length⟩ scs ++ [[]])).map (· ++ [nl]) := by
    simp only [ms, results_append, results_zip _ _ hl]
    simp [results]
  have hseq := hr.sequential [{ typ := .quit }]
  have hsends : sends (({ typ := .edit, params := [name] } :: (scs.map SCmd.parsed ++ [{ typ := .write }, { typ := .quit }])).flatMap evs) =
      ({ typ := .edit, params := [name] } :: (scs.map SCmd.parsed ++ [{ typ := .write }])) ++ [{ typ := .quit }] := by
    rw [sends_evs]; simp
  rw [hsends, hseq] at h1
  have hlast : Ed.sequential env s3 [{ typ := .quit }] = (.quit, s3, []) := by simp [Ed.sequential]
  rw [hlast] at h1
  simp only [Prod.mk.injEq, List.append_nil] at h1
  obtain ⟨rfl, rfl, hres⟩ := h1
  refine ⟨rfl, ?_, ?_, by rw [← hres, hresms], hrep⟩
  · rw [hn2] at hfile
    exact hfile
  · intro n hn1 hn3
    rw [hother n (by rw [hn2]; exact hn1) (by rw [hn2]; exact hn3), hfs2]

/-- The DOS file `"one"`, `"two"`: `2c` with a line, `1,$p`, `w`, `q`. The new line ends up behind the carriage returns of
both old ones, on the same line as the first. -/
example (errText : Bytes → Bytes) : ∃ st, Steps demoEnv (initial errText { fresh with fs := fun n => if n = b!"f" then some b!"one\r\ntwo\r\n" else none }
      (mainInput (some b!"f") (unlines [b!"2c", b!"x", b!".", b!"1,$p", b!"w", b!"q"]))) st ∧
    st.cons = .quit ∧ st.ed.fs b!"f" = some b!"one\r\rx\n\n" ∧ results st.out = [b!"\n", b!"\n", b!"one\r\rx\n", b!"\n"] := by
  obtain ⟨st, how, hs, he⟩ := C69_stops demoEnv _ (initial errText { fresh with fs := fun n => if n = b!"f" then some b!"one\r\ntwo\r\n" else none }
    (mainInput (some b!"f") (unlines ([SCmd.change (.num 2) (.num 2) [b!"x"], .print (.num 1) .last].flatMap SCmd.typed ++ [b!"w", b!"q"])))) (Nat.le_refl _)
  obtain ⟨rfl, h2, _, h4, _⟩ := C173_script demoEnv errText { fresh with fs := fun n => if n = b!"f" then some b!"one\r\ntwo\r\n" else none } b!"f"
    ⟨by decide, by decide, by decide, by rintro c cs ⟨⟩; decide⟩
    (plain_ascii _ (by decide) (by decide) (by decide)) b!"one\r\ntwo\r\n" rfl (short_sane (by decide))
    [.change (.num 2) (.num 2) [b!"x"], .print (.num 1) .last]
    ⟨⟨by decide +kernel, by decide +kernel, by decide +kernel, (short_sane (by decide +kernel)).1, by decide +kernel, by decide, by decide, by decide⟩,
      short_sane (by decide +kernel), ⟨by decide +kernel, by decide +kernel, by decide +kernel⟩, short_sane (by decide +kernel), trivial⟩
    (by
      intro sc hsc
      simp only [List.mem_cons, List.not_mem_nil, or_false] at hsc
      rcases hsc with rfl | rfl
      · exact ⟨⟨by decide, by decide, by decide, by decide⟩, by decide⟩
      · trivial)
    (plain_of _ (by decide)) (fun _ => ⟨rfl, rfl, rfl⟩) st how hs he
  refine ⟨st, hs, ?_, ?_, ?_⟩
  · cases hk : st.cons <;> rw [hk] at he <;> simp [Cons.ended] at he
  · rw [h2]; decide +kernel
  · rw [h4]; decide +kernel

end Ed
