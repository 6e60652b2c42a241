import Verif.Ed.Fate
import Verif.Txt.Origin

/-!
# A save that fails, and trying again

`w` closes the file the buffer reads from before it knows whether the save works (ed.go:48-54). What is left of the buffer when it does not work
depends on which bytes of the text were typed since the file was opened or saved. Here they are followed through whole sessions on any files.
-/

namespace Ed
open Go

/-! ## Specification -/

/-- Which bytes were typed, when `n` typed bytes are put in at a place. -/
def putOwn (own : List Bool) (p n : Nat) : List Bool := own.take p ++ List.replicate n true ++ own.drop p

/-- Which bytes were typed, when those from one place to another go. -/
def cutOwn (own : List Bool) (p q : Nat) : List Bool := own.take p ++ own.drop q

/-- The line an address comes to (0 if to none). -/
def Goal.no : Goal → Int
  | .line n => n
  | _ => 0

/-- Which bytes of the text were typed since the file was opened or saved, after a command. -/
def track (comp : Bytes → Option (Bytes → Bool)) (c : TCmd) (st : IState) (own : List Bool) : List Bool :=
  let first (t : Bytes) := (c.range.goal1 comp (seen t) st.cur st.cur).no
  let last (t : Bytes) := (c.range.goal2 comp (seen t) st.cur st.cur).no
  let p := place st.text (first st.text - 1).toNat
  let q := place st.text (last st.text).toNat
  match c.verb with
  | .append t => putOwn own (place st.text (first st.text).toNat) (unlines t).length
  | .insert t => putOwn own p (unlines t).length
  | .delete => cutOwn own p q
  | .change t => putOwn (cutOwn own p q) (place (cutAt st.text p q) (first (cutAt st.text p q) - 1).toNat) (unlines t).length
  | .edit name => match st.files name with
    | none => own
    | some t => List.replicate t.length false
  | .write => List.replicate st.text.length false
  | _ => own

/-! ## One command -/

theorem comes_ok {a : Int} {g : Goal} (h : Comes (.ok a) g) : g = .line a ∧ -2 ^ 63 ≤ a ∧ a < 2 ^ 63 := by
  cases g with
  | line n => obtain ⟨e, h1, h2⟩ := h; cases e; exact ⟨rfl, h1, h2⟩
  | crash => obtain ⟨p, e⟩ := h; cases e
  | never => cases h

theorem r_bind_ok {α β : Type} {x : R α} {k : α → R β} {y : β} (h : (x >>= k) = .ok y) : ∃ a, x = .ok a ∧ k a = .ok y := by
  cases x with
  | error e => cases h
  | ok a => exact ⟨a, rfl, h⟩

theorem r_lift_ok {α : Type} {m : M α} {a : α} (h : lift m = .ok a) : m = .ok a := by
  cases m with
  | error e => cases h
  | ok b => cases h; rfl

theorem traced_length {pt : Txt.PieceTable} {t : Bytes} {own : List Bool} (hr : Txt.Reachable pt) (ht : pt.string = .ok t) (h : Txt.Traced pt own) :
    t = Txt.content pt.orig pt.pieces := by
  rw [Txt.string_wf hr.good.toWF] at ht
  cases ht; rfl

theorem insert_traced {s s' : State} {t : Bytes} {own : List Bool} (hr : Txt.Reachable s.pt) (ht : s.pt.string = .ok t) (hl : Sane t) (h : Txt.Traced s.pt own)
    (n : Int) (h2 : n < 2 ^ 63) {x : List Bytes} (hx : x ≠ [])
    (hn : -2 ^ 63 < n) (hp : place t (n - 1).toNat ≤ t.length) (e : insertBeforeLine s n (join [nl] x) = .ok s') :
    Txt.Traced s'.pt (putOwn own (place t (n - 1).toNat) (unlines x).length) := by
  simp only [insertBeforeLine, getLineAddr_any ht hl.1 n hn h2, join_typed hx] at e
  cases he : s.pt.insert (unlines x) (place t (n - 1).toNat) with
  | error p => rw [he] at e; cases e
  | ok pt =>
    rw [he] at e
    cases e
    exact Txt.traced_insert hr.good h _ _ (by rw [← traced_length hr ht h]; exact hp) he

theorem delete_traced {s s' : State} {t : Bytes} {own : List Bool} (hr : Txt.Reachable s.pt) (ht : s.pt.string = .ok t) (hl : Sane t) (h : Txt.Traced s.pt own)
    (a b : Int) (ha1 : -2 ^ 63 < a) (ha2 : a < 2 ^ 63) (hb1 : -2 ^ 63 ≤ b) (hb2 : b < 2 ^ 63 - 1)
    (hpq : place t (a - 1).toNat ≤ place t b.toNat) (hq : place t b.toNat ≤ t.length) (e : delete s a b = .ok s') :
    Txt.Traced s'.pt (cutOwn own (place t (a - 1).toNat) (place t b.toNat)) := by
  have hd : delete s a b = .ok { s with pt := s.pt.delete ((place t b.toNat - place t (a - 1).toNat : Nat)) (place t (a - 1).toNat) } := by
    simp only [delete, getLineAddr_any ht hl.1 a ha1 ha2, wrap64_id (i := b + 1) (by omega) (by omega),
      getLineAddr_any ht hl.1 (b + 1) (by omega) (by omega)]
    rw [show (b + 1 - 1).toNat = b.toNat by omega]
    congr 3
    omega
  rw [hd] at e
  cases e
  have := Txt.traced_delete hr.good h (place t b.toNat - place t (a - 1).toNat) (place t (a - 1).toNat)
    (by rw [← traced_length hr ht h]; omega)
  rw [show place t (a - 1).toNat + (place t b.toNat - place t (a - 1).toNat) = place t b.toNat by omega] at this
  exact this

/-- **C176** Which bytes of the buffer are still read from the file after a command: those the reference says were not typed. -/
theorem C176_command (env : Env) (hsave : Saves env) (hmem : Memory env) {s : State} {st st1 : IState} {own : List Bool} {o : Bytes}
    (h : Mirrors s st) (hsane : Sane st.text) (hown : Txt.Traced s.pt own) {c : TCmd} (hwf : c.WF) (htx : c.Texts)
    (hf : fate env.compile (room env) env.openErr c st = .done st1 o) :
    ∃ s', processCommand env s c.parsed = .ok (s', o) ∧ Mirrors s' st1 ∧ Txt.Traced s'.pt (track env.compile c st own) := by
  have hm := C175_command env hsave hmem h hsane hwf htx
  rw [hf] at hm
  obtain ⟨s', e, m⟩ := hm
  refine ⟨s', e, m, ?_⟩
  obtain ⟨hrch, ht, hcur, hlo, hhi, hname, hfile⟩ := h
  obtain ⟨r, v⟩ := c
  obtain ⟨hr, hw⟩ := hwf
  have hlen : (seen st.text).length < 2 ^ 62 := Nat.lt_trans (Nat.lt_of_le_of_lt (seen_length _) hsane.2) (by decide)
  have hg : getLines s = .ok (seen st.text) := getLines_any ht hsane.1
  have h1 : -2 ^ 63 ≤ s.currentLine := by omega
  have h2 : s.currentLine < 2 ^ 63 := by omega
  have fst := fun (c : Command) (hty : Addressed c.typ) (hs : c.start = r.start) => first_comes env hg hlen h1 h2 hr c hty hs
  have lst := fun (c : Command) (hty : c.typ = .print ∨ c.typ = .number ∨ c.typ = .delete ∨ c.typ = .change) (hs : c.start = r.start)
    (he : c.end_ = r.end_) => last_comes env hg hlen h1 h2 hr c hty hs he
  rw [hcur] at fst lst
  cases v with
  | print =>
    simp only [processCommand, typ_setDefault] at e
    obtain ⟨a, -, e⟩ := r_bind_ok e
    obtain ⟨b, -, e⟩ := r_bind_ok e
    obtain ⟨x, -, e⟩ := r_bind_ok e
    cases e; exact hown
  | number =>
    simp only [processCommand, typ_setDefault] at e
    obtain ⟨a, -, e⟩ := r_bind_ok e
    obtain ⟨b, -, e⟩ := r_bind_ok e
    obtain ⟨x, -, e⟩ := r_bind_ok e
    cases e; exact hown
  | equals =>
    simp only [processCommand, typ_setDefault] at e
    obtain ⟨a, -, e⟩ := r_bind_ok e
    cases e; exact hown
  | null =>
    simp only [processCommand, typ_setDefault] at e
    obtain ⟨a, -, e⟩ := r_bind_ok e
    obtain ⟨x, -, e⟩ := r_bind_ok e
    cases e; exact hown
  | unsupported l =>
    have e1 : (setDefaultAddresses (TCmd.parsed ⟨r, .unsupported l⟩)).typ = unsupportedTyp l := typ_setDefault _
    have hl : l ∈ b!"hHPQujl" := by
      rcases hw with ⟨-, h⟩ | h <;> simp at h ⊢ <;> grind
    simp only [processCommand, e1] at e
    simp at hl
    rcases hl with rfl | rfl | rfl | rfl | rfl | rfl | rfl <;> (cases e; exact hown)
  | append t =>
    have hty : Typed t := htx
    simp only [processCommand, typ_setDefault, text_setDefault] at e
    have f : Comes (addrLine env s (setDefaultAddresses (TCmd.parsed ⟨r, .append t⟩)).start) (r.goal1 env.compile (seen st.text) st.cur st.cur) :=
      fst (TCmd.parsed ⟨r, .append t⟩) (by simp [Addressed, TCmd.parsed]) rfl
    obtain ⟨a, ha, e⟩ := r_bind_ok e
    obtain ⟨s1, hi, e⟩ := r_bind_ok e
    rw [ha] at f
    obtain ⟨g, a1, a2⟩ := comes_ok f
    simp only [fate, g, Goal.to] at hf
    split at hf
    · cases hf
    rename_i hc
    cases e
    have ew : wrap64 (a + 1) = a + 1 := wrap64_id (by omega) (by omega)
    rw [ew] at hi
    simp only [track, g, Goal.no]
    have := insert_traced hrch ht hsane hown (a + 1) (by omega) hty.1 (by omega) (by rw [show (a + 1 - 1).toNat = a.toNat by omega]; omega) (r_lift_ok hi)
    rwa [show (a + 1 - 1).toNat = a.toNat by omega] at this
  | insert t =>
    have hty : Typed t := htx
    simp only [processCommand, typ_setDefault, text_setDefault] at e
    have f : Comes (addrLine env s (setDefaultAddresses (TCmd.parsed ⟨r, .insert t⟩)).start) (r.goal1 env.compile (seen st.text) st.cur st.cur) :=
      fst (TCmd.parsed ⟨r, .insert t⟩) (by simp [Addressed, TCmd.parsed]) rfl
    obtain ⟨a, ha, e⟩ := r_bind_ok e
    obtain ⟨s1, hi, e⟩ := r_bind_ok e
    rw [ha] at f
    obtain ⟨g, a1, a2⟩ := comes_ok f
    simp only [fate, g, Goal.to] at hf
    split at hf
    · cases hf
    rename_i hc
    cases e
    simp only [track, g, Goal.no]
    exact insert_traced hrch ht hsane hown a (by omega) hty.1 (by omega) (by omega) (r_lift_ok hi)
  | delete =>
    simp only [processCommand, typ_setDefault] at e
    have f : Comes (addrLine env s (setDefaultAddresses (TCmd.parsed ⟨r, .delete⟩)).start) (r.goal1 env.compile (seen st.text) st.cur st.cur) :=
      fst (TCmd.parsed ⟨r, .delete⟩) (by simp [Addressed, TCmd.parsed]) rfl
    have l : Comes (addrLine env s (setDefaultAddresses (TCmd.parsed ⟨r, .delete⟩)).end_) (r.goal2 env.compile (seen st.text) st.cur st.cur) :=
      lst (TCmd.parsed ⟨r, .delete⟩) (by simp [TCmd.parsed]) rfl rfl
    obtain ⟨a, ha, e⟩ := r_bind_ok e
    obtain ⟨b, hb, e⟩ := r_bind_ok e
    obtain ⟨s1, hd, e⟩ := r_bind_ok e
    obtain ⟨d, -, e⟩ := r_bind_ok e
    rw [ha] at f
    rw [hb] at l
    obtain ⟨g, a1, a2⟩ := comes_ok f
    obtain ⟨g2, b1, b2⟩ := comes_ok l
    simp only [fate, g, g2, Goal.to] at hf
    split at hf
    · cases hf
    rename_i hc
    split at hf
    · rename_i hp
      cases e
      simp only [track, g, g2, Goal.no]
      exact delete_traced hrch ht hsane hown a b (by omega) a2 b1 (by omega) hp.1 hp.2.1 (r_lift_ok hd)
    · cases hf
  | change t =>
    have hty : Typed t := htx
    simp only [processCommand, typ_setDefault, text_setDefault] at e
    have f : Comes (addrLine env s (setDefaultAddresses (TCmd.parsed ⟨r, .change t⟩)).start) (r.goal1 env.compile (seen st.text) st.cur st.cur) :=
      fst (TCmd.parsed ⟨r, .change t⟩) (by simp [Addressed, TCmd.parsed]) rfl
    have l : Comes (addrLine env s (setDefaultAddresses (TCmd.parsed ⟨r, .change t⟩)).end_) (r.goal2 env.compile (seen st.text) st.cur st.cur) :=
      lst (TCmd.parsed ⟨r, .change t⟩) (by simp [TCmd.parsed]) rfl rfl
    obtain ⟨a, ha, e⟩ := r_bind_ok e
    obtain ⟨b, hb, e⟩ := r_bind_ok e
    obtain ⟨s1, hd, e⟩ := r_bind_ok e
    obtain ⟨d, hd1, e⟩ := r_bind_ok e
    obtain ⟨s2, hi, e⟩ := r_bind_ok e
    obtain ⟨d2, -, efin⟩ := r_bind_ok e
    rw [ha] at f
    rw [hb] at l
    obtain ⟨g, a1, a2⟩ := comes_ok f
    obtain ⟨g2, b1, b2⟩ := comes_ok l
    simp only [fate, g, g2, Goal.to] at hf
    by_cases hc : a = -2 ^ 63 ∨ b = 2 ^ 63 - 1
    · rw [if_pos hc] at hf; cases hf
    rw [if_neg hc] at hf
    simp only [track, g, g2, Goal.no]
    have tr := delete_traced (own := own) (s' := s1) hrch ht hsane hown a b (by omega) a2 b1 (by omega)
    have dx := (delete_exact hrch ht hsane a b a1 a2 b1 b2).2 hc
    generalize hp0 : place st.text (a - 1).toNat = p at *
    generalize hq0 : place st.text b.toNat = q at *
    by_cases hp : p ≤ q ∧ q ≤ st.text.length ∧ ¬ Long (cutAt st.text p q)
    · rw [if_pos hp] at hf
      have tr := tr hp.1 hp.2.1 (r_lift_ok hd)
      obtain ⟨pt', e1, r1, x1⟩ := dx hp.1 hp.2.1
      rw [r_lift_ok hd] at e1
      cases e1
      have hs1 : Sane (cutAt st.text p q) :=
        ⟨hp.2.2, by have := hsane.2; have := hp.1; simp only [cutAt, List.length_append, List.length_take, List.length_drop]; omega⟩
      generalize ht1 : cutAt st.text p q = t1 at *
      have hg1 := getLines_any (s := { s with pt := pt' }) x1 hs1.1
      have f1 : Comes (addrLine env { s with pt := pt' } (setDefaultAddresses (TCmd.parsed ⟨r, .change t⟩)).start)
          (r.goal1 env.compile (seen t1) st.cur st.cur) := by
        rw [← hcur]
        exact first_comes env hg1 (Nat.lt_trans (Nat.lt_of_le_of_lt (seen_length _) hs1.2) (by decide)) (s := { s with pt := pt' }) h1 h2 hr
          (TCmd.parsed ⟨r, .change t⟩) (by simp [Addressed, TCmd.parsed]) rfl
      rw [hd1] at f1
      obtain ⟨g3, c1, c2⟩ := comes_ok f1
      simp only [g3] at hf ⊢
      by_cases hc2 : d = -2 ^ 63 ∨ t1.length < place t1 (d - 1).toNat
      · rw [if_pos hc2] at hf; cases hf
      cases efin
      exact insert_traced (s := { s with pt := pt' }) (s' := s2) r1 x1 hs1 tr d c2 hty.1 (by omega) (by omega) (r_lift_ok hi)
    · rw [if_neg hp] at hf; cases hf
  | edit name =>
    obtain ⟨rfl, -⟩ := hw
    have e0 : setDefaultAddresses (TCmd.parsed ⟨.none, .edit name⟩) = { typ := .edit, params := [name], start := aCur, end_ := aCur } := rfl
    simp only [processCommand, e0, List.headD_cons] at e
    obtain ⟨x, he, e⟩ := r_bind_ok e
    have he := r_lift_ok he
    simp only [track]
    rw [← hfile]
    simp only [edit] at he
    cases hn : s.fs name with
    | none =>
      simp only [hn] at he
      cases he; cases e; exact hown
    | some t =>
      simp only [hn] at he
      split at he
      · cases he
      · cases he; cases e; exact Txt.traced_new t
  | write =>
    simp only [processCommand, typ_setDefault] at e
    obtain ⟨x, he, e⟩ := r_bind_ok e
    have he := r_lift_ok he
    simp only [fate] at hf
    split at hf
    · cases hf
    rename_i hex
    have hsv : (saveTrace (env.outcome s.writes) s.fs s.filename st.text).2 = none := by
      obtain ⟨a, b, c⟩ := hsave s.writes
      obtain ⟨x, hx⟩ := Option.ne_none_iff_exists'.1 hex
      simp [saveTrace, statError, hname, hfile, hx, a, b, c]
    have hfin := ((C70_outcome (env.outcome s.writes) s.fs s.filename st.text).1 hsv).1
    simp only [write, ht, hsv, edit, hfin] at he
    split at he
    · cases he
    · cases he; cases e; exact Txt.traced_new st.text

/-! ## The save that fails -/

/-- **C176** A save that fails is answered with the message and leaves the file as it was. If a byte of the text comes from the file, every later
command that looks at the text ends the program, the next `w` too; if all of it was typed, the editor is as before, and a save that works then
writes the text. -/
theorem C176_failed (env : Env) {s : State} {st : IState} {own : List Bool} (h : Mirrors s st) (hsane : Sane st.text) (hown : Txt.Traced s.pt own)
    (err : Bytes) (he : (saveTrace (env.outcome s.writes) s.fs s.filename st.text).2 = some err) (c : Command) (hc : c.typ = .write) :
    ∃ s', processCommand env s c = .ok (s', 63 :: err) ∧ s'.fs st.name = st.files st.name ∧ s'.writes = s.writes + 1 ∧ s'.filename = st.name ∧
      (false ∈ own → (∃ p, s'.pt.string = .error p) ∧
        ∀ c2 : Command, c2.typ = .print ∨ c2.typ = .number ∨ c2.typ = .append ∨ c2.typ = .insert ∨ c2.typ = .delete ∨ c2.typ = .change ∨
          c2.typ = .write → ∃ f, processCommand env s' c2 = .error f) ∧
      (false ∉ own → s'.pt.string = .ok st.text ∧ s'.currentLine = st.cur ∧ ∀ c2 : Command, c2.typ = .write →
        (saveTrace (env.outcome (s.writes + 1)) s'.fs st.name st.text).2 = none →
        ∃ s2, processCommand env s' c2 = .ok (s2, []) ∧ s2.fs st.name = some st.text) := by
  obtain ⟨hrch, ht, hcur, hlo, hhi, hname, hfile⟩ := h
  let s' : State := { s with pt := s.pt.close, fs := finalFS s.fs (saveTrace (env.outcome s.writes) s.fs s.filename st.text).1, writes := s.writes + 1 }
  have hw : write env s = .ok (s', some err) := by
    simp only [write, ht, he]
    rfl
  have hp : processCommand env s c = .ok (s', 63 :: err) := by
    rw [C71_arguments_ignored env s c hc]
    have e : (setDefaultAddresses { typ := .write }).typ = .write := rfl
    simp only [processCommand, e, hw]
    rfl
  have hfs : s'.fs st.name = st.files st.name := by
    have := (C70_outcome (env.outcome s.writes) s.fs s.filename st.text).2 err he
    rw [← hname, ← hfile]
    exact this
  have hu := Txt.traced_used hrch.good hown
  refine ⟨s', hp, hfs, rfl, hname, fun hm => ?_, fun hm => ?_⟩
  · obtain ⟨s1, e1, -, h2, -, h3⟩ := C71_failed_save_loses_buffer env hrch ht hown.1 (hu.2 hm) err he c hc
    rw [hp] at e1
    cases e1
    exact ⟨h2, h3⟩
  · have hx : s'.pt.string = .ok st.text := by
      refine ((Txt.C08_close hrch ht).2 hown.1).2 fun p hp ho => ?_
      apply Classical.byContradiction
      intro hl
      exact hm (hu.1 ⟨p, hp, ho, hl⟩)
    refine ⟨hx, hcur, fun c2 h2 hok => ?_⟩
    obtain ⟨s2, e2, f2, -⟩ := C132_write env hx hsane.1 c2 h2 (by rw [show s'.filename = st.name from hname]; exact hok)
    exact ⟨s2, e2, by rw [← hname]; exact f2⟩

/-! ## Sessions -/

/-- A session in which every command is carried out, and which bytes of the text were typed in the end. -/
inductive Followed (comp : Bytes → Option (Bytes → Bool)) (room : Nat → Nat) (openErr : Bytes → Bytes) :
    List TCmd → IState → List Bool → IState → List Bool → List Bytes → Prop
  | nil {st own} : Followed comp room openErr [] st own st own []
  | cons {c cs st own st1 st2 own2 o os} : fate comp room openErr c st = .done st1 o → Sane st1.text →
      Followed comp room openErr cs st1 (track comp c st own) st2 own2 os → Followed comp room openErr (c :: cs) st own st2 own2 (o :: os)

/-- How many of the commands are `w`. -/
def saves : List TCmd → Nat
  | [] => 0
  | c :: cs => (if c.verb = .write then 1 else 0) + saves cs

/-- The `k`-th save works if the file is there. -/
def SaveOK (env : Env) (k : Nat) : Prop := (env.outcome k).stat = none ∧ (env.outcome k).writeFile = none ∧ (env.outcome k).rename = none

/-- The same world, in which saves work. -/
def saving (env : Env) : Env := { env with outcome := fun _ => {} }

theorem saving_same (env : Env) (s : State) (c : Command) (h : c.typ ≠ .write) : processCommand (saving env) s c = processCommand env s c := by
  have h : (setDefaultAddresses c).typ ≠ .write := by rwa [typ_setDefault]
  cases hc : (setDefaultAddresses c).typ <;> first | exact absurd hc h | (simp only [processCommand, hc]; rfl) | simp only [processCommand, hc]

theorem saving_write (env : Env) (s : State) (c : Command) (h : c.typ = .write) (hok : SaveOK env s.writes) (hf : s.fs s.filename ≠ none) :
    processCommand (saving env) s c = processCommand env s c := by
  have h : (setDefaultAddresses c).typ = .write := by rwa [typ_setDefault]
  have hs : ∀ data, saveTrace {} s.fs s.filename data = saveTrace (env.outcome s.writes) s.fs s.filename data := by
    intro data
    obtain ⟨a, b, c⟩ := hok
    simp [saveTrace, statError, hf, a, b, c]
  have hw : write (saving env) s = write env s := by
    simp only [write, saving, hs]
    rfl
  simp only [processCommand, h, hw]

theorem writes_next (env : Env) {s s' : State} {t : Bytes} (ht : s.pt.string = .ok t) (hl : ¬ Long t) {c : Command} {o : Bytes} (h : c.typ = .write)
    (hok : SaveOK env s.writes) (hf : s.fs s.filename ≠ none) (e : processCommand env s c = .ok (s', o)) : s'.writes = s.writes + 1 := by
  obtain ⟨x, hx⟩ := Option.ne_none_iff_exists'.1 hf
  obtain ⟨a, b, d⟩ := hok
  obtain ⟨s1, e1, -, -, -, -, -, w1, -⟩ := C132_write env ht hl c h (by simp [saveTrace, statError, hx, a, b, d])
  rw [e] at e1
  cases e1
  exact w1

theorem writes_same (env : Env) {s s' : State} {c : Command} {o : Bytes} (h : c.typ ≠ .write) (e : processCommand env s c = .ok (s', o)) :
    s'.writes = s.writes := by
  have ins : ∀ {s s1 : State} {n : Int} {t : Bytes}, lift (insertBeforeLine s n t) = .ok s1 → s1.writes = s.writes := by
    intro s s1 n t h
    have h := r_lift_ok h
    simp only [insertBeforeLine] at h
    split at h
    · cases h
    · split at h
      · cases h
      · cases h; rfl
  have del : ∀ {s s1 : State} {a b : Int}, lift (delete s a b) = .ok s1 → s1.writes = s.writes := by
    intro s s1 a b h
    have h := r_lift_ok h
    simp only [delete] at h
    split at h
    · cases h
    · split at h
      · cases h
      · cases h; rfl
  have h : (setDefaultAddresses c).typ ≠ .write := by rwa [typ_setDefault]
  simp only [processCommand] at e
  cases hc : (setDefaultAddresses c).typ
  case write => exact absurd hc h
  case edit =>
    simp only [hc] at e
    obtain ⟨r, hr, e⟩ := r_bind_ok e
    have hr := r_lift_ok hr
    cases e
    simp only [edit] at hr
    split at hr
    · cases hr; rfl
    · split at hr
      · cases hr
      · cases hr; rfl
  case print | number =>
    simp only [hc] at e
    obtain ⟨a, -, e⟩ := r_bind_ok e
    obtain ⟨b, -, e⟩ := r_bind_ok e
    obtain ⟨x, -, e⟩ := r_bind_ok e
    cases e; rfl
  case null =>
    simp only [hc] at e
    obtain ⟨a, -, e⟩ := r_bind_ok e
    obtain ⟨x, -, e⟩ := r_bind_ok e
    cases e; rfl
  case lineNumber =>
    simp only [hc] at e
    obtain ⟨a, -, e⟩ := r_bind_ok e
    cases e; rfl
  case append | insert =>
    simp only [hc] at e
    obtain ⟨a, -, e⟩ := r_bind_ok e
    obtain ⟨s1, hi, e⟩ := r_bind_ok e
    cases e; exact (ins hi :)
  case delete =>
    simp only [hc] at e
    obtain ⟨a, -, e⟩ := r_bind_ok e
    obtain ⟨b, -, e⟩ := r_bind_ok e
    obtain ⟨s1, hd, e⟩ := r_bind_ok e
    obtain ⟨x, -, e⟩ := r_bind_ok e
    cases e; exact (del hd :)
  case change =>
    simp only [hc] at e
    obtain ⟨a, -, e⟩ := r_bind_ok e
    obtain ⟨b, -, e⟩ := r_bind_ok e
    obtain ⟨s1, hd, e⟩ := r_bind_ok e
    obtain ⟨x, -, e⟩ := r_bind_ok e
    obtain ⟨s2, hi, e⟩ := r_bind_ok e
    obtain ⟨y, -, e⟩ := r_bind_ok e
    cases e; exact ((ins hi).trans (del hd) :)
  all_goals (simp only [hc] at e; cases e; rfl)

theorem followed_sequential (env : Env) (hmem : Memory env) : ∀ (cs : List TCmd) {s : State} {st st2 : IState} {own own2 : List Bool} {os : List Bytes},
    Mirrors s st → Sane st.text → Txt.Traced s.pt own → (∀ c ∈ cs, c.WF ∧ c.Texts) → (∀ k, s.writes ≤ k → k < s.writes + saves cs → SaveOK env k) →
    Followed env.compile (room env) env.openErr cs st own st2 own2 os →
    ∃ s2, Mirrors s2 st2 ∧ Sane st2.text ∧ Txt.Traced s2.pt own2 ∧ s2.writes = s.writes + saves cs ∧
      ∀ rest, sequential env s (cs.map TCmd.parsed ++ rest) =
        ((sequential env s2 rest).1, (sequential env s2 rest).2.1, os.map (· ++ [nl]) ++ (sequential env s2 rest).2.2) := by
  intro cs
  induction cs with
  | nil =>
    intro s st st2 own own2 os h hs ho _ _ ht
    cases ht
    exact ⟨s, h, hs, ho, rfl, fun rest => rfl⟩
  | cons c cs ih =>
    intro s st st2 own own2 os h hs ho hwf hok ht
    cases ht with
    | @cons _ _ _ _ st1 _ _ o os hf hs1 hrest =>
      have hq := c.parsed_not_quit (hwf c (by simp)).1
      obtain ⟨s1, e, m1, t1⟩ := C176_command (saving env) (fun _ => ⟨rfl, rfl, rfl⟩) hmem h hs ho (hwf c (by simp)).1 (hwf c (by simp)).2 hf
      have both : processCommand env s c.parsed = .ok (s1, o) ∧ s1.writes = s.writes + (if c.verb = .write then 1 else 0) := by
        by_cases hv : c.verb = .write
        · have hty : c.parsed.typ = .write := by obtain ⟨r, v⟩ := c; cases hv; rfl
          have hex : s.fs s.filename ≠ none := by
            intro hn
            rw [h.named, h.files] at hn
            simp [fate, hv, hn] at hf
          have ok0 := hok s.writes (Nat.le_refl _) (by simp only [saves, hv, if_true]; omega)
          rw [saving_write env s _ hty ok0 hex] at e
          exact ⟨e, by rw [if_pos hv]; exact writes_next env h.text hs.1 hty ok0 hex e⟩
        · have hty := parsed_write (hwf c (by simp)).1 hv
          rw [saving_same env s _ hty] at e
          exact ⟨e, by rw [if_neg hv]; exact writes_same env hty e⟩
      obtain ⟨e, w1⟩ := both
      obtain ⟨s2, m2, z2, t2, w2, r2⟩ := ih m1 hs1 t1 (fun y hy => hwf y (by simp [hy]))
        (fun k h1 h2 => hok k (by omega) (by simp only [saves]; omega)) hrest
      refine ⟨s2, m2, z2, t2, by simp only [saves]; omega, fun rest => ?_⟩
      simp only [List.map_cons, List.cons_append, sequential, if_neg hq, e, r2]

/-- **C176** `ed name` on any file, given command lines that are carried out, with saves that work, and then `w` twice, where the first of these fails and the second would work:
if a byte of the text comes from a file, the program ends in a crash at the second `w` and the file keeps what it held, so the edits are lost; if
all of the text was typed, the second `w` saves it. This for every schedule. -/
theorem C176_session (env : Env) (hmem : Memory env) (errText : Bytes → Bytes) (s0 : State) (name : Bytes) (hn : NameOK name)
    (hnp : PlainLine (b!"e " ++ name)) (t : Bytes) (hfs : s0.fs name = some t) (hsane : Sane t)
    (cs : List TCmd) (ht : ∀ c ∈ cs, c.WF ∧ c.Texts) (hp : ∀ l ∈ cs.flatMap TCmd.typed, PlainLine l) (quits : Bool)
    (st' : IState) (own : List Bool) (os : List Bytes)
    (hses : Followed env.compile (room env) env.openErr cs ⟨t, (seen t).length, name, s0.fs⟩ (List.replicate t.length false) st' own os)
    (hok : ∀ k, s0.writes ≤ k → k < s0.writes + saves cs → SaveOK env k)
    (err : Bytes) (hfail : (saveTrace (env.outcome (s0.writes + saves cs)) st'.files st'.name st'.text).2 = some err)
    (hworks : ∀ fs, fs st'.name = st'.files st'.name → (saveTrace (env.outcome (s0.writes + saves cs + 1)) fs st'.name st'.text).2 = none)
    (st : Sys) (how : End)
    (hs : Steps env (initial errText s0 (mainInput (some name) (unlines ((cs ++ [(⟨.none, .write⟩ : TCmd), ⟨.none, .write⟩]).flatMap TCmd.typed ++ lastLine quits)))) st)
    (he : st.cons.ended = some how) :
    errors st.out = [] ∧
    (false ∈ own → (∃ f, how = .crashed f) ∧ st.ed.fs st'.name = st'.files st'.name ∧ results st.out = ([] :: os ++ [63 :: err]).map (· ++ [nl])) ∧
    (false ∉ own → how = (if quits then .quit else .finished) ∧ st.ed.fs st'.name = some st'.text ∧
      results st.out = ([] :: os ++ [63 :: err, []]).map (· ++ [nl])) := by
  have hwf : ∀ c ∈ cs ++ [(⟨.none, .write⟩ : TCmd), ⟨.none, .write⟩], c.WF := by
    intro c hc
    rcases List.mem_append.1 hc with hc | hc
    · exact (ht c hc).1
    · simp at hc; subst hc; exact ⟨trivial, trivial⟩
  have hpl : ∀ l ∈ (cs ++ [(⟨.none, .write⟩ : TCmd), ⟨.none, .write⟩]).flatMap TCmd.typed, PlainLine l := by
    intro l hl
    rw [List.flatMap_append] at hl
    rcases List.mem_append.1 hl with hl | hl
    · exact hp l hl
    · have : l = b!"w" := by
        simp [TCmd.typed] at hl
        exact hl
      rw [this]
      exact plain_ascii _ (by decide) (by decide) (by decide)
  have hprog := program_tcmds errText name hn hnp _ hwf hpl quits
  obtain ⟨h1, h2, _⟩ := C69_schedule_independent env errText s0 _ st how hs he
  rw [hprog] at h1 h2
  rw [reports_evs] at h2
  rw [sends_evs] at h1
  let s1 : State := { s0 with filename := name, pt := Txt.newPieceTable t true t.length, currentLine := (seen t).length }
  have r1 : Txt.Reachable s1.pt := .new t true t.length (Nat.le_refl _)
  have t1 : s1.pt.string = .ok t := by
    rw [Txt.string_wf r1.good.toWF]
    simp [s1, Txt.newPieceTable, Txt.content, Txt.Piece.text, Txt.src]
  have hopen : processCommand env s0 { typ := .edit, params := [name] } = .ok (s1, []) := by
    have hg := getLines_any (s := { s1 with currentLine := s0.currentLine }) t1 hsane.1
    have hed : edit env s0 name = .ok (s1, none) := by
      simp only [s1] at hg ⊢
      simp only [edit, hfs, hg, seen_eq]
    have e : setDefaultAddresses { typ := .edit, params := [name] } = { typ := .edit, params := [name], start := aCur, end_ := aCur } := rfl
    simp only [processCommand, e, List.headD_cons, hed]
    rfl
  have hlen := Nat.lt_of_le_of_lt (seen_length t) hsane.2
  have ag : Mirrors s1 ⟨t, (seen t).length, name, s0.fs⟩ := ⟨r1, t1, rfl, by simp only; omega, by simp only; omega, rfl, rfl⟩
  obtain ⟨s2, m2, z2, o2, w2, k2⟩ := followed_sequential env hmem cs ag hsane (Txt.traced_new t) ht hok hses
  simp only [List.map_append, List.cons_append, List.append_assoc, sequential, hopen,
    if_neg (show ¬ ({ typ := .edit, params := [name] } : Command).typ = .quit by simp), k2] at h1
  have w2 : s2.writes = s0.writes + saves cs := w2
  obtain ⟨s3, e3, f3, w3, n3, lost, kept⟩ := C176_failed env m2 z2 o2 err (by rw [w2, m2.named, m2.files]; exact hfail) (TCmd.parsed ⟨.none, .write⟩) rfl
  simp only [List.map_cons, List.map_nil, List.cons_append, List.nil_append, sequential, e3,
    if_neg (show ¬ (TCmd.parsed ⟨.none, .write⟩).typ = .quit by simp [TCmd.parsed])] at h1
  refine ⟨by simpa using h2, fun hm => ?_, fun hm => ?_⟩
  · obtain ⟨⟨p, hx⟩, hl⟩ := lost hm
    obtain ⟨f, ef⟩ := hl (TCmd.parsed ⟨.none, .write⟩) (by simp [TCmd.parsed])
    have hcs : crashState env s3 (TCmd.parsed ⟨.none, .write⟩) = s3 := by
      simp [crashState, hx]
    simp only [ef, hcs] at h1
    simp only [Prod.mk.injEq] at h1
    obtain ⟨a, b, c⟩ := h1
    exact ⟨⟨f, a.symm⟩, by rw [← b]; exact f3, by rw [← c]; simp⟩
  · obtain ⟨-, -, again⟩ := kept hm
    obtain ⟨s4, e4, f4⟩ := again (TCmd.parsed ⟨.none, .write⟩) rfl (by rw [w2]; exact hworks _ f3)
    simp only [e4] at h1
    cases quits
    · simp [lastCommand, sequential, Prod.mk.injEq] at h1
      obtain ⟨a, b, c⟩ := h1
      exact ⟨by simpa using a.symm, by rw [← b]; exact f4, by rw [← c]; simp⟩
    · simp [lastCommand, sequential, Prod.mk.injEq] at h1
      obtain ⟨a, b, c⟩ := h1
      exact ⟨by simpa using a.symm, by rw [← b]; exact f4, by rw [← c]; simp⟩

/-! ## Cases -/

/-- The first save fails, the others work. -/
def retryEnv : Env := { demoEnv with outcome := fun k => if k = 0 then { rename := some b!"no" } else {} }

/-- The file `f` with the lines `a` and `b`. -/
def retryFiles : Bytes → Option Bytes := fun n => if n = b!"f" then some b!"a\nb\n" else none

/-- `1,2c` with the line `z` replaces everything, `1c` does not. -/
theorem retry_followed :
    Followed retryEnv.compile (room retryEnv) retryEnv.openErr [⟨.both false (.lit b!"1") [] [] (.lit b!"2") [], .change [b!"z"]⟩]
      ⟨b!"a\nb\n", 2, b!"f", retryFiles⟩ (List.replicate 4 false) ⟨b!"z\n", 2, b!"f", retryFiles⟩ [true, true] [[]] ∧
    Followed retryEnv.compile (room retryEnv) retryEnv.openErr [⟨.one (.lit b!"1") [], .change [b!"z"]⟩]
      ⟨b!"a\nb\n", 2, b!"f", retryFiles⟩ (List.replicate 4 false) ⟨b!"z\nb\n", 2, b!"f", retryFiles⟩ [true, true, false, false] [[]] := by
  have g : ∀ ls cur, (AddrSyn.lit b!"1").goal retryEnv.compile ls cur = .line 1 := by
    intro ls cur; simp only [AddrSyn.goal, Goal.line.injEq]; decide
  have g2 : ∀ ls cur, (AddrSyn.lit b!"2").goal retryEnv.compile ls cur = .line 2 := by
    intro ls cur; simp only [AddrSyn.goal, Goal.line.injEq]; decide
  constructor
  · have e1 : place b!"a\nb\n" (1 - 1 : Int).toNat = 0 := by decide +kernel
    have e2 : place b!"a\nb\n" (2 : Int).toNat = 4 := by decide +kernel
    have e3 : cutAt b!"a\nb\n" 0 4 = [] := by decide
    have e4 : place [] (1 - 1 : Int).toNat = 0 := by decide +kernel
    have e5 : putAt [] 0 (unlines [b!"z"]) = b!"z\n" := by decide
    have e6 : track retryEnv.compile ⟨.both false (.lit b!"1") [] [] (.lit b!"2") [], .change [b!"z"]⟩ ⟨b!"a\nb\n", 2, b!"f", retryFiles⟩
        (List.replicate 4 false) = [true, true] := by
      simp only [track, RangeSyn.goal1, RangeSyn.goal2, g, g2, Goal.no, e1, e2, e3, e4]; decide
    refine .cons (st1 := ⟨b!"z\n", 2, b!"f", retryFiles⟩) ?_ (short_sane (by decide)) (by rw [e6]; exact .nil)
    simp only [fate, RangeSyn.goal1, RangeSyn.goal2, g, g2, Goal.to, e1, e2, e3, e4, e5]
    rw [if_neg (by decide), if_pos ⟨by decide, by decide, (short_sane (by decide)).1⟩, if_neg (by decide), if_pos (short_sane (by decide))]
    rfl
  · have e1 : place b!"a\nb\n" (1 - 1 : Int).toNat = 0 := by decide +kernel
    have e2 : place b!"a\nb\n" (1 : Int).toNat = 2 := by decide +kernel
    have e3 : cutAt b!"a\nb\n" 0 2 = b!"b\n" := by decide
    have e4 : place b!"b\n" (1 - 1 : Int).toNat = 0 := by decide +kernel
    have e5 : putAt b!"b\n" 0 (unlines [b!"z"]) = b!"z\nb\n" := by decide
    have e6 : track retryEnv.compile ⟨.one (.lit b!"1") [], .change [b!"z"]⟩ ⟨b!"a\nb\n", 2, b!"f", retryFiles⟩
        (List.replicate 4 false) = [true, true, false, false] := by
      simp only [track, RangeSyn.goal1, RangeSyn.goal2, g, Goal.no, e1, e2, e3, e4]; decide
    refine .cons (st1 := ⟨b!"z\nb\n", 2, b!"f", retryFiles⟩) ?_ (short_sane (by decide)) (by rw [e6]; exact .nil)
    simp only [fate, RangeSyn.goal1, RangeSyn.goal2, g, Goal.to, e1, e2, e3, e4, e5]
    rw [if_neg (by decide), if_pos ⟨by decide, by decide, (short_sane (by decide)).1⟩, if_neg (by decide), if_pos (short_sane (by decide))]
    rfl

/-- The program on that file, `1c`, `z`, `.`, `w`, `w`, `q`: the first `w` reports the failure, the second ends the program, the file is as it was.
With `1,2c` in place of `1c` the second `w` saves. -/
example (errText : Bytes → Bytes) (st : Sys) (how : End) (he : st.cons.ended = some how) :
    (Steps retryEnv (initial errText { fresh with fs := retryFiles } (mainInput (some b!"f") (unlines [b!"1c", b!"z", b!".", b!"w", b!"w", b!"q"]))) st →
      (∃ f, how = .crashed f) ∧ st.ed.fs b!"f" = some b!"a\nb\n" ∧ results st.out = [b!"\n", b!"\n", b!"?no\n"]) ∧
    (Steps retryEnv (initial errText { fresh with fs := retryFiles } (mainInput (some b!"f") (unlines [b!"1,2c", b!"z", b!".", b!"w", b!"w", b!"q"]))) st →
      how = .quit ∧ st.ed.fs b!"f" = some b!"z\n" ∧ results st.out = [b!"\n", b!"\n", b!"?no\n", b!"\n"]) := by
  have hw : ∀ x, ∀ fs : FS, fs b!"f" = retryFiles b!"f" → (saveTrace (retryEnv.outcome 1) fs b!"f" x).2 = none := by
    intro x fs h
    simp [saveTrace, statError, h, retryEnv, retryFiles]
  constructor
  · intro hs
    exact (C176_session retryEnv demo_memory errText { fresh with fs := retryFiles } b!"f" ⟨by decide, by decide, by decide, by rintro c cs ⟨⟩; decide⟩
      (plain_ascii _ (by decide) (by decide) (by decide)) b!"a\nb\n" rfl (short_sane (by decide)) [⟨.one (.lit b!"1") [], .change [b!"z"]⟩]
      (by
        intro c hc
        simp only [List.mem_singleton] at hc
        subst hc
        exact ⟨⟨⟨⟨by decide, by decide⟩, by intro c hc; cases hc⟩, trivial, ⟨by decide, by decide, by decide, by decide⟩, by decide⟩, by unfold TCmd.Texts; exact ⟨by decide, by decide, by decide⟩⟩)
      (plain_of _ (by decide)) true _ _ _ retry_followed.2 (by intro k h1 h2; simp [saves, fresh] at h2) b!"no" (by simp [saveTrace, statError, retryEnv, retryFiles, fresh, saves]) (hw _) st how hs he).2.1 (by decide)
  · intro hs
    exact (C176_session retryEnv demo_memory errText { fresh with fs := retryFiles } b!"f" ⟨by decide, by decide, by decide, by rintro c cs ⟨⟩; decide⟩
      (plain_ascii _ (by decide) (by decide) (by decide)) b!"a\nb\n" rfl (short_sane (by decide)) [⟨.both false (.lit b!"1") [] [] (.lit b!"2") [], .change [b!"z"]⟩]
      (by
        intro c hc
        simp only [List.mem_singleton] at hc
        subst hc
        exact ⟨⟨⟨⟨by decide, by decide⟩, ⟨by decide, by decide⟩, (by intro c hc; cases hc), (by intro c hc; cases hc), (by intro c hc; cases hc)⟩, ⟨rfl, trivial, trivial⟩, ⟨by decide, by decide, by decide, by decide⟩, by decide⟩, by unfold TCmd.Texts; exact ⟨by decide, by decide, by decide⟩⟩)
      (plain_of _ (by decide)) true _ _ _ retry_followed.1 (by intro k h1 h2; simp [saves, fresh] at h2) b!"no" (by simp [saveTrace, statError, retryEnv, retryFiles, fresh, saves]) (hw _) st how hs he).2.2 (by decide)

end Ed
