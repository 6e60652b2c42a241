import Verif.Ed.BlankEnd
import Verif.Ed.Returns

/-! # C151: what ed does depends on the text, not on how it came about -/

namespace Ed
open Go

/-! ## Specification -/

/-- Texts that are empty or end in a newline. -/
def Terminated (t : Bytes) : Prop := t = [] ∨ t.getLast? = some nl

/-- Two editors a user should not be able to tell apart: the same text, terminated, and the same current line, file name and files.
How the text is held, in which pieces and where, may be different. -/
structure Twins (s1 s2 : State) : Prop where
  reach1 : Txt.Reachable s1.pt
  reach2 : Txt.Reachable s2.pt
  text : ∃ t, s1.pt.string = .ok t ∧ s2.pt.string = .ok t ∧ Terminated t
  cur : s1.currentLine = s2.currentLine
  name : s1.filename = s2.filename
  files : s1.fs = s2.fs
  saves : s1.writes = s2.writes

/-- What can be observed of two editors is the same. -/
structure SameView (s1 s2 : State) : Prop where
  text : s1.pt.string = s2.pt.string
  cur : s1.currentLine = s2.currentLine
  name : s1.filename = s2.filename
  files : s1.fs = s2.fs

/-- Commands whose effect is settled by the text: ranges of `d` and `c` are not backwards, and `w` can save. -/
def Settled (env : Env) (s : State) (c : Command) : Prop :=
  (c.typ = .delete ∨ c.typ = .change → ∀ a b, addrLine env s (setDefaultAddresses c).start = .ok a →
    addrLine env s (setDefaultAddresses c).end_ = .ok b → -2 ^ 63 < a ∧ a ≤ b + 1 ∧ b + 1 < 2 ^ 63) ∧
  (c.typ = .write → ∀ t, s.pt.string = .ok t → (saveTrace (env.outcome s.writes) s.fs s.filename t).2 = none)

/-- All commands of a session, as it goes along. -/
def AllSettled (env : Env) : State → List Command → Prop
  | _, [] => True
  | s, c :: cs => Settled env s c ∧ ∀ s' o, processCommand env s c = .ok (s', o) → AllSettled env s' cs

/-- The same results, the same crash, or the same endless loop; what `P` says of the states. -/
def SameEnd {α : Type} (P : State → State → Prop) : R (State × α) → R (State × α) → Prop
  | .ok (s1, o1), .ok (s2, o2) => P s1 s2 ∧ o1 = o2
  | .error f, .error g => f = g
  | _, _ => False

/-! ## Lemmas on offsets -/

theorem scan_map {ls : List Bytes} (h : (scanTokens ls).2 = false) : (scanTokens ls).1 = ls.map dropCR := by
  induction ls with
  | nil => rfl
  | cons l ls ih =>
    rw [scanTokens] at h ⊢
    split at h
    · rename_i hl
      rw [if_pos hl]
      simp [ih h]
    · cases h

theorem dropCR_length (l : Bytes) : (dropCR l).length ≤ l.length := by
  unfold dropCR; split <;> simp

theorem width_append (x y : List Bytes) : width (x ++ y) = width x + width y := by
  induction x with
  | nil => simp [width]
  | cons l x ih => simp only [List.cons_append, width, ih]; omega

theorem width_le : ∀ ls : List Bytes, width (ls.map dropCR) ≤ (unlines ls).length := by
  intro ls
  induction ls with
  | nil => exact Nat.le_refl _
  | cons l ls ih =>
    have := dropCR_length l
    simp only [List.map_cons, width, unlines, List.length_append, List.length_cons]
    omega

/-- The lines seen are the first of the raw lines, without carriage returns. -/
theorem seen_form {s : State} {t : Bytes} (ht : s.pt.string = .ok t) {vis : List Bytes} (h : getLines s = .ok vis) :
    ∃ raw' rest, rawLines t = raw' ++ rest ∧ vis = raw'.map dropCR := by
  simp only [getLines, scanned, ht] at h
  split at h
  · cases h
  · rename_i x hx
    split at hx
    · cases hx
    · rename_i hf
      cases hx
      cases h
      have h2 : (scanTokens (rawLines t)).2 = false := by
        have : (scanLines t).2 = false := by simpa using hf
        exact this
      have e : (scanLines t).1 = (rawLines t).map dropCR := scan_map h2
      rw [e, dropBlank]
      split
      · refine ⟨(rawLines t).dropLast, (rawLines t).drop ((rawLines t).length - 1), ?_, List.map_dropLast.symm⟩
        rw [List.dropLast_eq_take, List.take_append_drop]
      · exact ⟨rawLines t, [], by simp, rfl⟩

/-- An offset is the width of some of the first lines seen. -/
theorem offset_form {s : State} {vis : List Bytes} (h : getLines s = .ok vis) {n o : Int} (ho : getLineAddr s n = .ok o) :
    ∃ i, i ≤ vis.length ∧ o = (width (vis.take i) : Nat) ∧ (-2 ^ 63 < n → n < 2 ^ 63 → i = min (n - 1).toNat vis.length) := by
  simp only [getLineAddr, h] at ho
  split at ho
  · rename_i hn
    cases ho
    refine ⟨vis.length, Nat.le_refl _, by simp, fun _ _ => by omega⟩
  · rename_i hn
    split at ho
    · rename_i hk
      cases ho
      refine ⟨_, hk, rfl, fun h1 h2 => ?_⟩
      rw [wrap64_id (by omega) (by omega)] at hk ⊢
      omega
    · cases ho

theorem offset_bound {s : State} {t : Bytes} (ht : s.pt.string = .ok t) (hterm : Terminated t) {n o : Int} (ho : getLineAddr s n = .ok o) :
    ∃ k : Nat, o = k ∧ k ≤ t.length := by
  cases hg : getLines s with
  | error p => simp [getLineAddr, hg] at ho
  | ok vis =>
    obtain ⟨i, hi, e, _⟩ := offset_form hg ho
    obtain ⟨raw', rest, e1, e2⟩ := seen_form ht hg
    refine ⟨_, e, ?_⟩
    have h1 := (unlines_rawLines t).1 hterm
    rw [← h1, e1, e2, ← List.map_take]
    refine Nat.le_trans (width_le _) ?_
    have := unlines_split raw' i
    rw [unlines_append, List.length_append, this, List.length_append]
    omega

/-! ## Edits of twins -/

theorem terminated_insert {t x : Bytes} (h : Terminated t) (k : Nat) : Terminated (t.take k ++ (x ++ [nl]) ++ t.drop k) := by
  right
  by_cases hk : t.drop k = []
  · simp [hk]
  · rw [List.getLast?_append, List.getLast?_drop]
    have hlt : ¬ t.length ≤ k := fun hle => hk (List.drop_eq_nil_of_le hle)
    rw [if_neg hlt]
    rcases h with h | h
    · simp [h] at hlt
    · simp [h]

theorem terminated_unlines (ls : List Bytes) : Terminated (unlines ls) := by
  cases ls with
  | nil => left; rfl
  | cons l ls =>
    right
    induction ls generalizing l with
    | nil => simp [unlines]
    | cons m ls ih =>
      have := ih m
      rw [unlines, List.getLast?_append, List.getLast?_cons, this]
      simp

theorem terminated_delete {t : Bytes} (h : Terminated t) (raw' rest : List Bytes) (e : rawLines t = raw' ++ rest) (i j : Nat) (hij : i ≤ j)
    (hj : j ≤ raw'.length) :
    width ((raw'.map dropCR).take i) ≤ width ((raw'.map dropCR).take j) ∧ width ((raw'.map dropCR).take j) ≤ t.length ∧
    Terminated (t.take (width ((raw'.map dropCR).take i)) ++ t.drop (width ((raw'.map dropCR).take j))) := by
  have ht := (unlines_rawLines t).1 h
  have hsplit : (raw'.take j) = raw'.take i ++ (raw'.take j).drop i := by
    have := List.take_append_drop i (raw'.take j)
    rw [List.take_take, Nat.min_eq_left hij] at this
    exact this.symm
  have hw : width ((raw'.map dropCR).take j) = width ((raw'.map dropCR).take i) + width (((raw'.take j).drop i).map dropCR) := by
    rw [← List.map_take, hsplit, List.map_append, width_append, ← List.map_take, ← hsplit]
  have hl : t.length = (unlines (raw'.take i)).length + (unlines ((raw'.take j).drop i)).length + (unlines (raw'.drop j ++ rest)).length := by
    conv => lhs; rw [← ht, e, ← List.take_append_drop j raw', hsplit]
    simp only [unlines_append, List.length_append]
    omega
  have w1 := width_le (raw'.take i)
  have w2 := width_le ((raw'.take j).drop i)
  rw [List.map_take] at w1
  refine ⟨by omega, by omega, ?_⟩
  by_cases hend : width ((raw'.map dropCR).take j) = t.length
  · -- every width is right then
    have h1 : width ((raw'.map dropCR).take i) = (unlines (raw'.take i)).length := by omega
    have h2 : t.take (width ((raw'.map dropCR).take i)) = unlines (raw'.take i) := by
      rw [h1, ← ht, e, ← List.take_append_drop i raw', List.append_assoc, unlines_append]
      rw [List.take_append_drop i raw', List.take_left]
    rw [hend, List.drop_length, List.append_nil, h2]
    exact terminated_unlines _
  · right
    rw [List.getLast?_append, List.getLast?_drop, if_neg (by omega)]
    rcases h with h | h
    · simp [h] at hend hl ⊢
      omega
    · simp [h]

theorem Twins.lines {s1 s2 : State} (h : Twins s1 s2) : scanned s1 = scanned s2 ∧ getLines s1 = getLines s2 := by
  obtain ⟨t, h1, h2, _⟩ := h.text
  have e : scanned s1 = scanned s2 := by simp only [scanned, h1, h2]
  exact ⟨e, by simp only [getLines, e]⟩

theorem Twins.addr {s1 s2 : State} (h : Twins s1 s2) (n : Int) : getLineAddr s1 n = getLineAddr s2 n := by
  simp only [getLineAddr, h.lines.2]

theorem Twins.address {s1 s2 : State} (h : Twins s1 s2) (env : Env) (a : Address) : addrLine env s1 a = addrLine env s2 a := by
  simp only [addrLine, regexMatch, h.lines.2, h.cur]

theorem Twins.at {s1 s2 : State} (h : Twins s1 s2) (n : Int) : Twins { s1 with currentLine := n } { s2 with currentLine := n } :=
  ⟨h.reach1, h.reach2, h.text, rfl, h.name, h.files, h.saves⟩

/-- The same outcome of an edit. -/
def SameM : M State → M State → Prop
  | .ok s1, .ok s2 => Twins s1 s2
  | .error p, .error q => p = q
  | _, _ => False

theorem Twins.insert {s1 s2 : State} (h : Twins s1 s2) (n : Int) (x : Bytes) : SameM (insertBeforeLine s1 n x) (insertBeforeLine s2 n x) := by
  obtain ⟨t, h1, h2, h3⟩ := h.text
  simp only [insertBeforeLine, ← h.addr n]
  cases ho : getLineAddr s1 n with
  | error p => simp only [SameM]
  | ok o =>
    obtain ⟨k, rfl, hk⟩ := offset_bound h1 h3 ho
    obtain ⟨p1, e1, r1, t1⟩ := Txt.C01_insert_splices h.reach1 h1 (x ++ [nl]) k hk
    obtain ⟨p2, e2, r2, t2⟩ := Txt.C01_insert_splices h.reach2 h2 (x ++ [nl]) k hk
    simp only [e1, e2, SameM]
    exact ⟨r1, r2, ⟨_, t1, t2, terminated_insert h3 k⟩, h.cur, h.name, h.files, h.saves⟩

theorem Twins.delete {s1 s2 : State} (h : Twins s1 s2) (a b : Int) (ha : -2 ^ 63 < a) (hab : a ≤ b + 1) (hb : b + 1 < 2 ^ 63) :
    SameM (delete s1 a b) (delete s2 a b) := by
  obtain ⟨t, h1, h2, h3⟩ := h.text
  simp only [Ed.delete, ← h.addr]
  rw [wrap64_id (i := b + 1) (by omega) hb]
  cases ho : getLineAddr s1 a with
  | error p => simp only [SameM]
  | ok o =>
    cases ho' : getLineAddr s1 (b + 1) with
    | error p => simp only [SameM]
    | ok o' =>
      cases hg : getLines s1 with
      | error p => simp [getLineAddr, hg] at ho
      | ok vis =>
        obtain ⟨i, hi, e, ei⟩ := offset_form hg ho
        obtain ⟨j, hj, e', ej⟩ := offset_form hg ho'
        have ei := ei ha (by omega)
        have ej := ej (by omega) hb
        obtain ⟨raw', rest, er, ev⟩ := seen_form h1 hg
        subst ev
        have hlen : (raw'.map dropCR).length = raw'.length := List.length_map ..
        obtain ⟨w1, w2, w3⟩ := terminated_delete h3 raw' rest er i j (by omega) (by omega)
        have ed : o' - o = ((width ((raw'.map dropCR).take j) - width ((raw'.map dropCR).take i) : Nat) : Int) := by omega
        simp only [SameM]
        rw [ed, e]
        generalize width ((raw'.map dropCR).take i) = A at *
        generalize width ((raw'.map dropCR).take j) = B at *
        have hA : A + (B - A) = B := by omega
        have t1 := Txt.C02_delete_cuts h.reach1 h1 (B - A) A (by omega)
        have t2 := Txt.C02_delete_cuts h.reach2 h2 (B - A) A (by omega)
        rw [hA] at t1 t2
        exact ⟨reachable_delete h.reach1 h1 _ _ (by omega), reachable_delete h.reach2 h2 _ _ (by omega), ⟨_, t1, t2, w3⟩,
          h.cur, h.name, h.files, h.saves⟩

/-! ## Commands -/

theorem sameEnd_refl {α : Type} {P : State → State → Prop} (hP : ∀ s, P s s) (r : R (State × α)) : SameEnd P r r := by
  cases r with
  | error f => simp only [SameEnd]
  | ok x => exact ⟨hP _, rfl⟩

/-- Twins, or the very same. -/
def Alike (s1 s2 : State) : Prop := s1 = s2 ∨ Twins s1 s2

theorem Twins.print {s1 s2 : State} (h : Twins s1 s2) (env : Env) (a b : Int) : print env s1 a b = print env s2 a b := by
  simp only [Ed.print, h.lines.1]

theorem Twins.number {s1 s2 : State} (h : Twins s1 s2) (a b : Int) : number s1 a b = number s2 a b := by
  simp only [Ed.number, h.lines.2]

theorem edit_alike {s1 s2 : State} (env : Env) (name : Bytes) (hf : s1.fs = s2.fs) (hw : s1.writes = s2.writes) {d : Bytes}
    (hd : s1.fs name = some d) : edit env s1 name = edit env s2 name := by
  obtain ⟨p1, n1, c1, f1, w1⟩ := s1
  obtain ⟨p2, n2, c2, f2, w2⟩ := s2
  simp only at hf hw hd
  subst hf
  subst hw
  simp only [edit, hd]
  rfl

/-- One command given to twins. -/
theorem Twins.command {s1 s2 : State} (h : Twins s1 s2) (env : Env) (c : Command) (hs : Settled env s1 c) :
    SameEnd Alike (processCommand env s1 c) (processCommand env s2 c) := by
  obtain ⟨hs1, hs2⟩ := hs
  rw [processCommand, processCommand]
  simp only [typ_setDefault, text_setDefault]
  have ha := h.address env
  cases ht : c.typ <;> simp only [← ha, bind, Except.bind, pure, Except.pure]
  case edit =>
    cases hd : s1.fs ((setDefaultAddresses c).params.headD []) with
    | none =>
      have hd2 : s2.fs ((setDefaultAddresses c).params.headD []) = none := by rw [← h.files]; exact hd
      simp only [edit, hd, hd2, lift]
      exact ⟨.inr h, rfl⟩
    | some d =>
      rw [edit_alike env _ h.files h.saves hd]
      exact sameEnd_refl (fun _ => .inl rfl) _
  case print =>
    cases addrLine env s1 (setDefaultAddresses c).start with
    | error f => rfl
    | ok a =>
      cases addrLine env s1 (setDefaultAddresses c).end_ with
      | error f => rfl
      | ok b =>
        simp only [← h.print]
        cases Ed.print env s1 a b with
        | error f => rfl
        | ok o => exact ⟨.inr h, rfl⟩
  case number =>
    cases addrLine env s1 (setDefaultAddresses c).start with
    | error f => rfl
    | ok a =>
      cases addrLine env s1 (setDefaultAddresses c).end_ with
      | error f => rfl
      | ok b =>
        simp only [← h.number]
        cases Ed.number s1 a b with
        | error f => rfl
        | ok o => exact ⟨.inr h, rfl⟩
  case null =>
    cases addrLine env s1 (setDefaultAddresses c).start with
    | error f => rfl
    | ok a =>
      simp only [← (h.at a).print]
      cases Ed.print env { s1 with currentLine := a } a a with
      | error f => rfl
      | ok o => exact ⟨.inr (h.at a), rfl⟩
  case lineNumber =>
    cases addrLine env s1 (setDefaultAddresses c).start with
    | error f => rfl
    | ok a => exact ⟨.inr h, rfl⟩
  case append =>
    cases addrLine env s1 (setDefaultAddresses c).start with
    | error f => rfl
    | ok a =>
      have hi := h.insert (wrap64 (a + 1)) c.text
      simp only
      cases e1 : insertBeforeLine s1 (wrap64 (a + 1)) c.text <;> cases e2 : insertBeforeLine s2 (wrap64 (a + 1)) c.text <;>
        rw [e1, e2] at hi <;> simp only [SameM] at hi
      · rw [hi]; rfl
      · exact ⟨.inr (hi.at _), rfl⟩
  case insert =>
    cases addrLine env s1 (setDefaultAddresses c).start with
    | error f => rfl
    | ok a =>
      have hi := h.insert a c.text
      simp only
      cases e1 : insertBeforeLine s1 a c.text <;> cases e2 : insertBeforeLine s2 a c.text <;>
        rw [e1, e2] at hi <;> simp only [SameM] at hi
      · rw [hi]; rfl
      · exact ⟨.inr hi, rfl⟩
  case delete =>
    cases ea : addrLine env s1 (setDefaultAddresses c).start with
    | error f => rfl
    | ok a =>
      cases eb : addrLine env s1 (setDefaultAddresses c).end_ with
      | error f => rfl
      | ok b =>
        obtain ⟨g1, g2, g3⟩ := hs1 (.inl ht) a b ea eb
        have hi := h.delete a b g1 g2 g3
        simp only
        cases e1 : Ed.delete s1 a b <;> cases e2 : Ed.delete s2 a b <;> rw [e1, e2] at hi <;> simp only [SameM] at hi
        · rw [hi]; rfl
        · rename_i u1 u2
          simp only [lift, ← hi.address env]
          cases addrLine env u1 (setDefaultAddresses c).start with
          | error f => rfl
          | ok d => exact ⟨.inr (hi.at d), rfl⟩
  case change =>
    cases ea : addrLine env s1 (setDefaultAddresses c).start with
    | error f => rfl
    | ok a =>
      cases eb : addrLine env s1 (setDefaultAddresses c).end_ with
      | error f => rfl
      | ok b =>
        obtain ⟨g1, g2, g3⟩ := hs1 (.inr ht) a b ea eb
        have hi := h.delete a b g1 g2 g3
        simp only
        cases e1 : Ed.delete s1 a b <;> cases e2 : Ed.delete s2 a b <;> rw [e1, e2] at hi <;> simp only [SameM] at hi
        · rw [hi]; rfl
        · rename_i u1 u2
          simp only [lift, ← hi.address env]
          cases addrLine env u1 (setDefaultAddresses c).start with
          | error f => rfl
          | ok d =>
            have hj := hi.insert d c.text
            simp only
            cases e3 : insertBeforeLine u1 d c.text <;> cases e4 : insertBeforeLine u2 d c.text <;> rw [e3, e4] at hj <;>
              simp only [SameM] at hj
            · rw [hj]; rfl
            · rename_i v1 v2
              simp only [← hj.address env]
              cases addrLine env v1 (setDefaultAddresses c).start with
              | error f => rfl
              | ok d => exact ⟨.inr (hj.at _), rfl⟩
  case write =>
    obtain ⟨t, h1, h2, _⟩ := h.text
    have hok := hs2 ht t h1
    have hfin := ((C70_outcome (env.outcome s1.writes) s1.fs s1.filename t).1 hok).1
    have e : write env s1 = write env s2 := by
      have hok2 := hok
      rw [h.saves, h.files, h.name] at hok2
      have hfin2 := hfin
      rw [h.saves, h.files, h.name] at hfin2
      simp only [write, h1, h2, hok, hok2]
      rw [edit_alike env s1.filename (s2 := { s2 with pt := s2.pt.close, fs := finalFS s2.fs (saveTrace (env.outcome s2.writes) s2.fs s2.filename t).1, writes := s2.writes + 1 })
        (by simp only [h.files, h.saves, h.name]) (by simp only [h.saves]) hfin, h.name]
    rw [e]
    exact sameEnd_refl (fun _ => .inl rfl) _
  all_goals exact ⟨.inr h, rfl⟩

theorem Alike.view {s1 s2 : State} (h : Alike s1 s2) : SameView s1 s2 := by
  rcases h with rfl | h
  · exact ⟨rfl, rfl, rfl, rfl⟩
  · obtain ⟨t, h1, h2, _⟩ := h.text
    exact ⟨h1.trans h2.symm, h.cur, h.name, h.files⟩

theorem Alike.session (env : Env) : ∀ (cs : List Command) {s1 s2 : State}, Alike s1 s2 → AllSettled env s1 cs →
    SameEnd Alike (runAll env s1 cs) (runAll env s2 cs) := by
  intro cs
  induction cs with
  | nil => intro s1 s2 h _; exact ⟨h, rfl⟩
  | cons c cs ih =>
    intro s1 s2 h hs
    rcases h with rfl | h
    · exact sameEnd_refl (fun _ => .inl rfl) _
    · obtain ⟨hs1, hs2⟩ := hs
      have hc := h.command env c hs1
      simp only [runAll]
      cases e1 : processCommand env s1 c with
      | error f =>
        cases e2 : processCommand env s2 c with
        | error g => rw [e1, e2] at hc; exact hc
        | ok y => rw [e1, e2] at hc; exact hc.elim
      | ok x =>
        cases e2 : processCommand env s2 c with
        | error g => rw [e1, e2] at hc; exact hc.elim
        | ok y =>
          rw [e1, e2] at hc
          obtain ⟨u1, o1⟩ := x
          obtain ⟨u2, o2⟩ := y
          obtain ⟨ha, rfl⟩ := hc
          have := ih ha (hs2 u1 o1 e1)
          simp only
          cases f1 : runAll env u1 cs with
          | error f =>
            cases f2 : runAll env u2 cs with
            | error g => rw [f1, f2] at this; exact this
            | ok y => rw [f1, f2] at this; exact this.elim
          | ok x =>
            cases f2 : runAll env u2 cs with
            | error g => rw [f1, f2] at this; exact this.elim
            | ok y =>
              rw [f1, f2] at this
              obtain ⟨v1, p1⟩ := x
              obtain ⟨v2, p2⟩ := y
              exact ⟨this.1, by rw [this.2]⟩

/-! ## C151 -/

/-- **C151** (partial: backwards ranges and failing saves are excepted, see below) Two editors with the same text, current line and
files, whatever was done to get there: any commands print the same, end the same way (also if that is a crash or an endless loop), and
leave the same text, current line and files. The text may contain anything, also carriage returns and lines too long to be read. -/
theorem C151_same_text_same_future_partial (env : Env) (cs : List Command) {s1 s2 : State} (h : Twins s1 s2) (hs : AllSettled env s1 cs) :
    SameEnd SameView (runAll env s1 cs) (runAll env s2 cs) := by
  have := Alike.session env cs (.inr h) hs
  cases e1 : runAll env s1 cs with
  | error f =>
    cases e2 : runAll env s2 cs with
    | error g => rw [e1, e2] at this; exact this
    | ok y => rw [e1, e2] at this; exact this.elim
  | ok x =>
    cases e2 : runAll env s2 cs with
    | error g => rw [e1, e2] at this; exact this.elim
    | ok y => rw [e1, e2] at this; exact ⟨this.1.view, this.2⟩

/-- **C151** In particular an editor whose buffer was edited, and one that just opened a file with the same text. -/
theorem C151_as_if_opened (env : Env) {s : State} {t : Bytes} (hr : Txt.Reachable s.pt) (ht : s.pt.string = .ok t) (hterm : Terminated t)
    (cs : List Command) (hs : AllSettled env s cs) :
    SameEnd SameView (runAll env s cs) (runAll env { s with pt := Txt.newPieceTable t true t.length } cs) := by
  have r : Txt.Reachable (Txt.newPieceTable t true t.length) := .new t true t.length (Nat.le_refl _)
  refine C151_same_text_same_future_partial env cs ⟨hr, r, ⟨t, ht, ?_, hterm⟩, rfl, rfl, rfl, rfl⟩ hs
  rw [Txt.string_wf r.good.toWF]
  simp [Txt.newPieceTable, Txt.content, Txt.Piece.text, Txt.src]

/-- **C151** Sessions are unlike only if they make unlike texts: after two sessions on any two files of plain lines that end with the same
lines and the same current line, every further session goes the same way. -/
theorem C151_sessions (env : Env) {s1 s2 : State} {st1 st2 : LState} (h1 : Shows s1 st1.lines) (h2 : Shows s2 st2.lines)
    (p1 : ∀ l ∈ st1.lines, PlainLine l) (p2 : ∀ l ∈ st2.lines, PlainLine l) (c1 : s1.currentLine = st1.cur) (c2 : s2.currentLine = st2.cur)
    (l1 : st1.lines.length < 2 ^ 62) (l2 : st2.lines.length < 2 ^ 62) (hn : s1.filename = s2.filename) (hf : s1.fs = s2.fs)
    (scs1 scs2 : List SCmd) (cs1 cs2 : List Command) (hs1 : SaysAll cs1 scs1) (hs2 : SaysAll cs2 scs2)
    (f1 : SessionFine st1 scs1) (f2 : SessionFine st2 scs2) (hsame : sessionMakes st1 scs1 = sessionMakes st2 scs2) :
    ∃ s1' s2' o1 o2, runAll env s1 cs1 = .ok (s1', o1) ∧ runAll env s2 cs2 = .ok (s2', o2) ∧
      ∀ cs, s1'.writes = s2'.writes → AllSettled env s1' cs → SameEnd SameView (runAll env s1' cs) (runAll env s2' cs) := by
  obtain ⟨s1', e1, sh1, d1, g1, n1⟩ := C150_session env scs1 cs1 h1 p1 c1 l1 hs1 f1
  obtain ⟨s2', e2, sh2, d2, g2, n2⟩ := C150_session env scs2 cs2 h2 p2 c2 l2 hs2 f2
  refine ⟨s1', s2', _, _, e1, e2, fun cs hw hs => ?_⟩
  rw [hsame] at sh1 d1
  exact C151_same_text_same_future_partial env cs ⟨sh1.reach, sh2.reach, ⟨_, sh1.text, sh2.text, terminated_unlines _⟩, d1.trans d2.symm,
    by rw [n1, n2, hn], by rw [g1, g2, hf], hw⟩ hs

/-! ## Where it is false -/

/-- The address of a literal line number. -/
def litAddr (t : Bytes) : Address := ⟨.num, t, 0⟩

/-- An editor on the file `a b c d` (each on its line) after `2d`, at line 3. -/
def cutEditor : State :=
  { opened [b!"a", b!"b", b!"c", b!"d"] 3 with pt := (opened [b!"a", b!"b", b!"c", b!"d"] 3).pt.delete 2 2 }

/-- An editor on the file `a c d`, at line 3. -/
def wholeEditor : State := { cutEditor with pt := Txt.newPieceTable b!"a\nc\nd\n" true 6 }

theorem cut_whole : Twins cutEditor wholeEditor :=
  ⟨.delete 2 2 (by decide) (by decide) (opened_shows _ _).reach (.inl (by decide)), .new _ true 6 (by decide),
    ⟨b!"a\nc\nd\n", by decide, by decide, by right; decide⟩, rfl, rfl, rfl, rfl⟩

example : AllSettled demoEnv cutEditor [{ typ := .delete, start := litAddr b!"1", end_ := litAddr b!"2" }, { typ := .print, start := litAddr b!"1", end_ := litAddr b!"1" }] := by
  refine ⟨⟨fun _ a b h1 h2 => ?_, fun h => (by cases h)⟩, fun s' o _ => ⟨⟨fun h => (by rcases h with h | h <;> cases h), fun h => (by cases h)⟩,
    fun _ _ _ => trivial⟩⟩
  have e1 : addrLine demoEnv cutEditor (litAddr b!"1") = .ok 1 := by decide
  have e2 : addrLine demoEnv cutEditor (litAddr b!"2") = .ok 2 := by decide
  have h1 := e1.symm.trans h1
  have h2 := e2.symm.trans h2
  cases h1
  cases h2
  decide

/-- **C151** is false for backwards ranges: the two editors show the same text, but `3,0d` makes different ones of them. In the first a line
comes back that was deleted. -/
theorem C151_backwards_differs :
    Twins cutEditor wholeEditor ∧
    ∃ s1 s2, processCommand demoEnv cutEditor { typ := .delete, start := litAddr b!"3", end_ := litAddr b!"0" } = .ok (s1, []) ∧
      processCommand demoEnv wholeEditor { typ := .delete, start := litAddr b!"3", end_ := litAddr b!"0" } = .ok (s2, []) ∧
      s1.pt.string = .ok b!"a\nc\nb\nc\nd\n" ∧ s2.pt.string = .ok b!"a\nc\na\nc\nd\n" :=
  ⟨cut_whole, _, _, rfl, rfl, by decide, by decide⟩

/-- Saving fails: the temporary file cannot be renamed. -/
def noRename : Env := { demoEnv with outcome := fun _ => { rename := some b!"no" } }

/-- An editor that opened the file `f` with the line `a`. -/
def readEditor : State := opened [b!"a"] 1

/-- An editor in which the line `a` was typed. -/
def typedEditor : State :=
  { readEditor with pt := match (Txt.newPieceTable [] true 0).insert b!"a\n" 0 with | .ok pt => pt | .error _ => Txt.newPieceTable [] true 0 }

theorem typed_read : Twins typedEditor readEditor := by
  refine ⟨?_, (opened_shows _ _).reach, ⟨b!"a\n", by decide, by decide, by right; decide⟩, rfl, rfl, rfl, rfl⟩
  exact .insert b!"a\n" 0 (by decide) (.new [] true 0 (by decide)) rfl

/-- **C151** is false after a `w` that fails: a text that was typed can still be printed, the same text read from a file cannot, and ed
crashes. -/
theorem C151_failed_save_differs :
    Twins typedEditor readEditor ∧
    (∃ s1, runAll noRename typedEditor [{ typ := .write }, { typ := .print, start := litAddr b!"1", end_ := litAddr b!"1" }] =
      .ok (s1, [b!"?no", b!"a"])) ∧
    ∃ p, runAll noRename readEditor [{ typ := .write }, { typ := .print, start := litAddr b!"1", end_ := litAddr b!"1" }] = .error (.panic p) :=
  ⟨typed_read, ⟨_, rfl⟩, ⟨_, rfl⟩⟩

/-- An editor on a file with the text `b` that has no newline, after a line `a` was put before it. -/
def openTyped : State :=
  { readEditor with pt := match (Txt.newPieceTable b!"b" true 1).insert b!"a\n" 0 with | .ok pt => pt | .error _ => Txt.newPieceTable [] true 0 }

/-- An editor on a file with that text. -/
def openRead : State := { readEditor with pt := Txt.newPieceTable b!"a\nb" true 3 }

/-- **C151** is false for texts that do not end in a newline: `2,2d` deletes the last line in one editor and not in the other. -/
theorem C151_unterminated_differs :
    SameView openTyped openRead ∧
    ∃ s1 s2, processCommand demoEnv openTyped { typ := .delete, start := litAddr b!"2", end_ := litAddr b!"2" } = .ok (s1, []) ∧
      processCommand demoEnv openRead { typ := .delete, start := litAddr b!"2", end_ := litAddr b!"2" } = .ok (s2, []) ∧
      s1.pt.string = .ok b!"a\nb" ∧ s2.pt.string = .ok b!"a\n" :=
  ⟨⟨by decide, rfl, rfl, rfl⟩, _, _, rfl, rfl, by decide, by decide⟩

end Ed
