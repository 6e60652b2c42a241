import Verif.Ed.Unsupported
import Verif.Ed.CurrentProps
import Verif.Ed.QuitProps
import Verif.Txt.NegativeProps

/-! # `d` with numbers that are no lines, or in the wrong order (C89, C106) -/

namespace Ed
open Go

/-- What `Delete` does when the first line comes after the second. -/
theorem delete_backwards {s : State} {ls : List Bytes} (h : Shows s ls) (hp : ∀ l ∈ ls, PlainLine l)
    (a b : Int) (h1 : -2 ^ 63 < b + 1) (h2 : b + 1 < a) (h3 : a < 2 ^ 63) :
    delete s a b = .ok { s with pt := s.pt.delete (-((unlines ((ls.take (index ls a)).drop (index ls (b + 1)))).length : Int)) (unlines (ls.take (index ls a))).length } := by
  have hi : index ls (b + 1) ≤ index ls a := by simp only [index]; omega
  have ha : (unlines (ls.take (index ls a))).length =
      (unlines (ls.take (index ls (b + 1)))).length + (unlines ((ls.take (index ls a)).drop (index ls (b + 1)))).length := by
    rw [unlines_split (ls.take (index ls a)) (index ls (b + 1)), List.length_append, List.take_take, Nat.min_eq_left hi]
  simp only [delete, getLineAddr_index h hp a (by omega) h3, wrap64_id (i := b + 1) (by omega) (by omega),
      getLineAddr_index h hp (b + 1) (by omega) (by omega)]
  congr 3
  omega

theorem addrLine_num (env : Env) (s : State) {a : Address} {n : Nat} (hd : Denotes a (.num n)) (hb : n < 2 ^ 63) : addrLine env s a = .ok n := by
  obtain ⟨h1, h2, h3, h4, h5⟩ := hd
  simp only [addrLine, h1, h2, atoi_digits _ h3 h4, h5]
  rw [if_pos hb]
  simp only [Int.add_zero]
  rw [wrap64_id (by omega) (by omega)]

theorem delete_num (env : Env) (s s1 : State) (c : Command) (hc : c.typ = .delete) {a b : Nat} (ha : Denotes c.start (.num a)) (hb : Denotes c.end_ (.num b))
    (h1 : a < 2 ^ 62) (h2 : b < 2 ^ 62) (hd : delete s a b = .ok s1) : processCommand env s c = .ok ({ s1 with currentLine := (a : Int) }, []) := by
  have hne : c.start.typ ≠ .null := by rw [ha.1]; decide
  simp only [processCommand, setDefault_given c hne, hc, addrLine_num env s ha (by omega), addrLine_num env s hb (by omega), bind, Except.bind, hd, lift,
    addrLine_num env s1 ha (by omega)]
  rfl

/-- **C89** `d` accepts all numbers: `a,bd` with a ≤ b+1 deletes those of the lines `a` to `b` that exist (none if there are none), without a
message, and line `a` is current, whether it exists or not. -/
theorem C89_delete_anywhere (env : Env) {s : State} {ls : List Bytes} (h : Shows s ls) (hc : Clean ls) (c : Command) (hty : c.typ = .delete) (a b : Nat)
    (ha : Denotes c.start (.num a)) (hb : Denotes c.end_ (.num b)) (h1 : a < 2 ^ 62) (h2 : b < 2 ^ 62) (hab : a ≤ b + 1) :
    ∃ s', processCommand env s c = .ok (s', []) ∧ Shows s' (ls.take (a - 1) ++ ls.drop b) ∧ s'.currentLine = a := by
  obtain ⟨pt', e, sh⟩ := delete_shows h hc.plain a b (by omega) (by omega) (by omega)
  refine ⟨_, delete_num env s _ c hty ha hb h1 h2 e, ?_, rfl⟩
  have i1 := index_clean hc.lastNe a
  have i2 : index ls ((b : Int) + 1) = min b ls.length := index_clean hc.lastNe (b + 1)
  rw [i1, i2] at sh
  have e1 : ls.take (min (a - 1) ls.length) = ls.take (a - 1) := by rw [← List.take_take, List.take_length]
  have e2 : ls.drop (min b ls.length) = ls.drop b := by
    by_cases hk : b ≤ ls.length
    · rw [Nat.min_eq_left hk]
    · rw [Nat.min_eq_right (by omega), List.drop_eq_nil_of_le (Nat.le_refl _), List.drop_eq_nil_of_le (by omega)]
  rw [e1, e2] at sh
  exact ⟨sh.reach, sh.text⟩

/-- **C106** In a buffer just opened `a,bd` with b+1 < a deletes nothing: the lines from `b+1` to `a-1` appear twice. -/
theorem C106_backwards (env : Env) {s : State} {ls : List Bytes} (cl : Bool) (h : s.pt = Txt.newPieceTable (unlines ls) cl (unlines ls).length) (hc : Clean ls)
    (c : Command) (hty : c.typ = .delete) (a b : Nat) (ha : Denotes c.start (.num a)) (hb : Denotes c.end_ (.num b)) (h1 : a < 2 ^ 62) (hab : b + 1 < a)
    (hl : b < ls.length) :
    ∃ s', processCommand env s c = .ok (s', []) ∧ s'.pt.string = .ok (unlines (ls.take (a - 1) ++ ls.drop b)) ∧ s'.currentLine = a := by
  have hr : Txt.Reachable s.pt := by rw [h]; exact .new (unlines ls) cl (unlines ls).length (Nat.le_refl _)
  have sh : Shows s ls := ⟨hr, by rw [Txt.string_wf hr.good.toWF, h, Txt.content_new, List.take_length]⟩
  have e := delete_backwards sh hc.plain a b (by omega) (by omega) (by omega)
  have i1 := index_clean hc.lastNe a
  have i2 : index ls ((b : Int) + 1) = min b ls.length := index_clean hc.lastNe (b + 1)
  have e1 : ls.take (min (a - 1) ls.length) = ls.take (a - 1) := by rw [← List.take_take, List.take_length]
  rw [i1, i2, e1, Nat.min_eq_left (by omega)] at e
  refine ⟨_, delete_num env s _ c hty ha hb h1 (by omega) e, ?_, rfl⟩
  show (s.pt.delete _ _).string = _
  rw [h]
  have hsplit := unlines_split (ls.take (a - 1)) b
  rw [List.take_take, Nat.min_eq_left (by omega)] at hsplit
  have hlen := congrArg List.length hsplit
  rw [List.length_append] at hlen
  have hle : (unlines (ls.take (a - 1))).length ≤ (unlines ls).length := by
    rw [unlines_split ls (a - 1), List.length_append]; omega
  have hpos : 0 < (unlines ((ls.take (a - 1)).drop b)).length := by
    cases hd : (ls.take (a - 1)).drop b with
    | nil =>
      have := congrArg List.length hd
      rw [List.length_drop, List.length_take, List.length_nil] at this
      omega
    | cons l r => simp [unlines]; omega
  rw [(Txt.C106_delete_negative_unedited (unlines ls) cl _ _ hpos hle).1 (by omega), take_unlines]
  have : (unlines (ls.take (a - 1))).length - (unlines ((ls.take (a - 1)).drop b)).length = (unlines (ls.take b)).length := by omega
  rw [this, drop_unlines, unlines_append]

/-- **C106** In any buffer: as many bytes as those lines have are added after line `a-1`, or the text is lost and every later command that looks at it
ends the program. It is never left as it was. -/
theorem C106_backwards_edited (env : Env) {s : State} {ls : List Bytes} (h : Shows s ls) (hc : Clean ls)
    (c : Command) (hty : c.typ = .delete) (a b : Nat) (ha : Denotes c.start (.num a)) (hb : Denotes c.end_ (.num b)) (h1 : a < 2 ^ 62) (hab : b + 1 < a)
    (hl : b < ls.length) :
    ∃ s', processCommand env s c = .ok (s', []) ∧ s'.currentLine = a ∧ ((∃ e, getLines s' = .error e) ∨
      ∃ g : Bytes, g.length = (unlines ((ls.take (a - 1)).drop b)).length ∧
        s'.pt.string = .ok (unlines (ls.take (a - 1)) ++ g ++ unlines (ls.drop (a - 1)))) := by
  have e := delete_backwards h hc.plain a b (by omega) (by omega) (by omega)
  have i1 := index_clean hc.lastNe a
  have i2 : index ls ((b : Int) + 1) = min b ls.length := index_clean hc.lastNe (b + 1)
  have e1 : ls.take (min (a - 1) ls.length) = ls.take (a - 1) := by rw [← List.take_take, List.take_length]
  rw [i1, i2, e1, Nat.min_eq_left (by omega)] at e
  refine ⟨_, delete_num env s _ c hty ha hb h1 (by omega) e, rfl, ?_⟩
  have hle : (unlines (ls.take (a - 1))).length ≤ (unlines ls).length := by
    rw [unlines_split ls (a - 1), List.length_append]; omega
  have hpos : 0 < (unlines ((ls.take (a - 1)).drop b)).length := by
    cases hd : (ls.take (a - 1)).drop b with
    | nil =>
      have := congrArg List.length hd
      rw [List.length_drop, List.length_take, List.length_nil] at this
      omega
    | cons l r => simp [unlines]; omega
  rcases Txt.C106_delete_negative h.reach h.text _ _ hpos hle with ⟨x, hx⟩ | ⟨g, hg, hx⟩
  · refine Or.inl ?_
    simp only [getLines, scanned, hx]
    exact ⟨_, rfl⟩
  · refine Or.inr ⟨g, hg, ?_⟩
    rw [take_unlines, drop_unlines] at hx
    exact hx

/-- `3,1d` on a file of three lines. -/
example : ∃ s', processCommand demoEnv (opened [b!"one", b!"two", b!"six"] 3) { typ := .delete, start := numAddr 3, end_ := numAddr 1 } = .ok (s', []) ∧
    s'.pt.string = .ok b!"one\ntwo\ntwo\nsix\n" ∧ s'.currentLine = (3 : Nat) :=
  C106_backwards demoEnv (s := opened [b!"one", b!"two", b!"six"] 3) (ls := [b!"one", b!"two", b!"six"]) true rfl (clean_of _ (by decide) (by decide)) { typ := .delete, start := numAddr 3, end_ := numAddr 1 } rfl 3 1
    (numAddr_denotes 3) (numAddr_denotes 1) (by decide) (by decide) (by decide)

/-- `4,9d` on a file of four lines, and `7,9d`. -/
example : ∃ s', processCommand demoEnv (opened demoLines 4) { typ := .delete, start := numAddr 4, end_ := numAddr 9 } = .ok (s', []) ∧
    Shows s' (demoLines.take 3) ∧ s'.currentLine = (4 : Nat) :=
  C89_delete_anywhere demoEnv (opened_shows demoLines 4) demo_clean { typ := .delete, start := numAddr 4, end_ := numAddr 9 } rfl 4 9
    (numAddr_denotes 4) (numAddr_denotes 9) (by decide) (by decide) (by decide)

example : ∃ s', processCommand demoEnv (opened demoLines 4) { typ := .delete, start := numAddr 7, end_ := numAddr 9 } = .ok (s', []) ∧
    Shows s' demoLines ∧ s'.currentLine = (7 : Nat) :=
  C89_delete_anywhere demoEnv (opened_shows demoLines 4) demo_clean { typ := .delete, start := numAddr 7, end_ := numAddr 9 } rfl 7 9
    (numAddr_denotes 7) (numAddr_denotes 9) (by decide) (by decide) (by decide)

example : ∃ s', processCommand demoEnv (opened demoLines 4) { typ := .delete, start := numAddr 3, end_ := numAddr 1 } = .ok (s', []) ∧
    s'.currentLine = (3 : Nat) ∧ ((∃ e, getLines s' = .error e) ∨ ∃ g : Bytes, g.length = (unlines ((demoLines.take 2).drop 1)).length ∧
        s'.pt.string = .ok (unlines (demoLines.take 2) ++ g ++ unlines (demoLines.drop 2))) :=
  C106_backwards_edited demoEnv (opened_shows demoLines 4) demo_clean { typ := .delete, start := numAddr 3, end_ := numAddr 1 } rfl 3 1
    (numAddr_denotes 3) (numAddr_denotes 1) (by decide) (by decide) (by decide)

/-- **C106** The expected statement is false: `ed f` on a file of three lines given `3,1d` and `w` leaves four lines in the file, without a message, for
every schedule. -/
theorem C106_counterexample (errText : Bytes → Bytes) (st : Sys) (how : End)
    (hs : Steps demoEnv (initial errText fresh3 b!"e f\n3,1d\nw\n") st) (he : st.cons.ended = some how) :
    how = .finished ∧ st.ed.fs b!"f" = some b!"one\ntwo\ntwo\nsix\n" ∧ results st.out = [b!"\n", b!"\n", b!"\n"] ∧ errors st.out = [] := by
  have h0 : program errText b!"e f\n3,1d\nw\n" = program (fun _ => []) b!"e f\n3,1d\nw\n" := by
    have g : texts b!"e f\n3,1d\nw\n" = [b!"e f", b!"3,1d", b!"w"] := by decide +kernel
    have p1 : ∃ cs, parseCommands (b!"e f" ++ [nl]) = some cs := Option.isSome_iff_exists.1 (by decide +kernel)
    have p2 : ∃ cs, parseCommands (b!"3,1d" ++ [nl]) = some cs := Option.isSome_iff_exists.1 (by decide +kernel)
    have p3 : ∃ cs, parseCommands (b!"w" ++ [nl]) = some cs := Option.isSome_iff_exists.1 (by decide +kernel)
    obtain ⟨_, p1⟩ := p1
    obtain ⟨_, p2⟩ := p2
    obtain ⟨_, p3⟩ := p3
    simp only [program, g, List.flatMap_cons, List.flatMap_nil, eventsOf_some p1, eventsOf_some p2, eventsOf_some p3]
  obtain ⟨h1, h2, -⟩ := C69_schedule_independent _ _ _ _ _ _ hs he
  rw [h0] at h1 h2
  have hk : ((sequential demoEnv fresh3 (sends (program (fun _ => []) b!"e f\n3,1d\nw\n"))).1 = .finished ∧
      (sequential demoEnv fresh3 (sends (program (fun _ => []) b!"e f\n3,1d\nw\n"))).2.1.fs b!"f" = some b!"one\ntwo\ntwo\nsix\n" ∧
      (sequential demoEnv fresh3 (sends (program (fun _ => []) b!"e f\n3,1d\nw\n"))).2.2 = [b!"\n", b!"\n", b!"\n"]) := by decide +kernel
  rw [h1] at hk
  refine ⟨hk.1, hk.2.1, hk.2.2, ?_⟩
  rw [show reports (program (fun _ => []) b!"e f\n3,1d\nw\n") = [] by decide +kernel, List.prefix_nil] at h2
  exact h2

end Ed
