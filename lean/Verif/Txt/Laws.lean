import Verif.Txt.Props

/-! # How edits of a piece table go together (C135) -/

namespace Txt
open Go

/-! ## Specification -/

/-- Replace `n` bytes at `a` by `x`, by two calls. -/
def replaced (a n : Nat) (x : Bytes) : List Op := [.delete n a, .insert x a]

/-- The history does not panic and leaves this text. -/
def Leaves (pt : PieceTable) (ops : List Op) (t : Bytes) : Prop := ∃ pt', pt.run ops = .ok pt' ∧ pt'.string = .ok t

/-! ## Histories from any table -/

theorem run_text {pt : PieceTable} (h : Reachable pt) {t : Bytes} (ht : pt.string = .ok t) {ops : List Op} {t' : Bytes}
    (hr : textRun t ops = some t') : ∃ pt', pt.run ops = .ok pt' ∧ Reachable pt' ∧ pt'.string = .ok t' := by
  induction ops generalizing pt t with
  | nil => cases hr; exact ⟨pt, rfl, h, ht⟩
  | cons o os ih =>
    simp only [textRun, Option.bind_eq_some_iff] at hr
    obtain ⟨u, hu, hr⟩ := hr
    cases o with
    | insert x a =>
      simp only [Op.onText] at hu
      split at hu
      · rename_i ha
        cases hu
        obtain ⟨k, rfl⟩ := Int.eq_ofNat_of_zero_le ha.1
        obtain ⟨q, h1, h2, h3⟩ := C01_insert_splices h ht x k (by omega)
        obtain ⟨pt', r1, r2⟩ := ih h2 h3 hr
        refine ⟨pt', ?_, r2⟩
        simp only [PieceTable.run, PieceTable.apply]
        rw [show pt.insert x (k : Int) = .ok q from h1]
        exact r1
      · cases hu
    | delete n a =>
      simp only [Op.onText] at hu
      split at hu
      · rename_i ha
        cases hu
        obtain ⟨k, rfl⟩ := Int.eq_ofNat_of_zero_le ha.1
        obtain ⟨j, rfl⟩ := Int.eq_ofNat_of_zero_le ha.2.1
        have h3 := C02_delete_cuts h ht k j (by omega)
        obtain ⟨pt', r1, r2⟩ := ih (.delete _ _ (by omega) (by omega) h (.inr ⟨t, ht, ha.2.2⟩)) h3 hr
        exact ⟨pt', r1, r2⟩
      · cases hu

theorem leaves_text {pt : PieceTable} (h : Reachable pt) {t : Bytes} (ht : pt.string = .ok t) {ops : List Op} {t' : Bytes}
    (hr : textRun t ops = some t') : Leaves pt ops t' := by
  obtain ⟨pt', h1, -, h2⟩ := run_text h ht hr
  exact ⟨pt', h1, h2⟩

theorem textRun_replaced (t : Bytes) (a n : Nat) (x : Bytes) (h : a + n ≤ t.length) (os : List Op) :
    textRun t (replaced a n x ++ os) = textRun (t.take a ++ x ++ t.drop (a + n)) os := by
  simp only [replaced, List.cons_append, List.nil_append, textRun, Op.onText]
  rw [if_pos (by omega)]
  simp only [Option.bind_some, Int.toNat_natCast]
  have e : (t.take a ++ t.drop (a + n)).take a = t.take a := by
    rw [List.take_append_of_le_length (by simp; omega), List.take_take, Nat.min_self]
  have e' : (t.take a ++ t.drop (a + n)).drop a = t.drop (a + n) := by
    rw [List.drop_append, List.drop_eq_nil_of_le (by simp; omega)]
    simp [Nat.min_eq_left (show a ≤ t.length by omega)]
  rw [if_pos (by simp; omega)]
  simp only [Option.bind_some, e, e']

/-! ## The laws -/

/-- **C135** Inserting a text and deleting it leaves the text as it was. -/
theorem C135_insert_undone {pt : PieceTable} (h : Reachable pt) {t : Bytes} (ht : pt.string = .ok t) (x : Bytes) (a : Nat) (ha : a ≤ t.length) :
    Leaves pt [.insert x a, .delete x.length a] t := by
  refine leaves_text h ht ?_
  simp only [textRun, Op.onText]
  rw [if_pos (by omega)]
  simp only [Option.bind_some, Int.toNat_natCast]
  rw [if_pos (by simp; omega)]
  have e : (t.take a).length = a := by simp [ha]
  have e1 : (t.take a ++ x ++ t.drop a).take a = t.take a := by
    rw [List.append_assoc, List.take_append_of_le_length (by omega), List.take_take, Nat.min_self]
  have e2 : (t.take a ++ x ++ t.drop a).drop (a + x.length) = t.drop a := by
    rw [List.drop_append, List.drop_eq_nil_of_le (by simp; omega)]
    simp [e]
  simp only [Option.bind_some, e1, e2, List.take_append_drop]

/-- **C135** Deleting a part and inserting it again leaves the text as it was. -/
theorem C135_delete_undone {pt : PieceTable} (h : Reachable pt) {t : Bytes} (ht : pt.string = .ok t) (n a : Nat) (ha : a + n ≤ t.length) :
    Leaves pt [.delete n a, .insert ((t.drop a).take n) a] t := by
  refine leaves_text h ht ?_
  have := textRun_replaced t a n ((t.drop a).take n) ha []
  simp only [replaced, List.append_nil] at this
  rw [this]
  simp only [textRun, Option.some.injEq]
  rw [List.append_assoc, ← List.drop_drop, List.take_append_drop, List.take_append_drop]

/-- **C135** Texts inserted one after the other are the two together. -/
theorem C135_inserts_join {pt : PieceTable} (h : Reachable pt) {t : Bytes} (ht : pt.string = .ok t) (x y : Bytes) (a : Nat) (ha : a ≤ t.length) :
    ∃ u, Leaves pt [.insert x a, .insert y (a + x.length : Nat)] u ∧ Leaves pt [.insert (x ++ y) a] u := by
  refine ⟨t.take a ++ (x ++ y) ++ t.drop a, leaves_text h ht ?_, leaves_text h ht ?_⟩
  · simp only [textRun, Op.onText]
    rw [if_pos (by omega)]
    simp only [Option.bind_some, Int.toNat_natCast]
    rw [if_pos (by simp; omega)]
    have e : (t.take a ++ x).length = a + x.length := by simp [ha]
    rw [List.take_append_of_le_length (by omega), List.drop_append_of_le_length (by omega), List.take_of_length_le (by omega),
      List.drop_eq_nil_of_le (by omega)]
    simp
  · simp only [textRun, Op.onText]
    rw [if_pos (by omega)]
    simp

/-- **C135** Deletions one after the other at the same place are the two together. -/
theorem C135_deletes_join {pt : PieceTable} (h : Reachable pt) {t : Bytes} (ht : pt.string = .ok t) (n m a : Nat) (ha : a + (n + m) ≤ t.length) :
    ∃ u, Leaves pt [.delete n a, .delete m a] u ∧ Leaves pt [.delete (n + m : Nat) a] u := by
  refine ⟨t.take a ++ t.drop (a + (n + m)), leaves_text h ht ?_, leaves_text h ht ?_⟩
  · simp only [textRun, Op.onText]
    rw [if_pos (by omega)]
    simp only [Option.bind_some, Int.toNat_natCast]
    rw [if_pos (by simp; omega)]
    have e : (t.take a).length = a := by simp; omega
    rw [List.take_append_of_le_length (by omega), List.take_take, Nat.min_self, List.drop_append, List.drop_eq_nil_of_le (by omega), e]
    simp [Nat.add_assoc]
  · simp only [textRun, Op.onText]
    rw [if_pos (by omega)]
    simp only [Option.bind_some, Int.toNat_natCast]

/-- **C135** Replacements at different places can be made in either order; the place of the later one moves by as much as the earlier
text grows. -/
theorem C135_replacements_commute {pt : PieceTable} (h : Reachable pt) {t : Bytes} (ht : pt.string = .ok t) (a n b m : Nat) (x y : Bytes)
    (hab : a + n ≤ b) (hb : b + m ≤ t.length) :
    ∃ u, Leaves pt (replaced a n x ++ replaced (b - n + x.length) m y) u ∧ Leaves pt (replaced b m y ++ replaced a n x) u := by
  refine ⟨t.take a ++ x ++ (t.take b).drop (a + n) ++ y ++ t.drop (b + m), leaves_text h ht ?_, leaves_text h ht ?_⟩
  · rw [textRun_replaced t a n x (by omega), ← List.append_nil (replaced _ m y), textRun_replaced _ _ m y (by simp; omega)]
    simp only [textRun, Option.some.injEq]
    have e : (t.take a ++ x).length = a + x.length := by simp; omega
    rw [List.take_append, List.take_of_length_le (l := t.take a ++ x) (by rw [e]; omega), List.drop_append (l₁ := t.take a ++ x),
      List.drop_eq_nil_of_le (as := t.take a ++ x) (by rw [e]; omega), e, List.drop_drop, List.drop_take]
    have e1 : b - n + x.length - (a + x.length) = b - (a + n) := by omega
    have e2 : a + n + (b - n + x.length + m - (a + x.length)) = b + m := by omega
    rw [e1, e2]
    simp
  · rw [textRun_replaced t b m y hb, ← List.append_nil (replaced a n x), textRun_replaced _ a n x (by simp; omega)]
    simp only [textRun, Option.some.injEq]
    have e : (t.take b).length = b := by simp; omega
    rw [List.append_assoc (t.take b), List.take_append_of_le_length (by omega), List.take_take, Nat.min_eq_left (by omega),
      List.drop_append_of_le_length (by omega)]
    simp

/-- **C135** Only the text counts: two tables with the same text, however they came to it, answer every history within the text alike. -/
theorem C135_only_text {pt qt : PieceTable} (h : Reachable pt) (h' : Reachable qt) {t : Bytes} (ht : pt.string = .ok t) (ht' : qt.string = .ok t)
    (ops : List Op) (hops : textRun t ops ≠ none) : ∃ u, Leaves pt ops u ∧ Leaves qt ops u := by
  obtain ⟨u, hu⟩ := Option.ne_none_iff_exists'.mp hops
  exact ⟨u, leaves_text h ht hu, leaves_text h' ht' hu⟩

/-- **C135** But for a deletion past the end it counts how the table came to its text: a new table with the text of `demo` is cut, `demo` is not. -/
theorem C135_past_end_differs : ∃ (pt qt : PieceTable) (t : Bytes) (o : Op), Reachable pt ∧ Reachable qt ∧ pt.string = .ok t ∧ qt.string = .ok t ∧
    (∀ u, Leaves pt [o] u → ¬ Leaves qt [o] u) ∧ (∃ u, Leaves pt [o] u) ∧ ∃ u, Leaves qt [o] u := by
  refine ⟨demo, newPieceTable b!"hXYllo" true 6, b!"hXYllo", .delete 100 1, demo_reachable, .new _ _ 6 (by decide), demo_string, by decide, ?_,
    ⟨b!"hXYllo", _, rfl, by decide⟩, ⟨b!"h", _, rfl, by decide⟩⟩
  rintro u ⟨p, h1, h2⟩ ⟨q, h3, h4⟩
  have e1 : demo.run [.delete 100 1] = .ok (demo.delete 100 1) := rfl
  have e2 : (newPieceTable b!"hXYllo" true 6).run [.delete 100 1] = .ok ((newPieceTable b!"hXYllo" true 6).delete 100 1) := rfl
  rw [e1] at h1
  rw [e2] at h3
  cases h1
  cases h3
  have q1 : (demo.delete 100 1).string = .ok b!"hXYllo" := by decide
  have q2 : ((newPieceTable b!"hXYllo" true 6).delete 100 1).string = .ok b!"h" := by decide
  rw [q1] at h2
  rw [q2] at h4
  cases h2
  cases h4

/-- The hypotheses are met by an edited table. -/
example : ∃ u, Leaves demo (replaced 0 2 b!"uvw" ++ replaced 4 3 b!"-") u ∧ Leaves demo (replaced 3 3 b!"-" ++ replaced 0 2 b!"uvw") u :=
  C135_replacements_commute demo_reachable demo_string 0 2 3 3 b!"uvw" b!"-" (by decide) (by decide)

end Txt
