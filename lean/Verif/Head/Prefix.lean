import Verif.Head.Props

/-! # C133: when what head prints is the beginning of the file -/

namespace Head
open Go

/-- A line that ends in a carriage return, taken apart. -/
theorem ends_cr {l : Bytes} (h : l.getLast? = some cr) : ∃ y, l = y ++ [cr] ∧ dropCR l = y := by
  obtain ⟨y, rfl⟩ := List.getLast?_eq_some_iff.1 h
  exact ⟨y, rfl, by simp [dropCR]⟩

theorem map_dropCR {xs : List Bytes} (h : ∀ l ∈ xs, l.getLast? ≠ some cr) : xs.map dropCR = xs := by
  induction xs with
  | nil => rfl
  | cons l xs ih => rw [List.map_cons, dropCR_plain (h l (by simp)), ih (fun m hm => h m (by simp [hm]))]

theorem prefix_lines (xs : List Bytes) (z : Bytes) :
    unlines (xs.map dropCR) <+: unlines xs ++ z ↔ ∀ l ∈ xs, l.getLast? ≠ some cr := by
  constructor
  · intro h
    induction xs with
    | nil => simp
    | cons l xs ih =>
      by_cases hl : l.getLast? = some cr
      · obtain ⟨y, e1, e2⟩ := ends_cr hl
        rw [List.map_cons, e2, unlines, unlines, e1, List.append_assoc, List.append_assoc, List.prefix_append_right_inj] at h
        obtain ⟨r, hr⟩ := h
        exact absurd hr (by simp [nl, cr])
      · rw [List.map_cons, dropCR_plain hl, unlines, unlines, List.append_assoc, List.prefix_append_right_inj, List.cons_append,
          List.cons_prefix_cons] at h
        intro m hm
        rcases List.mem_cons.1 hm with rfl | hm
        · exact hl
        · exact ih h.2 m hm
  · intro h
    rw [map_dropCR h]
    exact List.prefix_append _ _

theorem unlines_take_drop (ls : List Bytes) (k : Nat) : unlines ls = unlines (ls.take k) ++ unlines (ls.drop k) := by
  rw [← unlines_append, List.take_append_drop]

theorem first_prefix {c : Bytes} {ls : List Bytes} (h : TextOf c ls) (m : Int) :
    firstLines m ls <+: c ↔ (∀ l ∈ ls.take m.toNat, l.getLast? ≠ some cr) ∧ (c = unlines ls ∨ m.toNat < ls.length) := by
  rw [firstLines]
  generalize m.toNat = k
  obtain ⟨-, h | ⟨init, last, rfl, hne, rfl⟩⟩ := h
  · rw [h, unlines_take_drop ls k, prefix_lines]
    simp
  · have hcne : ¬ unlines init ++ last = unlines (init ++ [last]) := by
      intro e
      have := congrArg List.length e
      simp [unlines_append, unlines] at this
    by_cases hk : k < (init ++ [last]).length
    · have hk' : k ≤ init.length := by simp at hk; omega
      rw [List.take_append_of_le_length hk', unlines_take_drop init k, List.append_assoc, prefix_lines]
      exact ⟨fun hh => ⟨hh, .inr hk⟩, fun hh => hh.1⟩
    · rw [List.take_of_length_le (by omega)]
      simp only [hcne, hk, or_self, and_false, iff_false]
      intro hp
      have h1 : unlines ((init ++ [last]).map dropCR) <+: unlines (init ++ [last]) ++ [] := by
        refine hp.trans ⟨[nl], ?_⟩
        simp [unlines_append, unlines]
      rw [map_dropCR ((prefix_lines _ _).1 h1)] at hp
      have := hp.length_le
      simp [unlines_append, unlines] at this
      omega

/-- **C133** Expected: what `head` prints for one file is the beginning of that file. Exactly: that is so if none of the lines printed ends in a carriage
return (it is left out) and the last line printed has its newline in the file (it is added otherwise). -/
theorem C133_beginning_partial {m : Int} {files args} (h : Invocation 10 m files args) (hne : args ≠ []) (w : World) {f : Bytes} {c : Stream}
    {ls : List Bytes} (hf : operands files = [f]) (hg : Gives w 0 f (some c)) (ht : TextOf c.data ls) (hok : ¬ Trouble m c ls) :
    (main w args).stdout <+: c.data ↔
      (∀ l ∈ ls.take m.toNat, l.getLast? ≠ some cr) ∧ (c.data = unlines ls ∨ m.toNat < ls.length) := by
  rw [C44_first_lines h hne w [(f, ls)] (by simpa using hf.symm) ⟨⟨c, hg, ht, hok⟩, trivial⟩]
  exact first_prefix ht m

/-- **C133** It is the whole file exactly if the file has no more lines than asked for, no line of it ends in a carriage return and it ends in a newline
(or is empty). -/
theorem C133_whole_partial {m : Int} {files args} (h : Invocation 10 m files args) (hne : args ≠ []) (w : World) {f : Bytes} {c : Stream}
    {ls : List Bytes} (hf : operands files = [f]) (hg : Gives w 0 f (some c)) (ht : TextOf c.data ls) (hok : ¬ Trouble m c ls) :
    (main w args).stdout = c.data ↔
      (∀ l ∈ ls, l.getLast? ≠ some cr) ∧ (c.data = [] ∨ c.data.getLast? = some nl) ∧ ls.length ≤ m.toNat := by
  have hb := C133_beginning_partial h hne w hf hg ht hok
  rw [C44_first_lines h hne w [(f, ls)] (by simpa using hf.symm) ⟨⟨c, hg, ht, hok⟩, trivial⟩] at hb ⊢
  simp only [expected, firstLines] at hb ⊢
  have hend : c.data = [] ∨ c.data.getLast? = some nl ↔ c.data = unlines ls := by
    have hr := textOf_rawLines ht
    have hu := unlines_rawLines c.data
    rw [hr] at hu
    constructor
    · intro hx; exact (hu.1 hx).symm
    · intro hx
      by_cases h1 : c.data = []
      · exact .inl h1
      · by_cases h2 : c.data.getLast? = some nl
        · exact .inr h2
        · have := congrArg List.length ((hu.2 h1 h2).1)
          rw [← hx] at this
          simp at this
  rw [hend]
  generalize m.toNat = k at *
  constructor
  · intro e
    obtain ⟨h1, h2⟩ := hb.1 (by rw [e]; exact List.prefix_refl _)
    rw [map_dropCR h1] at e
    have hk : ls.length ≤ k := by
      apply Classical.byContradiction
      intro hk
      have e2 : unlines ls = unlines (ls.take k) ++ unlines (ls.drop k) := unlines_take_drop ls k
      have hd : ls.drop k ≠ [] := by simp; omega
      have hlen : c.data.length ≥ (unlines ls).length - 1 := by
        rcases ht.2 with hx | ⟨i, z, e3, _, e4⟩
        · rw [hx]; omega
        · rw [e4, e3]; simp [unlines_append, unlines]
      cases hx : ls.drop k with
      | nil => exact hd hx
      | cons x xs =>
        rw [hx] at e2
        have l1 := congrArg List.length e2
        have l2 := congrArg List.length e
        simp only [unlines, List.length_append, List.length_cons] at l1
        rcases ht.2 with hy | ⟨i, z, e3, hz, e4⟩
        · rw [hy] at l2; omega
        · have hz' : 1 ≤ z.length := by cases z with
            | nil => exact absurd rfl hz
            | cons _ _ => simp
          -- the text ends in the last line, the output in a newline
          have hr := textOf_rawLines ht
          have : (unlines (ls.take k)) = c.data := e
          have hu := unlines_rawLines c.data
          by_cases hc0 : c.data = [] ∨ c.data.getLast? = some nl
          · have hy := hu.1 hc0
            rw [hr] at hy
            rw [← hy] at l2; omega
          · have hy := (hu.2 (fun q => hc0 (.inl q)) (fun q => hc0 (.inr q))).1
            rw [← e] at hc0
            apply hc0
            cases hq : ls.take k with
            | nil => exact .inl rfl
            | cons a as =>
              right
              rcases List.eq_nil_or_concat (a :: as) with hn | ⟨i', z', e'⟩
              · cases hn
              · rw [e', List.concat_eq_append, unlines_append]
                simp [unlines]
    rw [List.take_of_length_le hk] at h1 e
    exact ⟨h1, e.symm, hk⟩
  · rintro ⟨h1, h2, h3⟩
    rw [List.take_of_length_le h3, map_dropCR h1, h2]

/-- A world with a file that has carriage returns and no final newline. -/
def dosWorld : World := ⟨fun n => if n = b!"f" then some ⟨b!"a\nb\r\nc", false⟩ else none, fun _ => ⟨[], false⟩⟩

theorem dosWorld_ok (m : Int) : ¬ Trouble m ⟨b!"a\nb\r\nc", false⟩ [b!"a", b!"b\r", b!"c"] := by
  rintro (⟨l, hl, hl'⟩ | ⟨h, _⟩)
  · have hm := List.mem_of_mem_take hl
    simp at hm; simp [maxToken] at hl'; grind
  · cases h

/-- One line is the beginning of the file, two lines are not. -/
example : (main dosWorld [b!"-n", b!"1", b!"f"]).stdout <+: b!"a\nb\r\nc" ∧ ¬ (main dosWorld [b!"-n", b!"2", b!"f"]).stdout <+: b!"a\nb\r\nc" := by
  have ht : TextOf b!"a\nb\r\nc" [b!"a", b!"b\r", b!"c"] := ⟨by decide, .inr ⟨[b!"a", b!"b\r"], b!"c", rfl, by decide, rfl⟩⟩
  constructor
  · exact (C133_beginning_partial (m := 1) (files := [b!"f"]) (.count _ 1 (by decide) (.file _ (by decide) (.nil _))) (by decide) dosWorld rfl
      (.file b!"f" (by decide)) ht (dosWorld_ok _)).2 (by decide)
  · intro h
    exact absurd ((C133_beginning_partial (m := 2) (files := [b!"f"]) (.count _ 2 (by decide) (.file _ (by decide) (.nil _))) (by decide) dosWorld rfl
      (.file b!"f" (by decide)) ht (dosWorld_ok _)).1 h) (by decide)

end Head
