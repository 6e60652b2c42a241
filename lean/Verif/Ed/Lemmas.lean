import Verif.Ed.Spec
import Verif.Txt.Props

/-! # The editor and its list of lines: lemmas -/

namespace Ed
open Go

theorem wrap64_id {i : Int} (h1 : -2 ^ 63 ≤ i) (h2 : i < 2 ^ 63) : wrap64 i = i := by
  simp only [wrap64]; omega

theorem scanned_shows {s : State} {ls : List Bytes} (h : Shows s ls) (hp : ∀ l ∈ ls, PlainLine l) :
    scanned s = .ok ls := by
  simp [scanned, h.text, scanLines_unlines ls hp]

theorem getLines_shows {s : State} {ls : List Bytes} (h : Shows s ls) (hp : ∀ l ∈ ls, PlainLine l) :
    getLines s = .ok (dropBlank ls) := by
  simp [getLines, scanned_shows h hp]

theorem dropBlank_clean {ls : List Bytes} (h : ls.getLast? ≠ some []) : dropBlank ls = ls := by
  simp [dropBlank, h]

theorem dropBlank_prefix (ls : List Bytes) : dropBlank ls = ls.take (dropBlank ls).length := by
  simp only [dropBlank]
  split
  · simp [List.dropLast_eq_take]
  · simp

theorem width_eq (ls : List Bytes) : width ls = (unlines ls).length := by
  induction ls with
  | nil => rfl
  | cons l ls ih => simp [width, unlines, ih]; omega

theorem getLineAddr_shows {s : State} {ls : List Bytes} (h : Shows s ls) (hp : ∀ l ∈ ls, PlainLine l)
    (n : Int) (h1 : -2 ^ 63 < n) (h2 : n < 2 ^ 63) :
    getLineAddr s n = .ok (unlines ((dropBlank ls).take (n - 1).toNat)).length := by
  simp only [getLineAddr, getLines_shows h hp]
  split
  · rename_i hn
    rw [List.take_of_length_le (by omega), width_eq]
  · rename_i hn
    rw [wrap64_id (by omega) (by omega)]
    rw [if_pos (by omega), width_eq]

theorem take_dropBlank (ls : List Bytes) (k : Nat) (hk : k ≤ (dropBlank ls).length) :
    (dropBlank ls).take k = ls.take k := by
  have h := dropBlank_prefix ls
  generalize (dropBlank ls).length = m at *
  rw [h, List.take_take]
  congr 1; omega

/-- The index in the buffer at which line `n` starts: blank lines at the end do not count. -/
def index (ls : List Bytes) (n : Int) : Nat := min (n - 1).toNat (dropBlank ls).length

theorem getLineAddr_index {s : State} {ls : List Bytes} (h : Shows s ls) (hp : ∀ l ∈ ls, PlainLine l)
    (n : Int) (h1 : -2 ^ 63 < n) (h2 : n < 2 ^ 63) :
    getLineAddr s n = .ok (unlines (ls.take (index ls n))).length := by
  rw [getLineAddr_shows h hp n h1 h2, ← take_dropBlank ls (index ls n) (by simp [index]; omega)]
  congr 4
  simp only [index]
  by_cases hc : (n - 1).toNat ≤ (dropBlank ls).length
  · rw [Nat.min_eq_left hc]
  · rw [Nat.min_eq_right (by omega), List.take_of_length_le (by omega), List.take_of_length_le (by omega)]

theorem unlines_split (ls : List Bytes) (k : Nat) :
    unlines ls = unlines (ls.take k) ++ unlines (ls.drop k) := by
  rw [← unlines_append, List.take_append_drop]

theorem take_unlines (ls : List Bytes) (k : Nat) :
    (unlines ls).take (unlines (ls.take k)).length = unlines (ls.take k) := by
  have := congrArg (List.take (unlines (ls.take k)).length) (unlines_split ls k)
  rw [this, List.take_left]

theorem drop_unlines (ls : List Bytes) (k : Nat) :
    (unlines ls).drop (unlines (ls.take k)).length = unlines (ls.drop k) := by
  have := congrArg (List.drop (unlines (ls.take k)).length) (unlines_split ls k)
  rw [this, List.drop_left]

theorem insert_shows {s : State} {ls : List Bytes} (h : Shows s ls) (hp : ∀ l ∈ ls, PlainLine l)
    (n : Int) (h1 : -2 ^ 63 < n) (h2 : n < 2 ^ 63) (t : List Bytes) (ht : t ≠ []) :
    ∃ pt', insertBeforeLine s n (join [nl] t) = .ok { s with pt := pt' } ∧
      Shows { s with pt := pt' } (ls.take (index ls n) ++ t ++ ls.drop (index ls n)) := by
  simp only [insertBeforeLine, getLineAddr_index h hp n h1 h2]
  have e : join [nl] t ++ [nl] = unlines t := by
    cases t with
    | nil => exact absurd rfl ht
    | cons l t => exact join_nl l t
  rw [e]
  have hs := unlines_split ls (index ls n)
  obtain ⟨pt', e1, r, t1⟩ := Txt.C01_insert_splices h.reach h.text (unlines t)
    (unlines (ls.take (index ls n))).length (by rw [hs]; simp)
  refine ⟨pt', by rw [e1], r, ?_⟩
  show pt'.string = _
  rw [t1, hs, List.take_left, List.drop_left, unlines_append, unlines_append]

theorem reachable_delete {pt : Txt.PieceTable} (h : Txt.Reachable pt) {t : Bytes} (ht : pt.string = .ok t) (n a : Nat)
    (hf : a + n ≤ t.length) : Txt.Reachable (pt.delete n a) :=
  .delete n a (by omega) (by omega) h (.inr ⟨t, ht, by omega⟩)

theorem delete_shows {s : State} {ls : List Bytes} (h : Shows s ls) (hp : ∀ l ∈ ls, PlainLine l)
    (a b : Int) (h1 : -2 ^ 63 < a) (h2 : a ≤ b + 1) (h3 : b + 1 < 2 ^ 63) :
    ∃ pt', delete s a b = .ok { s with pt := pt' } ∧
      Shows { s with pt := pt' } (ls.take (index ls a) ++ ls.drop (index ls (b + 1))) := by
  have hi : index ls a ≤ index ls (b + 1) := by simp only [index]; omega
  have hl : index ls (b + 1) ≤ ls.length := by
    have := congrArg List.length (dropBlank_prefix ls)
    simp at this
    simp only [index]; omega
  have ha : (unlines (ls.take (index ls (b + 1)))).length =
      (unlines (ls.take (index ls a))).length + (unlines ((ls.take (index ls (b + 1))).drop (index ls a))).length := by
    rw [unlines_split (ls.take (index ls (b + 1))) (index ls a), List.length_append, List.take_take, Nat.min_eq_left hi]
  refine ⟨s.pt.delete (unlines ((ls.take (index ls (b + 1))).drop (index ls a))).length
    (unlines (ls.take (index ls a))).length, ?_, reachable_delete h.reach h.text _ _ ?_, ?_⟩
  · simp only [delete, getLineAddr_index h hp a h1 (by omega), wrap64_id (i := b + 1) (by omega) h3,
      getLineAddr_index h hp (b + 1) (by omega) h3]
    congr 3
    omega
  · rw [unlines_split ls (index ls (b + 1)), List.length_append, ha]; omega
  · show (s.pt.delete _ _).string = _
    have hs := unlines_split ls (index ls (b + 1))
    rw [Txt.C02_delete_cuts h.reach h.text _ _ (by rw [hs, List.length_append, ha]; omega)]
    rw [← ha, unlines_append]
    congr 2
    · exact take_unlines _ _
    · exact drop_unlines _ _

theorem index_clean {ls : List Bytes} (h : ls.getLast? ≠ some []) (n : Nat) :
    index ls n = min (n - 1) ls.length := by
  simp only [index, dropBlank_clean h]
  congr 1
  omega

end Ed
