import Verif.Go.Scanner

/-! # Reading to the end: `ioutil.ReadAll` and `io.Copy` -/

namespace Go

/-- The loop of `ioutil.ReadAll` (package io) and of `io.Copy` through a buffer: `Read` until it returns an error. `size` is
the room in the buffer after so many bytes (for `ReadAll` at least one, for `Copy` always 32768), and the number of rounds is
bounded. The result is everything read, in order, and the error; for `Copy` what is read is written at once.
Simplification: `io.Copy` between files may let the kernel copy. -/
def drain (size : Nat → Nat) : (rounds : Nat) → (got : Bytes) → Source → Bytes × Option ScanErr × Source
  | 0, got, r => (got, none, r)
  | n + 1, got, r =>
    match r.read (size got.length) with
    | (x, none, r1) => drain size n (got ++ x) r1
    | (x, some e, r1) => (got ++ x, some e, r1)

/-- `ioutil.ReadAll` and `io.Copy`: the end of the input is not an error. -/
def readToEnd (size : Nat → Nat) (r : Source) : Bytes × Option Bytes × Source :=
  let x := drain size (r.bytes.length + 1) [] r
  (x.1, (match x.2.1 with | some .eof => none | some e => some e.text | none => none), x.2.2)

theorem drain_all (size : Nat → Nat) (hs : ∀ n, 0 < size n) : ∀ (n : Nat) (got : Bytes) (r : Source), r.Lively → r.bytes.length < n →
    drain size n got r = (got ++ r.bytes, some r.ending, { r with chunks := [] }) := by
  intro n
  induction n with
  | zero => intro got r _ h; omega
  | succ n ih =>
    intro got r hl hn
    obtain ⟨chunks, err⟩ := r
    cases chunks with
    | nil => simp [drain, Source.read, Source.bytes]
    | cons c cs =>
      have hc : 0 < c.length := List.length_pos_iff.2 (hl c (by simp))
      have hcs : ∀ d ∈ cs, d ≠ [] := fun d hd => hl d (by simp [hd])
      simp only [Source.bytes, List.flatten_cons, List.length_append] at hn
      by_cases hle : c.length ≤ size got.length
      · have := ih (got ++ c) ⟨cs, err⟩ hcs (by simp only [Source.bytes]; omega)
        rw [drain, Source.read]
        simp only [if_pos hle]
        rw [this]
        simp [Source.bytes, Source.ending]
      · have h0 := hs got.length
        have hd : (⟨c.drop (size got.length) :: cs, err⟩ : Source).Lively := by
          intro d hd
          rcases List.mem_cons.1 hd with rfl | hd
          · intro h1; have := congrArg List.length h1; simp at this; omega
          · exact hcs d hd
        have := ih (got ++ c.take (size got.length)) ⟨c.drop (size got.length) :: cs, err⟩ hd
          (by simp only [Source.bytes, List.flatten_cons, List.length_append, List.length_drop]; omega)
        rw [drain, Source.read]
        simp only [if_neg hle]
        rw [this]
        simp only [Source.bytes, Source.ending, List.flatten_cons, Prod.mk.injEq, and_true]
        rw [List.append_assoc, ← List.append_assoc (c.take _), List.take_append_drop]

/-- Everything is read, in whatever pieces it arrives, and the error is that of the reader. -/
theorem readToEnd_eq (size : Nat → Nat) (hs : ∀ n, 0 < size n) (r : Source) (hl : r.Lively) :
    readToEnd size r = (r.bytes, r.err, { r with chunks := [] }) := by
  rw [readToEnd, drain_all size hs _ [] r hl (by omega)]
  cases he : r.err <;> simp [Source.ending, he, ScanErr.text]

end Go
