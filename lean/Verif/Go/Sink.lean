import Verif.Go.Basic

/-!
# Standard output that may not take everything

The other files about commands take every byte written to standard output to arrive. Here the operating system may refuse, for
example because the disk is full. (A pipe that nobody reads any more is another matter: package os then ends the process.)
-/

namespace Go

/-- What the operating system says to call number `k` of `Write` on standard output: `none` if it takes everything, `some (n, e)`
if it takes (at most) `n` bytes and then fails with the text `e`. `os.File.Write` goes on after a short write without an error. -/
abbrev Answers := Nat → Option (Nat × Bytes)

/-- Standard output: the number of calls so far and what has arrived. -/
structure Sink where
  calls : Nat := 0
  out : Bytes := []
  deriving DecidableEq, Repr

/-- `os.Stdout.Write(x)`, and each call of `fmt.Print`, `fmt.Printf`, `fmt.Println` (package fmt builds the text first and writes it
with one call). -/
def Sink.write (ans : Answers) (s : Sink) (x : Bytes) : Sink × Option Bytes :=
  match ans s.calls with
  | none => ({ calls := s.calls + 1, out := s.out ++ x }, none)
  | some (n, e) => ({ calls := s.calls + 1, out := s.out ++ x.take n }, some e)

/-- A call whose result is not looked at. -/
def Sink.print (ans : Answers) (s : Sink) (x : Bytes) : Sink := (s.write ans x).1

/-! ## Specification -/

/-- What arrives of the texts of calls number `k` and following. -/
def taken (ans : Answers) : Nat → List Bytes → Bytes
  | _, [] => []
  | k, x :: xs => (match ans k with | none => x | some (n, _) => x.take n) ++ taken ans (k + 1) xs

/-- Nothing is refused. -/
def Answers.Willing (ans : Answers) : Prop := ∀ k, ans k = none

theorem taken_willing {ans : Answers} (h : ans.Willing) (k : Nat) (xs : List Bytes) : taken ans k xs = xs.flatten := by
  induction xs generalizing k with
  | nil => rfl
  | cons x xs ih => simp [taken, h k, ih]

theorem taken_append (ans : Answers) (k : Nat) (xs ys : List Bytes) : taken ans k (xs ++ ys) = taken ans k xs ++ taken ans (k + xs.length) ys := by
  induction xs generalizing k with
  | nil => rfl
  | cons x xs ih => simp [taken, ih, Nat.add_assoc, Nat.add_comm 1]

/-- After the calls `xs`. -/
def Sink.after (ans : Answers) (s : Sink) (xs : List Bytes) : Sink := { calls := s.calls + xs.length, out := s.out ++ taken ans s.calls xs }

theorem after_nil (ans : Answers) (s : Sink) : s.after ans [] = s := by simp [Sink.after, taken]

theorem print_eq (ans : Answers) (s : Sink) (x : Bytes) : s.print ans x = s.after ans [x] := by
  simp only [Sink.print, Sink.write, Sink.after, taken, List.length_singleton]
  cases ans s.calls <;> simp

theorem after_after (ans : Answers) (s : Sink) (xs ys : List Bytes) : (s.after ans xs).after ans ys = s.after ans (xs ++ ys) := by
  simp [Sink.after, taken_append, Nat.add_assoc]

theorem print_after (ans : Answers) (s : Sink) (x : Bytes) (xs : List Bytes) : (s.print ans x).after ans xs = s.after ans (x :: xs) := by
  rw [print_eq, after_after]; rfl

end Go
