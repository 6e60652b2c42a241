import Verif.Cat.Arrival
import Verif.Go.Waiting

/-! # `cat` writes what has arrived before it waits for more (C128) -/

namespace Cat
open Go

/-- main.go:12-32 `writeFile` and `write`, as `writeFileFrom`, while standard input is still open if `more`. The files named
are complete. -/
def writeFileLive (more : Bool) (file : Bytes → Except Bytes Source) (stdin : Source) (name : Bytes) : Progress (Bytes × Option Bytes × Source) :=
  if name = b!"-" then copyLive more (fun _ => 32768) stdin
  else
    match file name with
    | .error e => .done ([], some e, stdin)
    | .ok f =>
      let x := readToEnd (fun _ => 32768) f
      .done (x.1, x.2.1, stdin)

/-- main.go:48-54: the loop over the operands. -/
def loopLive (more : Bool) (file : Bytes → Except Bytes Source) : (stdin : Source) → List Bytes → Progress Out
  | _, [] => .done ⟨[], [], 0⟩
  | stdin, f :: rest =>
    match writeFileLive more file stdin f with
    | .waits out => .waits out
    | .done (out, some e, _) =>
      .done ⟨out, b!"Error encountered while attempting to read from " ++ f ++ b!": " ++ e ++ b!"\n", 0⟩
    | .done (out, none, stdin') =>
      match loopLive more file stdin' rest with
      | .waits o => .waits (out ++ o)
      | .done r => .done { r with stdout := out ++ r.stdout }

/-- main.go:34-55 `main`. -/
def mainLive (more : Bool) (file : Bytes → Except Bytes Source) (stdin : Source) (args : List Bytes) : Progress Out :=
  loopLive more file stdin (operands args)

/-- **C128** While standard input is open `cat` waits, and it has written the files before it and every byte that has
arrived: what it would have written if the input had ended here. -/
theorem C128_cat (file : Bytes → Except Bytes Source) (hl : ∀ f r, file f = .ok r → r.Lively) (stdin : Source) (hs : stdin.Lively)
    (args fs rest : List Bytes) (ho : operands args = fs ++ b!"-" :: rest) (hd : b!"-" ∉ fs)
    (hf : ∀ f ∈ fs, ∃ r, file f = .ok r ∧ r.err = none) :
    ∃ written, mainLive true file stdin args = .waits written ∧
      written = (fs.map (fun f => match file f with | .ok r => r.bytes | .error _ => [])).flatten ++ stdin.bytes ∧
      written = (loopFrom file { stdin with err := none } (fs ++ [b!"-"])).stdout := by
  rw [mainLive, ho]
  clear ho
  induction fs with
  | nil =>
    refine ⟨stdin.bytes, ?_, by simp, ?_⟩
    · rw [List.nil_append, loopLive, writeFileLive, if_pos rfl, copyLive_open _ (fun _ => by decide) _ hs]
    · have hs' : ({ stdin with err := none } : Source).Lively := hs
      rw [List.nil_append, loopFrom, writeFileFrom, if_pos rfl, readToEnd_eq _ (fun _ => by decide) _ hs']
      simp [loopFrom, Source.bytes]
  | cons f fs ih =>
    obtain ⟨r, e1, e2⟩ := hf f (by simp)
    obtain ⟨w, h1, h2, h3⟩ := ih (fun h => hd (by simp [h])) (fun g hg => hf g (by simp [hg]))
    have hne : f ≠ b!"-" := fun e => hd (by simp [e])
    have hr := readToEnd_eq (fun _ => 32768) (fun _ => by decide) r (hl f r e1)
    refine ⟨r.bytes ++ w, ?_, ?_, ?_⟩
    · rw [List.cons_append, loopLive, writeFileLive, if_neg hne, e1]
      simp only [hr, e2, h1]
    · simp [e1, h2]
    · rw [List.cons_append, loopFrom, writeFileFrom, if_neg hne, e1]
      simp only [hr, e2, h3]

example : mainLive true (fun _ => .ok { chunks := [b!"xy"] }) { chunks := [b!"a\nb", b!"c"] } [b!"f", b!"-", b!"g"] = .waits b!"xya\nbc" := by
  decide +kernel

/-- Once standard input has been closed this is `cat`. -/
theorem mainLive_closed (file : Bytes → Except Bytes Source) (hl : ∀ f r, file f = .ok r → r.Lively) (stdin : Source) (hs : stdin.Lively)
    (args : List Bytes) : mainLive false file stdin args = .done (mainFrom file stdin args) := by
  rw [mainLive, mainFrom]
  generalize operands args = fs
  induction fs generalizing stdin with
  | nil => rfl
  | cons f fs ih =>
    have key : writeFileLive false file stdin f = .done (writeFileFrom file stdin f) := by
      unfold writeFileLive writeFileFrom
      split
      · exact copyLive_closed _ (fun _ => by decide) _ hs
      · cases file f <;> rfl
    obtain ⟨s', h1, h2, -⟩ := writeFileFrom_eq file hl stdin hs f
    rw [loopLive, loopFrom, key]
    generalize hx : writeFileFrom file stdin f = x at h2
    obtain ⟨out, e, s2⟩ := x
    simp only [Prod.mk.injEq] at h2
    obtain ⟨-, -, rfl⟩ := h2
    cases e with
    | some e => rfl
    | none => simp only [ih s2 h1]

end Cat
