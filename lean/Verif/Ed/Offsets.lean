import Verif.Ed.PegProps
import Verif.Ed.EditProps

/-!
# Address offsets in the executor (C76)

The parser never delivers an offset (`C76_offsets_lost`). A program that builds its commands itself can
set one; this file shows that the executor then honours it.
-/

namespace Ed
open Go

/-- An address evaluates to its base plus its offset. -/
theorem addrLine_offset (env : Env) {s : State} {st : LState} (h : Shows s st.lines) (hc : Clean st.lines)
    (hcur : s.currentLine = st.cur) {a : Address} {sa : SAddr} (hd : Denotes a sa) (k : Int) (hb : sa.eval st < 2 ^ 63)
    (h1 : -2 ^ 63 ≤ sa.eval st + k) (h2 : sa.eval st + k < 2 ^ 63) :
    addrLine env s { a with offset := k } = .ok (sa.eval st + k) := by
  cases sa with
  | num n =>
    obtain ⟨g1, g2, g3, g4, g5⟩ := hd
    simp only [SAddr.eval] at hb h1 h2 ⊢
    simp only [addrLine, g1, atoi_digits _ g3 g4, g5]
    rw [if_pos hb]
    simp only
    rw [wrap64_id (by omega) (by omega)]
  | dot =>
    obtain ⟨g1, g2⟩ := hd
    simp only [SAddr.eval] at hb h1 h2 ⊢
    simp only [addrLine, g1, hcur]
    rw [wrap64_id (by omega) (by omega)]
  | last =>
    obtain ⟨g1, g2⟩ := hd
    simp only [SAddr.eval] at hb h1 h2 ⊢
    simp only [addrLine, g1, getLines_shows h hc.plain, dropBlank_clean hc.lastNe]
    rw [wrap64_id (by omega) (by omega)]

/-- **C76** (partial: for commands whose offsets are set by the caller; the parser loses them, see
`C76_offsets_lost`) `p` with offsets prints the lines from the first base plus its offset to the second
base plus its offset. -/
theorem C76_executor_partial (env : Env) {s : State} {st : LState} (h : Shows s st.lines) (hc : Clean st.lines)
    (hcur : s.currentLine = st.cur) (hlen : st.lines.length < 2 ^ 62) (a b : Address) (sa sb : SAddr) (ha : Denotes a sa)
    (hb : Denotes b sb) (i j : Int) (hae : sa.eval st < 2 ^ 63) (hbe : sb.eval st < 2 ^ 63)
    (pre ls post : List Bytes) (hls : st.lines = pre ++ ls ++ post) (hne : ls ≠ [])
    (h1 : sa.eval st + i = pre.length + 1) (h2 : sb.eval st + j = pre.length + ls.length) :
    processCommand env s { typ := .print, start := { a with offset := i }, end_ := { b with offset := j } } =
      .ok (s, join [nl] ls) := by
  have hl : 0 < ls.length := List.length_pos_iff.2 hne
  have hn : st.lines.length = pre.length + ls.length + post.length := by rw [hls]; simp; omega
  have hd : setDefaultAddresses { typ := .print, start := { a with offset := i }, end_ := { b with offset := j } } =
      { typ := .print, start := { a with offset := i }, end_ := { b with offset := j } } := by
    apply setDefault_given
    cases sa <;> (have := ha.1; simp only [this]; decide)
  have e1 := addrLine_offset env h hc hcur ha i hae (by omega) (by omega)
  have e2 := addrLine_offset env h hc hcur hb j hbe (by omega) (by omega)
  rw [h1] at e1; rw [h2] at e2
  have e3 := print_shows env h hc (pre.length + 1) (pre.length + ls.length) (by omega) (by omega) (by omega) (by omega)
  have e4 : linesFrom st.lines (pre.length + 1) (pre.length + ls.length) = ls := by
    rw [linesFrom, hls]; simp [List.take_append]
  rw [e4] at e3
  simp only [processCommand, hd, e1, e2, bind, Except.bind]
  have : print env s ((pre.length : Int) + 1) ((pre.length : Int) + ls.length) = .ok (join [nl] ls) := by
    simpa using e3
  rw [this]
  rfl

/-- `1+1,$-1p` in the demo file. -/
example : processCommand demoEnv (opened demoLines 4)
      { typ := .print, start := { numAddr 1 with offset := 1 }, end_ := ⟨.last, b!"$", -1⟩ } =
    .ok (opened demoLines 4, join [nl] ((demoLines.drop 1).dropLast)) :=
  C76_executor_partial demoEnv (st := ⟨demoLines, 4⟩) (opened_shows demoLines 4) demo_clean rfl (by decide) (numAddr 1)
    ⟨.last, b!"$", 0⟩ (.num 1) .last (numAddr_denotes 1) ⟨rfl, rfl⟩ 1 (-1) (by decide) (by decide)
    (demoLines.take 1) ((demoLines.drop 1).dropLast) (demoLines.drop (demoLines.length - 1)) (by decide) (by decide) (by decide) (by decide)

end Ed
