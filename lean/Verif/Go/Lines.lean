import Verif.Go.Basic

/-!
# Go's bufio.Scanner with bufio.ScanLines, strings.Join / Split

Part of the trusted modelling of the standard library.
-/

namespace Go

/-- The pieces of `s` between newlines, without the empty piece after a final newline. -/
def rawLines : Bytes → List Bytes
  | [] => []
  | c :: cs =>
    if c = nl then [] :: rawLines cs
    else
      match rawLines cs with
      | [] => [[c]]
      | l :: ls =>
        -- `cs` starting with a newline gives `l = []`, so this also covers "c\n..."
        (c :: l) :: ls

/-- `bufio.dropCR`: remove one trailing carriage return. -/
def dropCR (l : Bytes) : Bytes := if l.getLast? = some cr then l.dropLast else l

/-- `bufio.MaxScanTokenSize`. -/
abbrev maxToken : Nat := 65536

/-- All tokens a `bufio.Scanner` with `ScanLines` delivers, and whether it then stops with
`bufio.ErrTooLong` (a line whose length without the newline reaches 65536). -/
def scanTokens : List Bytes → List Bytes × Bool
  | [] => ([], false)
  | l :: ls =>
    if l.length < maxToken then
      let r := scanTokens ls
      (dropCR l :: r.1, r.2)
    else ([], true)

/-- `bufio.NewScanner(r)` over input `s`: tokens and "too long" flag. -/
def scanLines (s : Bytes) : List Bytes × Bool := scanTokens (rawLines s)

/-- `strings.Join`. -/
def join (sep : Bytes) : List Bytes → Bytes
  | [] => []
  | [x] => x
  | x :: y :: ys => x ++ sep ++ join sep (y :: ys)

/-- Lines, each followed by a newline. -/
def unlines : List Bytes → Bytes
  | [] => []
  | l :: ls => l ++ nl :: unlines ls

/-! ## Lemmas -/

theorem rawLines_cons_line (l : Bytes) (h : nl ∉ l) (rest : Bytes) :
    rawLines (l ++ nl :: rest) = l :: rawLines rest := by
  induction l with
  | nil => simp [rawLines]
  | cons c cs ih =>
    have hc : c ≠ nl := by rintro rfl; simp at h
    have := ih (by intro hm; exact h (by simp [hm]))
    simp only [List.cons_append, rawLines, hc, if_false, this]

theorem rawLines_unterminated (l : Bytes) (h : nl ∉ l) (hne : l ≠ []) : rawLines l = [l] := by
  induction l with
  | nil => exact absurd rfl hne
  | cons c cs ih =>
    have hc : c ≠ nl := by rintro rfl; simp at h
    simp only [rawLines, hc, if_false]
    cases cs with
    | nil => simp [rawLines]
    | cons d ds => rw [ih (by intro hm; exact h (by simp [hm])) (by simp)]

theorem rawLines_unlines (ls : List Bytes) (h : ∀ l ∈ ls, nl ∉ l) : rawLines (unlines ls) = ls := by
  induction ls with
  | nil => rfl
  | cons l ls ih =>
    simp only [unlines]
    rw [rawLines_cons_line l (h l (by simp)), ih (fun m hm => h m (by simp [hm]))]

theorem rawLines_unlines_append (ls : List Bytes) (h : ∀ l ∈ ls, nl ∉ l) (rest : Bytes) :
    rawLines (unlines ls ++ rest) = ls ++ rawLines rest := by
  induction ls with
  | nil => rfl
  | cons l ls ih =>
    simp only [unlines, List.append_assoc, List.cons_append]
    rw [rawLines_cons_line l (h l (by simp)), ih (fun m hm => h m (by simp [hm]))]

theorem unlines_append (xs ys : List Bytes) : unlines (xs ++ ys) = unlines xs ++ unlines ys := by
  induction xs with
  | nil => rfl
  | cons x xs ih => simp [unlines, ih]

theorem rawLines_no_nl (s : Bytes) : ∀ l ∈ rawLines s, nl ∉ l := by
  induction s with
  | nil => simp [rawLines]
  | cons c cs ih =>
    simp only [rawLines]
    split
    · intro l hl
      rcases List.mem_cons.1 hl with rfl | hl
      · simp
      · exact ih l hl
    · next hc =>
      split
      · intro l hl
        have e : l = [c] := by simpa using hl
        subst e
        intro hm
        exact hc (List.mem_singleton.1 hm).symm
      · next l ls e =>
        rw [e] at ih
        intro m hm
        rcases List.mem_cons.1 hm with rfl | hm
        · intro h
          rcases List.mem_cons.1 h with h | h
          · exact hc h.symm
          · exact ih l (by simp) h
        · exact ih m (by simp [hm])

/-- Every byte string is its raw lines with newlines, up to a missing final newline. -/
theorem unlines_rawLines (s : Bytes) :
    (s = [] ∨ s.getLast? = some nl → unlines (rawLines s) = s) ∧
    (s ≠ [] → s.getLast? ≠ some nl → unlines (rawLines s) = s ++ [nl] ∧ rawLines s ≠ []) := by
  induction s with
  | nil => simp [rawLines, unlines]
  | cons c cs ih =>
    obtain ⟨i1, i2⟩ := ih
    have hlast : cs ≠ [] → (c :: cs).getLast? = cs.getLast? := by
      intro h; cases cs with
      | nil => exact absurd rfl h
      | cons d ds => simp [List.getLast?_cons]
    constructor
    · rintro (h | h)
      · cases h
      · by_cases he : cs = []
        · subst he
          simp at h
          subst h
          simp [rawLines, unlines]
        · rw [hlast he] at h
          have ih1 := i1 (.inr h)
          simp only [rawLines]
          split
          · next hc => subst hc; simp [unlines, ih1]
          · split
            · next e => rw [e] at ih1; simp [unlines] at ih1; exact absurd ih1 (Ne.symm (by simpa using he) ∘ Eq.symm)
            · next l ls e =>
              rw [e] at ih1
              simp only [unlines] at ih1 ⊢
              simp [← ih1]
    · intro _ h
      by_cases he : cs = []
      · subst he
        have hc : c ≠ nl := by rintro rfl; simp at h
        simp [rawLines, unlines, hc]
      · rw [hlast he] at h
        obtain ⟨ih1, ih2⟩ := i2 he h
        simp only [rawLines]
        split
        · next hc => subst hc; simp [unlines, ih1]
        · split
          · next e => exact absurd e ih2
          · next l ls e =>
            rw [e] at ih1
            simp only [unlines] at ih1 ⊢
            simp [ih1]

/-- A line `ScanLines` returns unchanged: no newline, no trailing carriage return, below the
size limit. -/
structure PlainLine (l : Bytes) : Prop where
  noNL : nl ∉ l
  noCR : l.getLast? ≠ some cr
  short : l.length < maxToken

theorem dropCR_plain {l : Bytes} (h : l.getLast? ≠ some cr) : dropCR l = l := by
  simp [dropCR, h]

theorem scanTokens_plain (ls : List Bytes) (h : ∀ l ∈ ls, PlainLine l) :
    scanTokens ls = (ls, false) := by
  induction ls with
  | nil => rfl
  | cons l ls ih =>
    have hl := h l (by simp)
    simp only [scanTokens, hl.short, if_true, ih (fun m hm => h m (by simp [hm])),
      dropCR_plain hl.noCR]

theorem scanLines_unlines (ls : List Bytes) (h : ∀ l ∈ ls, PlainLine l) :
    scanLines (unlines ls) = (ls, false) := by
  rw [scanLines, rawLines_unlines ls (fun l hl => (h l hl).noNL), scanTokens_plain ls h]

theorem join_nl (l : Bytes) (ls : List Bytes) : join [nl] (l :: ls) ++ [nl] = unlines (l :: ls) := by
  induction ls generalizing l with
  | nil => simp [join, unlines]
  | cons m ms ih =>
    have := ih m
    simp only [join, List.append_assoc] at this ⊢
    rw [this]
    simp [unlines]

end Go
