import Verif.Go.Lines

/-! # Property C73: line splitting -/

namespace Go

/-- **C73** scanning text in which every line is newline-terminated returns the lines. -/
theorem C73_terminated (ls : List Bytes) (h : ∀ l ∈ ls, PlainLine l) :
    scanLines (ls.flatMap (· ++ [nl])) = (ls, false) := by
  have : ls.flatMap (· ++ [nl]) = unlines ls := by
    induction ls with
    | nil => rfl
    | cons l ls ih => simp [unlines, ih (fun m hm => h m (by simp [hm]))]
  rw [this]
  exact scanLines_unlines ls h

example : scanLines b!"ab\n\nc\n" = ([b!"ab", b!"", b!"c"], false) :=
  C73_terminated [b!"ab", b!"", b!"c"] (by
    intro l hl
    simp only [List.mem_cons, List.not_mem_nil, or_false] at hl
    rcases hl with rfl | rfl | rfl <;> exact ⟨by decide, by decide, by decide⟩)

/-- **C73** the final newline may be missing when the last line is not empty; an empty
unterminated last line is dropped. -/
theorem C73_unterminated (ls : List Bytes) (last : Bytes) (h : ∀ l ∈ ls, PlainLine l)
    (hl : PlainLine last) :
    scanLines (ls.flatMap (· ++ [nl]) ++ last) = (if last = [] then ls else ls ++ [last], false) := by
  have : ls.flatMap (· ++ [nl]) = unlines ls := by
    clear h
    induction ls with
    | nil => rfl
    | cons l ls ih => simp [unlines, ih]
  rw [this, scanLines, rawLines_unlines_append ls (fun l hm => (h l hm).noNL)]
  by_cases he : last = []
  · subst he
    simp only [rawLines, List.append_nil, if_true]
    exact scanTokens_plain ls h
  · rw [rawLines_unterminated last hl.noNL he, if_neg he]
    refine scanTokens_plain _ ?_
    intro m hm
    rcases List.mem_append.1 hm with hm | hm
    · exact h m hm
    · simp at hm; subst hm; exact hl

/-- **C73** nothing else is lost: for any input that is scanned completely, the tokens are the raw
lines without their line terminators (`\n` or `\r\n`), and the raw lines with newlines are the
input, up to a missing final newline. -/
theorem C73_lossless (s : Bytes) (ts : List Bytes) (h : scanLines s = (ts, false)) :
    ∃ raw : List Bytes, (raw.flatMap (· ++ [nl]) = s ∨ raw.flatMap (· ++ [nl]) = s ++ [nl]) ∧
      (∀ l ∈ raw, nl ∉ l) ∧ ts.length = raw.length ∧
      ∀ i (hi : i < ts.length) (hr : i < raw.length), raw[i] = ts[i] ∨ raw[i] = ts[i] ++ [cr] := by
  have hu : ∀ ls : List Bytes, ls.flatMap (· ++ [nl]) = unlines ls := by
    intro ls
    induction ls with
    | nil => rfl
    | cons l ls ih => simp [unlines, ih]
  refine ⟨rawLines s, ?_, rawLines_no_nl s, ?_⟩
  · rw [hu]
    obtain ⟨h1, h2⟩ := unlines_rawLines s
    by_cases hs : s = []
    · exact .inl (h1 (.inl hs))
    · by_cases hl : s.getLast? = some nl
      · exact .inl (h1 (.inr hl))
      · exact .inr (h2 hs hl).1
  · have key : ∀ (raw ts : List Bytes), scanTokens raw = (ts, false) → ts.length = raw.length ∧
        ∀ i (hi : i < ts.length) (hr : i < raw.length), raw[i] = ts[i] ∨ raw[i] = ts[i] ++ [cr] := by
      intro raw
      induction raw with
      | nil => intro ts h; simp [scanTokens] at h; subst h; simp
      | cons l ls ih =>
        intro ts h
        simp only [scanTokens] at h
        split at h
        · simp only [Prod.mk.injEq] at h
          obtain ⟨rfl, h2⟩ := h
          obtain ⟨i1, i2⟩ := ih (scanTokens ls).1 (by rw [← h2])
          refine ⟨by simp [i1], ?_⟩
          intro i hi hr
          cases i with
          | zero =>
            simp only [List.getElem_cons_zero, dropCR]
            split
            · next hg =>
              right
              have hne : l ≠ [] := by rintro rfl; simp at hg
              obtain ⟨m, c, e⟩ : ∃ m c, l = m ++ [c] := by
                rcases List.eq_nil_or_concat l with e | ⟨m, c, e⟩
                · exact absurd e hne
                · exact ⟨m, c, by rw [e, List.concat_eq_append]⟩
              subst e
              simp at hg
              simp [hg]
            · exact .inl rfl
          | succ i => simpa using i2 i (by simpa using hi) (by simpa using hr)
        · simp at h
    exact key _ _ h

example : scanLines b!"a\r\nb" = ([b!"a", b!"b"], false) := by decide

end Go
