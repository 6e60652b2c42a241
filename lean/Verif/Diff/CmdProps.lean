import Verif.Diff.Cmd

/-! # C17: the `diff` command -/

namespace Diff
open Go

/-- The operands stored so far. -/
def Settings.files (s : Settings) : List Bytes := [s.file1, s.file2].filter (· ≠ [])

theorem parseLoop_files (n : Nat) : ∀ (args : List Bytes), args.length ≤ n → (∀ a ∈ args, a ≠ []) →
    ∀ (s : Settings), (s.file1 = [] → s.file2 = []) → ∀ F,
    (∃ s', parseLoop s args = .ok s' ∧ s'.files = F ∧ (s'.file1 = [] → s'.file2 = [])) ↔
      ∃ ops, Parses args ops ∧ s.files ++ ops = F ∧ F.length ≤ 2 := by
  induction n with
  | zero =>
    intro args hl _ s hs F
    have : args = [] := List.length_eq_zero_iff.1 (by omega)
    subst this
    simp only [parseLoop]
    constructor
    · rintro ⟨s', h1, h2, h3⟩
      cases h1
      exact ⟨[], .done, by simpa using h2, by rw [← h2]; simp only [Settings.files]; exact Nat.le_trans (List.length_filter_le _ _) (by simp)⟩
    · rintro ⟨ops, h1, h2, h3⟩
      cases h1
      exact ⟨s, rfl, by simpa using h2, hs⟩
  | succ n ih =>
    intro args hl hne s hs F
    cases args with
    | nil =>
      simp only [parseLoop]
      constructor
      · rintro ⟨s', h1, h2, h3⟩
        cases h1
        exact ⟨[], .done, by simpa using h2, by rw [← h2]; simp only [Settings.files]; exact Nat.le_trans (List.length_filter_le _ _) (by simp)⟩
      · rintro ⟨ops, h1, h2, h3⟩
        cases h1
        exact ⟨s, rfl, by simpa using h2, hs⟩
    | cons a rest =>
      have hl' : rest.length ≤ n := by simpa using hl
      have hne' : ∀ a ∈ rest, a ≠ [] := fun b hb => hne b (by simp [hb])
      have ha : a ≠ [] := hne a (by simp)
      -- an option without value changes nothing about the files
      have hflag : ∀ s1 : Settings, s1.file1 = s.file1 → s1.file2 = s.file2 → a ∈ plainFlags →
          ((∃ s', parseLoop s1 rest = .ok s' ∧ s'.files = F ∧ (s'.file1 = [] → s'.file2 = [])) ↔
            ∃ ops, Parses (a :: rest) ops ∧ s.files ++ ops = F ∧ F.length ≤ 2) := by
        intro s1 e1 e2 hf
        rw [ih rest hl' hne' s1 (by rw [e1, e2]; exact hs) F]
        have : s1.files = s.files := by simp [Settings.files, e1, e2]
        rw [this]
        constructor
        · rintro ⟨ops, h1, h2⟩; exact ⟨ops, .flag hf h1, h2⟩
        · rintro ⟨ops, h1, h2⟩
          refine ⟨ops, ?_, h2⟩
          cases h1 with
          | flag _ h => exact h
          | context h => exact absurd hf (by decide)
          | unified _ h => exact absurd hf (by decide)
          | operand hn _ _ _ => exact absurd hf hn
      rw [parseLoop.eq_def]
      dsimp only
      by_cases hb : a = b!"-b"
      · rw [if_pos hb]; exact hflag _ rfl rfl (by subst hb; decide)
      rw [if_neg hb]
      by_cases hc : a = b!"-c"
      · rw [if_pos hc]; exact hflag _ rfl rfl (by subst hc; decide)
      rw [if_neg hc]
      by_cases hC : a = b!"-C"
      · rw [if_pos hC]
        cases rest with
        | nil =>
          constructor
          · rintro ⟨s', h, _⟩; cases h
          · rintro ⟨ops, h1, _⟩
            cases h1 with
            | flag hf _ => subst hC; exact absurd hf (by decide)
            | operand _ hn _ _ => exact absurd hC hn
        | cons v rest =>
          dsimp only
          rw [ih rest (by simp at hl'; omega) (fun b hb => hne' b (by simp [hb]))]
          · constructor
            · rintro ⟨ops, h1, h2⟩; subst hC; exact ⟨ops, .context h1, h2⟩
            · rintro ⟨ops, h1, h2⟩
              refine ⟨ops, ?_, h2⟩
              cases h1 with
              | flag hf _ => subst hC; exact absurd hf (by decide)
              | context h => exact h
              | unified _ h => exact absurd hC (by decide)
              | operand _ hn _ _ => exact absurd hC hn
          · exact hs
      rw [if_neg hC]
      by_cases he : a = b!"-e"
      · rw [if_pos he]; exact hflag _ rfl rfl (by subst he; decide)
      rw [if_neg he]
      by_cases hf : a = b!"-f"
      · rw [if_pos hf]; exact hflag _ rfl rfl (by subst hf; decide)
      rw [if_neg hf]
      by_cases hr : a = b!"-r"
      · rw [if_pos hr]; exact hflag _ rfl rfl (by subst hr; decide)
      rw [if_neg hr]
      by_cases hu : a = b!"-u"
      · rw [if_pos hu]; exact hflag _ rfl rfl (by subst hu; decide)
      rw [if_neg hu]
      by_cases hU : a = b!"-U"
      · rw [if_pos hU]
        cases rest with
        | nil =>
          constructor
          · rintro ⟨s', h, _⟩; cases h
          · rintro ⟨ops, h1, _⟩
            cases h1 with
            | flag hf _ => subst hU; exact absurd hf (by decide)
            | operand _ _ hn _ => exact absurd hU hn
        | cons v rest =>
          dsimp only
          cases hv : atoi v with
          | mk m e =>
            cases e with
            | some e =>
              constructor
              · rintro ⟨s', h, _⟩; cases h
              · rintro ⟨ops, h1, _⟩
                cases h1 with
                | flag hf _ => subst hU; exact absurd hf (by decide)
                | context h => exact absurd hU (by decide)
                | unified h _ => rw [hv] at h; cases h
                | operand _ _ hn _ => exact absurd hU hn
            | none =>
              dsimp only
              rw [ih rest (by simp at hl'; omega) (fun b hb => hne' b (by simp [hb]))]
              · constructor
                · rintro ⟨ops, h1, h2⟩; subst hU; exact ⟨ops, .unified (by rw [hv]) h1, h2⟩
                · rintro ⟨ops, h1, h2⟩
                  refine ⟨ops, ?_, h2⟩
                  cases h1 with
                  | flag hf _ => subst hU; exact absurd hf (by decide)
                  | context h => exact absurd hU (by decide)
                  | unified _ h => exact h
                  | operand _ _ hn _ => exact absurd hU hn
              · exact hs
      rw [if_neg hU]
      have hnf : a ∉ plainFlags := by
        simp only [plainFlags, List.mem_cons, List.not_mem_nil, or_false, not_or]
        exact ⟨hb, hc, he, hf, hr, hu⟩
      have hop : ∀ (ops' : List Bytes), Parses (a :: rest) ops' ↔ ∃ ops, ops' = a :: ops ∧ Parses rest ops := by
        intro ops'
        constructor
        · intro h
          cases h with
          | flag hf _ => exact absurd hf hnf
          | context h => exact absurd rfl hC
          | unified _ h => exact absurd rfl hU
          | operand _ _ _ h => exact ⟨_, rfl, h⟩
        · rintro ⟨ops, rfl, h⟩; exact .operand hnf hC hU h
      by_cases h1 : s.file1 = []
      · rw [if_pos h1, ih rest hl' hne' _ (by intro h; exact absurd h ha)]
        have h2 := hs h1
        have e1 : s.files = [] := by simp [Settings.files, h1, h2]
        have e2 : ({ s with file1 := a } : Settings).files = [a] := by simp [Settings.files, h2, ha]
        rw [e1, e2]
        constructor
        · rintro ⟨ops, p1, p2⟩; exact ⟨a :: ops, (hop _).2 ⟨ops, rfl, p1⟩, by simpa using p2⟩
        · rintro ⟨ops', p1, p2⟩
          obtain ⟨ops, rfl, p⟩ := (hop _).1 p1
          exact ⟨ops, p, by simpa using p2⟩
      rw [if_neg h1]
      by_cases h2 : s.file2 = []
      · rw [if_pos h2, ih rest hl' hne' _ (by intro h; exact absurd h h1)]
        have e1 : s.files = [s.file1] := by simp [Settings.files, h1, h2]
        have e2 : ({ s with file2 := a } : Settings).files = [s.file1, a] := by simp [Settings.files, h1, ha]
        rw [e1, e2]
        constructor
        · rintro ⟨ops, p1, p2⟩; exact ⟨a :: ops, (hop _).2 ⟨ops, rfl, p1⟩, by simpa using p2⟩
        · rintro ⟨ops', p1, p2⟩
          obtain ⟨ops, rfl, p⟩ := (hop _).1 p1
          exact ⟨ops, p, by simpa using p2⟩
      rw [if_neg h2]
      have e1 : s.files = [s.file1, s.file2] := by simp [Settings.files, h1, h2]
      constructor
      · rintro ⟨s', h, _⟩; cases h
      · rintro ⟨ops', p1, p2, p3⟩
        obtain ⟨ops, rfl, p⟩ := (hop _).1 p1
        rw [← p2, e1] at p3
        simp at p3

theorem files_two {s : Settings} {f1 f2 : Bytes} (h : s.files = [f1, f2]) :
    s.file1 = f1 ∧ s.file2 = f2 ∧ f1 ≠ [] ∧ f2 ≠ [] := by
  unfold Settings.files at h
  by_cases h1 : s.file1 = [] <;> by_cases h2 : s.file2 = [] <;> simp [h1, h2] at h
  obtain ⟨rfl, rfl⟩ := h
  exact ⟨rfl, rfl, h1, h2⟩

/-- C17: for arguments without empty strings, the command line is accepted with files `f1`, `f2`
exactly if it consists of well-formed options and the two operands `f1`, `f2` in this order. -/
theorem C17_accepts_iff (args : List Bytes) (h : ∀ a ∈ args, a ≠ []) (f1 f2 : Bytes) :
    (∃ s, parseSettings args = .ok s ∧ s.file1 = f1 ∧ s.file2 = f2) ↔ Parses args [f1, f2] := by
  have key := parseLoop_files args.length args (Nat.le_refl _) h {} (fun _ => rfl) [f1, f2]
  have e0 : ({} : Settings).files = [] := rfl
  rw [e0] at key
  simp only [List.nil_append] at key
  constructor
  · rintro ⟨s, hs, rfl, rfl⟩
    unfold parseSettings at hs
    split at hs
    · cases hs
    · next s' hp =>
      split at hs
      · cases hs
      · next n1 =>
        split at hs
        · cases hs
        · next n2 =>
          cases hs
          obtain ⟨ops, p1, p2, _⟩ := key.1 ⟨_, hp, by simp [Settings.files, n1, n2], fun h => absurd h n1⟩
          exact p2 ▸ p1
  · intro hp
    obtain ⟨s', q1, q2, q3⟩ := key.2 ⟨_, hp, rfl, by simp⟩
    obtain ⟨r1, r2, r3, r4⟩ := files_two q2
    refine ⟨s', ?_, r1, r2⟩
    unfold parseSettings
    rw [q1]
    dsimp only
    rw [r1, r2, if_neg r3, if_neg r4]

example : Parses [b!"-U", b!"2", b!"a", b!"-b", b!"c"] [b!"a", b!"c"] :=
  .unified (by decide) (.operand (by decide) (by decide) (by decide)
    (.flag (by decide) (.operand (by decide) (by decide) (by decide) .done)))

/-- C17: `-C` accepts anything as its number, and an empty operand is not counted unless it comes
third. -/
theorem C17_lenient :
    (∃ s, parseSettings [b!"-C", b!"x", b!"a", b!"b"] = .ok s ∧ s.contextSize = 0) ∧
    (∃ s, parseSettings [b!"", b!"a", b!"", b!"b"] = .ok s) ∧
    parseSettings [b!"a", b!"b", b!""] = .error (.thirdFile []) := by
  refine ⟨⟨_, rfl, rfl⟩, ⟨_, rfl⟩, rfl⟩

/-- C17: with an accepted command line the exit status is 0 whatever the files are (POSIX wants 1 if
they differ, 2 if one cannot be read), nothing is written to standard error, and the output depends
only on the two files: every option is ignored. -/
theorem C17_exit_zero (pr : Nat → Bool) (fs : FS) (args : List Bytes)
    (h : ∀ a ∈ args, a ≠ []) (f1 f2 : Bytes) (hp : Parses args [f1, f2]) :
    (main pr fs args).exit = 0 ∧ (main pr fs args).stderr = [] ∧
    (main pr fs args).stdout = (main pr fs [f1, f2]).stdout := by
  obtain ⟨s, hs, e1, e2⟩ := (C17_accepts_iff args h f1 f2).2 hp
  have hne : f1 ≠ [] ∧ f2 ≠ [] := by
    unfold parseSettings at hs
    split at hs
    · cases hs
    · split at hs
      · cases hs
      · next n1 =>
        split at hs
        · cases hs
        · next n2 => cases hs; exact ⟨e1 ▸ n1, e2 ▸ n2⟩
  by_cases hpl : Parses [f1, f2] [f1, f2]
  · obtain ⟨s', hs', e1', e2'⟩ := (C17_accepts_iff [f1, f2] (by simp; exact hne) f1 f2).2 hpl
    simp [main, hs, hs', e1, e2, e1', e2']
  · exfalso
    apply hpl
    -- operands are never option names
    have : ∀ (args ops : List Bytes), Parses args ops →
        ∀ o ∈ ops, o ∉ plainFlags ∧ o ≠ b!"-C" ∧ o ≠ b!"-U" := by
      intro args ops hp
      induction hp with
      | done => simp
      | flag _ _ ih => exact ih
      | context _ ih => exact ih
      | unified _ _ ih => exact ih
      | operand a1 a2 a3 _ ih =>
        intro o ho
        rcases List.mem_cons.1 ho with rfl | ho
        · exact ⟨a1, a2, a3⟩
        · exact ih o ho
    have q1 := this _ _ hp f1 (by simp)
    have q2 := this _ _ hp f2 (by simp)
    exact .operand q1.1 q1.2.1 q1.2.2 (.operand q2.1 q2.2.1 q2.2.2 .done)

/-- C17: a file that cannot be opened is compared as if it were empty. -/
theorem C17_unreadable_is_empty (pr : Nat → Bool) (fs : FS) (args : List Bytes) (name : Bytes)
    (h : fs name = none) :
    main pr fs args = main pr (fun n => if n = name then some [] else fs n) args := by
  have : ∀ n, readLines fs n = readLines (fun n => if n = name then some [] else fs n) n := by
    intro n
    unfold readLines
    by_cases hn : n = name
    · subst hn; simp [h, scanLines, rawLines, scanTokens]
    · simp [hn]
  unfold main
  split
  · rfl
  · simp only [this]

/-- C15 end to end: for readable text files with plain newline-terminated lines the command prints
(before one extra newline) a patch that turns the first file into the second. -/
theorem C17_prints_patch (pr : Nat → Bool) (fs : FS) (args : List Bytes)
    (h : ∀ a ∈ args, a ≠ []) (f1 f2 : Bytes) (hp : Parses args [f1, f2]) (ls1 ls2 : List Bytes)
    (h1 : fs f1 = some (unlines ls1)) (h2 : fs f2 = some (unlines ls2))
    (p1 : ∀ l ∈ ls1, PlainLine l) (p2 : ∀ l ∈ ls2, PlainLine l) :
    ∃ patch, (main pr fs args).stdout = patch ++ [nl] ∧ applyPatch ls1 patch = some ls2 ∧
      (patch = [] ↔ ls1 = ls2) := by
  obtain ⟨s, hs, e1, e2⟩ := (C17_accepts_iff args h f1 f2).2 hp
  have r1 : readLines fs s.file1 = ls1 := by
    simp [readLines, e1, h1, scanLines_unlines ls1 p1]
  have r2 : readLines fs s.file2 = ls2 := by
    simp [readLines, e2, h2, scanLines_unlines ls2 p2]
  refine ⟨format (diff ls1 ls2), ?_, C15_patch_applies ls1 ls2 (fun l hl => (p1 l hl).1)
    (fun l hl => (p2 l hl).1), C14_empty_iff_equal ls1 ls2⟩
  simp [main, hs, r1, r2]

end Diff
