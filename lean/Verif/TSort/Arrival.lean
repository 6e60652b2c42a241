import Verif.TSort.Props
import Verif.Go.ScannerWords

/-! # `tsort` on input that arrives piece by piece, and may fail to be read to its end (C113, C114) -/

namespace TSort
open Go

/-- cmd/tsort/main.go:22-34: the loop over the scanner (with a bound on the number of rounds; each takes two words): the word
without a partner, or the orderings and the scanner. -/
def feedFrom : Nat → Scanner → Orderings Bytes → Except Bytes (Orderings Bytes × Scanner)
  | 0, s, m => .ok (m, s)
  | n + 1, s, m =>
    match s.scan splitWords with
    | (none, s1) => .ok (m, s1)
    | (some w1, s1) =>
      match s1.scan splitWords with
      | (none, _) => .error w1
      | (some w2, s2) => feedFrom n s2 (add m (if w1 = w2 then [w1] else [w1, w2]))

/-- main.go:17-51 `run`, on what its reader delivers. -/
def RunFrom (r : Source) (out : Out) : Prop :=
  match feedFrom (r.bytes.length + 1) (newScanner r) [] with
  | .error w => out = die b!"unmatched word!" w
  | .ok (m, s) =>
    match s.failure with
    | some e => out = die b!"scan error!" e.text
    | none => ∃ r m', Order m r m' ∧
      match r with
      | none => out = die b!"sort error!" b!"Hmm. Still items left. Ordering impossible?"
      | some l => out = { stdout := unlines l, stderr := [], exit := 0 }

/-- main.go:53-68 `main`: standard input or the file named by the first argument. -/
def MainFrom (files : Bytes → Option Source) (stdin : Source) (args : List Bytes) (out : Out) : Prop :=
  match args with
  | [] => RunFrom stdin out
  | f :: _ =>
    if f = b!"-" then RunFrom stdin out
    else match files f with
      | none => out = die b!"can't open" f
      | some r => RunFrom r out

theorem feedFrom_ready {e : ScanErr} : ∀ (n : Nat) (s : Scanner) (ws : List (Bytes × Nat)), ReadyW e s ws → ws.length < n →
    ∀ m, (∀ w, feed m (scanWordTokens ws).1 = .error w → feedFrom n s m = .error w) ∧
      (∀ m', feed m (scanWordTokens ws).1 = .ok m' →
        ∃ s', feedFrom n s m = .ok (m', s') ∧ s'.err = some (if (scanWordTokens ws).2 then .tooLong else e)) := by
  intro n
  induction n with
  | zero => intro s ws _ h; omega
  | succ n ih =>
    intro s ws hr hn m
    have step := scan_readyW hr
    generalize hs : s.scan splitWords = r at step
    obtain ⟨t, s1⟩ := r
    cases ws with
    | nil =>
      obtain ⟨a, b, -⟩ := step.done rfl
      simp only at a b
      subst a
      simp only [scanWordTokens, feed, feedFrom, hs]
      refine ⟨fun w h => (by cases h), fun m' h => ?_⟩
      cases h
      exact ⟨s1, rfl, b⟩
    | cons x ws =>
      obtain ⟨w, k⟩ := x
      by_cases hk : w.length + k ≤ maxToken
      · obtain ⟨a, b⟩ := step.word w k ws rfl hk
        simp only at a b
        subst a
        have step2 := scan_readyW b
        generalize hs2 : s1.scan splitWords = r2 at step2
        obtain ⟨t2, s2⟩ := r2
        cases ws with
        | nil =>
          obtain ⟨a2, -, -⟩ := step2.done rfl
          simp only at a2
          subst a2
          simp only [scanWordTokens, if_pos hk, feed, feedFrom, hs, hs2]
          exact ⟨fun w h => (by cases h; rfl), fun m' h => (by cases h)⟩
        | cons y ws =>
          obtain ⟨w2, k2⟩ := y
          by_cases hk2 : w2.length + k2 ≤ maxToken
          · obtain ⟨a2, b2⟩ := step2.word w2 k2 ws rfl hk2
            simp only at a2 b2
            subst a2
            have := ih s2 ws b2 (by simp at hn; omega) (add m (if w = w2 then [w] else [w, w2]))
            simp only [scanWordTokens, if_pos hk, if_pos hk2, feed, feedFrom, hs, hs2]
            exact this
          · obtain ⟨a2, -⟩ := step2.long w2 k2 ws rfl (by omega)
            simp only at a2
            subst a2
            simp only [scanWordTokens, if_pos hk, if_neg hk2, feed, feedFrom, hs, hs2]
            exact ⟨fun w h => (by cases h; rfl), fun m' h => (by cases h)⟩
      · obtain ⟨a, b⟩ := step.long w k ws rfl (by omega)
        simp only at a b
        subst a
        simp only [scanWordTokens, if_neg hk, feed, feedFrom, hs]
        refine ⟨fun w h => (by cases h), fun m' h => ?_⟩
        cases h
        exact ⟨s1, rfl, b⟩

theorem room_length (s : Bytes) : (wordsRoom [] (chunks s)).length ≤ s.length := by
  have key : ∀ (n : Nat) (s cur : Bytes), s.length ≤ n →
      (wordsRoom cur (chunks s)).length ≤ s.length + (if cur = [] then 0 else 1) := by
    intro n
    induction n with
    | zero =>
      intro s cur h
      rw [List.eq_nil_of_length_eq_zero (Nat.le_zero.mp h)]
      by_cases hc : cur = [] <;> simp [chunks, chunksAux, wordsRoom, hc]
    | succ n ih =>
      intro s cur h
      by_cases hs : s = []
      · subst hs
        by_cases hc : cur = [] <;> simp [chunks, chunksAux, wordsRoom, hc]
      · rw [chunks_step s hs]
        obtain ⟨k1, k2, -⟩ := first_width s hs
        have hd : (s.drop (decodeFirst s).2).length ≤ n := by rw [List.length_drop]; omega
        have i1 := ih _ [] hd
        have i2 := ih _ (cur ++ s.take (decodeFirst s).2) hd
        rw [List.length_drop] at i1 i2
        simp only [if_true] at i1
        have i3 : (if cur ++ s.take (decodeFirst s).2 = [] then 0 else 1) ≤ 1 := by split <;> omega
        simp only [wordsRoom]
        split
        · split
          · omega
          · simp; omega
        · omega
  have := key _ s [] (Nat.le_refl _)
  simpa using this

/-- The message of a reader that ends with an error after these words: a word without a partner is noticed first. -/
def brokenMessage (ws : List Bytes) (e : Bytes) : Bytes :=
  if ws.length % 2 = 1 then b!"unmatched word! [" ++ ws.getLast?.getD [] ++ b!"]\n" else b!"scan error! [" ++ e ++ b!"]\n"

theorem feedFrom_new (r : Source) (hl : r.Lively) :
    (∀ w, feed [] (scanWords r.bytes).1 = .error w → feedFrom (r.bytes.length + 1) (newScanner r) [] = .error w) ∧
    (∀ m', feed [] (scanWords r.bytes).1 = .ok m' → ∃ s', feedFrom (r.bytes.length + 1) (newScanner r) [] = .ok (m', s') ∧
      s'.err = some (if (scanWords r.bytes).2 then .tooLong else r.ending)) :=
  feedFrom_ready _ _ _ (new_readyW r hl) (Nat.lt_succ_of_le (room_length _)) []

/-- **C113** On input that is read to its end, `tsort` does what it does for the bytes, in whatever pieces they arrive. -/
theorem C113_tsort (r : Source) (hl : r.Lively) (he : r.err = none) (out : Out) : RunFrom r out ↔ Run r.bytes out := by
  obtain ⟨f1, f2⟩ := feedFrom_new r hl
  unfold RunFrom Run
  generalize scanWords r.bytes = sw at f1 f2 ⊢
  obtain ⟨ws, long⟩ := sw
  simp only at f1 f2 ⊢
  cases hf : feed [] ws with
  | error w => rw [f1 w hf]
  | ok m =>
    obtain ⟨s', h1, h2⟩ := f2 m hf
    rw [h1]
    simp only [Scanner.failure, h2]
    cases long with
    | true => simp [ScanErr.text]
    | false => simp only [Source.ending, he, Bool.false_eq_true, if_false, if_true]; exact Iff.rfl

/-- **C113** … for all operands. -/
theorem C113_tsort_command (files : Bytes → Option Source) (stdin : Source) (hf : ∀ f r, files f = some r → r.Lively ∧ r.err = none)
    (hs : stdin.Lively ∧ stdin.err = none) (args : List Bytes) (out : Out) :
    MainFrom files stdin args out ↔ Main (fun f => (files f).map Source.bytes) stdin.bytes args out := by
  cases args with
  | nil => exact C113_tsort stdin hs.1 hs.2 out
  | cons f rest =>
    simp only [MainFrom, Main]
    split
    · exact C113_tsort stdin hs.1 hs.2 out
    · cases h : files f with
      | none => exact Iff.rfl
      | some r => exact C113_tsort r (hf f r h).1 (hf f r h).2 out

example : ∃ out, RunFrom { chunks := [b!"a", b!"b c", b!"\n"] } out ∧ out.stdout = b!"ab\nc\n" := by
  refine ⟨{ stdout := b!"ab\nc\n", stderr := [], exit := 0 }, ?_, rfl⟩
  rw [C113_tsort _ (by intro c hc; simp at hc; rcases hc with rfl | rfl | rfl <;> decide) rfl]
  have : Run b!"ab c\n" { stdout := b!"ab\nc\n", stderr := [], exit := 0 } := by
    have hw : scanWords b!"ab c\n" = ([b!"ab", b!"c"], false) := by decide
    have hfeed : feed [] [b!"ab", b!"c"] = .ok [(b!"ab", [b!"c"])] := by decide
    simp only [Run, hw, hfeed]
    rw [if_neg (by simp)]
    exact ⟨some [b!"ab", b!"c"], [], ⟨[b!"ab"], 5, by rw [IsHeads]; exact .refl _, by decide⟩, rfl⟩
  exact this

/-- **C114** If its input cannot be read to its end, `tsort` prints no order: it complains and exits 1. -/
theorem C114_tsort (r : Source) (hl : r.Lively) (e : Bytes) (he : r.err = some e) (hshort : ∀ w ∈ fields r.bytes, w.length < 65534)
    (out : Out) :
    RunFrom r out ↔ out = { stdout := [], stderr := b!"ahh jeez, " ++ brokenMessage (fields r.bytes) e, exit := 1 } := by
  have hw := scanWords_words ((fields_iff r.bytes _).mp rfl) hshort
  obtain ⟨f1, f2⟩ := feedFrom_new r hl
  rw [hw] at f1 f2
  simp only at f1 f2
  unfold RunFrom
  rcases pairs_or (fields r.bytes) with ⟨ps, hps⟩ | ⟨ps, v, hps⟩
  · obtain ⟨s', h1, h2⟩ := f2 _ (by rw [hps]; exact feed_pairs ps [])
    have hp : (pairWords ps).length % 2 = 0 := by rw [pairWords_length]; omega
    rw [h1]
    simp only [Scanner.failure, h2, Source.ending, he, hps, brokenMessage, hp, die]
    simp [ScanErr.text]
  · rw [f1 v (by rw [hps, feed_odd])]
    have hp : (pairWords ps ++ [v]).length % 2 = 1 := by rw [List.length_append, pairWords_length]; simp
    simp only [hps, brokenMessage, hp, die, if_true, List.getLast?_append, List.getLast?_singleton, Option.some_or]
    simp

/-- **C114** Whatever the words: nothing on standard output, and status 1. -/
theorem C114_tsort_fails (r : Source) (hl : r.Lively) (he : r.err ≠ none) (out : Out) (h : RunFrom r out) :
    out.stdout = [] ∧ out.exit = 1 ∧ out.stderr ≠ [] := by
  obtain ⟨f1, f2⟩ := feedFrom_new r hl
  unfold RunFrom at h
  cases hf : feed [] (scanWords r.bytes).1 with
  | error w =>
    rw [f1 w hf] at h
    simp only at h
    subst h
    exact ⟨rfl, rfl, by simp [die]⟩
  | ok m =>
    obtain ⟨s', h1, h2⟩ := f2 m hf
    rw [h1] at h
    have : s'.failure ≠ none := by
      rw [Scanner.failure, h2]
      cases (scanWords r.bytes).2 with
      | true => simp
      | false =>
        cases hr : r.err with
        | none => exact absurd hr he
        | some x => simp [Source.ending, hr]
    simp only at h
    split at h
    · subst h; exact ⟨rfl, rfl, by simp [die]⟩
    · next hn => exact absurd hn this

example : ∃ r : Source, r.Lively ∧ r.err = some b!"read x: input/output error" ∧ fields r.bytes = [b!"a", b!"b"] :=
  ⟨{ chunks := [b!"a ", b!"b"], err := some b!"read x: input/output error" },
    by intro c hc; simp at hc; rcases hc with rfl | rfl <;> decide, rfl, by decide⟩

end TSort
