import Verif.Head.Props
import Verif.Go.ScannerProps

/-! # `head` on input that arrives piece by piece (C113) -/

namespace Head
open Go

/-- main.go:67-72: the loop over the scanner (with a bound on the number of rounds): what is printed, and the scanner. -/
def scanLoopFrom (n : Int) : (rounds : Nat) → Scanner → (j : Nat) → Bytes × Scanner
  | 0, s, _ => ([], s)
  | k + 1, s, j =>
    match s.scan splitLines with
    | (none, s1) => ([], s1)
    | (some t, s1) =>
      if (j : Int) < n then
        let r := scanLoopFrom n k s1 (j + 1)
        (t ++ nl :: r.1, r.2)
      else ([], s1)

/-- main.go:66-75: what is printed of one reader, whether `scan.Err()` is set, and the reader afterwards. What the scanner
has read ahead is lost with it. -/
def scanFrom (n : Int) (r : Source) : Bytes × Bool × Source :=
  let x := scanLoopFrom n (r.bytes.length + 1) (newScanner r) 0
  (x.1, x.2.failure.isSome, x.2.src)

/-- main.go:49-76: the loop of `process`, from operand number `i` on. -/
def processFrom (files : Bytes → Option Source) (n : Int) (many : Bool) : (i : Nat) → (stdin : Source) → List Bytes → Result
  | _, _, [] => ⟨[], none⟩
  | i, stdin, f :: rest =>
    if f = b!"-" then
      let r := scanFrom n stdin
      if r.2.1 then ⟨banner many i f ++ r.1, some .explicit⟩
      else
        let r' := processFrom files n many (i + 1) r.2.2 rest
        ⟨banner many i f ++ r.1 ++ r'.stdout, r'.panic⟩
    else
      match files f with
      | none => ⟨banner many i f, some .explicit⟩
      | some c =>
        let r := scanFrom n c
        if r.2.1 then ⟨banner many i f ++ r.1, some .explicit⟩
        else
          let r' := processFrom files n many (i + 1) stdin rest
          ⟨banner many i f ++ r.1 ++ r'.stdout, r'.panic⟩

/-- main.go:47-86 `process` and `main`. -/
def mainFrom (files : Bytes → Option Source) (stdin : Source) (args : List Bytes) : Result :=
  match parseSettings args with
  | .error p => ⟨[], some p⟩
  | .ok s => processFrom files s.numLines (s.filenames.length > 1) 0 stdin s.filenames

/-- What a reader delivers, as the model of `head` on whole files sees it. -/
def asStream (r : Source) : Stream := ⟨r.bytes, r.err.isSome⟩

theorem failure_open {s : Scanner} (h : s.Sound) : s.failure = none := by simp [Scanner.failure, h.open_]

theorem failure_ending {s : Scanner} {r : Source} (h : s.err = some r.ending) : s.failure.isSome = r.err.isSome := by
  rw [Scanner.failure, h]
  cases hr : r.err <;> simp [Source.ending, hr]

theorem unterminated_line (l rest : Bytes) (h : rest ≠ []) : unterminated (l ++ nl :: rest) = unterminated rest := by
  have e : (l ++ nl :: rest).getLast? = rest.getLast? := by
    rw [List.getLast?_append, List.getLast?_cons]
    cases rest with
    | nil => exact absurd rfl h
    | cons x xs => simp [List.getLast?_cons]
  unfold unterminated
  rw [e]
  cases rest with
  | nil => exact absurd rfl h
  | cons x xs => cases l <;> rfl

theorem unterminated_last (l : Bytes) : unterminated (l ++ [nl]) = false := by
  simp [unterminated]

theorem unterminated_noNL (p : Bytes) (h : nl ∉ p) (hp : p ≠ []) : unterminated p = true := by
  simp only [unterminated, Bool.and_eq_true, bne_iff_ne, ne_eq]
  refine ⟨hp, fun e => h ?_⟩
  exact List.mem_of_getLast? e

/-- What is printed of a scanner that has this much to deliver. -/
def outcome (n : Int) (p : Bytes) (err : Bool) (j : Nat) : Bytes × Bool :=
  scanLoop n ((scanLines p).2 || err) (!(scanLines p).2 && err && unterminated p) (scanLines p).1 j

theorem scanLoopFrom_ended (n : Int) (k : Nat) (s : Scanner) (e : ScanErr) (hh : s.held = []) (he : s.err = some e) (j : Nat) :
    (scanLoopFrom n k s j).1 = [] ∧ (scanLoopFrom n k s j).2.err = some e := by
  cases k with
  | zero => exact ⟨rfl, he⟩
  | succ k =>
    rw [scanLoopFrom, scan_ended hh he]
    exact ⟨rfl, he⟩

theorem scanLoopFrom_sound (n : Int) : ∀ (k : Nat) (s : Scanner) (j : Nat), s.Sound → s.pending.length < k →
    (scanLoopFrom n k s j).1 = (outcome n s.pending s.src.err.isSome j).1 ∧
    (scanLoopFrom n k s j).2.failure.isSome = (outcome n s.pending s.src.err.isSome j).2 := by
  intro k
  induction k with
  | zero => intro s j _ h; omega
  | succ k ih =>
    intro s j hs hk
    have step := scan_lines s hs
    generalize hr : s.scan splitLines = r at step
    obtain ⟨t, s1⟩ := r
    by_cases hnl : nl ∈ s.pending
    · obtain ⟨l, rest, e1, hl⟩ := split_at hnl
      by_cases hlt : l.length < maxToken
      · obtain ⟨a, b, c, d⟩ := step.line l rest e1 hl hlt
        simp only at a b c d
        subst a
        have hscan : scanLines s.pending = (dropCR l :: (scanLines rest).1, (scanLines rest).2) := by
          rw [scanLines, e1, rawLines_cons_line l hl, scanTokens, if_pos hlt]; rfl
        rw [scanLoopFrom, hr]
        simp only [outcome, hscan, scanLoop]
        split
        · next hj =>
          obtain ⟨i1, i2⟩ := ih s1 (j + 1) b (by rw [c]; rw [e1] at hk; simp at hk; omega)
          rw [c, d] at i1 i2
          have hu : (!(scanLines rest).2 && s.src.err.isSome && unterminated s.pending) =
              (!(scanLines rest).2 && s.src.err.isSome && unterminated rest) ∨ (scanLines rest).1 = [] := by
            by_cases hre : rest = []
            · right; rw [hre]; rfl
            · left; rw [e1, unterminated_line l rest hre]
          rw [i1, i2]
          simp only [outcome]
          rcases hu with hu | hu
          · rw [hu]; exact ⟨rfl, rfl⟩
          · rw [hu]; simp only [scanLoop]; exact ⟨trivial, trivial⟩
        · rw [failure_open b]
          refine ⟨rfl, ?_⟩
          show false = _
          cases hre : (scanLines rest).1 with
          | cons x xs => simp
          | nil =>
            -- nothing but the end, or a line too long, follows
            by_cases hre' : rest = []
            · rw [e1, hre', unterminated_last]; simp
            · have : (scanLines rest).2 = true := by
                rw [scanLines] at hre ⊢
                cases hraw : rawLines rest with
                | nil =>
                  exfalso
                  cases rest with
                  | nil => exact hre' rfl
                  | cons x xs =>
                    simp only [rawLines] at hraw
                    split at hraw
                    · cases hraw
                    · split at hraw <;> cases hraw
                | cons y ys =>
                  rw [hraw, scanTokens] at hre
                  rw [scanTokens]
                  split
                  · next hy => rw [if_pos hy] at hre; cases hre
                  · rfl
              rw [this]; rfl
      · have hnt : nl ∉ l.take maxToken := fun hm => hl (List.mem_of_mem_take hm)
        obtain ⟨a, b, c⟩ := step.long (l.take maxToken) (l.drop maxToken ++ nl :: rest)
          (by rw [e1, ← List.append_assoc, List.take_append_drop]) hnt (by rw [List.length_take]; omega)
        simp only at a b c
        subst a
        have hscan : scanLines s.pending = ([], true) := by
          rw [scanLines, e1, rawLines_cons_line l hl, scanTokens, if_neg hlt]
        rw [scanLoopFrom, hr]
        simp [outcome, hscan, scanLoop, Scanner.failure, c]
    · by_cases hp : s.pending = []
      · obtain ⟨a, b, c, d⟩ := step.done hp
        simp only at a b c d
        subst a
        rw [scanLoopFrom, hr]
        have := failure_ending d
        simp only [outcome, hp]
        rw [show scanLines [] = ([], false) from rfl]
        simp only [scanLoop, Bool.false_or]
        exact ⟨trivial, this⟩
      · by_cases hlt : s.pending.length < maxToken
        · obtain ⟨a, b, c, d⟩ := step.last hnl hlt hp
          simp only at a b c d
          subst a
          have hscan : scanLines s.pending = ([dropCR s.pending], false) := by
            rw [scanLines, rawLines_unterminated _ hnl hp, scanTokens, if_pos hlt]; rfl
          rw [scanLoopFrom, hr]
          simp only [outcome, hscan, scanLoop]
          split
          · obtain ⟨q1, q2⟩ := scanLoopFrom_ended n k s1 _ b d (j + 1)
            rw [q1, failure_ending q2]
            simp
          · rw [failure_ending d, unterminated_noNL _ hnl hp]
            simp
        · have hnt : nl ∉ s.pending.take maxToken := fun hm => hnl (List.mem_of_mem_take hm)
          obtain ⟨a, b, c⟩ := step.long (s.pending.take maxToken) (s.pending.drop maxToken)
            (by rw [List.take_append_drop]) hnt (by rw [List.length_take]; omega)
          simp only at a b c
          subst a
          have hscan : scanLines s.pending = ([], true) := by
            rw [scanLines, rawLines_unterminated _ hnl hp, scanTokens, if_neg hlt]
          rw [scanLoopFrom, hr]
          simp [outcome, hscan, scanLoop, Scanner.failure, c]

/-- **C113** What is printed of one file, and whether `head` fails on it, is determined by its bytes and whether reading it
ends with an error. -/
theorem C113_head_file (n : Int) (r : Source) (hl : r.Lively) :
    ((scanFrom n r).1, (scanFrom n r).2.1) = scanFile n (asStream r) := by
  have hp : (newScanner r).pending = r.bytes := by simp [Scanner.pending, newScanner]
  obtain ⟨h1, h2⟩ := scanLoopFrom_sound n (r.bytes.length + 1) (newScanner r) 0 (new_sound hl) (by rw [hp]; omega)
  rw [hp] at h1 h2
  rw [scanFrom]
  simp only [h1, h2]
  rfl

theorem read_lively (r : Source) (k : Nat) (h : r.Lively) : (r.read k).2.2.Lively := by
  unfold Source.read
  cases hc : r.chunks with
  | nil => simpa [hc] using h
  | cons c cs =>
    have h2 : ∀ d ∈ cs, d ≠ [] := fun d hd => h d (by rw [hc]; exact List.mem_cons_of_mem _ hd)
    simp only
    split
    · exact h2
    · intro d hd
      rcases List.mem_cons.1 hd with rfl | hd
      · intro h0; have := congrArg List.length h0; simp at this; omega
      · exact h2 d hd

theorem rounds_lively (split : Split) : ∀ (n : Nat) (s : Scanner), s.src.Lively → (Scanner.rounds split n s).2.src.Lively := by
  intro n
  induction n with
  | zero => intro s h; exact h
  | succ n ih =>
    intro s h
    have ha : ∀ x s1, s.attempt split = (x, s1) → s1.src = s.src := by
      intro x s1 e
      unfold Scanner.attempt at e
      split at e <;> cases e <;> rfl
    have hg : ∀ s1 : Scanner, ∀ x s2, s1.shift.grow = (s2, x) → s2.src = s1.src := by
      intro s1 x s2 e
      have h1 := (shift_same s1).2.1
      unfold Scanner.grow at e
      split at e
      · split at e <;> cases e <;> exact h1
      · cases e; exact h1
    rw [rounds_succ]
    split
    · next e => exact (ha _ _ e) ▸ h
    · next s1 e =>
      have h1 : s1.src.Lively := (ha _ _ e) ▸ h
      split
      · exact h1
      · split
        · next e2 => exact (hg _ _ _ e2) ▸ h1
        · next s2 e2 => exact ih _ (read_lively _ _ ((hg _ _ _ e2) ▸ h1))

theorem scanLoopFrom_lively (n : Int) : ∀ (k : Nat) (s : Scanner) (j : Nat), s.src.Lively → (scanLoopFrom n k s j).2.src.Lively := by
  intro k
  induction k with
  | zero => intro s j h; exact h
  | succ k ih =>
    intro s j h
    have h1 := rounds_lively splitLines (s.src.bytes.length + 2) s h
    rw [scanLoopFrom]
    rw [← Scanner.scan] at h1
    generalize s.scan splitLines = r at h1
    obtain ⟨t, s1⟩ := r
    cases t with
    | none => exact h1
    | some t =>
      simp only
      split
      · exact ih s1 (j + 1) h1
      · exact h1

/-- Files and standard input as `head` finds them, when operand number `i` reads `stdinAt i`. -/
def worldOf (files : Bytes → Option Source) (stdinAt : Nat → Source) : World :=
  { file := fun f => (files f).map asStream, stdinAt := fun i => asStream (stdinAt i) }

theorem process_congr (w w' : World) (hf : w.file = w'.file) (n : Int) (many : Bool) : ∀ (fs : List Bytes) (i : Nat),
    (∀ k, i ≤ k → k < i + fs.length → w.stdinAt k = w'.stdinAt k) → processLoop w n many i fs = processLoop w' n many i fs := by
  intro fs
  induction fs with
  | nil => intro i _; rfl
  | cons f fs ih =>
    intro i h
    have ho : openAt w i f = openAt w' i f := by
      unfold openAt
      rw [hf, h i (Nat.le_refl _) (by simp)]
    simp only [processLoop]
    rw [ho, ih (i + 1) (fun k h1 h2 => h k (by omega) (by simp; omega))]

theorem process_ok (files : Bytes → Option Source) (hl : ∀ f r, files f = some r → r.Lively) (n : Int) (many : Bool) :
    ∀ (fs : List Bytes) (i : Nat) (stdin : Source), stdin.Lively →
      ∃ stdinAt, (fs.count b!"-" ≤ 1 → ∀ k, stdinAt k = stdin) ∧
        processFrom files n many i stdin fs = processLoop (worldOf files stdinAt) n many i fs := by
  intro fs
  induction fs with
  | nil => intro i stdin _; exact ⟨fun _ => stdin, fun _ _ => rfl, rfl⟩
  | cons f fs ih =>
    intro i stdin hs
    by_cases hf : f = b!"-"
    · have hlv : (scanFrom n stdin).2.2.Lively := scanLoopFrom_lively n _ (newScanner stdin) 0 hs
      obtain ⟨at1, a1, a2⟩ := ih (i + 1) (scanFrom n stdin).2.2 hlv
      by_cases hcount : (f :: fs).count b!"-" ≤ 1
      · -- no further operand reads standard input
        have hno : b!"-" ∉ fs := by
          intro hm
          have := List.count_pos_iff.2 hm
          rw [hf, List.count_cons_self] at hcount
          omega
        refine ⟨fun _ => stdin, fun _ _ => rfl, ?_⟩
        have e1 : processLoop (worldOf files at1) n many (i + 1) fs = processLoop (worldOf files fun _ => stdin) n many (i + 1) fs := by
          have key : ∀ (gs : List Bytes) (i : Nat), b!"-" ∉ gs →
              processLoop (worldOf files at1) n many i gs = processLoop (worldOf files fun _ => stdin) n many i gs := by
            intro gs
            induction gs with
            | nil => intro _ _; rfl
            | cons g gs ihg =>
              intro i h
              have hg : g ≠ b!"-" := by rintro rfl; exact h (by simp)
              simp only [processLoop, openAt, if_neg hg]
              rw [ihg (i + 1) (fun hm => h (by simp [hm]))]
              rfl
          exact key fs (i + 1) hno
        have e2 := C113_head_file n stdin hs
        have e3 := congrArg Prod.fst e2
        have e4 := congrArg Prod.snd e2
        simp only at e3 e4
        simp only [processFrom, processLoop, openAt, hf, if_true, worldOf] at a2 e1 ⊢
        rw [a2, e1, e3, e4]
      · refine ⟨fun k => if k = i then stdin else at1 k, fun h => absurd h hcount, ?_⟩
        have e1 : processLoop (worldOf files at1) n many (i + 1) fs =
            processLoop (worldOf files fun k => if k = i then stdin else at1 k) n many (i + 1) fs := by
          refine process_congr (worldOf files at1) (worldOf files fun k => if k = i then stdin else at1 k) rfl n many fs (i + 1) ?_
          intro k h1 _
          simp only [worldOf]
          rw [if_neg (by omega)]
        have e2 := C113_head_file n stdin hs
        have e3 := congrArg Prod.fst e2
        have e4 := congrArg Prod.snd e2
        simp only at e3 e4
        simp only [processFrom, processLoop, openAt, hf, if_true, worldOf] at a2 e1 ⊢
        rw [a2, e1, e3, e4]
    · obtain ⟨at1, a1, a2⟩ := ih (i + 1) stdin hs
      cases hfile : files f with
      | none =>
        refine ⟨at1, fun h => a1 (by rw [List.count_cons_of_ne hf] at h; exact h), ?_⟩
        simp only [processFrom, processLoop, openAt, if_neg hf, worldOf, hfile]
        rfl
      | some c =>
        refine ⟨at1, fun h => a1 (by rw [List.count_cons_of_ne hf] at h; exact h), ?_⟩
        have e2 := C113_head_file n c (hl f c hfile)
        have e3 := congrArg Prod.fst e2
        have e4 := congrArg Prod.snd e2
        simp only at e3 e4
        have hof : (worldOf files at1).file f = some (asStream c) := by simp [worldOf, hfile]
        simp only [processFrom, processLoop, openAt, if_neg hf, hfile, hof, a2, e3, e4]

/-- **C113** If standard input is an operand at most once, what `head` does is determined by its arguments, the bytes of its
input and whether reading ends with an error. -/
theorem C113_head_partial (files : Bytes → Option Source) (hl : ∀ f r, files f = some r → r.Lively) (stdin : Source) (hs : stdin.Lively)
    (args : List Bytes) (h1 : args.count b!"-" ≤ 1) :
    mainFrom files stdin args = main (worldOf files fun _ => stdin) args := by
  have hparse : ∀ (n : Nat) (args : List Bytes) (s s' : Settings), args.length ≤ n → parseLoop s args = .ok s' →
      s'.filenames.count b!"-" ≤ s.filenames.count b!"-" + args.count b!"-" := by
    intro n
    induction n with
    | zero =>
      intro args s s' hn h
      rw [List.eq_nil_of_length_eq_zero (Nat.le_zero.mp hn)] at h ⊢
      cases h; simp
    | succ n ih =>
      intro args s s' hn h
      match args, hn, h with
      | [], _, h => cases h; simp
      | [a], _, h =>
        simp only [parseLoop] at h
        split at h
        · cases h
        · cases h; simp
      | a :: v :: rest, hn, h =>
        simp only [List.length_cons] at hn
        simp only [parseLoop] at h
        split at h
        · split at h
          · have := ih _ _ _ (by omega) h
            simp only at this
            rw [List.count_cons, List.count_cons]
            omega
          · cases h
        · have := ih _ _ _ (by simp; omega) h
          simp only [List.count_append, List.count_singleton] at this
          rw [List.count_cons]
          omega
  unfold mainFrom main
  cases hp : parseSettings args with
  | error p => rfl
  | ok s =>
    simp only [process]
    obtain ⟨at1, a1, a2⟩ := process_ok files hl s.numLines (s.filenames.length > 1) s.filenames 0 stdin hs
    have : s.filenames.count b!"-" ≤ 1 := by
      unfold parseSettings at hp
      split at hp
      · cases hp; simp
      · split at hp
        · next s0 h0 =>
          cases hp
          have := hparse _ args _ _ (Nat.le_refl _) h0
          unfold withDefault
          split
          · simp
          · simp at this; omega
        · cases hp
    rw [a2, show at1 = fun _ => stdin from funext (a1 this)]

/-- **C113** In any case each operand `-` reads some part of standard input: everything proved of `head` for whatever they
read holds. -/
theorem C113_head_refines (files : Bytes → Option Source) (hl : ∀ f r, files f = some r → r.Lively) (stdin : Source) (hs : stdin.Lively)
    (args : List Bytes) : ∃ stdinAt, mainFrom files stdin args = main (worldOf files stdinAt) args := by
  unfold mainFrom main
  cases hp : parseSettings args with
  | error p => exact ⟨fun _ => stdin, rfl⟩
  | ok s =>
    obtain ⟨at1, -, a2⟩ := process_ok files hl s.numLines (s.filenames.length > 1) s.filenames 0 stdin hs
    exact ⟨at1, a2⟩

/-- **C113** (the expectation fails) The same standard input, in two pieces or in three, named twice. -/
theorem C113_head_counterexample :
    ∃ r r' : Source, r.Lively ∧ r'.Lively ∧ r.bytes = r'.bytes ∧ r.err = r'.err ∧
      (mainFrom (fun _ => none) r [b!"-n", b!"1", b!"-", b!"-"]).stdout = b!"==> - <==\na\n\n==> - <==\n" ∧
      (mainFrom (fun _ => none) r' [b!"-n", b!"1", b!"-", b!"-"]).stdout = b!"==> - <==\na\n\n==> - <==\nc\n" := by
  refine ⟨{ chunks := [b!"a\nb\nc\n"] }, { chunks := [b!"a\n", b!"b\n", b!"c\n"] }, ?_, ?_, rfl, rfl, by decide +kernel, by decide +kernel⟩
  · intro c hc; simp at hc; rw [hc]; decide
  · intro c hc; simp at hc; rcases hc with rfl | rfl | rfl <;> decide

example : (mainFrom (fun _ => none) { chunks := [b!"a\nb", b!"b\nc"] } [b!"-n", b!"2"]).stdout = b!"a\nbb\n" := by decide +kernel

/-- The number of lines a file has room for: whole lines, and an unfinished one. -/
def lineCount (d : Bytes) : Nat := (rawLines d).length

theorem scanLoop_error (n : Int) (b : Bool) : ∀ (ls : List Bytes) (j : Nat), (j + ls.length : Int) ≤ n →
    (scanLoop n true b ls j).2 = true := by
  intro ls
  induction ls with
  | nil => intro j _; rfl
  | cons l ls ih =>
    intro j h
    simp only [List.length_cons] at h
    have := ih (j + 1) (by omega)
    simp only [scanLoop]
    rw [if_pos (by omega)]
    exact this

theorem tokens_le : ∀ ls : List Bytes, (scanTokens ls).1.length ≤ ls.length := by
  intro ls
  induction ls with
  | nil => simp [scanTokens]
  | cons l ls ih =>
    rw [scanTokens]
    split
    · simpa using ih
    · simp

/-- **C114** If reading a file ends with an error before there are more lines than are asked for, `head` ends with a panic.
(If there are more it has printed all it was asked for.) -/
theorem C114_head (n : Int) (r : Source) (hl : r.Lively) (he : r.err ≠ none) (hn : (lineCount r.bytes : Int) ≤ n) :
    (scanFrom n r).2.1 = true := by
  have h := congrArg Prod.snd (C113_head_file n r hl)
  simp only at h
  rw [h, scanFile, asStream]
  have e : r.err.isSome = true := by cases hr : r.err <;> simp_all
  simp only [e, Bool.or_true]
  refine scanLoop_error n _ _ 0 ?_
  have := tokens_le (rawLines r.bytes)
  unfold lineCount at hn
  simp only [scanLines]
  omega

/-- Two lines are asked for, and one and a half arrive before the error: both are printed, then `head` fails. -/
example : scanFrom 2 { chunks := [b!"on", b!"e\ntw"], err := some b!"input/output error" } = (b!"one\ntw\n", true, { chunks := [], err := some b!"input/output error" }) := by
  decide +kernel

end Head
