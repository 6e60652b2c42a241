import Verif.Head.Arrival
import Verif.Go.Waiting

/-! # When `head` prints and when it ends, on input that is still arriving (C128) -/

namespace Head
open Go

/-- main.go:67-72: the loop over the scanner, as `scanLoopFrom`, on a reader whose writer has not closed if `more`. -/
def scanLoopLive (more : Bool) (n : Int) : (rounds : Nat) → Scanner → (j : Nat) → Progress (Bytes × Scanner)
  | 0, _, _ => .waits []
  | k + 1, s, j =>
    match s.scanLive more splitLines with
    | .waits _ => .waits []
    | .over s1 => .done ([], s1)
    | .token t s1 =>
      if (j : Int) < n then
        match scanLoopLive more n k s1 (j + 1) with
        | .waits o => .waits (t ++ nl :: o)
        | .done r => .done (t ++ nl :: r.1, r.2)
      else .done ([], s1)

/-- main.go:66-75: what is printed of standard input. -/
def scanLive (more : Bool) (n : Int) (r : Source) : Progress (Bytes × Bool × Source) :=
  match scanLoopLive more n (r.bytes.length + 1) (newScanner r) 0 with
  | .waits o => .waits o
  | .done x => .done (x.1, x.2.failure.isSome, x.2.src)

/-- The output of what was done before. -/
def before (o : Bytes) : Progress Result → Progress Result
  | .waits o' => .waits (o ++ o')
  | .done r => .done ⟨o ++ r.stdout, r.panic⟩

/-- main.go:49-76: the loop of `process`, as `processFrom`, while standard input is still open if `more`. The files named
are complete. -/
def processLive (more : Bool) (files : Bytes → Option Source) (n : Int) (many : Bool) : (i : Nat) → (stdin : Source) → List Bytes → Progress Result
  | _, _, [] => .done ⟨[], none⟩
  | i, stdin, f :: rest =>
    if f = b!"-" then
      match scanLive more n stdin with
      | .waits o => .waits (banner many i f ++ o)
      | .done r =>
        if r.2.1 then .done ⟨banner many i f ++ r.1, some .explicit⟩
        else before (banner many i f ++ r.1) (processLive more files n many (i + 1) r.2.2 rest)
    else
      match files f with
      | none => .done ⟨banner many i f, some .explicit⟩
      | some c =>
        let r := scanFrom n c
        if r.2.1 then .done ⟨banner many i f ++ r.1, some .explicit⟩
        else before (banner many i f ++ r.1) (processLive more files n many (i + 1) stdin rest)

/-- main.go:47-86 `process` and `main`. -/
def mainLive (more : Bool) (files : Bytes → Option Source) (stdin : Source) (args : List Bytes) : Progress Result :=
  match parseSettings args with
  | .error p => .done ⟨[], some p⟩
  | .ok s => processLive more files s.numLines (s.filenames.length > 1) 0 stdin s.filenames

/-! ## The specification: lines -/

/-- These lines as `head` prints them: without a carriage return at the end. -/
def printed (ls : List Bytes) : Bytes := (ls.map (fun l => dropCR l ++ [nl])).flatten

/-! ## Proofs -/

theorem printed_cons (l : Bytes) (ls : List Bytes) : printed (l :: ls) = dropCR l ++ nl :: printed ls := by
  simp [printed]

theorem loop_waits (n : Int) : ∀ (ls : List Bytes) (k : Nat) (s : Scanner) (j : Nat) (part : Bytes), Fit ls → s.Sound →
    s.pending = withNewlines ls ++ part → nl ∉ part → part.length < maxToken → (ls.length : Int) + j ≤ max n j → ls.length < k →
    scanLoopLive true n k s j = .waits (printed ls) := by
  intro ls
  induction ls with
  | nil =>
    intro k s j part _ hs hp hn hl _ hk
    obtain ⟨k, rfl⟩ : ∃ m, k = m + 1 := ⟨k - 1, by simp at hk; omega⟩
    obtain ⟨s', e⟩ := (scan_live s hs).short (by rw [hp]; simpa [withNewlines] using hn) (by rw [hp]; simpa [withNewlines] using hl)
    rw [scanLoopLive, e]
    rfl
  | cons l ls ih =>
    intro k s j part hf hs hp hn hl hc hk
    obtain ⟨k, rfl⟩ : ∃ m, k = m + 1 := ⟨k - 1, by simp at hk; omega⟩
    rw [withNewlines_cons] at hp
    obtain ⟨s', e, a, b, -⟩ := (scan_live s hs).line l _ hp (hf l (by simp)).1 (hf l (by simp)).2
    simp only [List.length_cons] at hc hk
    have := ih k s' (j + 1) part (fun x hx => hf x (by simp [hx])) a b hn hl (by omega) (by omega)
    rw [scanLoopLive, e]
    simp only
    rw [if_pos (by omega), this, printed_cons]

theorem loop_ends (n : Int) : ∀ (ls : List Bytes) (k : Nat) (s : Scanner) (j : Nat) (rest : Bytes), Fit ls → s.Sound →
    s.pending = withNewlines ls ++ rest → max n j < (ls.length : Int) + j → ls.length < k →
    ∃ s', scanLoopLive true n k s j = .done (printed (ls.take (n - j).toNat), s') ∧ s'.Sound := by
  intro ls
  induction ls with
  | nil => intro k s j rest _ _ _ h; simp at h; omega
  | cons l ls ih =>
    intro k s j rest hf hs hp hc hk
    obtain ⟨k, rfl⟩ : ∃ m, k = m + 1 := ⟨k - 1, by simp at hk; omega⟩
    rw [withNewlines_cons] at hp
    obtain ⟨s', e, a, b, -⟩ := (scan_live s hs).line l _ hp (hf l (by simp)).1 (hf l (by simp)).2
    simp only [List.length_cons] at hc hk
    rw [scanLoopLive, e]
    simp only
    by_cases hj : (j : Int) < n
    · obtain ⟨s2, e2, a2⟩ := ih k s' (j + 1) rest (fun x hx => hf x (by simp [hx])) a b (by omega) (by omega)
      refine ⟨s2, ?_, a2⟩
      rw [if_pos hj, e2]
      have : (n - (j : Int)).toNat = (n - ((j + 1 : Nat) : Int)).toNat + 1 := by omega
      rw [this, List.take_succ_cons, printed_cons]
    · refine ⟨s', ?_, a⟩
      rw [if_neg hj]
      have : (n - (j : Int)).toNat = 0 := by omega
      rw [this]
      rfl

theorem loopFrom_ends (n : Int) : ∀ (ls : List Bytes) (k : Nat) (s : Scanner) (j : Nat) (rest : Bytes), Fit ls → s.Sound →
    s.pending = withNewlines ls ++ rest → max n j < (ls.length : Int) + j → ls.length < k →
    ∃ s', scanLoopFrom n k s j = (printed (ls.take (n - j).toNat), s') ∧ s'.Sound := by
  intro ls
  induction ls with
  | nil => intro k s j rest _ _ _ h; simp at h; omega
  | cons l ls ih =>
    intro k s j rest hf hs hp hc hk
    obtain ⟨k, rfl⟩ : ∃ m, k = m + 1 := ⟨k - 1, by simp at hk; omega⟩
    rw [withNewlines_cons] at hp
    obtain ⟨e, a, b, -⟩ := (scan_lines s hs).line l _ hp (hf l (by simp)).1 (hf l (by simp)).2
    generalize hr : s.scan splitLines = r at e a b
    obtain ⟨t, s'⟩ := r
    simp only at e a b
    subst e
    simp only [List.length_cons] at hc hk
    rw [scanLoopFrom, hr]
    simp only
    by_cases hj : (j : Int) < n
    · obtain ⟨s2, e2, a2⟩ := ih k s' (j + 1) rest (fun x hx => hf x (by simp [hx])) a b (by omega) (by omega)
      refine ⟨s2, ?_, a2⟩
      rw [if_pos hj, e2]
      have : (n - (j : Int)).toNat = (n - ((j + 1 : Nat) : Int)).toNat + 1 := by omega
      rw [this, List.take_succ_cons, printed_cons]
    · refine ⟨s', ?_, a⟩
      rw [if_neg hj]
      have : (n - (j : Int)).toNat = 0 := by omega
      rw [this]
      rfl

theorem scanLive_waits (n : Int) (r : Source) (hl : r.Lively) (ls : List Bytes) (part : Bytes) (hf : Fit ls) (hr : r.bytes = withNewlines ls ++ part)
    (hp : nl ∉ part) (hs : part.length < maxToken) (hn : (ls.length : Int) ≤ max n 0) : scanLive true n r = .waits (printed ls) := by
  have := withNewlines_length ls
  rw [scanLive, loop_waits n ls _ _ 0 part hf (new_sound hl) hr hp hs (by simpa using hn) (by rw [hr]; simp; omega)]

theorem scanLive_ends (n : Int) (r : Source) (hl : r.Lively) (ls : List Bytes) (rest : Bytes) (hf : Fit ls) (hr : r.bytes = withNewlines ls ++ rest)
    (hn : max n 0 < (ls.length : Int)) : ∃ r', scanLive true n r = .done (printed (ls.take n.toNat), false, r') := by
  have := withNewlines_length ls
  obtain ⟨s', e, h⟩ := loop_ends n ls (r.bytes.length + 1) (newScanner r) 0 rest hf (new_sound hl) hr (by simpa using hn) (by rw [hr]; simp; omega)
  refine ⟨s'.src, ?_⟩
  rw [scanLive, e]
  simp [failure_open h]

theorem scanFrom_ends (n : Int) (r : Source) (hl : r.Lively) (ls : List Bytes) (rest : Bytes) (hf : Fit ls) (hr : r.bytes = withNewlines ls ++ rest)
    (hn : max n 0 < (ls.length : Int)) : ∃ r', scanFrom n r = (printed (ls.take n.toNat), false, r') := by
  have := withNewlines_length ls
  obtain ⟨s', e, h⟩ := loopFrom_ends n ls (r.bytes.length + 1) (newScanner r) 0 rest hf (new_sound hl) hr (by simpa using hn) (by rw [hr]; simp; omega)
  refine ⟨s'.src, ?_⟩
  rw [scanFrom, e]
  simp [failure_open h]

theorem before_before (a b : Bytes) (p : Progress Result) : before a (before b p) = before (a ++ b) p := by
  cases p <;> simp [before]

theorem before_nil (p : Progress Result) : before [] p = p := by cases p <;> rfl

/-- The files named before standard input are done with first. -/
theorem processLive_files (more : Bool) (files : Bytes → Option Source) (n : Int) (many : Bool) (stdin x : Source) (rest : List Bytes) :
    ∀ (fs : List Bytes) (i : Nat), b!"-" ∉ fs → (processFrom files n many i x fs).panic = none →
    processLive more files n many i stdin (fs ++ rest) =
      before (processFrom files n many i x fs).stdout (processLive more files n many (i + fs.length) stdin rest) := by
  intro fs
  induction fs with
  | nil => intro i _ _; simp [processFrom, before_nil]
  | cons f fs ih =>
    intro i hd hp
    have hf : f ≠ b!"-" := fun e => hd (by simp [e])
    rw [List.cons_append, processLive, if_neg hf]
    rw [processFrom, if_neg hf] at hp ⊢
    cases hfile : files f with
    | none => rw [hfile] at hp; simp at hp
    | some c =>
      rw [hfile] at hp
      simp only at hp ⊢
      by_cases hb : (scanFrom n c).2.1 = true
      · rw [if_pos hb] at hp; simp at hp
      · rw [if_neg hb] at hp ⊢
        rw [if_neg hb, ih (i + 1) (fun h => hd (by simp [h])) hp, before_before]
        simp only [List.length_cons, Nat.add_comm, Nat.add_left_comm]

/-- Without standard input it does not matter whether that is open. -/
theorem processLive_closed (more : Bool) (files : Bytes → Option Source) (n : Int) (many : Bool) (stdin x : Source) :
    ∀ (fs : List Bytes) (i : Nat), b!"-" ∉ fs → processLive more files n many i stdin fs = .done (processFrom files n many i x fs) := by
  intro fs
  induction fs with
  | nil => intro i _; rfl
  | cons f fs ih =>
    intro i hd
    have hf : f ≠ b!"-" := fun e => hd (by simp [e])
    rw [processLive, processFrom, if_neg hf, if_neg hf]
    cases hfile : files f with
    | none => rfl
    | some c =>
      simp only
      by_cases hb : (scanFrom n c).2.1 = true
      · rw [if_pos hb, if_pos hb]
      · rw [if_neg hb, if_neg hb, ih (i + 1) (fun h => hd (by simp [h]))]
        rfl

theorem processFrom_files (files : Bytes → Option Source) (n : Int) (many : Bool) (stdin x : Source) (rest : List Bytes) :
    ∀ (fs : List Bytes) (i : Nat), b!"-" ∉ fs → (processFrom files n many i x fs).panic = none →
    processFrom files n many i stdin (fs ++ rest) =
      ⟨(processFrom files n many i x fs).stdout ++ (processFrom files n many (i + fs.length) stdin rest).stdout,
        (processFrom files n many (i + fs.length) stdin rest).panic⟩ := by
  intro fs
  induction fs with
  | nil => intro i _ _; simp [processFrom]
  | cons f fs ih =>
    intro i hd hp
    have hf : f ≠ b!"-" := fun e => hd (by simp [e])
    rw [List.cons_append, processFrom, if_neg hf]
    rw [processFrom, if_neg hf] at hp ⊢
    cases hfile : files f with
    | none => rw [hfile] at hp; simp at hp
    | some c =>
      rw [hfile] at hp
      simp only at hp ⊢
      by_cases hb : (scanFrom n c).2.1 = true
      · rw [if_pos hb] at hp; simp at hp
      · rw [if_neg hb] at hp ⊢
        rw [if_neg hb, ih (i + 1) (fun h => hd (by simp [h])) hp]
        simp only [List.length_cons, Nat.add_comm, Nat.add_left_comm, List.append_assoc]

/-- The operand that is standard input, the operands before it (which could be printed) and those after it. -/
structure ReadsInput (files : Bytes → Option Source) (args : List Bytes) (s : Settings) (fs rest : List Bytes) : Prop where
  parsed : parseSettings args = .ok s
  operands : s.filenames = fs ++ b!"-" :: rest
  first : b!"-" ∉ fs
  fine : (processFrom files s.numLines (s.filenames.length > 1) 0 { chunks := [] } fs).panic = none

/-- **C128** While standard input is open and not more lines have arrived than `head` is to print, it waits, and it has
printed the files before and every line that is complete. -/
theorem C128_head (files : Bytes → Option Source) (stdin : Source) (hl : stdin.Lively) (args : List Bytes) (s : Settings) (fs rest : List Bytes)
    (h : ReadsInput files args s fs rest) (ls : List Bytes) (part : Bytes) (hf : Fit ls) (hr : stdin.bytes = withNewlines ls ++ part)
    (hp : nl ∉ part) (hs : part.length < maxToken) (hn : (ls.length : Int) ≤ max s.numLines 0) :
    mainLive true files stdin args =
      .waits ((processFrom files s.numLines (s.filenames.length > 1) 0 { chunks := [] } fs).stdout ++
        (banner (s.filenames.length > 1) fs.length b!"-" ++ printed ls)) := by
  rw [mainLive, h.parsed]
  simp only
  have hm := h.fine
  rw [h.operands] at hm ⊢
  rw [processLive_files true files _ _ stdin { chunks := [] } _ fs 0 h.first hm, processLive, if_pos rfl, scanLive_waits _ stdin hl ls part hf hr hp hs hn]
  simp [before]

example : mainLive true (fun _ => some { chunks := [b!"x\ny\n"] }) { chunks := [b!"a\nb", b!"\nc"] } [b!"-n", b!"2", b!"f", b!"-", b!"g"] =
    .waits b!"==> f <==\nx\ny\n\n==> - <==\na\nb\n" := by decide +kernel

/-- **C128** As soon as one line more has arrived than `head` is to print, it goes on to what follows without waiting, with
what it would have printed whatever came after that. -/
theorem C128_head_ends (files : Bytes → Option Source) (stdin : Source) (hl : stdin.Lively) (args : List Bytes) (s : Settings) (fs rest : List Bytes)
    (h : ReadsInput files args s fs rest) (ho : b!"-" ∉ rest) (ls : List Bytes) (part : Bytes) (hf : Fit ls) (hr : stdin.bytes = withNewlines ls ++ part)
    (hn : max s.numLines 0 < (ls.length : Int)) :
    ∃ res, mainLive true files stdin args = .done res ∧
      ∀ (later : List Bytes) (err : Option Bytes), (∀ c ∈ later, c ≠ []) → mainFrom files ⟨stdin.chunks ++ later, err⟩ args = res := by
  have hm := h.fine
  obtain ⟨r1, e1⟩ := scanLive_ends s.numLines stdin hl ls part hf hr hn
  rw [mainLive, h.parsed]
  simp only
  rw [h.operands] at hm ⊢
  rw [processLive_files true files _ _ stdin { chunks := [] } _ fs 0 h.first hm, processLive, if_pos rfl, e1]
  simp only [Bool.false_eq_true, if_false]
  rw [processLive_closed true files _ _ r1 { chunks := [] } rest _ ho]
  refine ⟨_, rfl, fun later err hlat => ?_⟩
  have hlive : (⟨stdin.chunks ++ later, err⟩ : Source).Lively := by
    intro c hc
    rcases List.mem_append.1 hc with hc | hc
    · exact hl c hc
    · exact hlat c hc
  have hb : (⟨stdin.chunks ++ later, err⟩ : Source).bytes = withNewlines ls ++ (part ++ later.flatten) := by
    rw [← List.append_assoc, ← hr]
    simp [Source.bytes]
  obtain ⟨r2, e2⟩ := scanFrom_ends s.numLines _ hlive ls _ hf hb hn
  rw [mainFrom, h.parsed]
  simp only
  rw [h.operands, processFrom_files files _ _ _ { chunks := [] } _ fs 0 h.first hm, processFrom, if_pos rfl, e2]
  simp only [Bool.false_eq_true, if_false]
  have e3 : processFrom files s.numLines (decide ((fs ++ b!"-" :: rest).length > 1)) (0 + fs.length + 1) r2 rest =
      processFrom files s.numLines (decide ((fs ++ b!"-" :: rest).length > 1)) (0 + fs.length + 1) { chunks := [] } rest := by
    have a := processLive_closed true files s.numLines (decide ((fs ++ b!"-" :: rest).length > 1)) r2 r2 rest (0 + fs.length + 1) ho
    have b := processLive_closed true files s.numLines (decide ((fs ++ b!"-" :: rest).length > 1)) r2 { chunks := [] } rest (0 + fs.length + 1) ho
    rw [a] at b
    exact Progress.done.inj b
  rw [e3]

example : mainLive true (fun _ => none) { chunks := [b!"a\nb", b!"\nc"] } [b!"-n", b!"1"] = .done ⟨b!"a\n", none⟩ := by decide +kernel

/-- **C128** (the expectation fails) All the lines that `head` is to print have arrived and are printed, and it waits for
another line. -/
theorem C128_head_waits (files : Bytes → Option Source) (stdin : Source) (hl : stdin.Lively) (args : List Bytes) (s : Settings) (fs rest : List Bytes)
    (h : ReadsInput files args s fs rest) (ls : List Bytes) (hf : Fit ls) (hr : stdin.bytes = withNewlines ls) (hn : (ls.length : Int) = s.numLines) :
    ∃ out, mainLive true files stdin args = .waits out ∧ printed ls <:+ out := by
  refine ⟨_, C128_head files stdin hl args s fs rest h ls [] hf (by simp [hr]) (by simp) (by decide) (by omega), ?_⟩
  exact ⟨_, List.append_assoc _ _ _⟩

/-- **C128** A case: `head -n 1` has printed its line and waits. -/
theorem C128_head_counterexample :
    mainLive true (fun _ => none) { chunks := [b!"a\n"] } [b!"-n", b!"1"] = .waits b!"a\n" ∧
    (mainFrom (fun _ => none) { chunks := [b!"a\n"] } [b!"-n", b!"1"]).stdout = b!"a\n" := by decide +kernel

/-- The hypotheses of these theorems in a case. -/
example : ReadsInput (fun _ => some { chunks := [b!"x\ny\n"] }) [b!"-n", b!"2", b!"f", b!"-", b!"g"]
    ⟨2, [b!"f", b!"-", b!"g"]⟩ [b!"f"] [b!"g"] :=
  ⟨by decide +kernel, rfl, by decide, by decide +kernel⟩

end Head
