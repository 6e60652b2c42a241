import Verif.Cmp.Props
import Verif.Go.Scanner

/-! # `cmp` on files that are read piece by piece, and standard input named twice (C113) -/

namespace Cmp
open Go

/-- `(*bufio.Reader).ReadByte` of package bufio: the bytes it holds, then one call of `Read` into its buffer of 4096 bytes
when it has none. (With no bytes and no error from the reader, which does not happen, it would try again.) -/
def readByte (held : Bytes) (r : Source) : Except ScanErr UInt8 × Bytes × Source :=
  match held with
  | c :: cs => (.ok c, cs, r)
  | [] =>
    match r.read 4096 with
    | (c :: cs, _, r') => (.ok c, cs, r')
    | ([], e, r') => (.error (e.getD (.read b!"multiple Read calls return no data or error")), [], r')

/-- main.go:83-99: the errors of the two `ReadByte` calls. -/
def asError : ScanErr → Option Bytes
  | .eof => none
  | e => some e.text

/-- main.go:65-100: one round of the loop for which at least one `ReadByte` failed. -/
def stopped (s : Settings) (x1 x2 : Except ScanErr UInt8) : Out :=
  atEnd s (match x1 with | .ok _ => none | .error e => some (asError e)) (match x2 with | .ok _ => none | .error e => some (asError e))

/-- main.go:60-103: the loop of `cmp` over two readers, with a bound on the rounds. -/
def loopFrom (s : Settings) : (rounds : Nat) → (h1 : Bytes) → (r1 : Source) → (h2 : Bytes) → (r2 : Source) → (i l : Nat) → Out
  | 0, _, _, _, _, _, _ => { stdout := [], stderr := [], exit := 0 }
  | n + 1, h1, r1, h2, r2, i, l =>
    let x1 := readByte h1 r1
    let x2 := readByte h2 r2
    match x1.1, x2.1 with
    | .ok b1, .ok b2 =>
      if b1 ≠ b2 ∧ ¬ s.writeAll then { stdout := report s i l b1 b2, stderr := [], exit := 1 }
      else
        let r := loopFrom s n x1.2.1 x1.2.2 x2.2.1 x2.2.2 (i + 1) (if b1 = nl then l + 1 else l)
        { r with stdout := (if b1 ≠ b2 then report s i l b1 b2 else []) ++ r.stdout }
    | y1, y2 => stopped s y1 y2

/-- main.go:60-103: the loop when both readers read standard input: what one takes the other does not get. -/
def loopShared (s : Settings) : (rounds : Nat) → (h1 h2 : Bytes) → (r : Source) → (i l : Nat) → Out
  | 0, _, _, _, _, _ => { stdout := [], stderr := [], exit := 0 }
  | n + 1, h1, h2, r, i, l =>
    let x1 := readByte h1 r
    let x2 := readByte h2 x1.2.2
    match x1.1, x2.1 with
    | .ok b1, .ok b2 =>
      if b1 ≠ b2 ∧ ¬ s.writeAll then { stdout := report s i l b1 b2, stderr := [], exit := 1 }
      else
        let r := loopShared s n x1.2.1 x2.2.1 x2.2.2 (i + 1) (if b1 = nl then l + 1 else l)
        { r with stdout := (if b1 ≠ b2 then report s i l b1 b2 else []) ++ r.stdout }
    | y1, y2 => stopped s y1 y2

/-- main.go:39-44 `open`. -/
def openFrom (files : Bytes → Option Source) (stdin : Source) (name : Bytes) : Option Source :=
  if name = b!"-" then some stdin else files name

/-- main.go:46-104 `cmp`. -/
def cmpFrom (files : Bytes → Option Source) (stdin : Source) (s : Settings) : Out :=
  match openFrom files stdin s.file1 with
  | none => fail (b!"could not open " ++ s.file1)
  | some f1 =>
    match openFrom files stdin s.file2 with
    | none => fail (b!"could not open " ++ s.file2)
    | some f2 =>
      if s.file1 = b!"-" ∧ s.file2 = b!"-" then loopShared s (stdin.bytes.length + 1) [] [] stdin 1 1
      else loopFrom s (f1.bytes.length + 1) [] f1 [] f2 1 1

/-- main.go:106-118 `main`. -/
def mainFrom (files : Bytes → Option Source) (stdin : Source) (args : List Bytes) : Out :=
  match parseSettings args with
  | .error e => fail e
  | .ok s => cmpFrom files stdin s

/-! ## Proofs -/

theorem readByte_more {h : Bytes} {r : Source} (hl : r.Lively) {c : UInt8} {cs : Bytes} (e : h ++ r.bytes = c :: cs) :
    ∃ h' r', readByte h r = (.ok c, h', r') ∧ h' ++ r'.bytes = cs ∧ r'.Lively ∧ r'.err = r.err := by
  cases h with
  | cons b h =>
    simp only [List.cons_append, List.cons.injEq] at e
    obtain ⟨rfl, rfl⟩ := e
    exact ⟨h, r, rfl, rfl, hl, rfl⟩
  | nil =>
    simp only [List.nil_append] at e
    obtain ⟨chunks, err⟩ := r
    cases chunks with
    | nil => simp [Source.bytes] at e
    | cons d ds =>
      have hd : d ≠ [] := hl d (by simp)
      have hds : ∀ x ∈ ds, x ≠ [] := fun x hx => hl x (by simp [hx])
      cases d with
      | nil => exact absurd rfl hd
      | cons b d =>
        simp only [Source.bytes, List.flatten_cons, List.cons_append, List.cons.injEq] at e
        obtain ⟨rfl, rfl⟩ := e
        by_cases hle : (b :: d).length ≤ 4096
        · refine ⟨d, ⟨ds, err⟩, ?_, rfl, hds, rfl⟩
          simp only [readByte, Source.read, if_pos hle]
        · refine ⟨d.take 4095, ⟨d.drop 4095 :: ds, err⟩, ?_, ?_, ?_, rfl⟩
          · simp only [readByte, Source.read, if_neg hle, List.take_succ_cons, List.drop_succ_cons]
          · simp only [Source.bytes, List.flatten_cons]
            rw [← List.append_assoc, List.take_append_drop]
          · intro x hx
            rcases List.mem_cons.1 hx with rfl | hx
            · intro h0; have := congrArg List.length h0; simp at this hle; omega
            · exact hds x hx

theorem readByte_end {h : Bytes} {r : Source} (hl : r.Lively) (e : h ++ r.bytes = []) :
    ∃ h' r', readByte h r = (.error r.ending, h', r') := by
  simp only [List.append_eq_nil_iff] at e
  obtain ⟨rfl, e⟩ := e
  obtain ⟨chunks, err⟩ := r
  cases chunks with
  | nil => exact ⟨[], ⟨[], err⟩, by simp [readByte, Source.read]⟩
  | cons d ds =>
    exfalso
    simp [Source.bytes] at e
    exact hl d (by simp) e.1

theorem asError_ending (r : Source) : asError r.ending = r.err := by
  unfold Source.ending
  cases r.err <;> rfl

theorem loopFrom_eq (s : Settings) : ∀ (n : Nat) (h1 : Bytes) (r1 : Source) (h2 : Bytes) (r2 : Source) (i l : Nat),
    r1.Lively → r2.Lively → (h1 ++ r1.bytes).length < n →
    loopFrom s n h1 r1 h2 r2 i l = loop s r1.err r2.err (h1 ++ r1.bytes) (h2 ++ r2.bytes) i l := by
  intro n
  induction n with
  | zero => intro h1 r1 h2 r2 i l _ _ h; omega
  | succ n ih =>
    intro h1 r1 h2 r2 i l l1 l2 hn
    cases e1 : h1 ++ r1.bytes with
    | nil =>
      obtain ⟨h1', r1', x1⟩ := readByte_end l1 e1
      cases e2 : h2 ++ r2.bytes with
      | nil =>
        obtain ⟨h2', r2', x2⟩ := readByte_end l2 e2
        simp only [loopFrom, x1, x2, stopped, asError_ending, loop]
      | cons b2 d2 =>
        obtain ⟨h2', r2', x2, -⟩ := readByte_more l2 e2
        simp only [loopFrom, x1, x2, stopped, asError_ending, loop]
    | cons b1 d1 =>
      obtain ⟨h1', r1', x1, y1, z1, w1⟩ := readByte_more l1 e1
      cases e2 : h2 ++ r2.bytes with
      | nil =>
        obtain ⟨h2', r2', x2⟩ := readByte_end l2 e2
        simp only [loopFrom, x1, x2, stopped, asError_ending, loop]
      | cons b2 d2 =>
        obtain ⟨h2', r2', x2, y2, z2, w2⟩ := readByte_more l2 e2
        rw [e1, List.length_cons] at hn
        have := ih h1' r1' h2' r2' (i + 1) (if b1 = nl then l + 1 else l) z1 z2 (by rw [y1]; omega)
        rw [y1, y2, w1, w2] at this
        simp only [loopFrom, x1, x2, loop, this]

/-- The world of `cmp` for whole files. -/
def worldOf (files : Bytes → Option Source) (stdin : Source) (shared : Stream × Stream) : World :=
  { file := fun f => (files f).map (fun r => ⟨r.bytes, r.err⟩), stdin := ⟨stdin.bytes, stdin.err⟩, shared := shared }

theorem parse_count : ∀ (args : List Bytes) (s s' : Settings), parseLoop s args = .ok s' →
    [s'.file1, s'.file2].count b!"-" ≤ [s.file1, s.file2].count b!"-" + args.count b!"-" := by
  intro args
  induction args with
  | nil => intro s s' h; cases h; simp
  | cons a args ih =>
    intro s s' h
    rw [parseLoop] at h
    split at h
    · next s1 hs1 =>
      have h2 := ih s1 s' h
      have h3 : [s1.file1, s1.file2].count b!"-" ≤ [s.file1, s.file2].count b!"-" + [a].count b!"-" := by
        unfold parseArg at hs1
        split at hs1
        · cases hs1; simp
        · split at hs1
          · cases hs1; simp
          · split at hs1
            · next h0 => cases hs1; simp only [List.count_cons, List.count_nil, h0]; simp
            · split at hs1
              · next h0 => cases hs1; simp only [List.count_cons, List.count_nil, h0]; simp; omega
              · cases hs1
      have h4 : (a :: args).count b!"-" = [a].count b!"-" + args.count b!"-" := by simp only [List.count_cons, List.count_nil]; omega
      omega
    · cases h

theorem openFrom_world (files : Bytes → Option Source) (stdin : Source) (shared : Stream × Stream) (name : Bytes) :
    openFile (worldOf files stdin shared) name = (openFrom files stdin name).map (fun r => ⟨r.bytes, r.err⟩) := by
  unfold openFile openFrom
  split <;> rfl

theorem openFrom_lively {files : Bytes → Option Source} (hl : ∀ f r, files f = some r → r.Lively) {stdin : Source} (hs : stdin.Lively)
    {name : Bytes} {r : Source} (h : openFrom files stdin name = some r) : r.Lively := by
  unfold openFrom at h
  split at h
  · cases h; exact hs
  · exact hl name r h

/-- **C113** Unless both operands are standard input, what `cmp` does is determined by its arguments, the bytes of its
input and the error with which reading ends, if any. -/
theorem C113_cmp_partial (files : Bytes → Option Source) (hl : ∀ f r, files f = some r → r.Lively) (stdin : Source) (hs : stdin.Lively)
    (shared : Stream × Stream) (args : List Bytes) (h1 : args.count b!"-" ≤ 1) :
    mainFrom files stdin args = main (worldOf files stdin shared) args := by
  unfold mainFrom main
  cases hp : parseSettings args with
  | error e => rfl
  | ok s =>
    have hc := parse_count args {} s hp
    have hnot : ¬ (s.file1 = b!"-" ∧ s.file2 = b!"-") := by
      rintro ⟨q1, q2⟩
      rw [q1, q2] at hc
      simp at hc
      omega
    simp only [cmpFrom, cmp, openFrom_world, if_neg hnot]
    cases o1 : openFrom files stdin s.file1 with
    | none => rfl
    | some f1 =>
      cases o2 : openFrom files stdin s.file2 with
      | none => rfl
      | some f2 =>
        have := loopFrom_eq s (f1.bytes.length + 1) [] f1 [] f2 1 1 (openFrom_lively hl hs o1) (openFrom_lively hl hs o2) (by simp)
        simpa using this

example : mainFrom (fun _ => some { chunks := [b!"a", b!"b\nc"] }) { chunks := [b!"ab", b!"\nd"] } [b!"-", b!"f"] =
    { stdout := b!"- f differ: char 4, line 2\n", stderr := [], exit := 1 } := by decide +kernel

/-- **C113** (the expectation fails) `cmp - -` gives the pieces of standard input to the two sides in turn: the same bytes
are equal in two pieces and different in one. -/
theorem C113_cmp_counterexample :
    ∃ r r' : Source, r.Lively ∧ r'.Lively ∧ r.bytes = r'.bytes ∧ r.err = r'.err ∧
      mainFrom (fun _ => none) r [b!"-", b!"-"] = { stdout := [], stderr := [], exit := 0 } ∧
      mainFrom (fun _ => none) r' [b!"-", b!"-"] = { stdout := [], stderr := b!"cmp: EOF on -\n", exit := 1 } := by
  refine ⟨{ chunks := [b!"ab", b!"ab"] }, { chunks := [b!"abab"] }, ?_, ?_, rfl, rfl, by decide +kernel, by decide +kernel⟩
  · intro c hc; simp at hc; rw [hc]; decide
  · intro c hc; simp at hc; rw [hc]; decide

theorem loopShared_eq (s : Settings) : ∀ (n : Nat) (h1 h2 : Bytes) (r : Source) (i l : Nat), r.Lively →
    h1.length + h2.length + r.bytes.length < n →
    ∃ d1 d2, d1.length + d2.length ≤ r.bytes.length ∧ loopShared s n h1 h2 r i l = loop s r.err r.err (h1 ++ d1) (h2 ++ d2) i l := by
  intro n
  induction n with
  | zero => intro h1 h2 r i l _ h; omega
  | succ n ih =>
    intro h1 h2 r i l hl hn
    cases e1 : h1 ++ r.bytes with
    | nil =>
      obtain ⟨h1', r1', x1⟩ := readByte_end hl e1
      simp only [List.append_eq_nil_iff] at e1
      obtain ⟨rfl, e1⟩ := e1
      have hr : r1' = r := by
        obtain ⟨chunks, err⟩ := r
        cases chunks with
        | nil => simp [readByte, Source.read] at x1; exact x1.2.symm
        | cons d ds => simp [Source.bytes] at e1; exact absurd e1.1 (hl d (by simp))
      subst hr
      cases h2 with
      | nil =>
        obtain ⟨h2', r2', x2⟩ := readByte_end (h := []) hl e1
        refine ⟨[], [], by simp, ?_⟩
        simp only [loopShared, x1, stopped, asError_ending, loop, List.append_nil]
      | cons b2 d2 =>
        refine ⟨[], [], by simp, ?_⟩
        have x2 : readByte (b2 :: d2) r1' = (.ok b2, d2, r1') := rfl
        simp only [loopShared, x1, x2, stopped, asError_ending, loop, List.append_nil]
    | cons b1 e =>
      obtain ⟨h1', r1, x1, y1, z1, w1⟩ := readByte_more hl e1
      have c1 := congrArg List.length e1
      have c2 := congrArg List.length y1
      simp only [List.length_append, List.length_cons] at c1 c2
      have hd1 : ∃ d1, d1.length + r1.bytes.length ≤ r.bytes.length ∧ h1 ++ d1 = b1 :: h1' := by
        cases h1 with
        | cons b h1 =>
          simp only [readByte, Prod.mk.injEq, Except.ok.injEq] at x1
          obtain ⟨rfl, rfl, rfl⟩ := x1
          exact ⟨[], by simp, by simp⟩
        | nil =>
          refine ⟨b1 :: h1', ?_, rfl⟩
          simp only [List.length_nil, List.length_cons] at *
          omega
      obtain ⟨d1, q1, q2⟩ := hd1
      have q3 := congrArg List.length q2
      simp only [List.length_append, List.length_cons] at q3
      cases e2 : h2 ++ r1.bytes with
      | nil =>
        obtain ⟨h2', r2', x2⟩ := readByte_end z1 e2
        simp only [List.append_eq_nil_iff] at e2
        obtain ⟨rfl, e2⟩ := e2
        refine ⟨d1, [], by simp; omega, ?_⟩
        rw [q2]
        simp only [loopShared, x1, x2, stopped, asError_ending, loop, List.append_nil, w1]
      | cons b2 e' =>
        obtain ⟨h2', r2, x2, y2, z2, w2⟩ := readByte_more z1 e2
        have c3 := congrArg List.length e2
        have c4 := congrArg List.length y2
        simp only [List.length_append, List.length_cons] at c3 c4
        have hd2 : ∃ d2, d2.length + r2.bytes.length ≤ r1.bytes.length ∧ h2 ++ d2 = b2 :: h2' := by
          cases h2 with
          | cons b h2 =>
            simp only [readByte, Prod.mk.injEq, Except.ok.injEq] at x2
            obtain ⟨rfl, rfl, rfl⟩ := x2
            exact ⟨[], by simp, by simp⟩
          | nil =>
            refine ⟨b2 :: h2', ?_, rfl⟩
            simp only [List.length_nil, List.length_cons] at *
            omega
        obtain ⟨d2, p1, p2⟩ := hd2
        have p3 := congrArg List.length p2
        simp only [List.length_append, List.length_cons] at p3
        obtain ⟨a1, a2, a3, a4⟩ := ih h1' h2' r2 (i + 1) (if b1 = nl then l + 1 else l) z2 (by omega)
        refine ⟨d1 ++ a1, d2 ++ a2, by simp only [List.length_append]; omega, ?_⟩
        rw [← List.append_assoc, ← List.append_assoc, q2, p2]
        simp only [loopShared, x1, x2, loop, List.cons_append, a4, w1, w2]

/-- **C113** Whatever the operands are, `cmp` compares what its two readers get: with standard input named twice the model
on whole files says what happens for one of the ways in which the two sides may share it. -/
theorem C113_cmp_refines (files : Bytes → Option Source) (hl : ∀ f r, files f = some r → r.Lively) (stdin : Source) (hs : stdin.Lively)
    (args : List Bytes) :
    ∃ d1 d2, d1.length + d2.length ≤ stdin.bytes.length ∧
      mainFrom files stdin args = main (worldOf files stdin (⟨d1, stdin.err⟩, ⟨d2, stdin.err⟩)) args := by
  cases hp : parseSettings args with
  | error e => exact ⟨[], [], by simp, by simp only [mainFrom, main, hp]⟩
  | ok s =>
    by_cases hb : s.file1 = b!"-" ∧ s.file2 = b!"-"
    · obtain ⟨d1, d2, h1, h2⟩ := loopShared_eq s (stdin.bytes.length + 1) [] [] stdin 1 1 hs (by simp)
      refine ⟨d1, d2, h1, ?_⟩
      simp only [mainFrom, main, hp, cmpFrom, cmp, openFrom_world, if_pos hb]
      simp only [openFrom, hb.1, hb.2, if_true, Option.map_some, h2]
      rfl
    · refine ⟨[], [], by simp, ?_⟩
      simp only [mainFrom, main, hp, cmpFrom, cmp, openFrom_world, if_neg hb]
      cases o1 : openFrom files stdin s.file1 with
      | none => rfl
      | some f1 =>
        cases o2 : openFrom files stdin s.file2 with
        | none => rfl
        | some f2 =>
          have := loopFrom_eq s (f1.bytes.length + 1) [] f1 [] f2 1 1 (openFrom_lively hl hs o1) (openFrom_lively hl hs o2) (by simp)
          simpa using this

theorem loop_zero (s : Settings) (e1 e2 : Option Bytes) : ∀ (d1 d2 : Bytes) (i l : Nat),
    (loop s e1 e2 d1 d2 i l).exit = 0 → e1 = none ∧ e2 = none := by
  intro d1
  induction d1 with
  | nil =>
    intro d2 i l h
    cases d2 with
    | nil =>
      simp only [loop, atEnd] at h
      split at h
      · next hb => exact ⟨Option.some.inj hb.1, Option.some.inj hb.2⟩
      · cases e1 <;> simp [fail] at h
    | cons b d2 =>
      simp only [loop, atEnd] at h
      rw [if_neg (by simp)] at h
      cases e1 <;> simp [fail] at h
  | cons b1 d1 ih =>
    intro d2 i l h
    cases d2 with
    | nil =>
      simp only [loop, atEnd] at h
      rw [if_neg (by simp)] at h
      cases e2 <;> simp [fail] at h
    | cons b2 d2 =>
      simp only [loop] at h
      split at h
      · simp at h
      · exact ih _ _ _ h

/-- **C114** `cmp` does not exit with status 0 if reading one of its two files ends with an error. -/
theorem C114_cmp (files : Bytes → Option Source) (hl : ∀ f r, files f = some r → r.Lively) (stdin : Source) (hs : stdin.Lively)
    (args : List Bytes) (s : Settings) (hp : parseSettings args = .ok s) (f1 f2 : Source)
    (o1 : openFrom files stdin s.file1 = some f1) (o2 : openFrom files stdin s.file2 = some f2)
    (h0 : (mainFrom files stdin args).exit = 0) : f1.err = none ∧ f2.err = none := by
  obtain ⟨d1, d2, -, e⟩ := C113_cmp_refines files hl stdin hs args
  rw [e] at h0
  simp only [main, hp, cmp, openFrom_world, o1, o2, Option.map_some] at h0
  split at h0
  · next hb =>
    have := loop_zero _ _ _ _ _ _ _ h0
    rw [openFrom, if_pos hb.1] at o1
    rw [openFrom, if_pos hb.2] at o2
    cases o1; cases o2
    exact this
  · exact loop_zero _ _ _ _ _ _ _ h0

/-- The hypotheses can be met: two files that agree as far as they can be read. -/
example : mainFrom (fun f => if f = b!"a" then some { chunks := [b!"x", b!"y"], err := some b!"input/output error" } else some { chunks := [b!"xy"] }) { chunks := [] } [b!"a", b!"b"] =
    { stdout := [], stderr := b!"Error: Error reading a: input/output error", exit := 2 } := by decide +kernel

end Cmp
