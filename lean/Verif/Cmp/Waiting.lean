import Verif.Cmp.Arrival
import Verif.Go.Waiting

/-! # When `cmp` ends, on input that is still arriving (C128) -/

namespace Cmp
open Go

/-- `(*bufio.Reader).ReadByte` of package bufio, as `readByte`, on a reader that is still open if `more`: `none` if it waits. -/
def readByteLive (more : Bool) (held : Bytes) (r : Source) : Option (Except ScanErr UInt8 × Bytes × Source) :=
  if more ∧ held = [] ∧ r.chunks = [] then none else some (readByte held r)

/-- The output of what was done before. -/
def after (o : Bytes) : Progress Out → Progress Out
  | .waits o' => .waits (o ++ o')
  | .done r => .done { r with stdout := o ++ r.stdout }

/-- main.go:60-103: the loop of `cmp`, as `loopFrom`, on two readers that are still open if `m1` and `m2`. The first is read
before the second. -/
def loopLive (m1 m2 : Bool) (s : Settings) : (rounds : Nat) → (h1 : Bytes) → (r1 : Source) → (h2 : Bytes) → (r2 : Source) → (i l : Nat) → Progress Out
  | 0, _, _, _, _, _, _ => .waits []
  | n + 1, h1, r1, h2, r2, i, l =>
    match readByteLive m1 h1 r1 with
    | none => .waits []
    | some x1 =>
      match readByteLive m2 h2 r2 with
      | none => .waits []
      | some x2 =>
        match x1.1, x2.1 with
        | .ok b1, .ok b2 =>
          if b1 ≠ b2 ∧ ¬ s.writeAll then .done { stdout := report s i l b1 b2, stderr := [], exit := 1 }
          else
            after (if b1 ≠ b2 then report s i l b1 b2 else [])
              (loopLive m1 m2 s n x1.2.1 x1.2.2 x2.2.1 x2.2.2 (i + 1) (if b1 = nl then l + 1 else l))
        | y1, y2 => .done (stopped s y1 y2)

/-- main.go:46-104 `cmp`, with at most one operand that is standard input, which is still open if `more`. -/
def cmpLive (more : Bool) (files : Bytes → Option Source) (stdin : Source) (s : Settings) : Progress Out :=
  match openFrom files stdin s.file1 with
  | none => .done (fail (b!"could not open " ++ s.file1))
  | some f1 =>
    match openFrom files stdin s.file2 with
    | none => .done (fail (b!"could not open " ++ s.file2))
    | some f2 => loopLive (more && s.file1 == b!"-") (more && s.file2 == b!"-") s (f1.bytes.length + 1) [] f1 [] f2 1 1

/-- main.go:106-118 `main`. -/
def mainLive (more : Bool) (files : Bytes → Option Source) (stdin : Source) (args : List Bytes) : Progress Out :=
  match parseSettings args with
  | .error e => .done (fail e)
  | .ok s => cmpLive more files stdin s

/-! ## Proofs -/

theorem readLive_more {m : Bool} {h : Bytes} {r : Source} (hl : r.Lively) {c : UInt8} {cs : Bytes} (e : h ++ r.bytes = c :: cs) :
    ∃ h' r', readByteLive m h r = some (.ok c, h', r') ∧ h' ++ r'.bytes = cs ∧ r'.Lively ∧ r'.err = r.err := by
  obtain ⟨h', r', a, b⟩ := readByte_more hl e
  refine ⟨h', r', ?_, b⟩
  rw [readByteLive, if_neg, a]
  rintro ⟨-, rfl, hc⟩
  simp [Source.bytes, hc] at e

theorem readLive_waits {h : Bytes} {r : Source} (hl : r.Lively) (e : h ++ r.bytes = []) : readByteLive true h r = none := by
  simp only [List.append_eq_nil_iff] at e
  rw [readByteLive, if_pos]
  refine ⟨rfl, e.1, ?_⟩
  cases hc : r.chunks with
  | nil => rfl
  | cons c cs =>
    exfalso
    have := e.2
    simp [Source.bytes, hc] at this
    exact hl c (by simp [hc]) this.1

theorem readLive_end {h : Bytes} {r : Source} (hl : r.Lively) (e : h ++ r.bytes = []) :
    ∃ h' r', readByteLive false h r = some (.error r.ending, h', r') := by
  obtain ⟨h', r', a⟩ := readByte_end hl e
  exact ⟨h', r', by rw [readByteLive, if_neg (by simp), a]⟩

/-- The reports of the differences between two inputs as far as both have arrived, for `-l`. -/
def reportsSoFar (s : Settings) : (d1 d2 : Bytes) → (i l : Nat) → Bytes
  | b1 :: d1, b2 :: d2, i, l =>
    (if b1 ≠ b2 then report s i l b1 b2 else []) ++ reportsSoFar s d1 d2 (i + 1) (if b1 = nl then l + 1 else l)
  | _, _, _, _ => []

/-- Two inputs that agree as far as both have arrived. -/
def Agree (d1 d2 : Bytes) : Prop := d1 <+: d2 ∨ d2 <+: d1

theorem loop_waits (m1 m2 : Bool) (s : Settings) : ∀ (n : Nat) (h1 : Bytes) (r1 : Source) (h2 : Bytes) (r2 : Source) (i l : Nat),
    r1.Lively → r2.Lively → (h1 ++ r1.bytes).length < n →
    (s.writeAll = true ∨ Agree (h1 ++ r1.bytes) (h2 ++ r2.bytes)) →
    ((m1 = true ∧ (h1 ++ r1.bytes).length ≤ (h2 ++ r2.bytes).length) ∨ (m2 = true ∧ (h2 ++ r2.bytes).length ≤ (h1 ++ r1.bytes).length)) →
    loopLive m1 m2 s n h1 r1 h2 r2 i l = .waits (reportsSoFar s (h1 ++ r1.bytes) (h2 ++ r2.bytes) i l) := by
  intro n
  induction n with
  | zero => intro h1 r1 h2 r2 i l _ _ h; omega
  | succ n ih =>
    intro h1 r1 h2 r2 i l l1 l2 hn ha hw
    cases e1 : h1 ++ r1.bytes with
    | nil =>
      rw [e1] at hw
      rw [loopLive]
      cases m1 with
      | true => rw [readLive_waits l1 e1]; rfl
      | false =>
        obtain ⟨h', r', q⟩ := readLive_end l1 e1
        rw [q]
        rcases hw with hw | ⟨rfl, hw⟩
        · exact absurd hw.1 (by simp)
        · rw [readLive_waits l2 (List.length_eq_zero_iff.1 (by simpa using hw))]
          rfl
    | cons b1 d1 =>
      rw [e1] at hw ha hn
      obtain ⟨h1', r1', x1, y1, z1, w1⟩ := readLive_more (m := m1) l1 e1
      rw [loopLive, x1]
      simp only
      cases e2 : h2 ++ r2.bytes with
      | nil =>
        rw [e2] at hw
        rcases hw with ⟨-, hw⟩ | ⟨rfl, -⟩
        · simp at hw
        · rw [readLive_waits l2 e2]; rfl
      | cons b2 d2 =>
        rw [e2] at hw ha
        obtain ⟨h2', r2', x2, y2, z2, w2⟩ := readLive_more (m := m2) l2 e2
        rw [x2]
        simp only
        have hsame : ¬ (b1 ≠ b2 ∧ ¬ s.writeAll = true) := by
          rintro ⟨q1, q2⟩
          rcases ha with ha | ha | ha
          · exact q2 ha
          · exact q1 (List.cons_prefix_cons.1 ha).1
          · exact q1 (List.cons_prefix_cons.1 ha).1.symm
        rw [if_neg hsame]
        have := ih h1' r1' h2' r2' (i + 1) (if b1 = nl then l + 1 else l) z1 z2 (by rw [y1]; simp at hn; omega) (by
          rw [y1, y2]
          rcases ha with ha | ha | ha
          · exact .inl ha
          · exact .inr (.inl (List.cons_prefix_cons.1 ha).2)
          · exact .inr (.inr (List.cons_prefix_cons.1 ha).2)) (by
          rw [y1, y2]
          simpa using hw)
        rw [this, y1, y2]
        rfl

theorem loop_differs (m1 m2 : Bool) (s : Settings) (hw : s.writeAll = false) : ∀ (n : Nat) (h1 : Bytes) (r1 : Source) (h2 : Bytes) (r2 : Source) (i l : Nat),
    r1.Lively → r2.Lively → (h1 ++ r1.bytes).length < n → ∀ (p : Bytes) (b1 b2 : UInt8) (d1 d2 : Bytes), h1 ++ r1.bytes = p ++ b1 :: d1 →
    h2 ++ r2.bytes = p ++ b2 :: d2 → b1 ≠ b2 →
    loopLive m1 m2 s n h1 r1 h2 r2 i l = .done { stdout := report s (i + p.length) (l + p.count nl) b1 b2, stderr := [], exit := 1 } := by
  intro n
  induction n with
  | zero => intro h1 r1 h2 r2 i l _ _ h; omega
  | succ n ih =>
    intro h1 r1 h2 r2 i l l1 l2 hn p b1 b2 d1 d2 e1 e2 hb
    cases p with
    | nil =>
      obtain ⟨h1', r1', x1, -⟩ := readLive_more (m := m1) l1 e1
      obtain ⟨h2', r2', x2, -⟩ := readLive_more (m := m2) l2 e2
      rw [loopLive, x1, x2]
      simp only
      rw [if_pos ⟨hb, by simp [hw]⟩]
      simp
    | cons c p =>
      obtain ⟨h1', r1', x1, y1, z1, -⟩ := readLive_more (m := m1) l1 e1
      obtain ⟨h2', r2', x2, y2, z2, -⟩ := readLive_more (m := m2) l2 e2
      have := ih h1' r1' h2' r2' (i + 1) (if c = nl then l + 1 else l) z1 z2 (by rw [e1] at hn; rw [y1]; simp at hn ⊢; omega) p b1 b2 d1 d2 y1 y2 hb
      rw [loopLive, x1, x2]
      simp only
      rw [if_neg (by simp), this]
      simp only [ne_eq, not_true_eq_false, if_false, after, List.nil_append, List.length_cons, List.count_cons]
      congr 3
      · omega
      · by_cases hc : c = nl
        · simp [hc]; omega
        · simp [hc]

theorem loop_longer (m1 m2 : Bool) (s : Settings) : ∀ (n : Nat) (h1 : Bytes) (r1 : Source) (h2 : Bytes) (r2 : Source) (i l : Nat),
    r1.Lively → r2.Lively → (h1 ++ r1.bytes).length < n →
    (m1 = true → (h2 ++ r2.bytes).length < (h1 ++ r1.bytes).length) → (m2 = true → (h1 ++ r1.bytes).length < (h2 ++ r2.bytes).length) →
    loopLive m1 m2 s n h1 r1 h2 r2 i l = .done (loopFrom s n h1 r1 h2 r2 i l) := by
  intro n
  induction n with
  | zero => intro h1 r1 h2 r2 i l _ _ h; omega
  | succ n ih =>
    intro h1 r1 h2 r2 i l l1 l2 hn hm1 hm2
    have g1 : readByteLive m1 h1 r1 = some (readByte h1 r1) := by
      rw [readByteLive, if_neg]
      rintro ⟨hm, rfl, hc⟩
      have := hm1 hm
      simp [Source.bytes, hc] at this
    have g2 : readByteLive m2 h2 r2 = some (readByte h2 r2) := by
      rw [readByteLive, if_neg]
      rintro ⟨hm, rfl, hc⟩
      have := hm2 hm
      simp [Source.bytes, hc] at this
    rw [loopLive, loopFrom, g1, g2]
    simp only
    cases e1 : h1 ++ r1.bytes with
    | nil =>
      obtain ⟨h1', r1', x1⟩ := readByte_end l1 e1
      rw [x1]
    | cons b1 d1 =>
      obtain ⟨h1', r1', x1, y1, z1, w1⟩ := readByte_more l1 e1
      rw [x1]
      cases e2 : h2 ++ r2.bytes with
      | nil =>
        obtain ⟨h2', r2', x2⟩ := readByte_end l2 e2
        rw [x2]
      | cons b2 d2 =>
        obtain ⟨h2', r2', x2, y2, z2, w2⟩ := readByte_more l2 e2
        rw [x2]
        simp only
        rw [e1] at hn hm1 hm2
        rw [e2] at hm1 hm2
        simp only [List.length_cons] at hn hm1 hm2
        split
        · rfl
        · rw [ih h1' r1' h2' r2' _ _ z1 z2 (by rw [y1]; omega) (fun h => by rw [y1, y2]; have := hm1 h; omega)
            (fun h => by rw [y1, y2]; have := hm2 h; omega)]
          rfl

/-- What `cmp` compares. -/
structure Compares (files : Bytes → Option Source) (stdin : Source) (args : List Bytes) (s : Settings) (f1 f2 : Source) : Prop where
  parsed : parseSettings args = .ok s
  first : openFrom files stdin s.file1 = some f1
  second : openFrom files stdin s.file2 = some f2
  once : ¬ (s.file1 = b!"-" ∧ s.file2 = b!"-")

theorem mainLive_compares {more : Bool} {files : Bytes → Option Source} {stdin : Source} {args : List Bytes} {s : Settings} {f1 f2 : Source}
    (h : Compares files stdin args s f1 f2) : mainLive more files stdin args =
      loopLive (more && s.file1 == b!"-") (more && s.file2 == b!"-") s (f1.bytes.length + 1) [] f1 [] f2 1 1 := by
  rw [mainLive, h.parsed]
  simp only [cmpLive, h.first, h.second]

/-- **C128** As soon as the first byte that differs has arrived `cmp` reports it and ends, whatever comes later. -/
theorem C128_cmp_differs (files : Bytes → Option Source) (hl : ∀ f r, files f = some r → r.Lively) (stdin : Source) (hs : stdin.Lively)
    (args : List Bytes) (s : Settings) (f1 f2 : Source) (h : Compares files stdin args s f1 f2) (hw : s.writeAll = false)
    (p d1 d2 : Bytes) (b1 b2 : UInt8) (e1 : f1.bytes = p ++ b1 :: d1) (e2 : f2.bytes = p ++ b2 :: d2) (hb : b1 ≠ b2) :
    mainLive true files stdin args = .done { stdout := report s (1 + p.length) (1 + p.count nl) b1 b2, stderr := [], exit := 1 } := by
  rw [mainLive_compares h]
  exact loop_differs _ _ s hw _ [] f1 [] f2 1 1 (openFrom_lively hl hs h.first) (openFrom_lively hl hs h.second)
    (by simp) p b1 b2 d1 d2 e1 e2 hb

example : mainLive true (fun _ => some { chunks := [b!"a\nbd\n"] }) { chunks := [b!"a\nb", b!"c"] } [b!"-", b!"f"] =
    .done { stdout := b!"- f differ: char 4, line 2\n", stderr := [], exit := 1 } := by decide +kernel

theorem atEnd_silent (s : Settings) (e1 e2 : Option (Option Bytes)) : (atEnd s e1 e2).stdout = [] := by
  unfold atEnd
  split
  · rfl
  · split
    · rfl
    · rfl
    · split <;> rfl

theorem loop_stdout (s : Settings) (x1 x2 : Option Bytes) : ∀ (d1 d2 : Bytes) (i l : Nat), (s.writeAll = true ∨ Agree d1 d2) →
    (loop s x1 x2 d1 d2 i l).stdout = reportsSoFar s d1 d2 i l := by
  intro d1
  induction d1 with
  | nil => intro d2 i l _; cases d2 <;> rw [loop] <;> exact atEnd_silent _ _ _
  | cons b1 d1 ih =>
    intro d2 i l ha
    cases d2 with
    | nil => rw [loop]; exact atEnd_silent _ _ _
    | cons b2 d2 =>
      have hsame : ¬ (b1 ≠ b2 ∧ ¬ s.writeAll = true) := by
        rintro ⟨q1, q2⟩
        rcases ha with ha | ha | ha
        · exact q2 ha
        · exact q1 (List.cons_prefix_cons.1 ha).1
        · exact q1 (List.cons_prefix_cons.1 ha).1.symm
      rw [loop, if_neg hsame, reportsSoFar]
      simp only
      rw [ih]
      rcases ha with ha | ha | ha
      · exact .inl ha
      · exact .inr (.inl (List.cons_prefix_cons.1 ha).2)
      · exact .inr (.inr (List.cons_prefix_cons.1 ha).2)

/-- **C128** It waits only while what has arrived of standard input is no longer than the other file and (without `-l`) does
not differ from it; and it has printed what it would have printed if standard input had ended here (with `-l`: every difference
in what has arrived). -/
theorem C128_cmp_waits (files : Bytes → Option Source) (hl : ∀ f r, files f = some r → r.Lively) (stdin : Source) (hs : stdin.Lively)
    (args : List Bytes) (s : Settings) (f1 f2 : Source) (h : Compares files stdin args s f1 f2)
    (ha : s.writeAll = true ∨ Agree f1.bytes f2.bytes)
    (hw : (s.file1 = b!"-" ∧ f1.bytes.length ≤ f2.bytes.length) ∨ (s.file2 = b!"-" ∧ f2.bytes.length ≤ f1.bytes.length)) :
    mainLive true files stdin args = .waits (mainFrom files stdin args).stdout := by
  have e : (mainFrom files stdin args).stdout = reportsSoFar s f1.bytes f2.bytes 1 1 := by
    rw [mainFrom, h.parsed]
    simp only [cmpFrom, h.first, h.second, if_neg h.once]
    rw [loopFrom_eq s _ [] f1 [] f2 1 1 (openFrom_lively hl hs h.first) (openFrom_lively hl hs h.second) (by simp)]
    exact loop_stdout s _ _ _ _ _ _ ha
  rw [mainLive_compares h, e]
  exact loop_waits _ _ s _ [] f1 [] f2 1 1 (openFrom_lively hl hs h.first) (openFrom_lively hl hs h.second) (by simp) ha (by simpa using hw)

example : mainLive true (fun _ => some { chunks := [b!"a\nxd\n"] }) { chunks := [b!"a\nb", b!"d"] } [b!"-l", b!"-", b!"f"] =
    .waits b!"3 142 170\n" := by decide +kernel

/-- **C128** Once more of standard input has arrived than the other file has bytes, `cmp` ends, as if standard input had been
closed. -/
theorem C128_cmp_longer (files : Bytes → Option Source) (hl : ∀ f r, files f = some r → r.Lively) (stdin : Source) (hs : stdin.Lively)
    (args : List Bytes) (s : Settings) (f1 f2 : Source) (h : Compares files stdin args s f1 f2)
    (hw : (s.file1 = b!"-" ∧ f2.bytes.length < f1.bytes.length) ∨ (s.file2 = b!"-" ∧ f1.bytes.length < f2.bytes.length)) :
    mainLive true files stdin args = .done (mainFrom files stdin args) := by
  rw [mainLive_compares h, mainFrom, h.parsed]
  simp only [cmpFrom, h.first, h.second, if_neg h.once]
  apply loop_longer _ _ s _ [] f1 [] f2 1 1 (openFrom_lively hl hs h.first) (openFrom_lively hl hs h.second) (by simp)
  · intro hm
    rcases hw with hw | hw
    · exact hw.2
    · exact absurd ⟨by simpa using hm, hw.1⟩ h.once
  · intro hm
    rcases hw with hw | hw
    · exact absurd ⟨hw.1, by simpa using hm⟩ h.once
    · exact hw.2

example : mainLive true (fun _ => some { chunks := [b!"a\nb"] }) { chunks := [b!"a\nb", b!"c"] } [b!"f", b!"-"] =
    .done { stdout := [], stderr := b!"cmp: EOF on f\n", exit := 1 } := by decide +kernel

end Cmp
