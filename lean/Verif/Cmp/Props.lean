import Verif.Cmp.Model

/-!
# C40–C43: cmp

`Reads w name f` says that operand `name` is a readable file with the contents `f.data`; the theorems
about contents exclude the one case in which both operands are standard input.
-/

namespace Cmp
open Go

/-! ## Specification -/

/-- Operand `name` names the readable contents `c`: standard input for `-`, a file otherwise; no read
error occurs. -/
def Reads (w : World) (name c : Bytes) : Prop :=
  (name = b!"-" ∧ w.stdin = ⟨c, none⟩) ∨ (name ≠ b!"-" ∧ w.file name = some ⟨c, none⟩)

/-- The operands as `cmp` is used: options (in any number) anywhere around two operands. -/
inductive Invocation : (all silent : Bool) → (files : List Bytes) → List Bytes → Prop
  | nil : Invocation false false [] []
  | l {all silent files args} : Invocation all silent files args → Invocation true silent files (b!"-l" :: args)
  | s {all silent files args} : Invocation all silent files args → Invocation all true files (b!"-s" :: args)
  | file {all silent files args} (f : Bytes) : f ≠ b!"-l" → f ≠ b!"-s" → f ≠ [] →
      Invocation all silent files args → Invocation all silent (f :: files) (f :: args)

/-- The differing bytes of two files: 1-based position and the two bytes. -/
def differences (c1 c2 : Bytes) : List (Nat × UInt8 × UInt8) :=
  ((c1.zip c2).zipIdx 1).filterMap fun p => if p.1.1 = p.1.2 then none else some (p.2, p.1.1, p.1.2)

/-- Value of an octal numeral. -/
def octalValue (ds : Bytes) : Nat := ds.foldl (fun n c => n * 8 + (c.toNat - 48)) 0

/-- Octal numerals of bytes have the right value, digits below 8 and no superfluous zero. -/
theorem octal_ok (b : UInt8) : octalValue (natToOct b.toNat) = b.toNat ∧
    (natToOct b.toNat).all (fun c => 48 ≤ c && c ≤ 55) = true ∧
    (b ≠ 0 → (natToOct b.toNat).head? ≠ some 48) := by
  have h : ∀ n : Fin 256, octalValue (natToOct n.val) = n.val ∧
      (natToOct n.val).all (fun c => 48 ≤ c && c ≤ 55) = true ∧
      (n.val ≠ 0 → (natToOct n.val).head? ≠ some 48) := by decide +kernel
  have := h ⟨b.toNat, b.toNat_lt⟩
  refine ⟨this.1, this.2.1, fun hb => this.2.2 ?_⟩
  intro e
  exact hb (UInt8.toNat_inj.1 e)

/-! ## Arguments -/

theorem parseArg_l (s : Settings) : parseArg s b!"-l" = .ok { s with writeAll := true } := rfl
theorem parseArg_s (s : Settings) : parseArg s b!"-s" = .ok { s with silent := true } := rfl

/-- The operands filled in so far. -/
def Fill (s : Settings) (files : List Bytes) : Except Bytes Settings :=
  match files with
  | [] => .ok s
  | f :: rest =>
    if s.file1 = [] then Fill { s with file1 := f } rest
    else if s.file2 = [] then Fill { s with file2 := f } rest
    else .error (b!"too many files: " ++ f)

theorem Fill_flags (files : List Bytes) : ∀ (s : Settings) (a b : Bool),
    Fill { s with writeAll := a, silent := b } files =
      (match Fill s files with
       | .ok s' => .ok { s' with writeAll := a, silent := b }
       | .error e => .error e) := by
  induction files with
  | nil => intro s a b; rfl
  | cons f rest ih =>
    intro s a b
    simp only [Fill]
    split
    · exact ih { s with file1 := f } a b
    · split
      · exact ih { s with file2 := f } a b
      · rfl

theorem parseLoop_inv {all silent files args} (h : Invocation all silent files args) : ∀ s : Settings,
    parseLoop s args =
      (match Fill s files with
       | .ok s' => .ok { s' with writeAll := s.writeAll || all, silent := s.silent || silent }
       | .error e => .error e) := by
  induction h with
  | nil =>
    intro s
    simp [parseLoop, Fill]
  | l h ih =>
    intro s
    rw [parseLoop, parseArg_l]
    simp only [ih]
    rw [Fill_flags _ s true s.silent]
    cases Fill s _ <;> simp
  | s h ih =>
    intro s
    rw [parseLoop, parseArg_s]
    simp only [ih]
    rw [Fill_flags _ s s.writeAll true]
    cases Fill s _ <;> simp
  | file f h1 h2 h3 h ih =>
    intro s
    simp only [parseLoop, parseArg, h1, h2, if_false, Fill]
    by_cases e1 : s.file1 = []
    · simp only [e1, if_true]
      exact ih _
    · by_cases e2 : s.file2 = []
      · simp only [e1, e2, if_true, if_false]
        exact ih _
      · simp only [e1, e2, if_false]

/-- C43: with two operands and any options in any position, the options are the ones given and the
files are the two operands in order. -/
theorem C43_two_operands {all silent : Bool} {f1 f2 : Bytes} {args : List Bytes}
    (h : Invocation all silent [f1, f2] args) :
    parseSettings args = .ok { writeAll := all, silent := silent, file1 := f1, file2 := f2 } := by
  have hne : f1 ≠ [] ∧ f2 ≠ [] := by
    have aux : ∀ {all silent files args}, Invocation all silent files args → ∀ f ∈ files, f ≠ [] := by
      intro all silent files args h
      induction h with
      | nil => simp
      | l _ ih => exact ih
      | s _ ih => exact ih
      | file f _ _ h3 _ ih =>
        intro g hg
        rcases List.mem_cons.1 hg with rfl | hg
        · exact h3
        · exact ih g hg
    exact ⟨aux h f1 (by simp), aux h f2 (by simp)⟩
  rw [parseSettings, parseLoop_inv h]
  simp [Fill, hne.1]

/-- C43: every argument vector without empty arguments is an invocation with some options and
operands, so the theorems about invocations cover them all. -/
theorem C43_every_vector (args : List Bytes) (h : ∀ a ∈ args, a ≠ []) :
    ∃ all silent files, Invocation all silent files args := by
  induction args with
  | nil => exact ⟨_, _, _, .nil⟩
  | cons a args ih =>
    obtain ⟨all, silent, files, hi⟩ := ih (fun x hx => h x (by simp [hx]))
    by_cases h1 : a = b!"-l"
    · subst h1; exact ⟨_, _, _, .l hi⟩
    · by_cases h2 : a = b!"-s"
      · subst h2; exact ⟨_, _, _, .s hi⟩
      · exact ⟨_, _, _, .file a h1 h2 (h a (by simp)) hi⟩

/-- C43: a third operand is an error: nothing is compared, nothing goes to standard output, the status
is 2 and the message names the first superfluous operand. -/
theorem C43_too_many {all silent : Bool} {f1 f2 f3 : Bytes} {more args : List Bytes}
    (h : Invocation all silent (f1 :: f2 :: f3 :: more) args) (w : World) :
    main w args = { stdout := [], stderr := b!"Error: too many files: " ++ f3, exit := 2 } := by
  have hne : f1 ≠ [] ∧ f2 ≠ [] := by
    have aux : ∀ {all silent files args}, Invocation all silent files args → ∀ f ∈ files, f ≠ [] := by
      intro all silent files args h
      induction h with
      | nil => simp
      | l _ ih => exact ih
      | s _ ih => exact ih
      | file f _ _ h3 _ ih =>
        intro g hg
        rcases List.mem_cons.1 hg with rfl | hg
        · exact h3
        · exact ih g hg
    exact ⟨aux h f1 (by simp), aux h f2 (by simp)⟩
  rw [main, parseSettings, parseLoop_inv h]
  simp [Fill, hne.1, hne.2, fail]

/-- C43: with fewer than two operands the empty name is opened, which no file system accepts: status 2
and nothing on standard output. -/
theorem C43_too_few {all silent : Bool} {files args : List Bytes}
    (h : Invocation all silent files args) (hl : files.length < 2) (w : World) (hw : w.file [] = none) :
    (main w args).exit = 2 ∧ (main w args).stdout = [] := by
  rw [main, parseSettings, parseLoop_inv h]
  match files, hl with
  | [], _ => simp [Fill, cmp, openFile, hw, fail]
  | [f], _ =>
    simp only [Fill, if_true, cmp]
    split
    · simp [fail]
    · simp [openFile, hw, fail]

theorem parseLoop_append (xs ys : List Bytes) : ∀ s, parseLoop s (xs ++ ys) =
    (match parseLoop s xs with
     | .ok s' => parseLoop s' ys
     | .error e => .error e) := by
  induction xs with
  | nil => intro s; rfl
  | cons x xs ih =>
    intro s
    simp only [List.cons_append, parseLoop]
    cases parseArg s x with
    | error e => rfl
    | ok s' => exact ih s'

/-- C43: an empty argument in front of which there are fewer than two operands is ignored. -/
theorem C43_empty_argument {all silent : Bool} {files pre : List Bytes} (h : Invocation all silent files pre)
    (hl : files.length < 2) (post : List Bytes) (w : World) :
    main w (pre ++ [] :: post) = main w (pre ++ post) := by
  have : parseSettings (pre ++ [] :: post) = parseSettings (pre ++ post) := by
    rw [parseSettings, parseSettings, parseLoop_append, parseLoop_append, parseLoop_inv h]
    match files, hl with
    | [], _ => simp [Fill, parseLoop, parseArg]
    | [f], _ =>
      simp only [Fill, if_true, parseLoop, parseArg]
      by_cases e : f = [] <;> simp [e]
  rw [main, main, this]

/-- The settings of an invocation with two readable operands run the byte loop on their contents. -/
theorem main_loop {all silent : Bool} {f1 f2 : Bytes} {args : List Bytes}
    (h : Invocation all silent [f1, f2] args) (w : World) (c1 c2 : Bytes)
    (h1 : Reads w f1 c1) (h2 : Reads w f2 c2) (hd : ¬ (f1 = b!"-" ∧ f2 = b!"-")) :
    main w args =
      loop { writeAll := all, silent := silent, file1 := f1, file2 := f2 } none none c1 c2 1 1 := by
  have o : ∀ n c, Reads w n c → openFile w n = some ⟨c, none⟩ := by
    intro n c hr
    rcases hr with ⟨rfl, e⟩ | ⟨hn, e⟩
    · simp [openFile, e]
    · simp [openFile, hn, e]
  rw [main, C43_two_operands h]
  simp only [cmp, o _ _ h1, o _ _ h2, hd, if_false]

/-! ## Status -/

theorem loop_exit (s : Settings) (hs : s.writeAll = false) (c1 : Bytes) : ∀ (c2 : Bytes) (i l : Nat),
    (loop s none none c1 c2 i l).exit = if c1 = c2 then 0 else 1 := by
  induction c1 with
  | nil =>
    intro c2 i l
    cases c2 with
    | nil => simp [loop, atEnd]
    | cons b c2 => simp [loop, atEnd]
  | cons a c1 ih =>
    intro c2 i l
    cases c2 with
    | nil => simp [loop, atEnd]
    | cons b c2 =>
      simp only [loop, hs]
      by_cases e : a = b
      · subst e; simp [ih]
      · simp [e]

/-- C40: without `-l` the exit status is 0 exactly if the contents are equal, and 1 otherwise. -/
theorem C40_status {silent : Bool} {f1 f2 : Bytes} {args : List Bytes}
    (h : Invocation false silent [f1, f2] args) (w : World) (c1 c2 : Bytes)
    (h1 : Reads w f1 c1) (h2 : Reads w f2 c2) (hd : ¬ (f1 = b!"-" ∧ f2 = b!"-")) :
    (main w args).exit = if c1 = c2 then 0 else 1 := by
  rw [main_loop h w c1 c2 h1 h2 hd, loop_exit _ rfl]

theorem loop_silent (s : Settings) (e1 e2 : Option Bytes) (hs : s.silent = true) (c1 : Bytes) : ∀ (c2 : Bytes) (i l : Nat),
    (loop s e1 e2 c1 c2 i l).stdout = [] := by
  have hend : ∀ a b, (atEnd s a b).stdout = [] := by
    intro a b
    unfold atEnd fail
    repeat' split
    all_goals rfl
  induction c1 with
  | nil =>
    intro c2 i l
    cases c2 <;> simp [loop, hend]
  | cons a c1 ih =>
    intro c2 i l
    cases c2 with
    | nil => simp [loop, hend]
    | cons b c2 =>
      simp only [loop]
      split
      · simp [report, hs]
      · simp [report, hs, ih]

/-- C40: with `-s` nothing is ever written to standard output, whatever the arguments. -/
theorem C40_silent {all : Bool} {files args : List Bytes} (h : Invocation all true files args) (w : World) :
    (main w args).stdout = [] := by
  rw [main, parseSettings, parseLoop_inv h]
  cases Fill {} files with
  | error e => rfl
  | ok s =>
    simp only [cmp]
    repeat' split
    all_goals first
      | rfl
      | exact loop_silent _ _ _ (by simp) _ _ _ _

/-! ## The first difference -/

theorem loop_first (s : Settings) (e1 e2 : Option Bytes) (hs : s.writeAll = false) (x y : UInt8) (hxy : x ≠ y)
    (t1 t2 : Bytes) (pre : Bytes) : ∀ i l : Nat,
    loop s e1 e2 (pre ++ x :: t1) (pre ++ y :: t2) i l =
      { stdout := report s (i + pre.length) (l + pre.count nl) x y, stderr := [], exit := 1 } := by
  induction pre with
  | nil => intro i l; simp [loop, hs, hxy]
  | cons a pre ih =>
    intro i l
    simp only [List.cons_append, loop, ne_eq, not_true_eq_false, false_and, if_false, ih]
    simp only [List.nil_append, List.length_cons, List.count_cons]
    have : (if a = nl then l + 1 else l) + pre.count nl = l + (pre.count nl + if a == nl then 1 else 0) := by
      by_cases e : a = nl <;> simp [e] <;> omega
    rw [this]
    congr 2
    omega

/-- C41: if the files first differ after the common part `pre`, the output is one line naming the
files, the 1-based position of the difference and the line it is on; the status is 1. -/
theorem C41_first_difference {f1 f2 : Bytes} {args : List Bytes}
    (h : Invocation false false [f1, f2] args) (w : World) (pre t1 t2 : Bytes) (x y : UInt8) (hxy : x ≠ y)
    (h1 : Reads w f1 (pre ++ x :: t1)) (h2 : Reads w f2 (pre ++ y :: t2)) (hd : ¬ (f1 = b!"-" ∧ f2 = b!"-")) :
    main w args =
      { stdout := f1 ++ b!" " ++ f2 ++ b!" differ: char " ++ itoa ((pre.length : Int) + 1) ++ b!", line " ++
          itoa ((pre.count nl : Int) + 1) ++ b!"\n",
        stderr := [], exit := 1 } := by
  rw [main_loop h w _ _ h1 h2 hd, loop_first _ _ _ rfl x y hxy]
  have e : ∀ n : Nat, itoa ((n : Int) + 1) = natToDec (1 + n) := by
    intro n
    unfold itoa
    rw [if_neg (by omega)]
    congr 1
    omega
  simp [report, e]

/-- C41: if one file is a proper prefix of the other, standard output stays empty, the diagnostic
names the shorter file and the status is 1. -/
theorem C41_prefix {silent : Bool} {f1 f2 : Bytes} {args : List Bytes}
    (h : Invocation false silent [f1, f2] args) (w : World) (c t : Bytes) (ht : t ≠ [])
    (hd : ¬ (f1 = b!"-" ∧ f2 = b!"-")) :
    (Reads w f1 c → Reads w f2 (c ++ t) →
      main w args = { stdout := [], stderr := b!"cmp: EOF on " ++ f1 ++ b!"\n", exit := 1 }) ∧
    (Reads w f1 (c ++ t) → Reads w f2 c →
      main w args = { stdout := [], stderr := b!"cmp: EOF on " ++ f2 ++ b!"\n", exit := 1 }) := by
  obtain ⟨u, us, rfl⟩ := List.exists_cons_of_ne_nil ht
  have a1 : ∀ (s : Settings) (c : Bytes) i l, loop s none none c (c ++ u :: us) i l =
      { stdout := [], stderr := b!"cmp: EOF on " ++ s.file1 ++ b!"\n", exit := 1 } := by
    intro s c
    induction c with
    | nil => intro i l; simp [loop, atEnd]
    | cons a c ih => intro i l; simp [loop, ih]
  have a2 : ∀ (s : Settings) (c : Bytes) i l, loop s none none (c ++ u :: us) c i l =
      { stdout := [], stderr := b!"cmp: EOF on " ++ s.file2 ++ b!"\n", exit := 1 } := by
    intro s c
    induction c with
    | nil => intro i l; simp [loop, atEnd]
    | cons a c ih => intro i l; simp [loop, ih]
  exact ⟨fun h1 h2 => by rw [main_loop h w _ _ h1 h2 hd, a1], fun h1 h2 => by rw [main_loop h w _ _ h1 h2 hd, a2]⟩

/-- C40: equal files: no output at all. -/
theorem C40_equal_quiet {all silent : Bool} {f1 f2 : Bytes} {args : List Bytes}
    (h : Invocation all silent [f1, f2] args) (w : World) (c : Bytes)
    (h1 : Reads w f1 c) (h2 : Reads w f2 c) (hd : ¬ (f1 = b!"-" ∧ f2 = b!"-")) :
    main w args = { stdout := [], stderr := [], exit := 0 } := by
  rw [main_loop h w c c h1 h2 hd]
  have : ∀ (s : Settings) (c : Bytes) i l, loop s none none c c i l = { stdout := [], stderr := [], exit := 0 } := by
    intro s c
    induction c with
    | nil => intro i l; simp [loop, atEnd]
    | cons a c ih => intro i l; simp [loop, ih]
  exact this _ _ _ _

/-! ## All differences -/

/-- A line of `cmp -l`. -/
def listing (ds : List (Nat × UInt8 × UInt8)) : Bytes :=
  (ds.map fun d => natToDec d.1 ++ b!" " ++ natToOct d.2.1.toNat ++ b!" " ++ natToOct d.2.2.toNat ++ b!"\n").flatten

theorem loop_all (s : Settings) (hs : s.writeAll = true) (hq : s.silent = false) (c1 : Bytes) :
    ∀ (c2 : Bytes) (i l : Nat), loop s none none c1 c2 i l =
      { stdout := listing (((c1.zip c2).zipIdx i).filterMap fun p =>
          if p.1.1 = p.1.2 then none else some (p.2, p.1.1, p.1.2)),
        stderr := if c1.length < c2.length then b!"cmp: EOF on " ++ s.file1 ++ b!"\n"
          else if c2.length < c1.length then b!"cmp: EOF on " ++ s.file2 ++ b!"\n" else [],
        exit := if c1.length = c2.length then 0 else 1 } := by
  induction c1 with
  | nil =>
    intro c2 i l
    cases c2 <;> simp [loop, atEnd, listing]
  | cons a c1 ih =>
    intro c2 i l
    cases c2 with
    | nil => simp [loop, atEnd, listing]
    | cons b c2 =>
      simp only [loop, hs, not_true_eq_false, and_false, if_false, ih, List.zip_cons_cons, List.zipIdx_cons,
        List.length_cons, Nat.add_lt_add_iff_right, Nat.add_right_cancel_iff]
      congr 1
      by_cases e : a = b
      · simp [e]
      · simp [e, report, hs, hq, listing]

/-- C42: with `-l` the lines on standard output are exactly the differing positions with the two bytes
in octal, in increasing order; the status is 1 exactly if the lengths differ. -/
theorem C42_list_all {f1 f2 : Bytes} {args : List Bytes}
    (h : Invocation true false [f1, f2] args) (w : World) (c1 c2 : Bytes)
    (h1 : Reads w f1 c1) (h2 : Reads w f2 c2) (hd : ¬ (f1 = b!"-" ∧ f2 = b!"-")) :
    (main w args).stdout = listing (differences c1 c2) ∧
    (main w args).exit = if c1.length = c2.length then 0 else 1 := by
  rw [main_loop h w c1 c2 h1 h2 hd, loop_all _ rfl rfl]
  exact ⟨rfl, rfl⟩

theorem mem_differences (c1 : Bytes) : ∀ (c2 : Bytes) (i n : Nat) (x y : UInt8),
    (n, x, y) ∈ (((c1.zip c2).zipIdx i).filterMap fun p =>
      if p.1.1 = p.1.2 then none else some (p.2, p.1.1, p.1.2)) ↔
    ∃ k, n = i + k ∧ c1[k]? = some x ∧ c2[k]? = some y ∧ x ≠ y := by
  induction c1 with
  | nil => simp
  | cons a c1 ih =>
    intro c2 i n x y
    cases c2 with
    | nil => simp
    | cons b c2 =>
      have ih := ih c2 (i + 1) n x y
      have split0 : (∃ k, n = i + k ∧ (a :: c1)[k]? = some x ∧ (b :: c2)[k]? = some y ∧ x ≠ y) ↔
          (n = i ∧ a = x ∧ b = y ∧ x ≠ y) ∨ ∃ k, n = i + 1 + k ∧ c1[k]? = some x ∧ c2[k]? = some y ∧ x ≠ y := by
        constructor
        · rintro ⟨k, h⟩
          cases k with
          | zero => left; simpa using h
          | succ k => right; exact ⟨k, by simp at h; omega, by simpa using h.2⟩
        · rintro (h | ⟨k, h⟩)
          · exact ⟨0, by simpa using h⟩
          · exact ⟨k + 1, by omega, by simpa using h.2⟩
      rw [split0, ← ih]
      simp only [List.zip_cons_cons, List.zipIdx_cons, List.filterMap_cons]
      by_cases e : a = b
      · subst e
        simp only [if_true]
        constructor
        · exact Or.inr
        · rintro (⟨_, rfl, rfl, h⟩ | h)
          · exact absurd rfl h
          · exact h
      · simp only [e, if_false, List.mem_cons, Prod.mk.injEq]
        constructor
        · rintro (⟨rfl, rfl, rfl⟩ | h)
          · exact .inl ⟨rfl, rfl, rfl, e⟩
          · exact .inr h
        · rintro (⟨rfl, rfl, rfl, _⟩ | h)
          · exact .inl ⟨rfl, rfl, rfl⟩
          · exact .inr h

/-- The specification of the differences: position `k+1` is listed with bytes `x`, `y` iff both files
have different bytes `x`, `y` at offset `k`. -/
theorem C42_differences_spec (c1 c2 : Bytes) (k : Nat) (x y : UInt8) :
    (k + 1, x, y) ∈ differences c1 c2 ↔ c1[k]? = some x ∧ c2[k]? = some y ∧ x ≠ y := by
  rw [differences, mem_differences]
  constructor
  · rintro ⟨k', h, h'⟩
    have : k' = k := by omega
    exact this ▸ h'
  · intro h; exact ⟨k, by omega, h⟩

/-- The positions increase strictly, so no difference is listed twice. -/
theorem C42_differences_sorted (c1 c2 : Bytes) : ((differences c1 c2).map (·.1)).Pairwise (· < ·) := by
  unfold differences
  generalize 1 = i
  induction c1 generalizing c2 i with
  | nil => simp
  | cons a c1 ih =>
    cases c2 with
    | nil => simp
    | cons b c2 =>
      have ih := ih c2 (i + 1)
      simp only [List.zip_cons_cons, List.zipIdx_cons, List.filterMap_cons]
      by_cases e : a = b
      · simpa [e] using ih
      · simp only [e, if_false, List.map_cons, List.pairwise_cons]
        refine ⟨?_, ih⟩
        intro n hn
        obtain ⟨⟨n', x, y⟩, hm, rfl⟩ := List.mem_map.1 hn
        obtain ⟨k, h, _⟩ := (mem_differences c1 c2 (i + 1) n' x y).1 hm
        simp only
        omega

/-- C42: unlike what POSIX asks, differing files of equal length leave status 0 under `-l`. -/
theorem C42_status_zero_although_different :
    ∃ (w : World) (args : List Bytes), Invocation true false [b!"a", b!"b"] args ∧
      Reads w b!"a" b!"x" ∧ Reads w b!"b" b!"y" ∧ (main w args).exit = 0 :=
  ⟨⟨fun n => if n = b!"a" then some ⟨b!"x", none⟩ else some ⟨b!"y", none⟩, ⟨[], none⟩, ⟨[], none⟩, ⟨[], none⟩⟩,
    [b!"a", b!"-l", b!"b"],
    .file _ (by decide) (by decide) (by decide) (.l (.file _ (by decide) (by decide) (by decide) .nil)),
    .inr ⟨by decide, rfl⟩, .inr ⟨by decide, rfl⟩, by decide⟩

/-! ## Errors while opening or reading -/

/-- An operand that cannot be opened gives status 2 and no output, the first one being named. -/
theorem C43_cannot_open {all silent : Bool} {f1 f2 : Bytes} {args : List Bytes}
    (h : Invocation all silent [f1, f2] args) (w : World) :
    (f1 ≠ b!"-" → w.file f1 = none →
      main w args = { stdout := [], stderr := b!"Error: could not open " ++ f1, exit := 2 }) ∧
    ((f1 = b!"-" ∨ w.file f1 ≠ none) → f2 ≠ b!"-" → w.file f2 = none →
      main w args = { stdout := [], stderr := b!"Error: could not open " ++ f2, exit := 2 }) := by
  rw [main, C43_two_operands h]
  constructor
  · intro h1 h2; simp [cmp, openFile, h1, h2, fail]
  · intro h1 h2 h3
    simp only [cmp]
    split
    · next ho =>
      exfalso
      rcases h1 with rfl | h1
      · simp [openFile] at ho
      · unfold openFile at ho
        split at ho
        · cases ho
        · exact h1 ho
    · simp [openFile, h2, h3, fail]

example : Invocation true true [b!"a", b!"-"] [b!"-s", b!"a", b!"-l", b!"-", b!"-s"] :=
  .s (.file _ (by decide) (by decide) (by decide) (.l (.file _ (by decide) (by decide) (by decide) (.s .nil))))

example : main ⟨fun n => if n = b!"a" then some ⟨b!"x\ny1", none⟩ else none, ⟨b!"x\ny2", none⟩, ⟨[], none⟩, ⟨[], none⟩⟩
    [b!"a", b!"-"] = { stdout := b!"a - differ: char 4, line 2\n", stderr := [], exit := 1 } :=
  C41_first_difference
    (.file _ (by decide) (by decide) (by decide) (.file _ (by decide) (by decide) (by decide) .nil))
    _ b!"x\ny" [] [] 49 50 (by decide) (.inr ⟨by decide, rfl⟩) (.inl ⟨rfl, rfl⟩) (by decide)

example : listing (differences b!"abcd" b!"aXc\n") = b!"2 142 130\n4 144 12\n" := by decide

end Cmp
