import Verif.Cmp.Props

/-! # C138: cmp asked twice

What two runs of `cmp` on the same two files say about each other: with the operands exchanged, with and
without `-s`, and through a third file. Files here may also end with a read error. -/

namespace Cmp
open Go

/-- What an operand delivers: its bytes, and the error its reading ends with, if any. -/
def Delivers (w : World) (name : Bytes) (st : Stream) : Prop :=
  (name = b!"-" ∧ w.stdin = st) ∨ (name ≠ b!"-" ∧ w.file name = some st)

/-- Both files end at the same place, and only one of them with an error. -/
def OneBroken (a b : Stream) : Prop := a.data.length = b.data.length ∧ (a.err = none ↔ b.err ≠ none)

theorem main_loop_any {all silent : Bool} {f1 f2 : Bytes} {args : List Bytes}
    (h : Invocation all silent [f1, f2] args) (w : World) (s1 s2 : Stream)
    (h1 : Delivers w f1 s1) (h2 : Delivers w f2 s2) (hd : ¬ (f1 = b!"-" ∧ f2 = b!"-")) :
    main w args =
      loop { writeAll := all, silent := silent, file1 := f1, file2 := f2 } s1.err s2.err s1.data s2.data 1 1 := by
  have o : ∀ n c, Delivers w n c → openFile w n = some c := by
    intro n c hr
    rcases hr with ⟨rfl, e⟩ | ⟨hn, e⟩
    · simp [openFile, e]
    · simp [openFile, hn, e]
  rw [main, C43_two_operands h]
  simp only [cmp, o _ _ h1, o _ _ h2, hd, if_false]

/-! ## Status -/

theorem loop_success (s : Settings) (e1 e2 : Option Bytes) (c1 : Bytes) : ∀ (c2 : Bytes) (i l : Nat),
    (loop s e1 e2 c1 c2 i l).exit = 0 ↔
      e1 = none ∧ e2 = none ∧ c1.length = c2.length ∧ (s.writeAll = true ∨ c1 = c2) := by
  induction c1 with
  | nil =>
    intro c2 i l
    cases c2 <;> cases e1 <;> cases e2 <;> simp [loop, atEnd, fail]
  | cons a c1 ih =>
    intro c2 i l
    cases c2 with
    | nil => cases e1 <;> cases e2 <;> simp [loop, atEnd, fail]
    | cons b c2 =>
      simp only [loop]
      by_cases hab : a = b
      · subst hab; simp [ih]
      · cases hw : s.writeAll
        · simp [hab]
        · simp [hab, ih, hw]

theorem loop_exchanged (s s' : Settings) (hs : s'.writeAll = s.writeAll) (e1 e2 : Option Bytes) (c1 : Bytes) :
    ∀ (c2 : Bytes) (i l l' : Nat),
    (loop s' e2 e1 c2 c1 i l').exit = (loop s e1 e2 c1 c2 i l).exit ↔
      ¬ (c1.length = c2.length ∧ (e1 = none ↔ e2 ≠ none) ∧ (s.writeAll = true ∨ c1 = c2)) := by
  induction c1 with
  | nil =>
    intro c2 i l l'
    cases c2 <;> cases e1 <;> cases e2 <;> simp [loop, atEnd, fail]
  | cons a c1 ih =>
    intro c2 i l l'
    cases c2 with
    | nil => cases e1 <;> cases e2 <;> simp [loop, atEnd, fail]
    | cons b c2 =>
      simp only [loop, hs]
      by_cases hab : a = b
      · subst hab; simp [ih]
      · have hba : ¬ b = a := fun h => hab h.symm
        cases hw : s.writeAll
        · simp [hab, hba]
        · simp [hab, hba, ih, hw]

/-- C138: `cmp` succeeds exactly when both files could be read to the end and, without `-l`, are equal
or, with `-l`, have equal lengths. -/
theorem C138_zero_iff {all silent : Bool} {f1 f2 : Bytes} {args : List Bytes}
    (h : Invocation all silent [f1, f2] args) (w : World) (s1 s2 : Stream)
    (h1 : Delivers w f1 s1) (h2 : Delivers w f2 s2) (hd : ¬ (f1 = b!"-" ∧ f2 = b!"-")) :
    (main w args).exit = 0 ↔ s1.err = none ∧ s2.err = none ∧ s1.data.length = s2.data.length ∧
      (all = true ∨ s1.data = s2.data) := by
  rw [main_loop_any h w s1 s2 h1 h2 hd, loop_success]

/-- C138: `cmp` found two files alike and one of them like a third: then it finds the other like the
third too. -/
theorem C138_transitive {all x y z : Bool} {f g k : Bytes} {args args' args'' : List Bytes}
    (h : Invocation all x [f, g] args) (h' : Invocation all y [g, k] args') (h'' : Invocation all z [f, k] args'')
    (w : World) (s1 s2 s3 : Stream) (h1 : Delivers w f s1) (h2 : Delivers w g s2) (h3 : Delivers w k s3)
    (hd : f ≠ b!"-" ∧ g ≠ b!"-") (hz : (main w args).exit = 0) (hz' : (main w args').exit = 0) :
    (main w args'').exit = 0 := by
  rw [C138_zero_iff h w s1 s2 h1 h2 (fun e => hd.1 e.1)] at hz
  rw [C138_zero_iff h' w s2 s3 h2 h3 (fun e => hd.2 e.1)] at hz'
  rw [C138_zero_iff h'' w s1 s3 h1 h3 (fun e => hd.1 e.1)]
  obtain ⟨a, _, c, d⟩ := hz
  obtain ⟨_, b', c', d'⟩ := hz'
  refine ⟨a, b', c.trans c', ?_⟩
  rcases d with d | d
  · exact Or.inl d
  · rcases d' with d' | d'
    · exact Or.inl d'
    · exact Or.inr (d.trans d')

/-- C138: exchanging the operands changes the exit status exactly when the files end together after
the same bytes (with `-l`: after as many bytes), one of them with a read error. -/
theorem C138_exchanged_status_partial {all x y : Bool} {f g : Bytes} {args args' : List Bytes}
    (h : Invocation all x [f, g] args) (h' : Invocation all y [g, f] args') (w : World) (s1 s2 : Stream)
    (h1 : Delivers w f s1) (h2 : Delivers w g s2) (hd : ¬ (f = b!"-" ∧ g = b!"-")) :
    (main w args').exit = (main w args).exit ↔ ¬ (OneBroken s1 s2 ∧ (all = true ∨ s1.data = s2.data)) := by
  rw [main_loop_any h w s1 s2 h1 h2 hd, main_loop_any h' w s2 s1 h2 h1 (fun e => hd ⟨e.2, e.1⟩),
    loop_exchanged { writeAll := all, silent := x, file1 := f, file2 := g }
      { writeAll := all, silent := y, file1 := g, file2 := f } rfl]
  unfold OneBroken
  rw [and_assoc]

/-- C138: so for files that can be read the status is the same both ways. -/
theorem C138_symmetric {all x y : Bool} {f g : Bytes} {args args' : List Bytes}
    (h : Invocation all x [f, g] args) (h' : Invocation all y [g, f] args') (w : World) (c1 c2 : Bytes)
    (h1 : Reads w f c1) (h2 : Reads w g c2) (hd : ¬ (f = b!"-" ∧ g = b!"-")) :
    (main w args').exit = (main w args).exit := by
  refine (C138_exchanged_status_partial h h' w ⟨c1, none⟩ ⟨c2, none⟩ ?_ ?_ hd).2 ?_
  · rcases h1 with ⟨e, r⟩ | ⟨e, r⟩
    · exact Or.inl ⟨e, r⟩
    · exact Or.inr ⟨e, r⟩
  · rcases h2 with ⟨e, r⟩ | ⟨e, r⟩
    · exact Or.inl ⟨e, r⟩
    · exact Or.inr ⟨e, r⟩
  · rintro ⟨⟨_, hb⟩, _⟩
    exact hb.1 rfl rfl

/-- C138: the status of the exchanged run is not always the same: a file that ends where reading the
other fails hides the failure when it is named first. -/
theorem C138_counterexample : ∃ (w : World) (args args' : List Bytes),
    Invocation false false [b!"a", b!"b"] args ∧ Invocation false false [b!"b", b!"a"] args' ∧
    main w args = { stdout := [], stderr := b!"cmp: EOF on a\n", exit := 1 } ∧
    main w args' = { stdout := [], stderr := b!"Error: Error reading b: input/output error", exit := 2 } :=
  ⟨⟨fun n => if n = b!"a" then some ⟨b!"x", none⟩ else some ⟨b!"x", some b!"input/output error"⟩,
      ⟨[], none⟩, ⟨[], none⟩, ⟨[], none⟩⟩, [b!"a", b!"b"], [b!"b", b!"a"],
    .file _ (by decide) (by decide) (by decide) (.file _ (by decide) (by decide) (by decide) .nil),
    .file _ (by decide) (by decide) (by decide) (.file _ (by decide) (by decide) (by decide) .nil),
    by decide, by decide⟩

/-! ## Output -/

/-- What is said about one pair of files and then about the exchanged pair. -/
inductive Mirrored (f g : Bytes) : Bytes → Bytes → Prop
  | quiet : Mirrored f g [] []
  | differ (n l : Bytes) : Mirrored f g
      (f ++ b!" " ++ g ++ b!" differ: char " ++ n ++ b!", line " ++ l ++ b!"\n")
      (g ++ b!" " ++ f ++ b!" differ: char " ++ n ++ b!", line " ++ l ++ b!"\n")

theorem atEnd_stdout (s : Settings) (a b : Option (Option Bytes)) : (atEnd s a b).stdout = [] := by
  unfold atEnd
  repeat' split
  all_goals rfl

theorem loop_mirrored (f g : Bytes) (e1 e2 : Option Bytes) (c1 : Bytes) : ∀ (c2 : Bytes) (i l : Nat),
    Mirrored f g (loop { file1 := f, file2 := g } e1 e2 c1 c2 i l).stdout
      (loop { file1 := g, file2 := f } e2 e1 c2 c1 i l).stdout := by
  induction c1 with
  | nil =>
    intro c2 i l
    cases c2 <;> simp only [loop, atEnd_stdout] <;> exact .quiet
  | cons a c1 ih =>
    intro c2 i l
    cases c2 with
    | nil => simp only [loop, atEnd_stdout]; exact .quiet
    | cons b c2 =>
      by_cases hab : a = b
      · subst hab
        have := ih c2 (i + 1) (if a = nl then l + 1 else l)
        simpa [loop] using this
      · have hba : ¬ b = a := fun h => hab h.symm
        have := Mirrored.differ (f := f) (g := g) (natToDec i) (natToDec l)
        simpa [loop, hab, hba, report] using this

/-- C138: exchanging the operands exchanges the names in the message and leaves the place of the first
difference, byte and line, as it is. -/
theorem C138_exchanged_message {f g : Bytes} {args args' : List Bytes}
    (h : Invocation false false [f, g] args) (h' : Invocation false false [g, f] args') (w : World) (s1 s2 : Stream)
    (h1 : Delivers w f s1) (h2 : Delivers w g s2) (hd : ¬ (f = b!"-" ∧ g = b!"-")) :
    Mirrored f g (main w args).stdout (main w args').stdout := by
  rw [main_loop_any h w s1 s2 h1 h2 hd, main_loop_any h' w s2 s1 h2 h1 (fun e => hd ⟨e.2, e.1⟩)]
  exact loop_mirrored f g _ _ _ _ _ _

theorem loop_listing (s : Settings) (hs : s.writeAll = true) (hq : s.silent = false) (e1 e2 : Option Bytes) (c1 : Bytes) :
    ∀ (c2 : Bytes) (i l : Nat), (loop s e1 e2 c1 c2 i l).stdout =
      listing (((c1.zip c2).zipIdx i).filterMap fun p => if p.1.1 = p.1.2 then none else some (p.2, p.1.1, p.1.2)) := by
  induction c1 with
  | nil => intro c2 i l; cases c2 <;> simp [loop, atEnd_stdout, listing]
  | cons a c1 ih =>
    intro c2 i l
    cases c2 with
    | nil => simp [loop, atEnd_stdout, listing]
    | cons b c2 =>
      simp only [loop, hs, not_true_eq_false, and_false, if_false, ih, List.zip_cons_cons, List.zipIdx_cons]
      by_cases e : a = b
      · simp [e]
      · simp [e, report, hs, hq, listing]

theorem differences_exchanged (c1 : Bytes) : ∀ (c2 : Bytes) (i : Nat),
    ((c2.zip c1).zipIdx i).filterMap (fun p => if p.1.1 = p.1.2 then none else some (p.2, p.1.1, p.1.2)) =
      (((c1.zip c2).zipIdx i).filterMap fun p => if p.1.1 = p.1.2 then none else some (p.2, p.1.1, p.1.2)).map
        fun d => (d.1, d.2.2, d.2.1) := by
  induction c1 with
  | nil => intro c2 i; cases c2 <;> simp
  | cons a c1 ih =>
    intro c2 i
    cases c2 with
    | nil => simp
    | cons b c2 =>
      simp only [List.zip_cons_cons, List.zipIdx_cons, List.filterMap_cons]
      by_cases e : a = b
      · subst e; simpa using ih c2 (i + 1)
      · have e' : ¬ b = a := fun h => e h.symm
        simpa [e, e'] using ih c2 (i + 1)

/-- C138: with `-l`, exchanging the operands exchanges the second and third columns of every line and
nothing else; this holds also when reading fails. -/
theorem C138_exchanged_columns {f g : Bytes} {args args' : List Bytes}
    (h : Invocation true false [f, g] args) (h' : Invocation true false [g, f] args') (w : World) (s1 s2 : Stream)
    (h1 : Delivers w f s1) (h2 : Delivers w g s2) (hd : ¬ (f = b!"-" ∧ g = b!"-")) :
    ∃ ds : List (Nat × UInt8 × UInt8), (main w args).stdout = listing ds ∧
      (main w args').stdout = listing (ds.map fun d => (d.1, d.2.2, d.2.1)) ∧ ds = differences s1.data s2.data := by
  refine ⟨differences s1.data s2.data, ?_, ?_, rfl⟩
  · rw [main_loop_any h w s1 s2 h1 h2 hd]
    exact loop_listing _ rfl rfl _ _ _ _ _ _
  · rw [main_loop_any h' w s2 s1 h2 h1 (fun e => hd ⟨e.2, e.1⟩), loop_listing _ rfl rfl,
      differences_exchanged s1.data s2.data 1]
    rfl

theorem loop_hush (s t : Settings) (hw : t.writeAll = s.writeAll) (hf : t.file1 = s.file1) (hg : t.file2 = s.file2)
    (hq : t.silent = true) (e1 e2 : Option Bytes) (c1 : Bytes) : ∀ (c2 : Bytes) (i l : Nat),
    loop t e1 e2 c1 c2 i l = { loop s e1 e2 c1 c2 i l with stdout := [] } := by
  have hend : ∀ a b, atEnd t a b = { atEnd s a b with stdout := [] } := by
    intro a b
    unfold atEnd
    rw [hf, hg]
    repeat' split
    all_goals rfl
  induction c1 with
  | nil => intro c2 i l; cases c2 <;> simp only [loop] <;> exact hend _ _
  | cons a c1 ih =>
    intro c2 i l
    cases c2 with
    | nil => simp only [loop]; exact hend _ _
    | cons b c2 =>
      have hr : ∀ x y, report t i l x y = [] := by intro x y; simp [report, hq]
      simp only [loop, hw, hr, ih]
      split
      · rfl
      · simp

/-- C138: `-s` takes away what would be printed on standard output, and changes neither the status nor
the messages; this holds whatever happens to the files. -/
theorem C138_silent_only_hides {all : Bool} {f g : Bytes} {args args' : List Bytes}
    (h : Invocation all false [f, g] args) (h' : Invocation all true [f, g] args') (w : World) :
    main w args' = { main w args with stdout := [] } := by
  rw [main, main, C43_two_operands h, C43_two_operands h']
  simp only [cmp]
  split
  · rfl
  · split
    · rfl
    · split
      · exact loop_hush (s := { writeAll := all, silent := false, file1 := f, file2 := g })
          (t := { writeAll := all, silent := true, file1 := f, file2 := g }) rfl rfl rfl rfl _ _ _ _ _ _
      · exact loop_hush (s := { writeAll := all, silent := false, file1 := f, file2 := g })
          (t := { writeAll := all, silent := true, file1 := f, file2 := g }) rfl rfl rfl rfl _ _ _ _ _ _

example : Mirrored b!"a" b!"-" b!"a - differ: char 4, line 2\n" b!"- a differ: char 4, line 2\n" :=
  Mirrored.differ b!"4" b!"2"

-- two files, one on standard input, the other ending with a read error after a difference
example : (main ⟨fun n => if n = b!"a" then some ⟨b!"xyz", some b!"lost"⟩ else none, ⟨b!"xzz", none⟩, ⟨[], none⟩, ⟨[], none⟩⟩
    [b!"-", b!"a"]).exit = (main ⟨fun n => if n = b!"a" then some ⟨b!"xyz", some b!"lost"⟩ else none, ⟨b!"xzz", none⟩, ⟨[], none⟩, ⟨[], none⟩⟩
    [b!"a", b!"-"]).exit :=
  (C138_exchanged_status_partial
    (.file _ (by decide) (by decide) (by decide) (.file _ (by decide) (by decide) (by decide) .nil))
    (.file _ (by decide) (by decide) (by decide) (.file _ (by decide) (by decide) (by decide) .nil))
    _ ⟨b!"xyz", some b!"lost"⟩ ⟨b!"xzz", none⟩ (.inr ⟨by decide, rfl⟩) (.inl ⟨rfl, rfl⟩) (by decide)).2
    (by rintro ⟨_, h | h⟩ <;> revert h <;> decide)

end Cmp
