import Verif.Cat.Model

/-! # C46, C47: cat -/

namespace Cat
open Go

/-! ## Specification -/

/-- `Reads file inp inp' f c`: operand `f` is readable with contents `c`; standard input holds `inp`
before and `inp'` after. -/
inductive Reads (file : Bytes → Except Bytes Stream) : (inp inp' : Bytes) → Bytes → Bytes → Prop
  | stdin (inp) : Reads file inp [] b!"-" inp
  | file (inp) {f c} : f ≠ b!"-" → file f = .ok ⟨c, none⟩ → Reads file inp inp f c

/-- The operands are readable one after the other, with the given contents. -/
inductive ReadsAll (file : Bytes → Except Bytes Stream) : (inp inp' : Bytes) → List Bytes → List Bytes → Prop
  | nil (inp) : ReadsAll file inp inp [] []
  | cons {inp inp1 inp2 f c fs cs} : Reads file inp inp1 f c → ReadsAll file inp1 inp2 fs cs →
      ReadsAll file inp inp2 (f :: fs) (c :: cs)

/-- `args` are the operands `fs`, with any number of `-u` anywhere. -/
inductive Unbuffered : (fs args : List Bytes) → Prop
  | nil : Unbuffered [] []
  | u {fs args} : Unbuffered fs args → Unbuffered fs (b!"-u" :: args)
  | op {fs args} (f : Bytes) : f ≠ b!"-u" → Unbuffered fs args → Unbuffered (f :: fs) (f :: args)

/-! ## Theorems -/

theorem operands_eq {fs args} (h : Unbuffered fs args) : operands args = if fs = [] then [b!"-"] else fs := by
  have : args.filter (· ≠ b!"-u") = fs := by
    induction h with
    | nil => rfl
    | u _ ih => simpa using ih
    | op f hf _ ih => rw [List.filter_cons_of_pos (by simpa using hf), ih]
  simp only [operands, this, List.length_eq_zero_iff]
  split
  · next h => simp [h]
  · rfl

theorem writeFile_reads {file inp inp' f c} (h : Reads file inp inp' f c) :
    writeFile file ⟨inp, none⟩ f = (c, none, ⟨inp', none⟩) := by
  cases h with
  | stdin => rfl
  | file hf hc => simp [writeFile, hf, hc]

theorem loop_prefix {file inp inp' fs cs} (h : ReadsAll file inp inp' fs cs) (rest : List Bytes) :
    loop file ⟨inp, none⟩ (fs ++ rest) =
      { loop file ⟨inp', none⟩ rest with stdout := cs.flatten ++ (loop file ⟨inp', none⟩ rest).stdout } := by
  induction h with
  | nil => rfl
  | cons h1 _ ih =>
    simp only [List.cons_append, loop, writeFile_reads h1, ih]
    simp

/-- C46: with readable operands cat writes exactly the concatenation of their contents, in order, and
nothing else; `-u` is ignored wherever it stands. -/
theorem C46_concatenates {file inp inp' fs cs args} (hu : Unbuffered fs args) (hne : fs ≠ [])
    (h : ReadsAll file inp inp' fs cs) :
    main file ⟨inp, none⟩ args = ⟨cs.flatten, [], 0⟩ := by
  rw [main, operands_eq hu, if_neg hne]
  have := loop_prefix h []
  rw [List.append_nil] at this
  rw [this]
  simp [loop]

/-- C46: without operands standard input is copied. -/
theorem C46_no_operands {file inp args} (hu : Unbuffered [] args) :
    main file ⟨inp, none⟩ args = ⟨inp, [], 0⟩ := by
  rw [main, operands_eq hu]
  simp [loop, writeFile]

/-- C46: every argument vector is of the form the theorems speak about. -/
theorem C46_every_vector (args : List Bytes) : ∃ fs, Unbuffered fs args := by
  induction args with
  | nil => exact ⟨_, .nil⟩
  | cons a args ih =>
    obtain ⟨fs, h⟩ := ih
    by_cases e : a = b!"-u"
    · subst e; exact ⟨fs, .u h⟩
    · exact ⟨a :: fs, .op a e h⟩

/-- C46: standard input is consumed once: a second `-` contributes nothing. -/
theorem C46_second_dash (file : Bytes → Except Bytes Stream) (inp : Bytes) :
    main file ⟨inp, none⟩ [b!"-", b!"-"] = ⟨inp, [], 0⟩ := by
  have := C46_concatenates (file := file) (inp := inp) (.op b!"-" (by decide) (.op b!"-" (by decide) .nil)) (by decide)
    (.cons (.stdin inp) (.cons (.stdin []) (.nil _)))
  simpa using this

/-- C47: at the first operand that cannot be opened the run ends: the output is the contents of the
operands before it, the diagnostic names it, and the status is nevertheless 0. -/
theorem C47_stops {file inp inp' pre cs args post f e} (hu : Unbuffered (pre ++ f :: post) args)
    (h : ReadsAll file inp inp' pre cs) (hf : f ≠ b!"-") (he : file f = .error e) :
    main file ⟨inp, none⟩ args =
      ⟨cs.flatten, b!"Error encountered while attempting to read from " ++ f ++ b!": " ++ e ++ b!"\n", 0⟩ := by
  rw [main, operands_eq hu, if_neg (by simp), loop_prefix h]
  simp [loop, writeFile, hf, he]

/-- C47: likewise at the first operand whose reading fails half-way; what could be read is written. -/
theorem C47_read_error {file inp inp' pre cs args post f d e} (hu : Unbuffered (pre ++ f :: post) args)
    (h : ReadsAll file inp inp' pre cs) (hf : f ≠ b!"-") (he : file f = .ok ⟨d, some e⟩) :
    main file ⟨inp, none⟩ args =
      ⟨cs.flatten ++ d, b!"Error encountered while attempting to read from " ++ f ++ b!": " ++ e ++ b!"\n", 0⟩ := by
  rw [main, operands_eq hu, if_neg (by simp), loop_prefix h]
  simp [loop, writeFile, hf, he]

/-- C47: the exit status is always 0. -/
theorem C47_exit_zero (file : Bytes → Except Bytes Stream) (stdin : Stream) (args : List Bytes) :
    (main file stdin args).exit = 0 := by
  rw [main]
  generalize operands args = fs
  induction fs generalizing stdin with
  | nil => rfl
  | cons f fs ih =>
    simp only [loop]
    split
    · rfl
    · exact ih _

example : main (fun n => if n = b!"a" then .ok ⟨b!"A", none⟩ else .error b!"gone") ⟨b!"in", none⟩
      [b!"-u", b!"a", b!"-", b!"-u", b!"x", b!"a"] =
    ⟨b!"Ain", b!"Error encountered while attempting to read from x: gone\n", 0⟩ :=
  C47_stops (f := b!"x") (e := b!"gone") (pre := [b!"a", b!"-"]) (cs := [b!"A", b!"in"]) (post := [b!"a"])
    (file := fun n => if n = b!"a" then .ok ⟨b!"A", none⟩ else .error b!"gone") (inp' := [])
    (.u (.op _ (by decide) (.op _ (by decide) (.u (.op _ (by decide) (.op _ (by decide) .nil))))))
    (.cons (.file _ (by decide) rfl) (.cons (.stdin _) (.nil _))) (by decide) rfl

end Cat
