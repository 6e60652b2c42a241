import Verif.Tools.Together
import Verif.Cut.CommandLineProps
import Verif.Flag.Laws
import Verif.Kill.Props
import Verif.TSort.Props

/-!
# The argument `--` (C158)

By the utility conventions (XBD 12.2, guideline 10) the first `--` that is no option's value ends the options: it is no
operand, and what follows are operands, also with a hyphen in front. The library for options and `cut` (package flag of the Go
library) follow this. The other commands do not know `--`: it is an operand or a fault, and hyphens behind it keep their
meaning.
-/

namespace Tools
open Go

/-- What is expected of a command: `--` before operands that are no options makes no difference. -/
def KnowsDashes {α : Type} (run : List Bytes → α) : Prop :=
  ∀ names : List Bytes, names ≠ [] → (∀ n ∈ names, Name n) → run (b!"--" :: names) = run names

/-! ## Lemmas -/

theorem kill_dashes_refused (w : Kill.World) (n : Nat) : ∀ (args : List Bytes), args.length ≤ n → b!"--" ∈ args →
    ∀ s, ∃ e, Kill.parseLoop w s args = .error e := by
  have ho : ∀ s, Kill.other s b!"--" = .error (.error b!"-- isn't a number, bro...") := fun s => rfl
  have hv : Kill.signalMap (Kill.toUpper w.up b!"--") = none := rfl
  induction n with
  | zero => intro args hn hm; cases args with | nil => simp at hm | cons _ _ => simp at hn
  | succ n ih =>
    intro args hn hm s
    match args, hm, hn with
    | [a], hm, _ =>
      obtain rfl : b!"--" = a := by simpa using hm
      exact ⟨_, rfl⟩
    | a :: v :: rest, hm, hn =>
      rw [Kill.parseLoop]
      by_cases h1 : a = b!"-l"
      · rw [if_pos h1]
        refine ih _ (by simpa using hn) ?_ s
        subst h1
        exact (List.mem_cons.1 hm).resolve_left (by decide)
      · rw [if_neg h1]
        by_cases h2 : a = b!"-s"
        · rw [if_pos h2]
          have hm := (List.mem_cons.1 hm).resolve_left (by subst h2; decide)
          cases hs : Kill.signalMap (Kill.toUpper w.up v) with
          | none => exact ⟨_, rfl⟩
          | some k =>
            refine ih rest (by simp at hn ⊢; omega) ((List.mem_cons.1 hm).resolve_left ?_) _
            rintro rfl
            rw [hv] at hs
            cases hs
        · rw [if_neg h2]
          cases hk : Kill.other s a with
          | error e => exact ⟨e, rfl⟩
          | ok s' =>
            refine ih (v :: rest) (by simpa using hn) ((List.mem_cons.1 hm).resolve_left ?_) s'
            rintro rfl
            rw [ho] at hk
            cases hk

theorem cmp_dashes_kept : ∀ (args : List Bytes) (s s' : Cmp.Settings), Cmp.parseLoop s args = .ok s' →
    (s.file1 = b!"--" ∨ s.file2 = b!"--" ∨ b!"--" ∈ args) → s'.file1 = b!"--" ∨ s'.file2 = b!"--" := by
  intro args
  induction args with
  | nil =>
    intro s s' h hm
    simp only [Cmp.parseLoop, Except.ok.injEq] at h
    subst h
    simpa using hm
  | cons a args ih =>
    intro s s' h hm
    simp only [Cmp.parseLoop, Cmp.parseArg] at h
    split at h
    case h_2 => cases h
    case h_1 s1 hs1 =>
      refine ih s1 s' h ?_
      rw [List.mem_cons] at hm
      split at hs1
      case isTrue h1 =>
        cases hs1
        rcases hm with hm | hm | hm | hm
        · exact .inl hm
        · exact .inr (.inl hm)
        · rw [h1] at hm; exact absurd hm (by decide)
        · exact .inr (.inr hm)
      split at hs1
      case isTrue h1 =>
        cases hs1
        rcases hm with hm | hm | hm | hm
        · exact .inl hm
        · exact .inr (.inl hm)
        · rw [h1] at hm; exact absurd hm (by decide)
        · exact .inr (.inr hm)
      split at hs1
      case isTrue h1 =>
        cases hs1
        rcases hm with hm | hm | hm | hm
        · rw [hm] at h1; cases h1
        · exact .inr (.inl hm)
        · exact .inl hm.symm
        · exact .inr (.inr hm)
      split at hs1
      case isTrue h1 =>
        cases hs1
        rcases hm with hm | hm | hm | hm
        · exact .inl hm
        · rw [hm] at h1; cases h1
        · exact .inr (.inl hm.symm)
        · exact .inr (.inr hm)
      cases hs1

theorem head_dashes_kept (n : Nat) : ∀ (args : List Bytes), args.length ≤ n → ∀ (s s' : Head.Settings), Head.parseLoop s args = .ok s' →
    (b!"--" ∈ s.filenames ∨ b!"--" ∈ args) → b!"--" ∈ s'.filenames := by
  induction n with
  | zero =>
    intro args hn s s' h hm
    cases args with
    | nil =>
      simp only [Head.parseLoop, Except.ok.injEq] at h
      subst h; simpa using hm
    | cons _ _ => simp at hn
  | succ n ih =>
    intro args hn s s' h hm
    match args, hn with
    | [], _ =>
      simp only [Head.parseLoop, Except.ok.injEq] at h
      subst h; simpa using hm
    | [a], _ =>
      rw [Head.parseLoop] at h
      split at h
      · cases h
      · cases h
        simpa [or_comm] using hm
    | a :: v :: rest, hn =>
      rw [Head.parseLoop] at h
      split at h
      case isTrue h1 =>
        cases hv : atoi v with
        | mk k e =>
          rw [hv] at h
          cases e with
          | some _ => cases h
          | none =>
            refine ih rest (by simp at hn ⊢; omega) _ s' h (hm.imp id fun hm => ?_)
            rw [List.mem_cons, List.mem_cons] at hm
            rcases hm with hm | hm | hm
            · rw [h1] at hm; exact absurd hm (by decide)
            · rw [← hm] at hv
              exact absurd (congrArg Prod.snd hv) (by dsimp only; decide)
            · exact hm
      case isFalse h1 =>
        refine ih (v :: rest) (by simpa using hn) _ s' h ?_
        rw [List.mem_cons] at hm
        rcases hm with hm | hm | hm
        · exact .inl (by simp [hm])
        · exact .inl (by simp [hm])
        · exact .inr hm

theorem head_missing (w : Head.World) (k : Int) (many : Bool) (h : w.file b!"--" = none) : ∀ (names : List Bytes) (i : Nat), b!"--" ∈ names →
    (Head.processLoop w k many i names).panic ≠ none := by
  intro names
  induction names with
  | nil => intro i hm; simp at hm
  | cons f rest ih =>
    intro i hm
    rw [Head.processLoop]
    cases ho : Head.openAt w i f with
    | none => simp
    | some c =>
      dsimp only
      split
      · simp
      · refine ih (i + 1) ((List.mem_cons.1 hm).resolve_left ?_)
        rintro rfl
        rw [Head.openAt, if_neg (by decide), h] at ho
        cases ho

/-! ## The ones that know it -/

/-- **C158** The library: after options that are accepted, `--` is left out and everything behind it is an operand, whatever it looks
like; the variables are as without what follows. -/
theorem C158_library (p : Flag.Parser) (parseInt : Bytes → Option Int) (os : List Flag.Opt) (h : ∀ o ∈ os, o.OK p)
    (hp : ∀ o ∈ os, o.Parses p parseInt) (operands : List Bytes) (st : Flag.Store) :
    Flag.parse p parseInt (Flag.line os ++ b!"--" :: operands) st =
      ⟨.ok operands, (Flag.parse p parseInt (Flag.line os) st).store⟩ := by
  obtain ⟨s1, -, e1⟩ := Flag.parse_line os h hp st
  rw [e1, Flag.parse_dashes, ← List.append_nil (Flag.line os), e1, Flag.parse]

/-- **C158** `cut` says the same whatever follows `--`: nothing behind it is an option. -/
theorem C158_cut (hs : Nat) (usage : Bytes) (items : List Cut.Item) (h : ∀ i ∈ items, i.OK) (operands : List Bytes) :
    Cut.run hs usage ((items.map Cut.Item.args).flatten ++ b!"--" :: operands) = Cut.run hs usage (items.map Cut.Item.args).flatten := by
  have e := Cut.C81_separate_values hs usage items h [] trivial
  rw [List.append_nil] at e
  rw [e, Cut.C81_separate_values hs usage items h _ (show Cut.EndsOptions (b!"--" :: operands) from Or.inl rfl)]

/-! ## The ones that do not -/

/-- **C158** `kill`: with `--` anywhere among the arguments no signal is sent, and the status is 2. -/
theorem C158_kill (w : Kill.World) (args : List Bytes) (h : b!"--" ∈ args) :
    (Kill.main w args).sent = [] ∧ (Kill.main w args).stdout = [] ∧ (Kill.main w args).exit = 2 := by
  obtain ⟨e, he⟩ := kill_dashes_refused w _ args (Nat.le_refl _) h {}
  rw [Kill.main, he]
  cases e <;> exact ⟨rfl, rfl, rfl⟩

/-- **C158** `cmp`: with `--` anywhere among the arguments and no file of that name nothing is compared. -/
theorem C158_cmp (w : Cmp.World) (args : List Bytes) (h : b!"--" ∈ args) (hf : w.file b!"--" = none) :
    (Cmp.main w args).stdout = [] ∧ (Cmp.main w args).exit = 2 := by
  rw [Cmp.main]
  cases hs : Cmp.parseSettings args with
  | error e => exact ⟨rfl, rfl⟩
  | ok s =>
    have ho : Cmp.openFile w b!"--" = none := by rw [Cmp.openFile, if_neg (by decide), hf]
    dsimp only
    rw [Cmp.cmp]
    rcases cmp_dashes_kept args _ s hs (.inr (.inr h)) with e | e
    · rw [e, ho]; exact ⟨rfl, rfl⟩
    · cases Cmp.openFile w s.file1 with
      | none => exact ⟨rfl, rfl⟩
      | some f1 => rw [e, ho]; exact ⟨rfl, rfl⟩

/-- **C158** `head`: with `--` anywhere among the arguments and no file of that name the program panics. -/
theorem C158_head (w : Head.World) (args : List Bytes) (h : b!"--" ∈ args) (hf : w.file b!"--" = none) :
    (Head.main w args).panic ≠ none := by
  rw [Head.main, Head.parseSettings, if_neg (by rintro rfl; simp at h)]
  cases hs : Head.parseLoop ⟨10, []⟩ args with
  | error p => simp
  | ok s =>
    have hm := head_dashes_kept _ args (Nat.le_refl _) _ s hs (.inr h)
    have : Head.withDefault s = s := by rw [Head.withDefault, if_neg (by intro e; rw [e] at hm; simp at hm)]
    dsimp only
    rw [this, Head.process]
    exact head_missing w _ _ hf _ _ hm

/-- **C158** `cat` without a file `--`: nothing behind `--` is printed, and the status is 0 all the same. -/
theorem C158_cat (file : Bytes → Except Bytes Cat.Stream) (stdin : Cat.Stream) (pre rest : List Bytes) (e : Bytes)
    (hf : file b!"--" = .error e) :
    Cat.main file stdin (pre ++ b!"--" :: rest) = Cat.main file stdin (pre ++ [b!"--"]) ∧
    (Cat.main file stdin (b!"--" :: rest)) = ⟨[], b!"Error encountered while attempting to read from --: " ++ e ++ b!"\n", 0⟩ := by
  have hw : ∀ st, Cat.writeFile file st b!"--" = ([], some e, st) := by
    intro st; rw [Cat.writeFile, if_neg (by decide), hf]
  have hk : ∀ (fs gs : List Bytes) st, Cat.loop file st (fs ++ b!"--" :: gs) = Cat.loop file st (fs ++ [b!"--"]) := by
    intro fs gs
    induction fs with
    | nil => intro st; simp [Cat.loop, hw]
    | cons f fs ih =>
      intro st
      rw [List.cons_append, List.cons_append, Cat.loop, Cat.loop]
      split
      · rfl
      · rw [ih]
  have ho : ∀ l m : List Bytes, Cat.operands (l ++ b!"--" :: m) = l.filter (· ≠ b!"-u") ++ b!"--" :: m.filter (· ≠ b!"-u") := by
    intro l m
    have : (l ++ b!"--" :: m).filter (· ≠ b!"-u") = l.filter (· ≠ b!"-u") ++ b!"--" :: m.filter (· ≠ b!"-u") := by
      rw [List.filter_append, List.filter_cons_of_pos (by decide)]
    rw [Cat.operands, this]
    simp
  refine ⟨?_, ?_⟩
  · rw [Cat.main, Cat.main, ho, ho, hk]; rfl
  · rw [Cat.main, show b!"--" :: rest = [] ++ b!"--" :: rest from rfl, ho, hk]
    simp [Cat.loop, hw]

/-- **C158** `cksum` without a file `--`: nothing behind `--` is read, and the status is 1. -/
theorem C158_cksum (fs : FS) (er : Cksum.Errors) (stdin : Bytes) (pre rest : List Bytes) (hf : fs b!"--" = none) :
    Cksum.main fs er stdin (pre ++ b!"--" :: rest) = Cksum.main fs er stdin (pre ++ [b!"--"]) ∧
    (Cksum.main fs er stdin (pre ++ b!"--" :: rest)).exit = 1 := by
  have hk : ∀ (names : List Bytes) st, Cksum.runAll fs er st (names ++ b!"--" :: rest) = Cksum.runAll fs er st (names ++ [b!"--"]) ∧
      (Cksum.runAll fs er st (names ++ b!"--" :: rest)).exit = 1 := by
    intro names
    induction names with
    | nil => intro st; simp [Cksum.runAll, hf]
    | cons f names ih =>
      intro st
      rw [List.cons_append, List.cons_append, Cksum.runAll, Cksum.runAll]
      split
      · split
        · exact ⟨rfl, rfl⟩
        · rw [(ih []).1]; exact ⟨rfl, by simpa [(ih []).1] using (ih []).2⟩
      · split
        · exact ⟨rfl, rfl⟩
        · split
          · exact ⟨rfl, rfl⟩
          · rw [(ih st).1]; exact ⟨rfl, by simpa [(ih st).1] using (ih st).2⟩
  rw [Cksum.main, Cksum.main, if_neg (by simp), if_neg (by simp)]
  exact hk pre stdin

/-- **C158** `diff`: the second of two files behind `--` is one too many. -/
theorem C158_diff (p : Nat → Bool) (fs : FS) (f g : Bytes) (hf : Name f) (hg : Name g) (rest : List Bytes) :
    Diff.main p fs (b!"--" :: f :: g :: rest) =
      { stdout := b!"Oh heck an error: aww jeez you can only compare two files, " ++ g ++ b!" is the third\n", stderr := [], exit := 1 } := by
  have k : ∀ x, Name x → x ≠ b!"-b" ∧ x ≠ b!"-c" ∧ x ≠ b!"-e" ∧ x ≠ b!"-f" ∧ x ≠ b!"-r" ∧ x ≠ b!"-u" ∧ x ≠ b!"-C" ∧ x ≠ b!"-U" :=
    fun x hx => ⟨hx.ne _, hx.ne _, hx.ne _, hx.ne _, hx.ne _, hx.ne _, hx.ne _, hx.ne _⟩
  have e : Diff.parseSettings (b!"--" :: f :: g :: rest) = .error (.thirdFile g) := by
    have e3 : ∀ s : Diff.Settings, s.file1 ≠ [] → s.file2 ≠ [] → Diff.parseLoop s (g :: rest) = .error (.thirdFile g) := by
      intro s h1 h2
      rw [Diff.parseLoop.eq_def]
      simp [k g hg, h1, h2]
    simp [Diff.parseSettings, Diff.parseLoop, k f hf, e3, hf.1]
  rw [Diff.main, e]
  simp [Diff.CmdErr.text]

/-- **C158** `tsort`: what follows is not looked at. -/
theorem C158_tsort (fs : FS) (stdin : Bytes) (rest : List Bytes) (hf : fs b!"--" = none) (out : Out) :
    TSort.Main fs stdin (b!"--" :: rest) out ↔ out = ⟨[], b!"ahh jeez, can't open [--]\n", 1⟩ := by
  simp [TSort.Main, hf, TSort.die]

/-- One file, `f`, with the line `x`. -/
def oneFile : FS := fun n => if n = b!"f" then some b!"x\n" else none

/-- **C158** None of the six knows `--`. -/
theorem C158_counterexample :
    ¬ KnowsDashes (Cat.main (catFiles oneFile fun _ => []) { data := [] }) ∧
    ¬ KnowsDashes (Cksum.main oneFile (cksumErrors fun _ => []) []) ∧
    ¬ KnowsDashes (Cmp.main (cmpWorld oneFile [])) ∧
    ¬ KnowsDashes (Head.main (headWorld oneFile [])) ∧
    ¬ KnowsDashes (Diff.main (fun _ => false) oneFile) ∧
    ¬ KnowsDashes (TSort.Main oneFile []) ∧
    ¬ KnowsDashes (Kill.main ⟨id, fun _ => none, fun _ => [], fun _ => none⟩) := by
  have hf : Name b!"f" := by decide
  have h1 : ∀ n ∈ [b!"f"], Name n := by simpa using hf
  have h2 : ∀ n ∈ [b!"f", b!"f"], Name n := by simpa using hf
  have h0 : oneFile b!"--" = none := by decide
  refine ⟨fun h => ?_, fun h => ?_, fun h => ?_, fun h => ?_, fun h => ?_, fun h => ?_, fun h => ?_⟩
  · have := h [b!"f"] (by simp) h1
    revert this; decide +kernel
  · have := congrArg Out.exit (h [b!"f"] (by simp) h1)
    have e := (C158_cksum oneFile (cksumErrors fun _ => []) [] [] [b!"f"] h0).2
    rw [List.nil_append, this, cksum_one _ _ hf (by decide : oneFile b!"f" = some b!"x\n")] at e
    cases e
  · have := congrArg Out.exit (h [b!"f", b!"f"] (by simp) h2)
    rw [(C158_cmp (cmpWorld oneFile []) _ (by simp) (by simp [cmpWorld, h0])).2, cmp_exit _ hf hf (by decide : oneFile b!"f" = some b!"x\n") rfl] at this
    simp at this
  · refine C158_head (headWorld oneFile []) [b!"--", b!"f"] (by simp) (by simp [headWorld, h0]) ?_
    rw [h [b!"f"] (by simp) h1]
    decide +kernel
  · have := congrArg Out.exit (h [b!"f", b!"f"] (by simp) h2)
    rw [C158_diff _ _ _ _ hf hf, diff_two _ hf hf (by decide : oneFile b!"f" = some b!"x\n") rfl] at this
    cases this
  · have := congrFun (h [b!"f"] (by simp) h1) ⟨[], b!"ahh jeez, can't open [--]\n", 1⟩
    have e := (C158_tsort oneFile [] [b!"f"] h0 _).2 rfl
    rw [this] at e
    have hw : scanWords b!"x\n" = ([b!"x"], false) := by decide +kernel
    simp [TSort.Main, oneFile, TSort.Run, hw, TSort.feed, TSort.die] at e
  · have := congrArg Kill.Result.sent (h [b!"7"] (by simp) (by simpa using (by decide : Name b!"7")))
    rw [(C158_kill _ _ (by simp)).1] at this
    revert this; decide +kernel

/-! ## A file whose name begins with a hyphen -/

/-- **C158** With `./` in front every name is a name that no command takes for an option; two names stay different. -/
theorem C158_dot_slash (f g : Bytes) : Name (b!"./" ++ f) ∧ (b!"./" ++ f = b!"./" ++ g → f = g) :=
  ⟨⟨by simp, by simp⟩, fun h => List.append_cancel_left h⟩

/-- Arguments as in the theorems. -/
example : b!"--" ∈ [b!"-s", b!"TERM", b!"--", b!"7"] ∧ oneFile b!"--" = none ∧ Name b!"f" ∧ ¬ Name b!"-n" ∧ Name b!"./-n" := by decide

/-- A signal that is sent without `--`. -/
example : (Kill.main ⟨id, fun _ => none, fun _ => [], fun _ => none⟩ [b!"-s", b!"TERM", b!"7"]).sent = [(7, 9)] := by decide +kernel

end Tools
