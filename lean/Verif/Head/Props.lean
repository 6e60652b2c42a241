import Verif.Head.Model

/-! # C44, C45: head -/

namespace Head
open Go

/-! ## Specification -/

/-- `Invocation n m files args`: read from left to right with the count `n` so far, `args` are
`-n value` pairs with integer values and the operands `files`; the count in force at the end is `m`. -/
inductive Invocation : (n m : Int) → (files : List Bytes) → List Bytes → Prop
  | nil (n) : Invocation n n [] []
  | count {n m files args} (v : Bytes) (k : Int) : atoi v = (k, none) → Invocation k m files args →
      Invocation n m files (b!"-n" :: v :: args)
  | file {n m files args} (f : Bytes) : f ≠ b!"-n" → Invocation n m files args →
      Invocation n m (f :: files) (f :: args)

/-- `c` is a text with the lines `ls` (the last newline may be missing). -/
def TextOf (c : Bytes) (ls : List Bytes) : Prop :=
  (∀ l ∈ ls, nl ∉ l) ∧
    (c = unlines ls ∨ ∃ init last, ls = init ++ [last] ∧ last ≠ [] ∧ c = unlines init ++ last)

/-- Every byte string is the text of some lines. -/
theorem textOf_exists (c : Bytes) : ∃ ls, TextOf c ls := by
  refine ⟨rawLines c, rawLines_no_nl c, ?_⟩
  obtain ⟨h1, h2⟩ := unlines_rawLines c
  by_cases h : c = [] ∨ c.getLast? = some nl
  · exact .inl (h1 h).symm
  · right
    obtain ⟨e, hne⟩ := h2 (fun e => h (.inl e)) (fun e => h (.inr e))
    rcases List.eq_nil_or_concat (rawLines c) with e' | ⟨init, last, e'⟩
    · exact absurd e' hne
    · rw [List.concat_eq_append] at e'
      refine ⟨init, last, e', ?_, ?_⟩
      · rintro rfl
        rw [e', unlines_append] at e
        simp only [unlines, List.nil_append] at e
        have e : unlines init = c := List.append_cancel_right e
        apply h
        rw [← e]
        cases init with
        | nil => left; rfl
        | cons x xs =>
          right
          have : ∀ (x : Bytes) xs, (unlines (x :: xs)).getLast? = some nl := by
            intro x xs
            induction xs generalizing x with
            | nil => simp [unlines]
            | cons y ys ih =>
              have := ih y
              rw [unlines, List.getLast?_append, List.getLast?_cons, this]
              simp
          exact this x xs
      · rw [e', unlines_append] at e
        simp only [unlines] at e
        have : (unlines init ++ last) ++ [nl] = c ++ [nl] := by rw [← e]; simp
        exact (List.append_cancel_right this).symm

theorem textOf_rawLines {c ls} (h : TextOf c ls) : rawLines c = ls := by
  obtain ⟨hn, h | ⟨init, last, rfl, hne, rfl⟩⟩ := h
  · rw [h, rawLines_unlines ls hn]
  · rw [rawLines_unlines_append init (fun l hl => hn l (by simp [hl])),
      rawLines_unterminated last (hn last (by simp)) hne]

/-- What `head -n m` should print for one file: the first `m` lines, each with a newline. A carriage
return before a newline is not part of a line for the Go scanner, so it is dropped. -/
def firstLines (m : Int) (ls : List Bytes) : Bytes := unlines ((ls.take m.toNat).map dropCR)

/-- The expected output for several files: banners, with an empty line between files. -/
def expected (m : Int) : List (Bytes × List Bytes) → Bytes
  | [] => []
  | [(_, ls)] => firstLines m ls
  | files => join b!"\n" (files.map fun f => b!"==> " ++ f.1 ++ b!" <==\n" ++ firstLines m f.2)

/-! ## Parsing -/

theorem parseLoop_inv {n m files args} (h : Invocation n m files args) : ∀ fs,
    parseLoop ⟨n, fs⟩ args = .ok ⟨m, fs ++ files⟩ := by
  induction h with
  | nil n => intro fs; simp [parseLoop]
  | count v k hv _ ih =>
    intro fs
    simp only [parseLoop, if_true, hv]
    exact ih fs
  | @file n m files args f hf h ih =>
    intro fs
    cases args with
    | nil =>
      cases h
      simp [parseLoop, hf]
    | cons a args =>
      simp only [parseLoop, hf, if_false]
      rw [ih (fs ++ [f])]
      simp

theorem parseLoop_panics (args : List Bytes) : ∀ n fs,
    (∃ p, parseLoop ⟨n, fs⟩ args = .error p) ∨ ∃ m files, Invocation n m files args := by
  match args with
  | [] => intro n fs; exact .inr ⟨n, [], .nil n⟩
  | [a] =>
    intro n fs
    by_cases h : a = b!"-n"
    · left; exact ⟨.index, by simp [parseLoop, h]⟩
    · right; exact ⟨n, [a], .file a h (.nil n)⟩
  | a :: v :: rest =>
    intro n fs
    by_cases h : a = b!"-n"
    · cases hv : atoi v with
      | mk k e =>
        cases e with
        | none =>
          rcases parseLoop_panics rest k fs with ⟨p, hp⟩ | ⟨m, files, hi⟩
          · left; exact ⟨p, by simp [parseLoop, h, hv, hp]⟩
          · right; subst h; exact ⟨m, files, .count v k hv hi⟩
        | some e => left; exact ⟨.explicit, by simp [parseLoop, h, hv]⟩
    · rcases parseLoop_panics (v :: rest) n (fs ++ [a]) with ⟨p, hp⟩ | ⟨m, files, hi⟩
      · left; exact ⟨p, by simp only [parseLoop, h, if_false]; exact hp⟩
      · right; exact ⟨m, a :: files, .file a h hi⟩
termination_by args.length

/-- The operands in force: `-` if there are none but some argument was given. -/
def operands (files : List Bytes) : List Bytes := if files = [] then [b!"-"] else files

theorem main_inv {m files args} (h : Invocation 10 m files args) (hne : args ≠ []) (w : World) :
    main w args = process w ⟨m, operands files⟩ := by
  have := parseLoop_inv h []
  simp only [main, parseSettings, hne, if_false, this, withDefault, operands, List.nil_append]
  split <;> rfl

/-! ## One file -/

/-- One of the first `m + 1` lines reaches the scanner's limit. -/
def Overlong (m : Int) (ls : List Bytes) : Prop := ∃ l ∈ ls.take (m.toNat + 1), l.length ≥ maxToken

/-- Reading ends with an error that head notices: it asks for a line beyond the data, or for the end of an
unterminated last line. -/
def Broken (m : Int) (f : Stream) (ls : List Bytes) : Prop :=
  f.err = true ∧ ls.length ≤ m.toNat + (if f.data ≠ [] ∧ f.data.getLast? ≠ some nl then 1 else 0)

instance (m : Int) (f : Stream) (ls : List Bytes) : Decidable (Broken m f ls) := inferInstanceAs (Decidable (_ ∧ _))

/-- What makes head panic on an open file. -/
def Trouble (m : Int) (f : Stream) (ls : List Bytes) : Prop := Overlong m ls ∨ Broken m f ls

theorem scan_ok (m : Int) (fails early : Bool) (ls : List Bytes) : ∀ j : Nat,
    (∀ l ∈ ls.take ((m - j).toNat + 1), l.length < maxToken) →
    scanLoop m ((scanTokens ls).2 || fails) (!(scanTokens ls).2 && early) (scanTokens ls).1 j =
      (unlines ((ls.take (m - j).toNat).map dropCR),
        (fails && decide (ls.length ≤ (m - j).toNat)) || (early && decide (ls.length = (m - j).toNat + 1))) := by
  induction ls with
  | nil => intro j _; simp [scanTokens, scanLoop, unlines]
  | cons l ls ih =>
    intro j h
    have hl : l.length < maxToken := h l (by simp)
    simp only [scanTokens, hl, if_true, scanLoop]
    by_cases hj : (j : Int) < m
    · have e : (m - (j : Int)).toNat = (m - ((j + 1 : Nat) : Int)).toNat + 1 := by omega
      rw [if_pos hj, ih (j + 1) (fun x hx => h x (by rw [e, List.take_succ_cons]; exact List.mem_cons_of_mem _ hx)), e]
      simp [unlines]
    · have e : (m - (j : Int)).toNat = 0 := by omega
      rw [if_neg hj, e]
      have hz : ((!(scanTokens ls).2 && early) && (scanTokens ls).1.isEmpty) = (early && decide (ls = [])) := by
        cases ls with
        | nil => simp [scanTokens]
        | cons x xs =>
          by_cases hx : x.length < maxToken
          · simp [scanTokens, hx]
          · simp [scanTokens, hx]
      rw [hz]
      simp [unlines]

theorem scan_fails (m : Int) (fails early : Bool) (ls : List Bytes) : ∀ j : Nat,
    (∃ l ∈ ls.take ((m - j).toNat + 1), l.length ≥ maxToken) →
    (scanLoop m ((scanTokens ls).2 || fails) early (scanTokens ls).1 j).2 = true := by
  induction ls with
  | nil => intro j h; simp at h
  | cons l ls ih =>
    intro j h
    by_cases hl : l.length < maxToken
    · simp only [scanTokens, hl, if_true, scanLoop]
      by_cases hj : (j : Int) < m
      · have e : (m - (j : Int)).toNat = (m - ((j + 1 : Nat) : Int)).toNat + 1 := by omega
        rw [if_pos hj]
        apply ih (j + 1)
        obtain ⟨x, hx, hx'⟩ := h
        rw [e, List.take_succ_cons] at hx
        rcases List.mem_cons.1 hx with rfl | hx
        · omega
        · exact ⟨x, hx, hx'⟩
      · have e : (m - (j : Int)).toNat = 0 := by omega
        rw [e] at h
        simp at h
        omega
    · simp [scanTokens, hl, scanLoop]

theorem scanFile_not_long {f : Stream} {ls} (h : TextOf f.data ls) (m : Int) (ho : ¬ Overlong m ls) :
    scanFile m f = (firstLines m ls, decide (Broken m f ls)) := by
  have := scan_ok m f.err (f.err && unterminated f.data) ls 0 (by
    intro l hl
    simp only [Int.natCast_zero, Int.sub_zero] at hl
    apply Nat.lt_of_not_le
    intro hc
    exact ho ⟨l, by simpa using hl, hc⟩)
  rw [scanFile, scanLines, textOf_rawLines h, Bool.and_assoc, this]
  simp only [firstLines, Int.natCast_zero, Int.sub_zero, Prod.mk.injEq, true_and]
  rw [Bool.eq_iff_iff]
  rw [decide_eq_true_iff]
  simp only [Broken, unterminated, bne_iff_ne, Bool.or_eq_true, Bool.and_eq_true, decide_eq_true_eq, ne_eq]
  by_cases hu : ¬ f.data = [] ∧ ¬ f.data.getLast? = some nl
  · rw [if_pos hu]
    constructor
    · rintro (⟨h1, h2⟩ | ⟨⟨h1, _⟩, h2⟩) <;> exact ⟨h1, by omega⟩
    · rintro ⟨h1, h2⟩
      by_cases h3 : ls.length ≤ m.toNat
      · exact .inl ⟨h1, h3⟩
      · exact .inr ⟨⟨h1, hu⟩, by omega⟩
  · rw [if_neg hu]
    constructor
    · rintro (⟨h1, h2⟩ | ⟨⟨_, h1⟩, _⟩)
      · exact ⟨h1, h2⟩
      · exact absurd h1 hu
    · rintro ⟨h1, h2⟩; exact .inl ⟨h1, h2⟩

theorem file_ok {f : Stream} {ls} (h : TextOf f.data ls) (m : Int) (ho : ¬ Trouble m f ls) :
    scanFile m f = (firstLines m ls, false) := by
  rw [scanFile_not_long h m (fun h => ho (.inl h))]
  simp [show ¬ Broken m f ls from fun h => ho (.inr h)]

theorem file_fails {f : Stream} {ls} (h : TextOf f.data ls) (m : Int) (ho : Trouble m f ls) :
    (scanFile m f).2 = true := by
  by_cases hl : Overlong m ls
  · rw [scanFile, scanLines, textOf_rawLines h]
    exact scan_fails m _ _ ls 0 (by simpa [Overlong] using hl)
  · rw [scanFile_not_long h m hl]
    rcases ho with ho | ho
    · exact absurd ho hl
    · simpa using ho

/-! ## Several files -/

/-- What operand number `i` is to be read from: `-` is what is left of standard input by then, any other operand is the
name of a file, which may not open. -/
inductive Gives (w : World) (i : Nat) : Bytes → Option Stream → Prop where
  | stdin : Gives w i b!"-" (some (w.stdinAt i))
  | file (name : Bytes) (h : name ≠ b!"-") : Gives w i name (w.file name)

theorem gives_iff (w : World) (i : Nat) (name : Bytes) (o : Option Stream) : Gives w i name o ↔ openAt w i name = o := by
  constructor
  · intro h
    cases h with
    | stdin => rfl
    | file _ h => simp only [openAt, if_neg h]
  · rintro rfl
    by_cases h : name = b!"-"
    · subst h; exact .stdin
    · simp only [openAt, if_neg h]; exact .file name h

/-- Operand number `i + k` names the text with the lines given for it, and the first `m` lines can be read. -/
def ReadsFrom (w : World) (m : Int) : (i : Nat) → List (Bytes × List Bytes) → Prop
  | _, [] => True
  | i, (name, ls) :: rest =>
    (∃ c, Gives w i name (some c) ∧ TextOf c.data ls ∧ ¬ Trouble m c ls) ∧ ReadsFrom w m (i + 1) rest

theorem processLoop_ok (w : World) (m : Int) (many : Bool) (files : List (Bytes × List Bytes)) :
    ∀ i, ReadsFrom w m i files →
    processLoop w m many i (files.map (·.1)) =
      ⟨((files.zipIdx i).map fun p => banner many p.2 p.1.1 ++ firstLines m p.1.2).flatten, none⟩ := by
  induction files with
  | nil => intro i _; rfl
  | cons f files ih =>
    intro i h
    obtain ⟨⟨c, hc, ht, ho⟩, hrest⟩ := h
    rw [gives_iff] at hc
    have ih := ih (i + 1) hrest
    simp only [List.map_cons, processLoop, hc, file_ok ht m ho, ih, List.zipIdx_cons]
    simp

theorem banners_join (m : Int) (f : Bytes × List Bytes) (files : List (Bytes × List Bytes)) :
    (((f :: files).zipIdx 0).map fun p => banner true p.2 p.1.1 ++ firstLines m p.1.2).flatten =
      join b!"\n" ((f :: files).map fun f => b!"==> " ++ f.1 ++ b!" <==\n" ++ firstLines m f.2) := by
  have tail : ∀ (files : List (Bytes × List Bytes)) i, i > 0 →
      ((files.zipIdx i).map fun p => banner true p.2 p.1.1 ++ firstLines m p.1.2).flatten =
        (files.map fun f => b!"\n" ++ (b!"==> " ++ f.1 ++ b!" <==\n" ++ firstLines m f.2)).flatten := by
    intro files
    induction files with
    | nil => intro i _; rfl
    | cons g gs ih =>
      intro i hi
      simp only [List.zipIdx_cons, List.map_cons, List.flatten_cons, ih (i + 1) (by omega)]
      simp [banner, hi]
  have jn : ∀ (xs : List Bytes) (x : Bytes), join b!"\n" (x :: xs) = x ++ (xs.map fun y => b!"\n" ++ y).flatten := by
    intro xs
    induction xs with
    | nil => intro x; simp [join]
    | cons y ys ih => intro x; simp only [join, ih]; simp
  rw [List.zipIdx_cons, List.map_cons, List.flatten_cons, tail files (0 + 1) (by omega), List.map_cons, jn]
  simp [banner, List.map_map, Function.comp_def]

/-- C44: for operands that are texts without overlong lines among the first `m + 1` and without read errors where
head looks, head prints exactly the first `m` lines of each, with banners if and only if there are several operands. -/
theorem C44_first_lines {m : Int} {files args} (h : Invocation 10 m files args) (hne : args ≠ []) (w : World)
    (texts : List (Bytes × List Bytes)) (hf : texts.map (·.1) = operands files) (hr : ReadsFrom w m 0 texts) :
    main w args = ⟨expected m texts, none⟩ := by
  rw [main_inv h hne, process]
  simp only [← hf]
  rw [processLoop_ok w m _ texts 0 hr]
  match texts, hf with
  | [], _ => simp [expected]
  | [(n, ls)], _ => simp [expected, banner]
  | f :: g :: rest, _ =>
    have : decide ((List.map (fun x => x.fst) (f :: g :: rest)).length > 1) = true := by simp
    rw [this, banners_join]
    rfl

/-- C45: with no arguments at all nothing is read and nothing printed (POSIX wants standard input). -/
theorem C45_no_arguments (w : World) : main w [] = ⟨[], none⟩ := rfl

theorem processLoop_panics (w : World) (m : Int) (many : Bool) (files : List Bytes) : ∀ i,
    (processLoop w m many i files).panic ≠ none ↔
      ∃ k name, files[k]? = some name ∧
        (openAt w (i + k) name = none ∨ ∃ c ls, openAt w (i + k) name = some c ∧ TextOf c.data ls ∧ Trouble m c ls) := by
  induction files with
  | nil => intro i; simp [processLoop]
  | cons f files ih =>
    intro i
    have split0 : (∃ k name, (f :: files)[k]? = some name ∧
          (openAt w (i + k) name = none ∨ ∃ c ls, openAt w (i + k) name = some c ∧ TextOf c.data ls ∧ Trouble m c ls)) ↔
        (openAt w i f = none ∨ ∃ c ls, openAt w i f = some c ∧ TextOf c.data ls ∧ Trouble m c ls) ∨
        ∃ k name, files[k]? = some name ∧
          (openAt w (i + 1 + k) name = none ∨
            ∃ c ls, openAt w (i + 1 + k) name = some c ∧ TextOf c.data ls ∧ Trouble m c ls) := by
      constructor
      · rintro ⟨k, name, hk, h⟩
        cases k with
        | zero => left; simp at hk; subst hk; exact h
        | succ k => right; exact ⟨k, name, by simpa using hk, by rwa [show i + 1 + k = i + (k + 1) by omega]⟩
      · rintro (h | ⟨k, name, hk, h⟩)
        · exact ⟨0, f, rfl, h⟩
        · exact ⟨k + 1, name, by simpa using hk, by rwa [show i + (k + 1) = i + 1 + k by omega]⟩
    rw [split0, ← ih (i + 1)]
    simp only [processLoop]
    cases hc : openAt w i f with
    | none => simp
    | some c =>
      obtain ⟨ls, ht⟩ := textOf_exists c.data
      by_cases ho : Trouble m c ls
      · simp only [file_fails ht m ho, if_true]
        simp only [ne_eq, reduceCtorEq, not_false_eq_true, false_or, true_iff]
        exact .inl ⟨c, ls, rfl, ht, ho⟩
      · have e := file_ok ht m ho
        simp only [e, Bool.false_eq_true, if_false]
        constructor
        · exact .inr
        · rintro (h | h)
          · rcases h with h | ⟨c', ls', hc', ht', ho'⟩
            · cases h
            · simp only [Option.some.injEq] at hc'
              subst hc'
              rw [← textOf_rawLines ht', textOf_rawLines ht] at ho'
              exact absurd ho' ho
          · exact h

/-- C45: head panics exactly if the arguments are not well-formed (a `-n` without an integer after it),
an operand cannot be opened, one of the first `m + 1` lines of an operand reaches 65536 bytes, or reading fails before
`m` lines and the beginning of the next have been found. -/
theorem C45_panics_iff (w : World) (args : List Bytes) (hne : args ≠ []) :
    (main w args).panic ≠ none ↔
      (¬ ∃ m files, Invocation 10 m files args) ∨
      ∃ m files, Invocation 10 m files args ∧ ∃ k name, (operands files)[k]? = some name ∧
        (Gives w k name none ∨ ∃ c ls, Gives w k name (some c) ∧ TextOf c.data ls ∧ Trouble m c ls) := by
  simp only [gives_iff]
  by_cases h : ∃ m files, Invocation 10 m files args
  · obtain ⟨m, files, hi⟩ := h
    rw [main_inv hi hne, process, processLoop_panics]
    simp only [Nat.zero_add]
    constructor
    · intro hp; exact .inr ⟨m, files, hi, hp⟩
    · rintro (hn | ⟨m', files', hi', hp⟩)
      · exact absurd ⟨m, files, hi⟩ hn
      · have e := (parseLoop_inv hi []).symm.trans (parseLoop_inv hi' [])
        simp only [Except.ok.injEq, Settings.mk.injEq, List.nil_append] at e
        rw [e.1, e.2]
        exact hp
  · constructor
    · intro _; exact .inl h
    · intro _
      rcases parseLoop_panics args 10 [] with ⟨p, hp⟩ | hi
      · simp [main, parseSettings, hne, hp]
      · exact absurd hi h

/-- Witness: two lines asked of a file with carriage returns and of standard input. -/
example : main ⟨fun n => if n = b!"f" then some ⟨b!"a\r\nb\nc", false⟩ else none, fun _ => ⟨b!"x\n", false⟩⟩
    [b!"f", b!"-n", b!"2", b!"-"] = ⟨b!"==> f <==\na\nb\n\n==> - <==\nx\n", none⟩ :=
  C44_first_lines (m := 2) (files := [b!"f", b!"-"])
    (.file _ (by decide) (.count _ 2 (by decide) (.file _ (by decide) (.nil _)))) (by decide) _
    [(b!"f", [b!"a\r", b!"b", b!"c"]), (b!"-", [b!"x"])] rfl
    ⟨⟨_, (gives_iff _ _ _ _).2 rfl, ⟨by decide, .inr ⟨[b!"a\r", b!"b"], b!"c", rfl, by decide, rfl⟩⟩, by
        rintro (⟨l, hl, hl'⟩ | ⟨h, _⟩)
        · simp at hl; simp [maxToken] at hl'; grind
        · cases h⟩,
      ⟨_, .stdin, ⟨by decide, .inl rfl⟩, by
        rintro (⟨l, hl, hl'⟩ | ⟨h, _⟩)
        · simp at hl; simp [maxToken] at hl'; grind
        · cases h⟩, trivial⟩

example : (main ⟨fun _ => none, fun _ => ⟨[], false⟩⟩ [b!"-n"]).panic = some .index := rfl

/-- A directory can be opened but not read. -/
example : main ⟨fun _ => some ⟨[], true⟩, fun _ => ⟨[], false⟩⟩ [b!"/"] = ⟨[], some .explicit⟩ := by decide +kernel

/-- A read error after the lines asked for goes unnoticed, unless the next line has been started. -/
example : main ⟨fun _ => some ⟨b!"a\nb\n", true⟩, fun _ => ⟨[], false⟩⟩ [b!"-n", b!"1", b!"f"] = ⟨b!"a\n", none⟩ ∧
    main ⟨fun _ => some ⟨b!"a\nb", true⟩, fun _ => ⟨[], false⟩⟩ [b!"-n", b!"1", b!"f"] = ⟨b!"a\n", some .explicit⟩ := by
  decide +kernel

end Head
