import Verif.Diff.CmdProps
import Verif.Test.Messages

/-! # C103: what the `diff` command says about its arguments -/

namespace Diff
open Go

/-! ## Specification -/

/-- The files named: empty operands name none. -/
def named (ops : List Bytes) : List Bytes := ops.filter (· ≠ [])

/-- No operand, not even an empty one, comes after the second file. -/
def Fits (ops : List Bytes) : Prop := ∀ before o after, ops = before ++ o :: after → (named before).length < 2

/-- What is wrong with a command line, and in which words: the first fault counts. -/
inductive Complaint (p : Nat → Bool) : List Bytes → Bytes → Prop
  | number {pre ops f} : Parses pre ops → Fits ops → f = b!"-C" ∨ f = b!"-U" →
      Complaint p (pre ++ [f]) (b!"ah heck I though that a number was gonna follow " ++ f)
  | value {pre ops v why post} : Parses pre ops → Fits ops → (¬ ∃ n, Test.Denotes v n) → Test.Reason v why →
      Complaint p (pre ++ b!"-U" :: v :: post) (b!"strconv.Atoi: parsing " ++ quote p v ++ b!": " ++ why)
  | third {pre ops a post} : Parses pre ops → Fits ops → (named ops).length = 2 →
      a ∉ plainFlags → a ≠ b!"-C" → a ≠ b!"-U" →
      Complaint p (pre ++ a :: post) (b!"aww jeez you can only compare two files, " ++ a ++ b!" is the third")
  | none {args ops} : Parses args ops → named ops = [] → Complaint p args b!"oh no you forgot to give any files"
  | one {args ops f} : Parses args ops → named ops = [f] → Complaint p args b!"oh no you forgot to give the second file"

/-! ## Proofs -/

/-- As `Fits`, if `k` files are named already. -/
def FitsFrom (k : Nat) (ops : List Bytes) : Prop := ∀ before o after, ops = before ++ o :: after → k + (named before).length < 2

theorem fits_iff (ops : List Bytes) : Fits ops ↔ FitsFrom 0 ops := by simp [Fits, FitsFrom]

theorem named_cons (o : Bytes) (ops : List Bytes) : named (o :: ops) = named [o] ++ named ops := by
  simp only [named, List.filter_cons, List.filter_nil]
  split <;> simp

theorem fitsFrom_nil (k : Nat) : FitsFrom k [] := by
  intro b o a h; simp at h

theorem fitsFrom_cons (k : Nat) (o : Bytes) (ops : List Bytes) :
    FitsFrom k (o :: ops) ↔ k < 2 ∧ FitsFrom (k + (named [o]).length) ops := by
  constructor
  · intro h
    refine ⟨by simpa [named] using h [] o ops rfl, ?_⟩
    intro b x a e
    have := h (o :: b) x a (by simp [e])
    rw [named_cons, List.length_append] at this
    omega
  · rintro ⟨h1, h2⟩ b x a e
    cases b with
    | nil => simpa [named] using h1
    | cons y b =>
      simp only [List.cons_append, List.cons.injEq] at e
      obtain ⟨rfl, e⟩ := e
      have := h2 b x a e
      rw [named_cons, List.length_append]
      omega

theorem fitsFrom_of_short {k : Nat} {ops : List Bytes} (h : k + (named ops).length < 2) : FitsFrom k ops := by
  intro b o a e
  subst e
  simp only [named, List.filter_append, List.length_append] at h ⊢
  omega

/-- The files are filled in order. -/
def Settings.Tidy (s : Settings) : Prop := s.file1 = [] → s.file2 = []

theorem Settings.files_length {s : Settings} (h : s.Tidy) :
    (s.file1 = [] ∧ s.file2 = [] ∧ s.files = []) ∨ (s.file1 ≠ [] ∧ s.file2 = [] ∧ s.files = [s.file1]) ∨
      (s.file1 ≠ [] ∧ s.file2 ≠ [] ∧ s.files = [s.file1, s.file2]) := by
  unfold Settings.Tidy at h
  unfold Settings.files
  by_cases h1 : s.file1 = [] <;> by_cases h2 : s.file2 = [] <;> simp_all

/-- One operand that fits. -/
def store (s : Settings) (a : Bytes) : Settings := if s.file1 = [] then { s with file1 := a } else { s with file2 := a }

theorem store_tidy {s : Settings} {a : Bytes} (h : s.Tidy) (hl : s.files.length < 2) :
    (store s a).Tidy ∧ (store s a).files = s.files ++ named [a] := by
  rcases s.files_length h with ⟨h1, h2, h3⟩ | ⟨h1, h2, h3⟩ | ⟨h1, h2, h3⟩
  · by_cases ha : a = [] <;> simp [store, h1, h2, Settings.Tidy, Settings.files, named, ha]
  · by_cases ha : a = [] <;> simp [store, h1, h2, Settings.Tidy, Settings.files, named, ha]
  · rw [h3] at hl; simp at hl

theorem parseLoop_operand {s : Settings} {a : Bytes} (rest : List Bytes) (ht : s.Tidy) (h1 : a ∉ plainFlags) (h2 : a ≠ b!"-C")
    (h3 : a ≠ b!"-U") :
    parseLoop s (a :: rest) = if s.files.length < 2 then parseLoop (store s a) rest else .error (.thirdFile a) := by
  simp only [plainFlags, List.mem_cons, List.not_mem_nil, or_false, not_or] at h1
  obtain ⟨n1, n2, n3, n4, n5, n6⟩ := h1
  rw [parseLoop.eq_def]
  dsimp only
  rw [if_neg n1, if_neg n2, if_neg h2, if_neg n3, if_neg n4, if_neg n5, if_neg n6, if_neg h3]
  rcases s.files_length ht with ⟨e1, e2, e3⟩ | ⟨e1, e2, e3⟩ | ⟨e1, e2, e3⟩
  · rw [if_pos e1, e3, if_pos (by simp), store, if_pos e1]
  · rw [if_neg e1, if_pos e2, e3, if_pos (by simp), store, if_neg e1]
  · rw [if_neg e1, if_neg e2, e3, if_neg (by simp)]

theorem parseLoop_flag {s : Settings} {a : Bytes} (rest : List Bytes) (h : a ∈ plainFlags) :
    ∃ s', parseLoop s (a :: rest) = parseLoop s' rest ∧ s'.file1 = s.file1 ∧ s'.file2 = s.file2 := by
  simp only [plainFlags, List.mem_cons, List.not_mem_nil, or_false] at h
  rcases h with rfl | rfl | rfl | rfl | rfl | rfl
  · exact ⟨{ s with ignoreTrailingWhitespace := true }, by rw [parseLoop.eq_def]; rfl, rfl, rfl⟩
  · exact ⟨{ s with provideContext := true }, by rw [parseLoop.eq_def]; rfl, rfl, rfl⟩
  · exact ⟨{ s with edFormat := true }, by rw [parseLoop.eq_def]; rfl, rfl, rfl⟩
  · exact ⟨{ s with fFormat := true }, by rw [parseLoop.eq_def]; rfl, rfl, rfl⟩
  · exact ⟨{ s with recursive := true }, by rw [parseLoop.eq_def]; rfl, rfl, rfl⟩
  · exact ⟨{ s with unifiedContext := true }, by rw [parseLoop.eq_def]; rfl, rfl, rfl⟩

theorem same_files {s s' : Settings} (h1 : s'.file1 = s.file1) (h2 : s'.file2 = s.file2) :
    s'.files = s.files ∧ (s'.Tidy ↔ s.Tidy) := by
  simp [Settings.files, Settings.Tidy, h1, h2]

/-- What the loop does with arguments that are in order. -/
theorem parseLoop_prefix {pre ops : List Bytes} (hp : Parses pre ops) : ∀ (s : Settings), s.Tidy → FitsFrom s.files.length ops →
    ∀ rest, ∃ s', s'.Tidy ∧ s'.files = s.files ++ named ops ∧ parseLoop s (pre ++ rest) = parseLoop s' rest := by
  induction hp with
  | done => intro s ht _ rest; exact ⟨s, ht, by simp [named], rfl⟩
  | @flag f args ops hf _ ih =>
    intro s ht hfit rest
    obtain ⟨s1, e, f1, f2⟩ := parseLoop_flag (s := s) (args ++ rest) hf
    obtain ⟨g1, g2⟩ := same_files f1 f2
    obtain ⟨s', a1, a2, a3⟩ := ih s1 (g2.2 ht) (by rw [g1]; exact hfit) rest
    exact ⟨s', a1, by rw [a2, g1], by rw [List.cons_append, e, a3]⟩
  | @context v args ops _ ih =>
    intro s ht hfit rest
    obtain ⟨s', a1, a2, a3⟩ := ih { s with provideContext := true, contextSize := (atoi v).1 } ht hfit rest
    exact ⟨s', a1, a2, a3⟩
  | @unified v args ops hv _ ih =>
    intro s ht hfit rest
    obtain ⟨s', a1, a2, a3⟩ := ih { s with unifiedContext := true, contextSize := (atoi v).1 } ht hfit rest
    refine ⟨s', a1, a2, ?_⟩
    rw [← a3]
    cases hx : atoi v with
    | mk n e =>
      rw [hx] at hv
      dsimp only at hv
      subst hv
      simp [parseLoop, hx]
  | @operand a args ops h1 h2 h3 _ ih =>
    intro s ht hfit rest
    rw [fitsFrom_cons] at hfit
    obtain ⟨t1, t2⟩ := store_tidy (a := a) ht hfit.1
    obtain ⟨s', a1, a2, a3⟩ := ih (store s a) t1 (by rw [t2, List.length_append]; exact hfit.2) rest
    refine ⟨s', a1, by rw [a2, t2, named_cons a ops, List.append_assoc], ?_⟩
    rw [List.cons_append, parseLoop_operand _ ht h1 h2 h3, if_pos hfit.1, a3]

/-- The argument the loop stops at, if `k` files are named by then. -/
inductive Stops (k : Nat) : List Bytes → CmdErr → Prop
  | number {f} : f = b!"-C" ∨ f = b!"-U" → Stops k [f] (.noNumber f)
  | value {v n e post} : atoi v = (n, some e) → Stops k (b!"-U" :: v :: post) (.badNumber v e)
  | third {a post} : k = 2 → a ∉ plainFlags → a ≠ b!"-C" → a ≠ b!"-U" → Stops k (a :: post) (.thirdFile a)

theorem stops_error {s : Settings} (ht : s.Tidy) {rest : List Bytes} {e : CmdErr} (h : Stops s.files.length rest e) :
    parseLoop s rest = .error e := by
  cases h with
  | number h => rcases h with rfl | rfl <;> rfl
  | value h => simp [parseLoop, h]
  | third hk h1 h2 h3 => rw [parseLoop_operand _ ht h1 h2 h3, if_neg (by omega)]

/-- Either all arguments are in order or there is a first one that is not. -/
theorem first_fault (n : Nat) : ∀ (k : Nat) (args : List Bytes), args.length ≤ n → k ≤ 2 →
    (∃ ops, Parses args ops ∧ FitsFrom k ops ∧ k + (named ops).length ≤ 2) ∨
    ∃ pre rest ops e, args = pre ++ rest ∧ Parses pre ops ∧ FitsFrom k ops ∧ Stops (k + (named ops).length) rest e := by
  induction n with
  | zero =>
    intro k args hl hk
    obtain rfl := List.length_eq_zero_iff.1 (Nat.le_zero.1 hl)
    exact .inl ⟨[], .done, fitsFrom_nil k, by simpa [named] using hk⟩
  | succ n ih =>
    intro k args hl hk
    cases args with
    | nil => exact .inl ⟨[], .done, fitsFrom_nil k, by simpa [named] using hk⟩
    | cons a args =>
      have hl1 : args.length ≤ n := by simpa using hl
      have stop : ∀ {e}, Stops k (a :: args) e → ∃ pre rest ops e, a :: args = pre ++ rest ∧ Parses pre ops ∧ FitsFrom k ops ∧
          Stops (k + (named ops).length) rest e := fun h =>
        ⟨[], a :: args, [], _, rfl, .done, fitsFrom_nil k, by simpa [named] using h⟩
      by_cases hf : a ∈ plainFlags
      · rcases ih k args hl1 hk with ⟨ops, h1, h2, h3⟩ | ⟨pre, rest, ops, e, h1, h2, h3, h4⟩
        · exact .inl ⟨ops, .flag hf h1, h2, h3⟩
        · exact .inr ⟨a :: pre, rest, ops, e, by rw [h1]; rfl, .flag hf h2, h3, h4⟩
      · by_cases hc : a = b!"-C"
        · subst hc
          cases args with
          | nil => exact .inr (stop (.number (.inl rfl)))
          | cons v args =>
            rcases ih k args (by simp at hl1; omega) hk with ⟨ops, h1, h2, h3⟩ | ⟨pre, rest, ops, e, h1, h2, h3, h4⟩
            · exact .inl ⟨ops, .context h1, h2, h3⟩
            · exact .inr ⟨_ :: v :: pre, rest, ops, e, by rw [h1]; rfl, .context h2, h3, h4⟩
        · by_cases hu : a = b!"-U"
          · subst hu
            cases args with
            | nil => exact .inr (stop (.number (.inr rfl)))
            | cons v args =>
              cases hx : atoi v with
              | mk m e =>
                cases e with
                | some e => exact .inr (stop (.value hx))
                | none =>
                  have hv : (atoi v).2 = none := by rw [hx]
                  rcases ih k args (by simp at hl1; omega) hk with ⟨ops, h1, h2, h3⟩ | ⟨pre, rest, ops, e, h1, h2, h3, h4⟩
                  · exact .inl ⟨ops, .unified hv h1, h2, h3⟩
                  · exact .inr ⟨_ :: v :: pre, rest, ops, e, by rw [h1]; rfl, .unified hv h2, h3, h4⟩
          · by_cases hk2 : k = 2
            · exact .inr (stop (.third hk2 hf hc hu))
            · have hn : (named [a]).length ≤ 1 := List.length_filter_le _ _
              rcases ih (k + (named [a]).length) args hl1 (by omega) with ⟨ops, h1, h2, h3⟩ | ⟨pre, rest, ops, e, h1, h2, h3, h4⟩
              · refine .inl ⟨a :: ops, .operand hf hc hu h1, (fitsFrom_cons _ _ _).2 ⟨by omega, h2⟩, ?_⟩
                rw [named_cons, List.length_append]; omega
              · refine .inr ⟨a :: pre, rest, a :: ops, e, by rw [h1]; rfl, .operand hf hc hu h2, (fitsFrom_cons _ _ _).2 ⟨by omega, h3⟩, ?_⟩
                rw [named_cons, List.length_append, ← Nat.add_assoc]; exact h4

theorem start_tidy : (({} : Settings)).Tidy ∧ ({} : Settings).files = [] := ⟨fun _ => rfl, by decide⟩

theorem parseSettings_stops {pre rest ops : List Bytes} {e : CmdErr} (hp : Parses pre ops) (hf : Fits ops)
    (hs : Stops (named ops).length rest e) : parseSettings (pre ++ rest) = .error e := by
  obtain ⟨s', h1, h2, h3⟩ := parseLoop_prefix hp {} start_tidy.1 (by rw [start_tidy.2]; exact (fits_iff _).1 hf) rest
  rw [start_tidy.2, List.nil_append] at h2
  unfold parseSettings
  rw [h3, stops_error h1 (by rw [h2]; exact hs)]

theorem parseSettings_end {args ops : List Bytes} (hp : Parses args ops) (hf : Fits ops) :
    ∃ s, s.Tidy ∧ s.files = named ops ∧
      parseSettings args = if s.file1 = [] then .error .noFiles else if s.file2 = [] then .error .oneFile else .ok s := by
  obtain ⟨s', h1, h2, h3⟩ := parseLoop_prefix hp {} start_tidy.1 (by rw [start_tidy.2]; exact (fits_iff _).1 hf) []
  rw [start_tidy.2, List.nil_append] at h2
  rw [List.append_nil] at h3
  refine ⟨s', h1, h2, ?_⟩
  unfold parseSettings
  rw [h3]
  rfl

/-- The output of a command line that is refused. -/
def refusal (msg : Bytes) : Out := { stdout := b!"Oh heck an error: " ++ msg ++ [nl], stderr := [], exit := 1 }

theorem main_refusal (p : Nat → Bool) (fs : FS) {args : List Bytes} {e : CmdErr} (h : parseSettings args = .error e) :
    main p fs args = refusal (e.text p) := by
  unfold main; rw [h]; rfl

theorem badNumber_text (p : Nat → Bool) {v : Bytes} {n : Int} {e : NumErr} {why : Bytes} (h : atoi v = (n, some e)) (hr : Test.Reason v why) :
    (CmdErr.badNumber v e).text p = b!"strconv.Atoi: parsing " ++ quote p v ++ b!": " ++ why := by
  have h1 := Test.reason_of_atoi h
  cases e with
  | «range» =>
    have : why = b!"value out of range" := by
      cases hr with
      | large _ => rfl
      | begins _ => rfl
      | «syntax» a b =>
        generalize hw : b!"value out of range" = w at h1
        cases h1 with
        | large x => exact absurd x (a _)
        | begins x => exact absurd x b
        | «syntax» _ _ => cases hw
    subst this
    simp [CmdErr.text]
  | «syntax» =>
    have : why = b!"invalid syntax" := by
      generalize hw : b!"invalid syntax" = w at h1
      cases h1 with
      | large x => cases hw
      | begins x => cases hw
      | «syntax» a b =>
        cases hr with
        | large x => exact absurd x (a _)
        | begins x => exact absurd x b
        | «syntax» _ _ => rfl
    subst this
    simp [CmdErr.text]

/-- C103: a faulty command line is refused with the message about its first fault, on standard output, with status 1;
no file is read. -/
theorem C103_says (p : Nat → Bool) (fs : FS) (args : List Bytes) (msg : Bytes) (h : Complaint p args msg) :
    main p fs args = { stdout := b!"Oh heck an error: " ++ msg ++ [nl], stderr := [], exit := 1 } := by
  cases h with
  | number hp hf h => exact main_refusal p fs (parseSettings_stops hp hf (.number h))
  | value hp hf hd hr =>
    obtain ⟨n, e, hx⟩ := Test.atoi_not_denotes _ hd
    rw [main_refusal p fs (parseSettings_stops hp hf (.value hx)), badNumber_text p hx hr]
    rfl
  | third hp hf hk h1 h2 h3 => exact main_refusal p fs (parseSettings_stops hp hf (.third hk h1 h2 h3))
  | none hp hn =>
    obtain ⟨s, t, e, hs⟩ := parseSettings_end hp ((fits_iff _).2 (fitsFrom_of_short (by rw [hn]; simp)))
    refine main_refusal p fs (e := .noFiles) ?_
    rcases s.files_length t with ⟨e1, e2, e3⟩ | ⟨e1, e2, e3⟩ | ⟨e1, e2, e3⟩
    · rw [hs, if_pos e1]
    · rw [e3, hn] at e; cases e
    · rw [e3, hn] at e; cases e
  | one hp hn =>
    obtain ⟨s, t, e, hs⟩ := parseSettings_end hp ((fits_iff _).2 (fitsFrom_of_short (by rw [hn]; simp)))
    refine main_refusal p fs (e := .oneFile) ?_
    rcases s.files_length t with ⟨e1, e2, e3⟩ | ⟨e1, e2, e3⟩ | ⟨e1, e2, e3⟩
    · rw [e3, hn] at e; cases e
    · rw [hs, if_neg e1, if_pos e2]
    · rw [e3, hn] at e; cases e

/-- C103: two files, options in order: their difference is printed, and the options and empty operands do not matter. -/
theorem C103_compares (p : Nat → Bool) (fs : FS) (args ops : List Bytes) (f1 f2 : Bytes) (hp : Parses args ops) (hf : Fits ops)
    (hn : named ops = [f1, f2]) :
    main p fs args = { stdout := format (diff (readLines fs f1) (readLines fs f2)) ++ [nl], stderr := [], exit := 0 } := by
  obtain ⟨s, t, e, hs⟩ := parseSettings_end hp hf
  unfold main
  rcases s.files_length t with ⟨e1, e2, e3⟩ | ⟨e1, e2, e3⟩ | ⟨e1, e2, e3⟩
  · rw [e3, hn] at e; cases e
  · rw [e3, hn] at e; cases e
  · rw [e3, hn] at e
    cases e
    rw [hs, if_neg e1, if_neg e2]

/-- C103: there are no other command lines, so one that is refused has a fault and the message is about it. -/
theorem C103_complete (p : Nat → Bool) (args : List Bytes) :
    (∃ msg, Complaint p args msg) ∨ ∃ ops f1 f2, Parses args ops ∧ Fits ops ∧ named ops = [f1, f2] := by
  rcases first_fault _ 0 args (Nat.le_refl _) (by omega) with ⟨ops, h1, h2, h3⟩ | ⟨pre, rest, ops, e, rfl, h2, h3, h4⟩
  · rw [← fits_iff] at h2
    rcases hn : named ops with _ | ⟨f1, _ | ⟨f2, _ | ⟨f3, t⟩⟩⟩
    · exact .inl ⟨_, .none h1 hn⟩
    · exact .inl ⟨_, .one h1 hn⟩
    · exact .inr ⟨ops, f1, f2, h1, h2, hn⟩
    · rw [hn] at h3; simp at h3
  · rw [← fits_iff] at h3
    rw [Nat.zero_add] at h4
    generalize hk : (named ops).length = k at h4
    cases h4 with
    | number h => exact .inl ⟨_, .number h2 h3 h⟩
    | value h =>
      refine .inl ⟨_, .value h2 h3 ?_ (Test.reason_of_atoi h)⟩
      rintro ⟨n, hn⟩
      rw [(C72_atoi_iff _ n).2 hn] at h
      cases h
    | third h h5 h6 h7 => exact .inl ⟨_, .third h2 h3 (hk.trans h) h5 h6 h7⟩

/-- C103: the status says which of the two it was, and a command line has one fault at most. -/
theorem C103_exit (p : Nat → Bool) (fs : FS) (args : List Bytes) :
    ((main p fs args).exit = 1 ↔ ∃ msg, Complaint p args msg) ∧
    ((main p fs args).exit = 0 ↔ ∃ ops f1 f2, Parses args ops ∧ Fits ops ∧ named ops = [f1, f2]) ∧
    (∀ m m', Complaint p args m → Complaint p args m' → m = m') := by
  have h2 : ∀ msg, Complaint p args msg → (main p fs args).exit = 1 := fun m h => by rw [C103_says p fs args m h]
  have h3 : ∀ ops f1 f2, Parses args ops ∧ Fits ops ∧ named ops = [f1, f2] → (main p fs args).exit = 0 :=
    fun ops f1 f2 h => by rw [C103_compares p fs args ops f1 f2 h.1 h.2.1 h.2.2]
  refine ⟨⟨fun h => ?_, fun ⟨m, h⟩ => h2 m h⟩, ⟨fun h => ?_, fun ⟨ops, f1, f2, h⟩ => h3 ops f1 f2 h⟩, fun m m' h h' => ?_⟩
  · rcases C103_complete p args with h' | ⟨ops, f1, f2, h'⟩
    · exact h'
    · rw [h3 _ _ _ h'] at h; cases h
  · rcases C103_complete p args with ⟨m, h'⟩ | h'
    · rw [h2 m h'] at h; cases h
    · exact h'
  · have := (C103_says p fs args m h).symm.trans (C103_says p fs args m' h')
    simpa using this

/-- C103: the number refused is quoted so that it can be read back. -/
theorem C103_quoted (p : Nat → Bool) (v : Bytes) : unquote (quote p v) = v ∧ ∀ c ∈ quote p v, 32 ≤ c.toNat ∧ c.toNat ≠ 127 :=
  ⟨unquote_quote p v, quote_visible p v⟩

/-- Faults of every kind. -/
example (p : Nat → Bool) : Complaint p [b!"-b", b!"a", b!"-U"] b!"ah heck I though that a number was gonna follow -U" :=
  .number (pre := [b!"-b", b!"a"]) (ops := [b!"a"]) (.flag (by decide) (.operand (by decide) (by decide) (by decide) .done))
    ((fits_iff _).2 (fitsFrom_of_short (by decide))) (.inr rfl)

example (p : Nat → Bool) (fs : FS) : (main p fs [b!"a", b!"-U", b!"x", b!"-C"]).stdout =
    b!"Oh heck an error: strconv.Atoi: parsing \"x\": invalid syntax\n" := by rfl

example (p : Nat → Bool) (fs : FS) : (main p fs [b!"a", b!"", b!"b", b!"", b!"-U"]).stdout =
    b!"Oh heck an error: aww jeez you can only compare two files,  is the third\n" := by rfl

end Diff
