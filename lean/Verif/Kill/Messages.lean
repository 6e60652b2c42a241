import Verif.Kill.Props
import Verif.Go.Utf8Props

/-! # C102: what kill says about bad arguments, and the names of signals -/

namespace Kill
open Go

/-! ## Specification -/

/-- A letter without its case. -/
def fold (b : UInt8) : UInt8 := if 65 ≤ b ∧ b ≤ 90 then b + 32 else b

/-- `s` is a decimal literal of a 64-bit integer. -/
def Integer (s : Bytes) : Prop := ∃ n, IsDecimal s n ∧ -2 ^ 63 ≤ n ∧ n < 2 ^ 63

/-- `Refused w args msg`: the first of `args` cannot be understood, and `msg` is what is said about it. -/
inductive Refused (w : World) : List Bytes → Bytes → Prop
  | number (cs : Bytes) (rest : List Bytes) : 45 :: cs ≠ b!"-l" → 45 :: cs ≠ b!"-s" → ¬ Integer cs →
      Refused w ((45 :: cs) :: rest) (b!"-" ++ cs ++ b!" isn't a number, bro...")
  | process (a : Bytes) (rest : List Bytes) : a ≠ [] → a.head? ≠ some 45 → ¬ Integer a →
      Refused w (a :: rest) (b!"expected a PID here..., got " ++ a)
  | name (v : Bytes) (rest : List Bytes) : (∀ n, (toUpper w.up v, n) ∉ signals) →
      Refused w (b!"-s" :: v :: rest) b!"-s is not a valid signal name - check kill -l for help\n"

/-- The first of `args` makes the program crash: an empty argument, or `-s` with nothing after it. -/
inductive Crashes : List Bytes → Prop
  | empty (rest : List Bytes) : Crashes ([] :: rest)
  | name : Crashes [b!"-s"]

/-! ## Proofs -/

theorem atoi_error {s : Bytes} (h : ¬ Integer s) : ∃ v e, atoi s = (v, some e) := by
  cases e : atoi s with
  | mk v o =>
    cases o with
    | none => exact absurd ⟨v, (C72_atoi_iff s v).1 e⟩ h
    | some x => exact ⟨v, x, rfl⟩

theorem not_integer {s : Bytes} {v : Int} {e : NumErr} (h : atoi s = (v, some e)) : ¬ Integer s := by
  rintro ⟨n, hn⟩
  rw [(C72_atoi_iff s n).2 hn] at h
  cases h

theorem parseLoop_append {w : World} {sig pid sig' pid' good} (h : Request w sig pid sig' pid' good) (rest : List Bytes) :
    parseLoop w ⟨sig, pid⟩ (good ++ rest) = parseLoop w ⟨sig', pid'⟩ rest := by
  induction h with
  | nil => rfl
  | @list _ _ _ _ args h ih =>
    rw [← ih, List.cons_append]
    cases args ++ rest with
    | nil => simp [parseLoop]
    | cons v rest => simp [parseLoop]
  | @name _ _ _ _ args v n hv h ih =>
    simp only [List.cons_append, parseLoop]
    rw [if_neg (by decide)]
    simp only [if_true, (signalMap_iff _ _).2 hv]
    exact ih
  | number cs n hn h ih =>
    have h1 : (45 :: cs) ≠ b!"-l" := by
      intro e; simp at e; subst e; simp [atoi, parseUint, parseUintLoop, isDigit, finishInt] at hn
    have h2 : (45 :: cs) ≠ b!"-s" := by
      intro e; simp at e; subst e; simp [atoi, parseUint, parseUintLoop, isDigit, finishInt] at hn
    rw [List.cons_append, parseLoop_cons_other _ _ _ _ h1 h2]
    simp only [other, if_true, hn]
    exact ih
  | process a n ha hn h ih =>
    have h1 : a ≠ b!"-l" := by rintro rfl; simp at ha
    have h2 : a ≠ b!"-s" := by rintro rfl; simp at ha
    rw [List.cons_append, parseLoop_cons_other _ _ _ _ h1 h2]
    cases a with
    | nil => simp [atoi] at hn
    | cons c cs =>
      have hc : c ≠ 45 := by simpa using ha
      simp only [other, hc, if_false, hn]
      exact ih

theorem parseLoop_refused {w : World} {args : List Bytes} {msg : Bytes} (h : Refused w args msg) (s : State) :
    parseLoop w s args = .error (.error msg) := by
  cases h with
  | number cs rest h1 h2 h3 =>
    obtain ⟨v, e, he⟩ := atoi_error h3
    rw [parseLoop_cons_other _ _ _ _ h1 h2]
    simp only [other, if_true, he]
    rfl
  | process a rest h1 h2 h3 =>
    obtain ⟨v, e, he⟩ := atoi_error h3
    have g1 : a ≠ b!"-l" := by rintro rfl; simp at h2
    have g2 : a ≠ b!"-s" := by rintro rfl; simp at h2
    rw [parseLoop_cons_other _ _ _ _ g1 g2]
    cases a with
    | nil => exact absurd rfl h1
    | cons c cs =>
      have hc : c ≠ 45 := by simpa using h2
      simp only [other, hc, if_false, he]
  | name v rest h1 =>
    simp only [parseLoop]
    rw [if_neg (by decide)]
    have : signalMap (toUpper w.up v) = none := by
      cases hs : signalMap (toUpper w.up v) with
      | none => rfl
      | some n => exact absurd ((signalMap_iff _ _).1 hs) (h1 n)
    simp only [if_true, this]
    rfl

theorem parseLoop_crashes {args : List Bytes} (h : Crashes args) (w : World) (s : State) :
    parseLoop w s args = .error (.panic .index) := by
  cases h with
  | empty rest =>
    rw [parseLoop_cons_other _ _ _ _ (by decide) (by decide)]
    rfl
  | name => simp [parseLoop]

/-- C102: the first argument that cannot be understood is the one complained about; nothing is sent or announced,
and the arguments after it are not looked at. -/
theorem C102_refused (w : World) {sig pid good rest msg} (hg : Request w 15 0 sig pid good) (h : Refused w rest msg) :
    main w (good ++ rest) = ⟨[], msg, 2, [], none⟩ := by
  unfold main
  rw [show ({} : State) = ⟨15, 0⟩ from rfl, parseLoop_append hg, parseLoop_refused h]

/-- C102: an empty argument, or `-s` without a name, crashes the program if everything before was understood. -/
theorem C102_crashes (w : World) {sig pid good rest} (hg : Request w 15 0 sig pid good) (h : Crashes rest) :
    main w (good ++ rest) = ⟨[], [], 2, [], some .index⟩ := by
  unfold main
  rw [show ({} : State) = ⟨15, 0⟩ from rfl, parseLoop_append hg, parseLoop_crashes h]

theorem classify (w : World) (args : List Bytes) (sig pid : Int) :
    (∃ sig' pid', Request w sig pid sig' pid' args) ∨
    ∃ good rest sig' pid', args = good ++ rest ∧ Request w sig pid sig' pid' good ∧
      ((∃ msg, Refused w rest msg) ∨ Crashes rest) := by
  match args with
  | [] => exact .inl ⟨sig, pid, .nil _ _⟩
  | a :: rest =>
    by_cases hl : a = b!"-l"
    · subst hl
      rcases classify w rest sig pid with ⟨s', p', h⟩ | ⟨g, r, s', p', e, h, h'⟩
      · exact .inl ⟨s', p', .list h⟩
      · exact .inr ⟨b!"-l" :: g, r, s', p', by rw [e]; rfl, .list h, h'⟩
    by_cases hs : a = b!"-s"
    · subst hs
      match rest with
      | [] => exact .inr ⟨[], _, sig, pid, rfl, .nil _ _, .inr .name⟩
      | v :: rest =>
        by_cases hv : ∃ n, (toUpper w.up v, n) ∈ signals
        · obtain ⟨n, hv⟩ := hv
          rcases classify w rest n pid with ⟨s', p', h⟩ | ⟨g, r, s', p', e, h, h'⟩
          · exact .inl ⟨s', p', .name v n hv h⟩
          · exact .inr ⟨b!"-s" :: v :: g, r, s', p', by rw [e]; rfl, .name v n hv h, h'⟩
        · exact .inr ⟨[], _, sig, pid, rfl, .nil _ _, .inl ⟨_, .name v rest fun n h => hv ⟨n, h⟩⟩⟩
    match a with
    | [] => exact .inr ⟨[], _, sig, pid, rfl, .nil _ _, .inr (.empty rest)⟩
    | c :: cs =>
      by_cases hc : c = 45
      · subst hc
        by_cases hi : Integer cs
        · obtain ⟨n, hn⟩ := hi
          have hn := (C72_atoi_iff cs n).2 hn
          rcases classify w rest n pid with ⟨s', p', h⟩ | ⟨g, r, s', p', e, h, h'⟩
          · exact .inl ⟨s', p', .number cs n hn h⟩
          · exact .inr ⟨(45 :: cs) :: g, r, s', p', by rw [e]; rfl, .number cs n hn h, h'⟩
        · exact .inr ⟨[], _, sig, pid, rfl, .nil _ _, .inl ⟨_, .number cs rest hl hs hi⟩⟩
      · have hh : (c :: cs).head? ≠ some 45 := by simpa using hc
        by_cases hi : Integer (c :: cs)
        · obtain ⟨n, hn⟩ := hi
          have hn := (C72_atoi_iff _ n).2 hn
          rcases classify w rest sig n with ⟨s', p', h⟩ | ⟨g, r, s', p', e, h, h'⟩
          · exact .inl ⟨s', p', .process _ n hh hn h⟩
          · exact .inr ⟨(c :: cs) :: g, r, s', p', by rw [e]; rfl, .process _ n hh hn h, h'⟩
        · exact .inr ⟨[], _, sig, pid, rfl, .nil _ _, .inl ⟨_, .process _ rest (by simp) hh hi⟩⟩
termination_by args.length

/-- C102: every command line is a request, or begins with one and goes on with an argument that is refused or crashes. -/
theorem C102_complete (w : World) (args : List Bytes) :
    (∃ sig pid, Request w 15 0 sig pid args) ∨
    ∃ good rest sig pid, args = good ++ rest ∧ Request w 15 0 sig pid good ∧ ((∃ msg, Refused w rest msg) ∨ Crashes rest) :=
  classify w args 15 0

/-- C102: what a request that fails says: it names the process and, unless the process was not found, the signal asked for. -/
theorem C102_failures (w : World) {sig pid args} (h : Request w 15 0 sig pid args) :
    (∀ e, w.findErr pid = some e →
      (main w args).stderr = b!"couldn't find process with PID of " ++ itoa pid ++ b!": " ++ e ++ b!"\n") ∧
    (∀ e, w.findErr pid = none → 0 < pid → w.killErr pid = some e →
      (main w args).stderr = b!"couldn't send signal " ++ itoa sig ++ b!" to " ++ itoa pid ++ b!", " ++ e) ∧
    (w.findErr 0 = none → pid = 0 →
      (main w args).stderr = b!"couldn't send signal " ++ itoa sig ++ b!" to 0, " ++ w.refused 0) := by
  have hp := parseLoop_request h
  unfold main
  rw [show ({} : State) = ⟨15, 0⟩ from rfl, hp]
  dsimp only
  refine ⟨?_, ?_, ?_⟩
  · intro e he
    rw [he]
  · intro e he h0 hk
    rw [he]
    dsimp only
    rw [if_neg (by omega), hk]
    rfl
  · rintro he rfl
    rw [he]
    dsimp only
    rw [if_pos (.inl rfl)]
    simp only [notSent, show itoa 0 = b!"0" from rfl, List.append_assoc]
    rfl

/-- C102: the program succeeds exactly if it says nothing on standard error and does not crash. -/
theorem C102_exit (w : World) (args : List Bytes) :
    ((main w args).exit = 0 ↔ (main w args).stderr = [] ∧ (main w args).panic = none) ∧
    ((main w args).exit = 0 ∨ (main w args).exit = 2) := by
  rcases C102_complete w args with ⟨sig, pid, h⟩ | ⟨good, rest, sig, pid, rfl, h, ⟨msg, hr⟩ | hc⟩
  · have hp := parseLoop_request h
    unfold main
    rw [show ({} : State) = ⟨15, 0⟩ from rfl, hp]
    dsimp only
    cases w.findErr pid with
    | some e => simp
    | none =>
      dsimp only
      split
      · simp [notSent]
      · cases w.killErr pid with
        | some e => simp [notSent]
        | none => simp
  · rw [C102_refused w h hr]
    cases hr <;> simp
  · rw [C102_crashes w h hc]
    simp

/-! ### Names -/

theorem upRune_byte (up : Nat → Nat) (b : UInt8) (h : b < 0x80) :
    encodeRune (upRune up b.toNat) = [if 97 ≤ b ∧ b ≤ 122 then b - 32 else b] := by
  have hb : b.toNat < 128 := by simpa [UInt8.lt_iff_toNat_lt] using h
  have e1 : (97 ≤ b ∧ b ≤ 122) ↔ (97 ≤ b.toNat ∧ b.toNat ≤ 122) := by simp [UInt8.le_iff_toNat_le]
  by_cases hc : 97 ≤ b.toNat ∧ b.toNat ≤ 122
  · rw [if_pos (e1.2 hc)]
    simp only [upRune, if_pos hc, encodeRune]
    rw [if_pos (by omega)]
    congr 1
    apply UInt8.toNat_inj.mp
    have : (b - 32).toNat = b.toNat - 32 := UInt8.toNat_sub_of_le _ _ (by simp [UInt8.le_iff_toNat_le]; omega)
    rw [this]
    simp
    omega
  · rw [if_neg (fun h => hc (e1.1 h))]
    simp only [upRune, if_neg hc, if_pos hb, encodeRune]
    simp

theorem toUpper_ascii (up : Nat → Nat) (s : Bytes) (h : ∀ b ∈ s, b < 0x80) :
    toUpper up s = s.map fun b => if 97 ≤ b ∧ b ≤ 122 then b - 32 else b := by
  induction s with
  | nil => rfl
  | cons b s ih =>
    have hb := h b (by simp)
    have := ih fun x hx => h x (by simp [hx])
    unfold toUpper ofRunes runes at this ⊢
    rw [chunks_cons_ascii b s hb]
    simp only [List.map_cons, List.flatMap_cons, this, upRune_byte up b hb]
    rfl

theorem fold_upper (b c : UInt8) (hc : ¬ (97 ≤ c ∧ c ≤ 122)) :
    (if 97 ≤ b ∧ b ≤ 122 then b - 32 else b) = c ↔ fold b = fold c := by
  have key : ∀ b c : Fin 256, ¬ (97 ≤ c.val ∧ c.val ≤ 122) →
      ((if 97 ≤ b.val ∧ b.val ≤ 122 then b.val - 32 else b.val) = c.val ↔
        (if 65 ≤ b.val ∧ b.val ≤ 90 then b.val + 32 else b.val) = (if 65 ≤ c.val ∧ c.val ≤ 90 then c.val + 32 else c.val)) := by
    intro b c h
    split <;> split <;> split <;> omega
  have kb : fold b = fold c ↔
      (if 65 ≤ b.toNat ∧ b.toNat ≤ 90 then b.toNat + 32 else b.toNat) = (if 65 ≤ c.toNat ∧ c.toNat ≤ 90 then c.toNat + 32 else c.toNat) := by
    have f : ∀ x : UInt8, (fold x).toNat = if 65 ≤ x.toNat ∧ x.toNat ≤ 90 then x.toNat + 32 else x.toNat := by
      intro x
      unfold fold
      have : (65 ≤ x ∧ x ≤ 90) ↔ (65 ≤ x.toNat ∧ x.toNat ≤ 90) := by simp [UInt8.le_iff_toNat_le]
      by_cases hx : 65 ≤ x.toNat ∧ x.toNat ≤ 90
      · rw [if_pos (this.2 hx), if_pos hx]
        simp [UInt8.toNat_add]
        omega
      · rw [if_neg (fun h => hx (this.1 h)), if_neg hx]
    rw [← f, ← f, UInt8.toNat_inj]
  have ku : (if 97 ≤ b ∧ b ≤ 122 then b - 32 else b) = c ↔
      (if 97 ≤ b.toNat ∧ b.toNat ≤ 122 then b.toNat - 32 else b.toNat) = c.toNat := by
    have e1 : (97 ≤ b ∧ b ≤ 122) ↔ (97 ≤ b.toNat ∧ b.toNat ≤ 122) := by simp [UInt8.le_iff_toNat_le]
    by_cases hx : 97 ≤ b.toNat ∧ b.toNat ≤ 122
    · have : (b - 32).toNat = b.toNat - 32 := UInt8.toNat_sub_of_le _ _ (by simp [UInt8.le_iff_toNat_le]; omega)
      rw [if_pos (e1.2 hx), if_pos hx, ← this, UInt8.toNat_inj]
    · rw [if_neg (fun h => hx (e1.1 h)), if_neg hx, UInt8.toNat_inj]
  rw [ku, kb]
  exact key ⟨b.toNat, b.toNat_lt⟩ ⟨c.toNat, c.toNat_lt⟩ (by simpa [UInt8.le_iff_toNat_le] using hc)

theorem map_fold (v name : Bytes) (h : ∀ c ∈ name, ¬ (97 ≤ c ∧ c ≤ 122)) :
    (v.map fun b => if 97 ≤ b ∧ b ≤ 122 then b - 32 else b) = name ↔ v.map fold = name.map fold := by
  induction v generalizing name with
  | nil => cases name <;> simp
  | cons b v ih =>
    cases name with
    | nil => simp
    | cons c name =>
      simp only [List.map_cons, List.cons.injEq]
      rw [fold_upper b c (h c (by simp)), ih name fun x hx => h x (by simp [hx])]

/-- C102: a name in ASCII stands for a signal exactly if it is the name of that signal, in capitals or not. -/
theorem C102_names (w : World) (v : Bytes) (hv : ∀ b ∈ v, b < 0x80) (n : Int) :
    (toUpper w.up v, n) ∈ signals ↔ ∃ name, (name, n) ∈ signals ∧ v.map fold = name.map fold := by
  have hu : ∀ name n, (name, n) ∈ signals → ∀ c ∈ name, ¬ (97 ≤ c ∧ c ≤ 122) := by
    intro name n h
    have : ∀ p ∈ signals, ∀ c ∈ p.1, ¬ (97 ≤ c ∧ c ≤ 122) := by decide
    exact this _ h
  rw [toUpper_ascii w.up v hv]
  constructor
  · intro h
    exact ⟨_, h, (map_fold v _ (hu _ _ h)).1 rfl⟩
  · rintro ⟨name, h1, h2⟩
    rw [(map_fold v name (hu _ _ h1)).2 h2]
    exact h1

/-- C102: the message about an unknown name does not show the name: it is the same for all of them. -/
theorem C102_name_not_shown (w : World) (v v' : Bytes) (rest rest' : List Bytes)
    (h : ∀ n, (toUpper w.up v, n) ∉ signals) (h' : ∀ n, (toUpper w.up v', n) ∉ signals) :
    main w (b!"-s" :: v :: rest) = main w (b!"-s" :: v' :: rest') := by
  have e := C102_refused w (.nil _ _) (.name v rest h)
  have e' := C102_refused w (.nil _ _) (.name v' rest' h')
  exact e.trans e'.symm

example (w : World) : main w [b!"-9", b!"-l", b!"12", b!"x7", b!"-z"] = ⟨[], b!"expected a PID here..., got x7", 2, [], none⟩ :=
  C102_refused w (good := [b!"-9", b!"-l", b!"12"])
    (.number b!"9" 9 (by decide) (.list (.process _ 12 (by decide) (by decide) (.nil _ _))))
    (.process b!"x7" _ (by decide) (by decide) (not_integer (v := 0) (e := .syntax) (by decide)))

example (w : World) : (toUpper w.up b!"kIlL", (9 : Int)) ∈ signals :=
  (C102_names w _ (by decide) 9).2 ⟨b!"KILL", by decide, by decide⟩

/-- Outside ASCII: with the dotless i, whose capital is I, `kıll` is the name of signal 9. -/
example (w : World) (h : w.up 0x131 = 73) : (toUpper w.up [107, 196, 177, 108, 108], (9 : Int)) ∈ signals := by
  have : runes [107, 196, 177, 108, 108] = [107, 0x131, 108, 108] := by decide
  rw [toUpper, this]
  simp [upRune, h, ofRunes, encodeRune, signals]

end Kill
