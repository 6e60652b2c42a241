import Verif.Test.Model
import Verif.Go.StrconvProps

/-! # C48–C50, C74, C75: test -/

namespace Test
open Go

/-! ## Specification -/

/-- The one-letter flags `test` knows. -/
def knownFlags : Bytes := b!"acdefghLnprSstuwxz"

/-- The left operands that `test` takes for something else than an operand. -/
def Special (a : Bytes) : Prop := a = [] ∨ a = b!"!" ∨ ∃ c ∈ knownFlags, a = [45, c]

/-- The arithmetic comparison operators and their meaning. -/
inductive NumOp : Bytes → (Int → Int → Prop) → Prop
  | eq : NumOp b!"-eq" (· = ·)
  | ne : NumOp b!"-ne" (· ≠ ·)
  | gt : NumOp b!"-gt" (· > ·)
  | ge : NumOp b!"-ge" (· ≥ ·)
  | lt : NumOp b!"-lt" (· < ·)
  | le : NumOp b!"-le" (· ≤ ·)

/-- `s` is a decimal literal of the 64-bit integer `n`. -/
def Denotes (s : Bytes) (n : Int) : Prop := IsDecimal s n ∧ -2 ^ 63 ≤ n ∧ n < 2 ^ 63

/-! ## Lemmas -/

theorem flagMap_none (w : World) (c : UInt8) (h : c ∉ knownFlags) : flagMap w c = none := by
  unfold flagMap
  simp [knownFlags] at h
  simp [h]

theorem flagMap_some (w : World) (c : UInt8) (h : c ∈ knownFlags) : ∃ f, flagMap w c = some f := by
  simp [knownFlags] at h
  rcases h with h | h | h | h | h | h | h | h | h | h | h | h | h | h | h | h | h | h <;> subst h <;>
    exact ⟨_, rfl⟩

theorem flagOf_none (w : World) (a : Bytes) (h : ¬ Special a) : flagOf w a = none := by
  unfold flagOf
  split
  · next d c =>
    split
    · next hd =>
      subst hd
      apply flagMap_none
      intro hc
      exact h (.inr (.inr ⟨c, hc, rfl⟩))
    · rfl
  · rfl

theorem parse_infix (w : World) (a op b : Bytes) (h : ¬ Special a) :
    parse w [a, op, b] = parseInfix [a, op, b] := by
  have h1 : a ≠ b!"!" := fun e => h (.inr (.inl e))
  have h2 : a ≠ [] := fun e => h (.inl e)
  simp only [parse, h1, h2, if_false, flagOf_none w a h]

theorem status_ok (w : World) (args : List Bytes) (b : Bool) (h : parse w args = .ok b) :
    exitStatus w args = if b then 0 else 1 := by
  simp only [exitStatus, h]
  cases b <;> rfl

/-! ## Comparisons -/

/-- C48: `test a = b` is true exactly if the strings are equal, `test a != b` exactly if not. -/
theorem C48_strings (w : World) (a b : Bytes) (h : ¬ Special a) :
    exitStatus w [a, b!"=", b] = (if a = b then 0 else 1) ∧
    exitStatus w [a, b!"!=", b] = (if a = b then 1 else 0) := by
  have e1 : parse w [a, b!"=", b] = .ok (a == b) := by rw [parse_infix w _ _ _ h]; rfl
  have e2 : parse w [a, b!"!=", b] = .ok (a != b) := by rw [parse_infix w _ _ _ h]; rfl
  rw [status_ok w _ _ e1, status_ok w _ _ e2]
  by_cases e : a = b <;> simp [e]

theorem numOp_infix {op R} (h : NumOp op R) : ∃ cmp, infixMap op = some (numcmp cmp) ∧
    ∀ m n, cmp m n = true ↔ R m n := by
  cases h
  · exact ⟨_, rfl, by simp⟩
  · exact ⟨_, rfl, by simp⟩
  · exact ⟨_, rfl, by simp⟩
  · exact ⟨_, rfl, by simp⟩
  · exact ⟨_, rfl, by simp⟩
  · exact ⟨_, rfl, by simp⟩

/-- C48: the arithmetic operators compare the integers the operands denote. -/
theorem C48_integers (w : World) {op R} (hop : NumOp op R) (a b : Bytes) (m n : Int) (h : ¬ Special a)
    (ha : Denotes a m) (hb : Denotes b n) :
    (R m n → exitStatus w [a, op, b] = 0) ∧ (¬ R m n → exitStatus w [a, op, b] = 1) := by
  obtain ⟨cmp, e, hc⟩ := numOp_infix hop
  have e1 : parse w [a, op, b] = .ok (cmp m n) := by
    rw [parse_infix w _ _ _ h]
    simp only [parseInfix, e, numcmp, (C72_atoi_iff a m).2 ha, (C72_atoi_iff b n).2 hb]
  rw [status_ok w _ _ e1]
  constructor
  · intro hr; simp [(hc m n).2 hr]
  · intro hr
    have : cmp m n = false := by
      cases hx : cmp m n
      · rfl
      · exact absurd ((hc m n).1 hx) hr
    simp [this]

theorem atoi_not_denotes (a : Bytes) (h : ¬ ∃ n, Denotes a n) : ∃ v e, atoi a = (v, some e) := by
  cases e : atoi a with
  | mk v o =>
    cases o with
    | none => exact absurd ⟨v, (C72_atoi_iff a v).1 e⟩ h
    | some x => exact ⟨v, x, rfl⟩

/-- C48: they are errors (status 2) exactly if one of the operands denotes no 64-bit integer. -/
theorem C48_error_iff (w : World) {op R} (hop : NumOp op R) (a b : Bytes) (h : ¬ Special a) :
    exitStatus w [a, op, b] = 2 ↔ ¬ ((∃ m, Denotes a m) ∧ ∃ n, Denotes b n) := by
  constructor
  · rintro h2 ⟨⟨m, ha⟩, ⟨n, hb⟩⟩
    obtain ⟨t, f⟩ := C48_integers w hop a b m n h ha hb
    by_cases hr : R m n
    · rw [t hr] at h2; cases h2
    · rw [f hr] at h2; cases h2
  · intro hn
    obtain ⟨cmp, e, hc⟩ := numOp_infix hop
    have : ∃ err, parse w [a, op, b] = .error err := by
      rw [parse_infix w _ _ _ h]
      simp only [parseInfix, e, numcmp]
      by_cases ha : ∃ m, Denotes a m
      · obtain ⟨m, ha⟩ := ha
        obtain ⟨v, x, hx⟩ := atoi_not_denotes b (fun hb => hn ⟨⟨m, ha⟩, hb⟩)
        exact ⟨.num b x, by rw [(C72_atoi_iff a m).2 ha, hx]⟩
      · obtain ⟨v, x, hx⟩ := atoi_not_denotes a ha
        exact ⟨.num a x, by rw [hx]⟩
    obtain ⟨err, he⟩ := this
    simp [exitStatus, he]

/-- C48: an unknown operator, or a number of operands other than three, is an error. -/
theorem C48_unknown (w : World) (a a1 : Bytes) (rest : List Bytes) (h : ¬ Special a)
    (hn : ∀ op b, a1 = op → rest = [b] → op ≠ b!"=" ∧ op ≠ b!"!=" ∧ ∀ R, ¬ NumOp op R) :
    exitStatus w (a :: a1 :: rest) = 2 := by
  have h1 : a ≠ b!"!" := fun e => h (.inr (.inl e))
  have h2 : a ≠ [] := fun e => h (.inl e)
  have : parse w (a :: a1 :: rest) = .error .unknown := by
    simp only [parse, h1, h2, if_false, flagOf_none w a h]
    unfold parseInfix
    split
    · next a' op b e =>
      simp only [List.cons.injEq, and_true] at e
      obtain ⟨rfl, rfl, rfl⟩ := e
      obtain ⟨g1, g2, g3⟩ := hn a1 b rfl rfl
      have : infixMap a1 = none := by
        unfold infixMap
        rw [if_neg g1, if_neg g2, if_neg (by rintro rfl; exact g3 _ .eq), if_neg (by rintro rfl; exact g3 _ .ne),
          if_neg (by rintro rfl; exact g3 _ .gt), if_neg (by rintro rfl; exact g3 _ .ge), if_neg (by rintro rfl; exact g3 _ .lt),
          if_neg (by rintro rfl; exact g3 _ .le)]
      rw [this]
    · rfl
  simp [exitStatus, this]

example (w : World) : exitStatus w [b!"-7", b!"-lt", b!"+12"] = 0 :=
  (C48_integers w .lt _ _ (-7) 12 (by simp [Special, knownFlags])
    ((C72_atoi_iff _ _).1 (by decide)) ((C72_atoi_iff _ _).1 (by decide))).1 (by decide)

/-! ## Negation -/

/-- C49: `!` in front of a non-empty expression exchanges true and false and keeps errors. -/
theorem C49_not (w : World) (e : List Bytes) (h : e ≠ []) :
    (exitStatus w (b!"!" :: e) = 0 ↔ exitStatus w e = 1) ∧
    (exitStatus w (b!"!" :: e) = 1 ↔ exitStatus w e = 0) ∧
    (exitStatus w (b!"!" :: e) = 2 ↔ exitStatus w e = 2) := by
  obtain ⟨a, rest, rfl⟩ := List.exists_cons_of_ne_nil h
  simp only [exitStatus]
  have : parse w (b!"!" :: a :: rest) = neg (parse w (a :: rest)) := by simp [parse]
  rw [this]
  cases parse w (a :: rest) with
  | error e => simp [neg]
  | ok b => cases b <;> simp [neg]

/-- C49: an even number of `!` changes nothing. -/
theorem C49_even (w : World) (k : Nat) (e : List Bytes) (h : e ≠ []) :
    exitStatus w (List.replicate (2 * k) b!"!" ++ e) = exitStatus w e := by
  induction k with
  | zero => rfl
  | succ k ih =>
    rw [show 2 * (k + 1) = 2 * k + 1 + 1 by omega, List.replicate_succ, List.replicate_succ]
    simp only [List.cons_append]
    have hne : List.replicate (2 * k) b!"!" ++ e ≠ [] := by simp [h]
    obtain ⟨a1, a2, a3⟩ := C49_not w _ hne
    obtain ⟨b1, b2, b3⟩ := C49_not w (b!"!" :: (List.replicate (2 * k) b!"!" ++ e)) (by simp)
    rw [← ih]
    have three : ∀ args, exitStatus w args = 0 ∨ exitStatus w args = 1 ∨ exitStatus w args = 2 := by
      intro args
      simp only [exitStatus]
      split <;> simp
    rcases three (List.replicate (2 * k) b!"!" ++ e) with hx | hx | hx
    · rw [hx, b1, a2, hx]
    · rw [hx, b2, a1, hx]
    · rw [hx, b3, a3, hx]

/-- C49: one operand is true exactly if it is not empty (also if it is `!`); no operand is false. -/
theorem C49_base (w : World) (a : Bytes) :
    exitStatus w [] = 1 ∧ exitStatus w [a] = if a = [] then 1 else 0 := by
  refine ⟨rfl, ?_⟩
  have : parse w [a] = .ok (a != []) := by simp [parse]
  rw [status_ok w _ _ this]
  by_cases e : a = [] <;> simp [e]

/-! ## The string operators on special left operands -/

/-- C50 is false: `test "" = ""` and `test -z = -z` are false, `test ! = !` is an error, and
`test "" != a` is false. -/
theorem C50_counterexamples (w : World) :
    exitStatus w [[], b!"=", []] = 1 ∧
    exitStatus w [b!"!", b!"=", b!"!"] = 2 ∧
    exitStatus w [b!"-z", b!"=", b!"-z"] = 1 ∧
    exitStatus w [[], b!"!=", b!"a"] = 1 := by
  refine ⟨rfl, ?_, rfl, rfl⟩
  rfl

/-- C50, the part that holds: for left operands that are not special the string operators are right. -/
theorem C50_strings_partial (w : World) (a b : Bytes) (h : ¬ Special a) :
    (exitStatus w [a, b!"=", b] = 0 ↔ a = b) ∧ (exitStatus w [a, b!"!=", b] = 0 ↔ a ≠ b) := by
  obtain ⟨h1, h2⟩ := C48_strings w a b h
  rw [h1, h2]
  by_cases e : a = b <;> simp [e]

/-- C50: and the exceptions are exactly characterised: with an empty left operand every comparison is
false; with a flag on the left the operator itself is tested as a file name or string. -/
theorem C50_special (w : World) (op b : Bytes) :
    exitStatus w [[], op, b] = 1 ∧
    (∀ c ∈ knownFlags, exitStatus w [[45, c], op, b] = exitStatus w [[45, c], op]) := by
  refine ⟨rfl, ?_⟩
  intro c hc
  obtain ⟨f, hf⟩ := flagMap_some w c hc
  have h1 : ([45, c] : Bytes) ≠ b!"!" := by simp
  simp [exitStatus, parse, flagOf, hf]

/-! ## File tests -/

/-- What a file test asks of the file's mode and size. -/
inductive FileTest : Bytes → (FileInfo → Prop) → Prop
  | exists : FileTest b!"-e" (fun _ => True)
  | dir : FileTest b!"-d" (fun i => i.mode.getLsbD 31 = true)
  | regular : FileTest b!"-f" (fun i => ∀ k ∈ [31, 27, 26, 25, 24, 21, 19], i.mode.getLsbD k = false)
  | nonEmpty : FileTest b!"-s" (fun i => i.size > 0)
  | pipe : FileTest b!"-p" (fun i => i.mode.getLsbD 25 = true)
  | socket : FileTest b!"-S" (fun i => i.mode.getLsbD 24 = true)
  | setuid : FileTest b!"-u" (fun i => i.mode.getLsbD 23 = true)
  | setgid : FileTest b!"-g" (fun i => i.mode.getLsbD 22 = true)
  | charDevice : FileTest b!"-c" (fun i => i.mode.getLsbD 21 = true)
  | device : FileTest b!"-a" (fun i => i.mode.getLsbD 26 = true)

theorem and_bit (v : BitVec 32) (k : Nat) (hk : k < 32) :
    (v &&& ((1 : BitVec 32) <<< k)) = (1 : BitVec 32) <<< k ↔ v.getLsbD k = true := by
  constructor
  · intro h
    have := congrArg (fun x : BitVec 32 => x.getLsbD k) h
    simp [hk] at this
    exact this
  · intro h
    apply BitVec.eq_of_getLsbD_eq
    intro i hi
    simp only [BitVec.getLsbD_and, BitVec.getLsbD_shiftLeft, hi, decide_true, Bool.true_and]
    by_cases hik : i = k
    · subst hik; simp [h]
    · have : ((1 : BitVec 32).getLsbD (i - k) && !decide (i < k)) = false := by
        by_cases hlt : i < k
        · simp [hlt]
        · have : i - k ≠ 0 := by omega
          simp [this]
      simp only [Bool.and_comm (!decide (i < k)), this, Bool.and_false]

theorem and_bit_ne (v : BitVec 32) (k : Nat) (hk : k < 32) :
    (v &&& ((1 : BitVec 32) <<< k)) ≠ 0 ↔ v.getLsbD k = true := by
  constructor
  · intro h
    cases hv : v.getLsbD k
    · exfalso
      apply h
      apply BitVec.eq_of_getLsbD_eq
      intro i hi
      simp only [BitVec.getLsbD_and, BitVec.getLsbD_shiftLeft, hi, decide_true, Bool.true_and]
      by_cases hik : i = k
      · subst hik; simp [hv]
      · by_cases hlt : i < k
        · simp [hlt]
        · have : i - k ≠ 0 := by omega
          simp [this]
    · rfl
  · intro h e
    rw [(and_bit v k hk).2 h] at e
    have := congrArg (fun x : BitVec 32 => x.getLsbD k) e
    simp [hk] at this

/-- C74: a file test is true exactly if the file can be examined and has the property; it is never an
error. -/
theorem C74_file_tests (w : World) {flag P} (h : FileTest flag P) (name : Bytes) :
    (exitStatus w [flag, name] = 0 ↔ ∃ i, w.stat name = some i ∧ P i) ∧
    (exitStatus w [flag, name] = 1 ↔ ¬ ∃ i, w.stat name = some i ∧ P i) := by
  have key : ∀ g : FileInfo → Bool, (∀ i, g i = true ↔ P i) →
      parse w [flag, name] = (match w.stat name with | none => .ok false | some i => .ok (g i)) →
      (exitStatus w [flag, name] = 0 ↔ ∃ i, w.stat name = some i ∧ P i) ∧
      (exitStatus w [flag, name] = 1 ↔ ¬ ∃ i, w.stat name = some i ∧ P i) := by
    intro g hg hp
    cases hs : w.stat name with
    | none => rw [hs] at hp; rw [status_ok w _ _ hp]; simp
    | some i =>
      rw [hs] at hp
      rw [status_ok w _ _ hp]
      have := hg i
      by_cases hP : P i
      · simp [this.2 hP, hP]
      · have : g i = false := by
          cases hgi : g i
          · rfl
          · exact absurd (this.1 hgi) hP
        simp [this, hP]
  cases h with
  | «exists» => exact key (fun _ => true) (by simp) rfl
  | dir =>
    exact key (fun i => (i.mode &&& ModeDir) != 0) (fun i => by rw [bne_iff_ne]; exact and_bit_ne i.mode 31 (by omega)) rfl
  | regular =>
    refine key (fun i => (i.mode &&& ModeType) == 0) (fun i => ?_) rfl
    rw [beq_iff_eq]
    have ht : ∀ k, k < 32 → (ModeType.getLsbD k = decide (k ∈ [31, 27, 26, 25, 24, 21, 19])) := by
      have : ∀ k : Fin 32, ModeType.getLsbD k.val = decide (k.val ∈ [31, 27, 26, 25, 24, 21, 19]) := by decide
      intro k hk; exact this ⟨k, hk⟩
    constructor
    · intro e k hk
      have hk32 : k < 32 := by
        simp only [List.mem_cons, List.not_mem_nil, or_false] at hk
        omega
      have := congrArg (fun x : BitVec 32 => x.getLsbD k) e
      simp only [BitVec.getLsbD_and, ht k hk32, hk, decide_true, Bool.and_true] at this
      simpa using this
    · intro hP
      apply BitVec.eq_of_getLsbD_eq
      intro k hk
      simp only [BitVec.getLsbD_and, ht k hk]
      by_cases hm : k ∈ [31, 27, 26, 25, 24, 21, 19]
      · simp [hP k hm]
      · simp [hm]
  | nonEmpty => exact key (fun i => decide (i.size > 0)) (by simp) rfl
  | pipe =>
    exact key (fun i => (i.mode &&& ModeNamedPipe) == ModeNamedPipe) (fun i => by rw [beq_iff_eq]; exact and_bit i.mode 25 (by omega)) rfl
  | socket =>
    exact key (fun i => (i.mode &&& ModeSocket) == ModeSocket) (fun i => by rw [beq_iff_eq]; exact and_bit i.mode 24 (by omega)) rfl
  | setuid =>
    exact key (fun i => (i.mode &&& ModeSetuid) == ModeSetuid) (fun i => by rw [beq_iff_eq]; exact and_bit i.mode 23 (by omega)) rfl
  | setgid =>
    exact key (fun i => (i.mode &&& ModeSetgid) == ModeSetgid) (fun i => by rw [beq_iff_eq]; exact and_bit i.mode 22 (by omega)) rfl
  | charDevice =>
    exact key (fun i => (i.mode &&& ModeCharDevice) == ModeCharDevice) (fun i => by rw [beq_iff_eq]; exact and_bit i.mode 21 (by omega)) rfl
  | device =>
    exact key (fun i => (i.mode &&& ModeDevice) == ModeDevice) (fun i => by rw [beq_iff_eq]; exact and_bit i.mode 26 (by omega)) rfl

/-- C74: `-h` and `-L` ask about the link itself, not its target. -/
theorem C74_links (w : World) (name : Bytes) :
    (exitStatus w [b!"-h", name] = 0 ↔ ∃ i, w.lstat name = some i ∧ i.mode.getLsbD 27 = true) ∧
    exitStatus w [b!"-L", name] = exitStatus w [b!"-h", name] := by
  refine ⟨?_, rfl⟩
  have hp : parse w [b!"-h", name] = isLink w name := rfl
  cases hs : w.lstat name with
  | none =>
    have : parse w [b!"-h", name] = .ok false := by rw [hp]; simp [isLink, hs]
    rw [status_ok w _ _ this]; simp
  | some i =>
    have : parse w [b!"-h", name] = .ok ((i.mode &&& ModeSymlink) == ModeSymlink) := by rw [hp]; simp [isLink, hs]
    rw [status_ok w _ _ this]
    have hb := and_bit i.mode 27 (by omega)
    have hb' : ((i.mode &&& ModeSymlink) == ModeSymlink) = i.mode.getLsbD 27 := by
      rw [Bool.eq_iff_iff, beq_iff_eq]; exact hb
    rw [hb']
    simp only [Option.some.injEq, exists_eq_left']
    generalize i.mode.getLsbD 27 = b
    cases b <;> simp

/-- C74: `-n` and `-z` test the string. -/
theorem C74_strings (w : World) (s : Bytes) :
    exitStatus w [b!"-n", s] = (if s = [] then 1 else 0) ∧ exitStatus w [b!"-z", s] = (if s = [] then 0 else 1) := by
  have h1 : parse w [b!"-n", s] = .ok (s != []) := rfl
  have h2 : parse w [b!"-z", s] = .ok (s == []) := rfl
  rw [status_ok w _ _ h1, status_ok w _ _ h2]
  by_cases e : s = [] <;> simp [e]

/-- C74: the access and terminal tests, and POSIX's `-b`, are errors whatever the file. -/
theorem C74_unsupported (w : World) (name : Bytes) :
    ∀ flag ∈ [b!"-r", b!"-w", b!"-x", b!"-t", b!"-b"], exitStatus w [flag, name] = 2 := by
  intro flag h
  simp only [List.mem_cons, List.not_mem_nil, or_false] at h
  rcases h with rfl | rfl | rfl | rfl | rfl <;> rfl

/-- C75: after a flag and its operand every further argument is ignored. -/
theorem C75_extra_ignored (w : World) (c : UInt8) (hc : c ∈ knownFlags) (name : Bytes) (extra : List Bytes) :
    exitStatus w ([45, c] :: name :: extra) = exitStatus w [[45, c], name] := by
  obtain ⟨f, hf⟩ := flagMap_some w c hc
  simp [exitStatus, parse, flagOf, hf]

/-- C75: the status is always 0, 1 or 2. -/
theorem C75_three_outcomes (w : World) (args : List Bytes) :
    exitStatus w args = 0 ∨ exitStatus w args = 1 ∨ exitStatus w args = 2 := by
  simp only [exitStatus]
  split <;> simp

example : exitStatus ⟨fun n => if n = b!"d" then some ⟨0x800001ed#32, 4096⟩ else none, fun _ => none⟩
    [b!"!", b!"-d", b!"d"] = 1 := by decide

end Test
