import Verif.Go.Basic

/-!
# Go's strconv.Itoa and strconv.Atoi (64-bit int)

Part of the trusted modelling of the standard library.
-/

namespace Go

/-- Decimal digits of `n`, most significant first, in front of `acc`. `fuel > n` suffices. -/
def decAux : Nat → Nat → Bytes → Bytes
  | 0, _, acc => acc
  | fuel + 1, n, acc =>
    let acc' := UInt8.ofNat (48 + n % 10) :: acc
    if n / 10 = 0 then acc' else decAux fuel (n / 10) acc'

/-- `strconv.Itoa` / `fmt` verb `%d` of a natural number. -/
def natToDec (n : Nat) : Bytes := decAux (n + 1) n []

/-- `strconv.Itoa` / `fmt` verb `%d` of an integer. -/
def itoa (i : Int) : Bytes := if i < 0 then 45 :: natToDec i.natAbs else natToDec i.toNat

/-- The two kinds of `*strconv.NumError`. -/
inductive NumErr where
  | syntax
  | range
  deriving DecidableEq, Repr

/-- Is the byte an ASCII digit? -/
def isDigit (c : UInt8) : Bool := 48 ≤ c && c ≤ 57

/-- The digit loop of `strconv.ParseUint(s, 10, 64)`: stops at the first bad character or as soon
as the value no longer fits 64 bits. -/
def parseUintLoop (n : Nat) : Bytes → Except NumErr Nat
  | [] => .ok n
  | c :: cs =>
    if isDigit c then
      let n1 := n * 10 + (c.toNat - 48)
      if n1 ≥ 2 ^ 64 then .error .range else parseUintLoop n1 cs
    else .error .syntax

/-- `strconv.ParseUint(s, 10, 64)`. -/
def parseUint (s : Bytes) : Except NumErr Nat :=
  if s = [] then .error .syntax else parseUintLoop 0 s

/-- The sign-and-range part of `strconv.ParseInt(s, 10, 64)`. -/
def finishInt (neg : Bool) (r : Except NumErr Nat) : Int × Option NumErr :=
  match r with
  | .error .syntax => (0, some .syntax)
  | .error .range => if neg then (-2 ^ 63, some .range) else (2 ^ 63 - 1, some .range)
  | .ok n =>
    if neg then (if n > 2 ^ 63 then (-2 ^ 63, some .range) else (-(n : Int), none))
    else (if n ≥ 2 ^ 63 then (2 ^ 63 - 1, some .range) else ((n : Int), none))

/-- `strconv.Atoi`: the value and the error. On a syntax error the value is 0, on a range error
the nearest representable value (which matters for callers that ignore the error). -/
def atoi (s : Bytes) : Int × Option NumErr :=
  match s with
  | [] => (0, some .syntax)
  | c :: cs =>
    if c = 43 then finishInt false (parseUint cs)
    else if c = 45 then finishInt true (parseUint cs)
    else finishInt false (parseUint (c :: cs))

/-- `strconv.Atoi` when the caller only looks at whether there was an error. -/
def atoi? (s : Bytes) : Option Int :=
  match atoi s with
  | (n, none) => some n
  | (_, some _) => none

/-- Two's-complement wrap-around of a 64-bit `int`. -/
def wrap64 (i : Int) : Int := (i + 2 ^ 63) % 2 ^ 64 - 2 ^ 63

/-- The digits are in base 8 (`fmt` verb `%o`). -/
def octAux : Nat → Nat → Bytes → Bytes
  | 0, _, acc => acc
  | fuel + 1, n, acc =>
    let acc' := UInt8.ofNat (48 + n % 8) :: acc
    if n / 8 = 0 then acc' else octAux fuel (n / 8) acc'

/-- `fmt` verb `%o`. -/
def natToOct (n : Nat) : Bytes := octAux (n + 1) n []

/-! ## Specification and lemmas -/

/-- Value of a digit string, the schoolbook way. -/
def digitsVal : Bytes → Nat
  | [] => 0
  | c :: cs => (c.toNat - 48) * 10 ^ cs.length + digitsVal cs

theorem ofNat_digit (d : Nat) (h : d < 10) : (UInt8.ofNat (48 + d)).toNat = 48 + d := by
  simp [UInt8.toNat_ofNat']; omega

theorem isDigit_ofNat (d : Nat) (h : d < 10) : isDigit (UInt8.ofNat (48 + d)) = true := by
  simp only [isDigit, Bool.and_eq_true, decide_eq_true_eq, UInt8.le_iff_toNat_le]
  rw [ofNat_digit d h]
  simp; omega

theorem isDigit_iff (c : UInt8) : isDigit c = true ↔ 48 ≤ c.toNat ∧ c.toNat ≤ 57 := by
  simp [isDigit, UInt8.le_iff_toNat_le]

theorem decAux_spec (fuel : Nat) : ∀ n acc, n < fuel →
    ∃ ds, decAux fuel n acc = ds ++ acc ∧ ds ≠ [] ∧ (∀ c ∈ ds, isDigit c = true) ∧
      digitsVal ds = n ∧ (n ≠ 0 → ds.head? ≠ some 48) ∧ (n = 0 → ds = [48]) := by
  induction fuel with
  | zero => intro n acc h; omega
  | succ fuel ih =>
    intro n acc h
    simp only [decAux]
    have hd : n % 10 < 10 := Nat.mod_lt _ (by omega)
    split
    · next h0 =>
      refine ⟨[UInt8.ofNat (48 + n % 10)], rfl, by simp, ?_, ?_, ?_, ?_⟩
      · intro c hc
        simp only [List.mem_singleton] at hc
        rw [hc]; exact isDigit_ofNat _ hd
      · simp only [digitsVal, ofNat_digit _ hd]
        simp; omega
      · intro hn e
        simp only [List.head?_cons, Option.some.injEq] at e
        have := congrArg UInt8.toNat e
        rw [ofNat_digit _ hd] at this
        simp at this; omega
      · intro hn; subst hn; rfl
    · next h0 =>
      obtain ⟨ds, e, hne, hdig, hval, hhd, _⟩ := ih (n / 10) (UInt8.ofNat (48 + n % 10) :: acc) (by omega)
      refine ⟨ds ++ [UInt8.ofNat (48 + n % 10)], by rw [e]; simp, by simp, ?_, ?_, ?_, ?_⟩
      · intro c hc
        simp only [List.mem_append, List.mem_singleton] at hc
        rcases hc with hc | hc
        · exact hdig c hc
        · rw [hc]; exact isDigit_ofNat _ hd
      · have : ∀ (xs : Bytes) (y : UInt8), digitsVal (xs ++ [y]) = digitsVal xs * 10 + (y.toNat - 48) := by
          intro xs y
          induction xs with
          | nil => simp [digitsVal]
          | cons x xs ih =>
            simp only [List.cons_append, digitsVal, List.length_append, ih, List.length_singleton,
              Nat.pow_succ, Nat.add_mul]
            rw [← Nat.mul_assoc]; omega
        rw [this, hval, ofNat_digit _ hd]
        omega
      · intro _ e'
        cases ds with
        | nil => exact hne rfl
        | cons d ds => exact hhd (by omega) e'
      · intro hn; omega

/-- `natToDec n` is a non-empty digit string without superfluous leading zeros, of value `n`. -/
theorem natToDec_spec (n : Nat) :
    natToDec n ≠ [] ∧ (∀ c ∈ natToDec n, isDigit c = true) ∧ digitsVal (natToDec n) = n ∧
      (n ≠ 0 → (natToDec n).head? ≠ some 48) ∧ (n = 0 → natToDec n = [48]) := by
  obtain ⟨ds, e, h1, h2, h3, h4, h5⟩ := decAux_spec (n + 1) n [] (by omega)
  simp only [natToDec, e, List.append_nil]
  exact ⟨h1, h2, h3, h4, h5⟩

theorem digitsVal_lt (ds : Bytes) (h : ∀ c ∈ ds, isDigit c = true) : digitsVal ds < 10 ^ ds.length := by
  induction ds with
  | nil => simp [digitsVal]
  | cons c cs ih =>
    have hc := (isDigit_iff c).1 (h c (by simp))
    have := ih (fun d hd => h d (by simp [hd]))
    simp only [digitsVal, List.length_cons, Nat.pow_succ]
    have : (c.toNat - 48) * 10 ^ cs.length ≤ 9 * 10 ^ cs.length :=
      Nat.mul_le_mul_right _ (by omega)
    omega

/-- The digit loop on a digit string whose value fits. -/
theorem parseUintLoop_ok (ds : Bytes) : ∀ n, (∀ c ∈ ds, isDigit c = true) →
    n * 10 ^ ds.length + digitsVal ds < 2 ^ 64 →
    parseUintLoop n ds = .ok (n * 10 ^ ds.length + digitsVal ds) := by
  induction ds with
  | nil => intro n _ _; simp [parseUintLoop, digitsVal]
  | cons c cs ih =>
    intro n h hb
    have hp : 0 < 10 ^ cs.length := Nat.pow_pos (by omega)
    simp only [digitsVal, List.length_cons, Nat.pow_succ] at hb ⊢
    simp only [parseUintLoop, h c (by simp), if_true]
    have e : n * (10 ^ cs.length * 10) + ((c.toNat - 48) * 10 ^ cs.length + digitsVal cs) =
        (n * 10 + (c.toNat - 48)) * 10 ^ cs.length + digitsVal cs := by
      rw [Nat.add_mul, Nat.mul_assoc n 10, Nat.mul_comm 10, Nat.add_assoc]
    rw [e] at hb ⊢
    have : n * 10 + (c.toNat - 48) ≤ (n * 10 + (c.toNat - 48)) * 10 ^ cs.length :=
      Nat.le_mul_of_pos_right _ hp
    rw [if_neg (by omega)]
    exact ih _ (fun d hd => h d (by simp [hd])) hb

/-- Conversely, success means a digit string. -/
theorem parseUintLoop_inv (ds : Bytes) : ∀ n m, parseUintLoop n ds = .ok m →
    (∀ c ∈ ds, isDigit c = true) ∧ m = n * 10 ^ ds.length + digitsVal ds := by
  induction ds with
  | nil => intro n m h; cases h; simp [digitsVal]
  | cons c cs ih =>
    intro n m h
    simp only [parseUintLoop] at h
    split at h
    · next hd =>
      split at h
      · cases h
      · obtain ⟨h1, h2⟩ := ih _ _ h
        refine ⟨?_, ?_⟩
        · intro d hdm
          rcases List.mem_cons.1 hdm with rfl | hdm
          · exact hd
          · exact h1 d hdm
        · rw [h2]
          simp only [digitsVal, List.length_cons, Nat.pow_succ]
          rw [Nat.add_mul, Nat.mul_assoc n 10, Nat.mul_comm 10, Nat.add_assoc]
    · cases h

theorem parseUint_ok (ds : Bytes) (hne : ds ≠ []) (h : ∀ c ∈ ds, isDigit c = true)
    (hb : digitsVal ds < 2 ^ 64) : parseUint ds = .ok (digitsVal ds) := by
  simp only [parseUint, hne, if_false]
  rw [parseUintLoop_ok ds 0 h (by simpa using hb)]
  simp

/-- Digit strings out of 64-bit range are reported as such. -/
theorem parseUintLoop_range (ds : Bytes) : ∀ n, (∀ c ∈ ds, isDigit c = true) → n < 2 ^ 64 →
    2 ^ 64 ≤ n * 10 ^ ds.length + digitsVal ds → parseUintLoop n ds = .error .range := by
  induction ds with
  | nil => intro n _ h1 h2; simp [digitsVal] at h2; omega
  | cons c cs ih =>
    intro n h h1 hb
    simp only [digitsVal, List.length_cons, Nat.pow_succ] at hb
    simp only [parseUintLoop, h c (by simp), if_true]
    have e : n * (10 ^ cs.length * 10) + ((c.toNat - 48) * 10 ^ cs.length + digitsVal cs) =
        (n * 10 + (c.toNat - 48)) * 10 ^ cs.length + digitsVal cs := by
      rw [Nat.add_mul, Nat.mul_assoc n 10, Nat.mul_comm 10, Nat.add_assoc]
    rw [e] at hb
    split
    · rfl
    · exact ih _ (fun d hd => h d (by simp [hd])) (by omega) hb

theorem isDigit_ne_sign {c : UInt8} (h : isDigit c = true) : c ≠ 43 ∧ c ≠ 45 := by
  rw [isDigit_iff] at h
  constructor <;> (rintro rfl; simp at h)

/-- `atoi` of a digit string: the value, or the largest int with a range error. -/
theorem atoi_digits (ds : Bytes) (hne : ds ≠ []) (h : ∀ c ∈ ds, isDigit c = true) :
    atoi ds = if digitsVal ds < 2 ^ 63 then ((digitsVal ds : Int), none)
      else (2 ^ 63 - 1, some .range) := by
  cases ds with
  | nil => exact absurd rfl hne
  | cons c cs =>
    have hs := isDigit_ne_sign (h c (by simp))
    simp only [atoi, hs.1, hs.2, if_false]
    by_cases hb : digitsVal (c :: cs) < 2 ^ 64
    · rw [parseUint_ok _ hne h hb]
      simp only [finishInt]
      by_cases h3 : digitsVal (c :: cs) < 2 ^ 63
      · rw [if_neg (by simp), if_neg (by omega), if_pos h3]
      · rw [if_neg (by simp), if_pos (by omega), if_neg h3]
    · have := parseUintLoop_range (c :: cs) 0 h (by omega) (by omega)
      simp only [parseUint, hne, if_false, this, finishInt]
      rw [if_neg (by simp), if_neg (by omega)]

end Go
