import Verif.Test.Props
import Verif.Go.AtoiErrors
import Verif.Go.QuoteProps

/-! # C101: what test prints -/

namespace Test
open Go

/-! ## Specification -/

/-- Why an operand that is no 64-bit integer was refused: it is a number that is too large or begins with digits that are,
or it is not a number. -/
inductive Reason : Bytes → Bytes → Prop
  | large {s : Bytes} {n : Int} : IsDecimal s n → Reason s b!"value out of range"
  | begins {s : Bytes} : Exceeds (unsigned s) → Reason s b!"value out of range"
  | syntax {s : Bytes} : (∀ n, ¬ IsDecimal s n) → ¬ Exceeds (unsigned s) → Reason s b!"invalid syntax"

/-- `msg` reports `s` as a bad integer: it quotes `s` so that it can be read back, without control
characters, and says why. -/
def Refuses (msg s : Bytes) : Prop :=
  ∃ q why, msg = b!"Error: strconv.Atoi: parsing " ++ q ++ b!": " ++ why ++ b!"\n" ∧ unquote q = s ∧ Reason s why ∧
    (∀ c ∈ q, 32 ≤ c.toNat ∧ c.toNat ≠ 127) ∧
    ((∀ b ∈ s, 32 ≤ b ∧ b ≤ 126 ∧ b ≠ 34 ∧ b ≠ 92) → q = [34] ++ s ++ [34])

/-! ## Proofs -/

theorem reason_of_atoi {s : Bytes} {v : Int} {e : NumErr} (h : atoi s = (v, some e)) :
    Reason s (match e with | .syntax => b!"invalid syntax" | .range => b!"value out of range") := by
  have hn : ¬ ∃ n, Denotes s n := by
    rintro ⟨n, hn⟩
    rw [(C72_atoi_iff s n).2 hn] at h
    cases h
  cases e with
  | «range» =>
    rcases atoi_range_only (by rw [h]) with ⟨n, h1, -⟩ | h1
    · exact .large h1
    · exact .begins h1
  | «syntax» =>
    refine .syntax ?_ ?_
    · intro n h1
      have h2 : n < -2 ^ 63 ∨ 2 ^ 63 ≤ n := by
        by_cases h3 : n < -2 ^ 63
        · exact .inl h3
        · by_cases h4 : 2 ^ 63 ≤ n
          · exact .inr h4
          · exact absurd ⟨n, h1, by omega, by omega⟩ hn
      have := atoi_range h1 h2
      rw [h] at this
      cases this
    · intro h1
      have := atoi_exceeds h1
      rw [h] at this
      cases this

theorem refuses_of_atoi (p : Nat → Bool) {s : Bytes} {v : Int} {e : NumErr} (h : atoi s = (v, some e)) :
    Refuses (b!"Error: " ++ (Err.num s e).text p ++ b!"\n") s := by
  have hr := reason_of_atoi h
  have hq : (∀ b ∈ s, 32 ≤ b ∧ b ≤ 126 ∧ b ≠ 34 ∧ b ≠ 92) → quote p s = [34] ++ s ++ [34] := by
    intro hs
    rw [quote_plain p hs]
    rfl
  cases e with
  | «range» => exact ⟨_, _, by simp [Err.text], unquote_quote p s, hr, quote_visible p s, hq⟩
  | «syntax» => exact ⟨_, _, by simp [Err.text], unquote_quote p s, hr, quote_visible p s, hq⟩

/-- C101: nothing is ever printed on standard output, and something on standard error exactly with status 2. -/
theorem C101_streams (p : Nat → Bool) (w : World) (args : List Bytes) :
    (main p w args).stdout = [] ∧ (main p w args).exit = exitStatus w args ∧
    ((main p w args).stderr ≠ [] ↔ (main p w args).exit = 2) := by
  unfold main exitStatus
  cases h : parse w args with
  | error e => exact ⟨rfl, rfl, by simp⟩
  | ok b => cases b <;> exact ⟨rfl, rfl, by simp⟩

theorem main_error (p : Nat → Bool) (w : World) {args : List Bytes} {e : Err} (h : parse w args = .error e) :
    (main p w args).stderr = b!"Error: " ++ e.text p ++ b!"\n" := by
  unfold main
  rw [h]

/-- C101: the message about a comparison of numbers quotes the left operand if that is no 64-bit integer. -/
theorem C101_left (p : Nat → Bool) (w : World) {op R} (hop : NumOp op R) (a b : Bytes) (h : ¬ Special a)
    (ha : ¬ ∃ m, Denotes a m) : Refuses (main p w [a, op, b]).stderr a := by
  obtain ⟨cmp, e, -⟩ := numOp_infix hop
  obtain ⟨v, x, hx⟩ := atoi_not_denotes a ha
  rw [main_error p w (e := .num a x) (by rw [parse_infix w _ _ _ h]; simp only [parseInfix, e, numcmp, hx])]
  exact refuses_of_atoi p hx

/-- C101: and the right operand if only that is no 64-bit integer. -/
theorem C101_right (p : Nat → Bool) (w : World) {op R} (hop : NumOp op R) (a b : Bytes) (h : ¬ Special a)
    (ha : ∃ m, Denotes a m) (hb : ¬ ∃ n, Denotes b n) : Refuses (main p w [a, op, b]).stderr b := by
  obtain ⟨cmp, e, -⟩ := numOp_infix hop
  obtain ⟨m, ha⟩ := ha
  obtain ⟨v, x, hx⟩ := atoi_not_denotes b hb
  rw [main_error p w (e := .num b x)
    (by rw [parse_infix w _ _ _ h]; simp only [parseInfix, e, numcmp, (C72_atoi_iff a m).2 ha, hx])]
  exact refuses_of_atoi p hx

/-- C101: the tests of permissions and terminals are refused whatever the operand. -/
theorem C101_unsupported (p : Nat → Bool) (w : World) (c : UInt8) (hc : c ∈ b!"rtwx") (name : Bytes) (rest : List Bytes) :
    (main p w ([45, c] :: name :: rest)).stderr = b!"Error: NYI\n" := by
  have : c = 114 ∨ c = 116 ∨ c = 119 ∨ c = 120 := by simpa using hc
  rw [main_error p w (e := .nyi) ?_]
  · rfl
  · rcases this with rfl | rfl | rfl | rfl <;> rfl

theorem infix_errors {args : List Bytes} {e : Err} (h : parseInfix args = .error e) :
    e = .unknown ∨ ∃ s v x, e = .num s x ∧ s ∈ args ∧ atoi s = (v, some x) := by
  have key : ∀ (cmp : Int → Int → Bool) (a b : Bytes), numcmp cmp a b = .error e →
      ∃ s v x, e = .num s x ∧ (s = a ∨ s = b) ∧ atoi s = (v, some x) := by
    intro cmp a b h
    unfold numcmp at h
    split at h
    · next v x hx => cases h; exact ⟨a, v, x, rfl, .inl rfl, hx⟩
    · split at h
      · next v x hx => cases h; exact ⟨b, v, x, rfl, .inr rfl, hx⟩
      · cases h
  unfold parseInfix at h
  split at h
  · next a op b =>
    split at h
    · next f hf =>
      have : (∃ g : Bytes → Bytes → Bool, f = fun a b => .ok (g a b)) ∨ ∃ cmp, f = numcmp cmp := by
        unfold infixMap at hf
        repeat' split at hf
        all_goals first
          | (cases hf; exact .inl ⟨_, rfl⟩)
          | (cases hf; exact .inr ⟨_, rfl⟩)
          | cases hf
      rcases this with ⟨g, rfl⟩ | ⟨cmp, rfl⟩
      · cases h
      · obtain ⟨s, v, x, h1, h2, h3⟩ := key _ _ _ h
        refine .inr ⟨s, v, x, h1, ?_, h3⟩
        rcases h2 with rfl | rfl <;> simp
    · cases h; exact .inl rfl
  · cases h; exact .inl rfl

theorem flag_errors {w : World} {c : UInt8} {f : Bytes → Result} (h : flagMap w c = some f) (s : Bytes) {e : Err}
    (he : f s = .error e) : e = .nyi ∧ c ∈ b!"rtwx" := by
  have hi : ∀ g, info w g s ≠ .error e := by
    intro g; unfold info; cases w.stat s <;> simp
  have hm : ∀ g, modeIs w g s ≠ .error e := by
    intro g; unfold modeIs; cases w.stat s <;> simp
  have hl : isLink w s ≠ .error e := by
    unfold isLink; cases w.lstat s <;> simp
  by_cases hc : c ∈ knownFlags
  · simp [knownFlags] at hc
    rcases hc with h' | h' | h' | h' | h' | h' | h' | h' | h' | h' | h' | h' | h' | h' | h' | h' | h' | h' <;> subst h' <;>
      cases h <;>
      first
      | exact absurd he (hi _)
      | exact absurd he (hm _)
      | exact absurd he hl
      | (cases he; exact ⟨rfl, by decide⟩)
      | cases he
  · rw [flagMap_none w c hc] at h
    cases h

theorem parse_errors (w : World) (args : List Bytes) {e : Err} (h : parse w args = .error e) :
    e = .nyi ∨ e = .unknown ∨ ∃ s v x, e = .num s x ∧ s ∈ args ∧ atoi s = (v, some x) := by
  match args with
  | [] => cases h
  | [a] => cases h
  | arg :: a1 :: rest =>
    unfold parse at h
    split at h
    · have h' : parse w (a1 :: rest) = .error e := by
        cases hp : parse w (a1 :: rest) with
        | ok b => rw [hp] at h; cases h
        | error e' => rw [hp] at h; cases h; rfl
      rcases parse_errors w (a1 :: rest) h' with h | h | ⟨s, v, x, h1, h2, h3⟩
      · exact .inl h
      · exact .inr (.inl h)
      · exact .inr (.inr ⟨s, v, x, h1, List.mem_cons_of_mem _ h2, h3⟩)
    · split at h
      · cases h
      · split at h
        · next f hf =>
          unfold flagOf at hf
          split at hf
          · split at hf
            · exact .inl (flag_errors hf _ h).1
            · cases hf
          · cases hf
        · exact .inr (infix_errors h)

/-- C101: there are no other messages: whatever the arguments, standard error is empty, or says that something is not
implemented or not understood, or refuses one of the arguments as a number. -/
theorem C101_messages (p : Nat → Bool) (w : World) (args : List Bytes) :
    (main p w args).stderr = [] ∨ (main p w args).stderr = b!"Error: NYI\n" ∨
    (main p w args).stderr = b!"Error: idk what to do about this\n" ∨
    ∃ s ∈ args, (¬ ∃ n, Denotes s n) ∧ Refuses (main p w args).stderr s := by
  cases h : parse w args with
  | ok b =>
    left
    unfold main
    rw [h]
    cases b <;> rfl
  | error e =>
    rw [main_error p w h]
    rcases parse_errors w args h with rfl | rfl | ⟨s, v, x, rfl, h2, h3⟩
    · exact .inr (.inl rfl)
    · exact .inr (.inr (.inl rfl))
    · refine .inr (.inr (.inr ⟨s, h2, ?_, refuses_of_atoi p h3⟩))
      rintro ⟨n, hn⟩
      rw [(C72_atoi_iff s n).2 hn] at h3
      cases h3

/-- C101: an operator that is not known, or a number of arguments that is not three, is not understood. -/
theorem C101_unknown (p : Nat → Bool) (w : World) (a a1 : Bytes) (rest : List Bytes) (h : ¬ Special a)
    (hn : ∀ op b, a1 = op → rest = [b] → op ≠ b!"=" ∧ op ≠ b!"!=" ∧ ∀ R, ¬ NumOp op R) :
    (main p w (a :: a1 :: rest)).stderr = b!"Error: idk what to do about this\n" := by
  have h2 := C48_unknown w a a1 rest h hn
  have h3 : a ≠ b!"!" := fun e => h (.inr (.inl e))
  have h4 : a ≠ [] := fun e => h (.inl e)
  rw [main_error p w (e := .unknown)]
  · rfl
  · simp only [parse, h3, h4, if_false, flagOf_none w a h]
    unfold parseInfix
    split
    · next a' op b e =>
      simp only [List.cons.injEq, and_true] at e
      obtain ⟨rfl, rfl, rfl⟩ := e
      obtain ⟨g1, g2, g3⟩ := hn a1 b rfl rfl
      have : infixMap a1 = none := by
        unfold infixMap
        rw [if_neg g1, if_neg g2, if_neg (by rintro rfl; exact g3 _ .eq), if_neg (by rintro rfl; exact g3 _ .ne),
          if_neg (by rintro rfl; exact g3 _ .gt), if_neg (by rintro rfl; exact g3 _ .ge), if_neg (by rintro rfl; exact g3 _ .lt),
          if_neg (by rintro rfl; exact g3 _ .le)]
      rw [this]
    · rfl

/-- C101: negation does not change the message. -/
theorem C101_negated (p : Nat → Bool) (w : World) (a : Bytes) (rest : List Bytes) :
    (main p w (b!"!" :: a :: rest)).stderr = (main p w (a :: rest)).stderr := by
  have e : parse w (b!"!" :: a :: rest) = neg (parse w (a :: rest)) := by
    rw [parse, if_pos rfl]
  unfold main
  rw [e]
  cases h : parse w (a :: rest) with
  | error x => rfl
  | ok b => cases b <;> rfl

example (p : Nat → Bool) (w : World) :
    (main p w [b!"-5", b!"-lt", b!"5x"]).stderr = b!"Error: strconv.Atoi: parsing \"5x\": invalid syntax\n" := rfl

example (p : Nat → Bool) (w : World) :
    (main p w [b!"99999999999999999999x", b!"-lt", b!"5x"]).stderr =
      b!"Error: strconv.Atoi: parsing \"99999999999999999999x\": value out of range\n" := rfl

example (p : Nat → Bool) (w : World) : Refuses (main p w [b!"1", b!"-eq", b!"a\"b"]).stderr b!"a\"b" :=
  C101_right p w .eq _ _ (by simp [Special, knownFlags]) ⟨1, (C72_atoi_iff _ _).1 (by decide)⟩
    (by rintro ⟨n, hn⟩; have := (C72_atoi_iff _ _).2 hn; simp [atoi, parseUint, parseUintLoop, isDigit, finishInt] at this)

end Test
