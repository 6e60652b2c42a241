import Verif.Locale.Env
import Verif.Go.StrconvProps
import Verif.Go.PrintfProps

/-! # Environment variables and eras (C53, C54) -/

namespace Locale
open Go

/-! ## C53 -/

/-- The categories, in the order `locale` lists them. -/
def categories : List Bytes := [b!"LC_COLLATE", b!"LC_CTYPE", b!"LC_MESSAGES", b!"LC_MONETARY", b!"LC_NUMERIC", b!"LC_TIME"]

/-- Specification: the value in force for a variable is the first non-empty one. -/
def effective (env : Bytes → Bytes) (name : Bytes) : Bytes :=
  (([env b!"LC_ALL", env name, env b!"LANG"].find? (· ≠ [])).getD [])

/-- Specification: a value is implied unless it comes from the variable itself. -/
def implied (env : Bytes → Bytes) (name : Bytes) : Prop := env b!"LC_ALL" ≠ [] ∨ env name = []

/-- A shown value: in double quotes if implied. -/
def Shown (env : Bytes → Bytes) (name : Bytes) (v : Bytes) : Prop :=
  (implied env name ∧ v = 34 :: (effective env name ++ [34])) ∨ (¬ implied env name ∧ v = effective env name)

/-- **C53** The output of `locale` is eight lines: `LANG`, the six categories in order, `LC_ALL`. A category
shows the value in force, LC_ALL before its own variable before LANG, in quotes exactly if it does not come
from its own variable. -/
theorem C53_precedence (env : Bytes → Bytes) :
    ∃ vs : List Bytes, vs.length = 6 ∧ (∀ (i : Nat) name v, categories[i]? = some name → vs[i]? = some v → Shown env name v) ∧
      (fromEnv env).string =
        unlines ((b!"LANG=\"" ++ env b!"LANG" ++ b!"\"") :: ((categories.zip vs).map (fun p => p.1 ++ b!"=" ++ p.2) ++
          [b!"LC_ALL=" ++ env b!"LC_ALL"])) := by
  refine ⟨categories.map (fun n => (fromEnv env).getVal (env n)), rfl, ?_, ?_⟩
  · intro i name v h1 h2
    rw [List.getElem?_map, h1] at h2
    simp only [Option.map_some, Option.some.injEq] at h2
    subst h2
    simp only [Shown, implied, effective, Settings.getVal, fromEnv]
    by_cases ha : env b!"LC_ALL" = []
    · by_cases hn : env name = []
      · by_cases hl : env b!"LANG" = [] <;> simp [ha, hn, hl]
      · simp [ha, hn]
    · simp [ha]
  · simp [Settings.string, Settings.table, fromEnv, categories, unlines]

/-- **C53** With values that contain no newline the output splits into exactly those eight lines. -/
theorem C53_lines (env : Bytes → Bytes) (h : ∀ n, 10 ∉ env n) :
    (rawLines (fromEnv env).string).length = 8 ∧
    (rawLines (fromEnv env).string).map (fun l => l.takeWhile (· ≠ 61)) = b!"LANG" :: (categories ++ [b!"LC_ALL"]) := by
  have hv : ∀ n, 10 ∉ (fromEnv env).getVal (env n) := by
    intro n
    have h1 := h b!"LC_ALL"
    have h2 := h b!"LANG"
    have h3 := h n
    simp only [Settings.getVal, fromEnv]
    by_cases ha : env b!"LC_ALL" = []
    · by_cases hn : env n = []
      · simp [ha, hn, h2]
      · simpa [ha, hn] using h3
    · simp [ha, h1]
  have hs : (fromEnv env).string = unlines ((b!"LANG=\"" ++ env b!"LANG" ++ b!"\"") ::
      (categories.map (fun n => n ++ b!"=" ++ (fromEnv env).getVal (env n)) ++ [b!"LC_ALL=" ++ env b!"LC_ALL"])) := by
    simp [Settings.string, Settings.table, fromEnv, categories, unlines]
  have hr : rawLines (fromEnv env).string = ((b!"LANG=\"" ++ env b!"LANG" ++ b!"\"") ::
      (categories.map (fun n => n ++ b!"=" ++ (fromEnv env).getVal (env n)) ++ [b!"LC_ALL=" ++ env b!"LC_ALL"])) := by
    rw [hs]
    refine rawLines_unlines _ ?_
    intro l hl
    have h1 := h b!"LC_ALL"
    have h2 := h b!"LANG"
    simp only [categories, List.map_cons, List.map_nil, List.mem_cons, List.mem_append, List.not_mem_nil, or_false] at hl
    rcases hl with rfl | (rfl | rfl | rfl | rfl | rfl | rfl) | rfl <;> simp [h1, h2, hv, nl]
  rw [hr]
  exact ⟨rfl, rfl⟩

/-! ## C53 and C98: what the command prints -/

/-- The text `String` returns, made from the values alone. -/
theorem string_eq (env : Bytes → Bytes) : (fromEnv env).string =
    (b!"LANG=\"" ++ env b!"LANG" ++ b!"\"\n") ++ categories.flatMap (fun n => n ++ b!"=" ++ (fromEnv env).getVal (env n) ++ b!"\n") ++
      (b!"LC_ALL=" ++ env b!"LC_ALL" ++ b!"\n") := by
  simp [Settings.string, Settings.table, fromEnv, categories]

/-- **C53** The command prints that text whenever no value contains a percent sign. -/
theorem C53_command (env : Bytes → Bytes) (h : ∀ n, 37 ∉ env n) : main env = (fromEnv env).string := by
  have : 37 ∉ (fromEnv env).string := by
    have hv : ∀ n, 37 ∉ (fromEnv env).getVal (env n) := by
      intro n
      have h1 := h b!"LC_ALL"
      have h2 := h b!"LANG"
      have h3 := h n
      simp only [Settings.getVal, fromEnv]
      by_cases ha : env b!"LC_ALL" = []
      · by_cases hn : env n = []
        · simp [ha, hn, h2]
        · simpa [ha, hn] using h3
      · simp [ha, h1]
    have h1 := h b!"LC_ALL"
    have h2 := h b!"LANG"
    have e : (fromEnv env).table = categories.map (fun n => (n, env n)) := rfl
    rw [Settings.string, e]
    simp only [categories, List.map_cons, List.map_nil, List.flatMap_cons, List.flatMap_nil, List.mem_append, hv]
    simp [fromEnv, h1, h2]
  exact Printf0.plain _ this

/-- Each percent sign doubled. -/
def doubled (s : Bytes) : Bytes := s.flatMap (fun c => if c = 37 then [37, 37] else [c])

theorem doubled_append (a b : Bytes) : doubled (a ++ b) = doubled a ++ doubled b := by simp [doubled]

theorem doubled_nil (s : Bytes) : doubled s = [] ↔ s = [] := by
  cases s with
  | nil => simp [doubled]
  | cons c cs => simp only [doubled, List.flatMap_cons]; split <;> simp

/-- **C98** Values in which every percent sign is doubled are printed as the values meant. -/
theorem C98_doubled (env : Bytes → Bytes) : main (fun n => doubled (env n)) = (fromEnv env).string := by
  have hg : ∀ n, (fromEnv fun n => doubled (env n)).getVal (doubled (env n)) = doubled ((fromEnv env).getVal (env n)) := by
    intro n
    simp only [Settings.getVal, fromEnv, ne_eq, doubled_nil]
    by_cases ha : env b!"LC_ALL" = []
    · by_cases hn : env n = []
      · simp only [ha, hn, not_true_eq_false, if_false, doubled_append]; rfl
      · simp only [ha, hn, not_true_eq_false, if_false, not_false_eq_true, if_true]
    · simp only [ha, not_false_eq_true, if_true, doubled_append]; rfl
  have : (fromEnv fun n => doubled (env n)).string = doubled (fromEnv env).string := by
    rw [string_eq, string_eq]
    simp only [categories, List.flatMap_cons, List.flatMap_nil, hg, doubled_append]
    rfl
  rw [main, this]
  exact Printf0.printf0_doubled _

/-- **C98** What is printed up to the first percent sign is right. -/
theorem C98_before_partial (env : Bytes → Bytes) (pre rest : Bytes) (hp : 37 ∉ pre) (h : (fromEnv env).string = pre ++ rest) :
    pre <+: main env := by
  rw [main, h, Printf0.printf0_append _ _ hp]
  exact List.prefix_append _ _

/-- A character that is in none of the fixed parts is in the text exactly if it is in LANG, in LC_ALL, or in a value in force. -/
theorem mem_string (env : Bytes → Bytes) (c : UInt8) (hc : c = 37 ∨ c = 91) : c ∈ (fromEnv env).string ↔
    c ∈ env b!"LANG" ∨ c ∈ env b!"LC_ALL" ∨ ∃ n ∈ categories, c ∈ effective env n := by
  have hv : ∀ n, c ∈ (fromEnv env).getVal (env n) ↔ c ∈ effective env n := by
    intro n
    have h34 : c ≠ 34 := by rcases hc with rfl | rfl <;> decide
    simp only [Settings.getVal, fromEnv, effective]
    by_cases ha : env b!"LC_ALL" = []
    · by_cases hn : env n = []
      · by_cases hl : env b!"LANG" = [] <;> simp [ha, hn, hl, h34]
      · simp [ha, hn]
    · simp [ha, h34]
  have hf : ∀ x ∈ [b!"LANG=\"", b!"\"\n", b!"=", b!"\n", b!"LC_ALL="] ++ categories, c ∉ x := by
    rcases hc with rfl | rfl <;> decide
  rw [string_eq]
  simp only [List.mem_append, List.mem_flatMap, hv]
  constructor
  · rintro ((((h | h) | h) | ⟨n, hn, (((h | h) | h) | h)⟩) | ((h | h) | h))
    all_goals first
      | exact Or.inl h
      | exact Or.inr (Or.inl h)
      | exact Or.inr (Or.inr ⟨n, hn, h⟩)
      | exact absurd h (hf _ (List.mem_append_right _ hn))
      | exact absurd h (hf _ (by simp))
  · rintro (h | h | ⟨n, hn, h⟩)
    · exact Or.inl (Or.inl (Or.inl (Or.inr h)))
    · exact Or.inr (Or.inl (Or.inr h))
    · exact Or.inl (Or.inr ⟨n, hn, Or.inl (Or.inr h)⟩)

/-- **C98** Where no bracket is involved the text is printed as it is exactly if there is no percent sign in LANG, in LC_ALL, or in a
value in force. -/
theorem C98_exactly_partial (env : Bytes → Bytes) (h : ∀ n, 91 ∉ env n) : main env = (fromEnv env).string ↔
    37 ∉ env b!"LANG" ∧ 37 ∉ env b!"LC_ALL" ∧ ∀ n ∈ categories, 37 ∉ effective env n := by
  have h91 : 91 ∉ (fromEnv env).string := by
    rw [mem_string _ _ (Or.inr rfl)]
    rintro (h1 | h1 | ⟨n, _, h1⟩)
    · exact h _ h1
    · exact h _ h1
    · simp only [effective] at h1
      cases hf : [env b!"LC_ALL", env n, env b!"LANG"].find? (· ≠ []) with
      | none => rw [hf] at h1; simp at h1
      | some v =>
        rw [hf] at h1
        have := List.mem_of_find?_eq_some hf
        simp only [List.mem_cons, List.not_mem_nil, or_false] at this
        rcases this with rfl | rfl | rfl <;> exact h _ h1
  rw [main, Printf0.printf0_unchanged _ h91, mem_string _ _ (Or.inl rfl)]
  simp only [not_or, not_exists, not_and]

/-- **C98** What a directive in the text comes out as: with flags, width, precision and a letter. -/
theorem C98_directives (env : Bytes → Bytes) (pre flags rest : Bytes) (w : Printf0.Num) (p : Option Printf0.Num) (c : UInt8) (hpre : 37 ∉ pre)
    (hf : ∀ c ∈ flags, c ∈ b!"#0+- ") (hw : w.OK true) (hp : ∀ n, p = some n → n.OK false) (hc : 65 ≤ c ∧ c ≤ 90 ∨ 97 ≤ c ∧ c ≤ 122)
    (h : (fromEnv env).string = pre ++ (b!"%" ++ flags ++ w.bytes ++ Printf0.precBytes p ++ [c] ++ rest)) :
    main env = pre ++ (Printf0.widthOut w ++ Printf0.precOut p ++
        b!"%!" ++ [c] ++ b!"(MISSING)" ++ Printf0.printf0 rest) := by
  rw [main, h, Printf0.printf0_append _ _ hpre, Printf0.printf0_directive flags hf w hw p hp c hc rest]

/-- **C98** And with an index in brackets before the letter. -/
theorem C98_index (env : Bytes → Bytes) (pre flags inside rest : Bytes) (w : Printf0.Num) (p : Option Printf0.Num) (c : UInt8) (hpre : 37 ∉ pre)
    (hf : ∀ c ∈ flags, c ∈ b!"#0+- ") (hw : w.OK true) (hp : ∀ n, p = some n → n.OK false) (hi : 93 ∉ inside)
    (hc : 65 ≤ c ∧ c ≤ 90 ∨ 97 ≤ c ∧ c ≤ 122)
    (h : (fromEnv env).string = pre ++ (b!"%" ++ flags ++ w.bytes ++ Printf0.precBytes p ++ b!"[" ++ inside ++ b!"]" ++ [c] ++ rest)) :
    main env = pre ++ (Printf0.widthOut w ++ Printf0.precOut p ++ b!"%!" ++ [c] ++ b!"(BADINDEX)" ++ Printf0.printf0 rest) := by
  rw [main, h, Printf0.printf0_append _ _ hpre, Printf0.printf0_index flags hf w hw p hp inside hi c hc rest]

example : ∃ rest, main (fun n => if n = b!"LANG" then b!"a%.3[2]xe" else b!"C") = b!"LANG=\"a" ++ ([] ++ [] ++ b!"%!" ++ [120] ++ b!"(BADINDEX)" ++ Printf0.printf0 rest) :=
  ⟨_, C98_index (fun n => if n = b!"LANG" then b!"a%.3[2]xe" else b!"C") b!"LANG=\"a" [] b!"2" _ .none (some (.digits b!"3")) 120 (by decide) (by simp) trivial
    (by intro n h; cases h; exact ⟨by decide, by decide, by decide, by decide⟩) (by decide) (by decide) rfl⟩

/-- **C98** False in general: for every letter that is no flag, `%` and the letter come out longer. -/
theorem C98_counterexample (env : Bytes → Bytes) (pre rest : Bytes) (c : UInt8) (hp : 37 ∉ pre) (hc : 65 ≤ c ∧ c ≤ 90 ∨ 97 ≤ c ∧ c ≤ 122)
    (h : (fromEnv env).string = pre ++ 37 :: c :: rest) :
    main env = pre ++ b!"%!" ++ [c] ++ b!"(MISSING)" ++ Printf0.printf0 rest := by
  rw [main, h, Printf0.printf0_append _ _ hp, Printf0.printf0_letter c rest hc]
  simp

/-- **C98** And it can be lost altogether: if LANG is a percent sign and a number of nine digits or more, seven of the
eight lines are missing, whatever the rest of the environment. -/
theorem C98_lines_lost (env : Bytes → Bytes) (d : UInt8) (ds tail : Bytes) (hd : 49 ≤ d ∧ d ≤ 57) (hds : ∀ x ∈ ds, Printf0.isDigit x = true)
    (hl : 8 ≤ ds.length) (h : env b!"LANG" = 37 :: d :: (ds ++ tail)) : main env = b!"LANG=\"%!(NOVERB)" := by
  have e : (fromEnv env).string = b!"LANG=\"" ++ 37 :: d :: (ds ++ (tail ++ b!"\"\n" ++
      categories.flatMap (fun n => n ++ b!"=" ++ (fromEnv env).getVal (env n) ++ b!"\n") ++ (b!"LC_ALL=" ++ env b!"LC_ALL" ++ b!"\n"))) := by
    rw [string_eq, h]
    simp
  rw [main, e, Printf0.printf0_append _ _ (by decide), Printf0.printf0_huge d ds _ hd hds hl]
  rfl

/-- LANG and one category set. -/
def demoVars : Bytes → Bytes := fun n => if n = b!"LANG" then b!"en_US" else if n = b!"LC_TIME" then b!"C" else []

example : (fromEnv demoVars).string = b!"LANG=\"en_US\"\nLC_COLLATE=\"en_US\"\nLC_CTYPE=\"en_US\"\nLC_MESSAGES=\"en_US\"\nLC_MONETARY=\"en_US\"\nLC_NUMERIC=\"en_US\"\nLC_TIME=C\nLC_ALL=\n" := by
  decide

example : ∀ n, 37 ∉ demoVars n := by
  intro n; simp only [demoVars]; split <;> (try split) <;> decide

/-- A variable with percent signs. -/
def percentVars (v : Bytes) : Bytes → Bytes := fun n => if n = b!"LC_ALL" then v else []

example : main (percentVars b!"50%%") = b!"LANG=\"\"\nLC_COLLATE=\"50%\"\nLC_CTYPE=\"50%\"\nLC_MESSAGES=\"50%\"\nLC_MONETARY=\"50%\"\nLC_NUMERIC=\"50%\"\nLC_TIME=\"50%\"\nLC_ALL=50%\n" :=
  (congrArg main (by funext n; simp only [percentVars]; split <;> rfl)).trans (C98_doubled (percentVars b!"50%"))

example : b!"LANG=\"\"\nLC_COLLATE=\"50" <+: main (percentVars b!"50%") :=
  C98_before_partial _ _ _ (by decide) rfl

example : main (fun n => if n = b!"LANG" then b!"%123456789" else b!"C") = b!"LANG=\"%!(NOVERB)" :=
  C98_lines_lost _ 49 b!"23456789" [] (by decide) (by decide) (by decide) rfl

example : main (percentVars b!"50%") ≠ (fromEnv (percentVars b!"50%")).string := by
  rw [ne_eq, C98_exactly_partial _ (by intro n; simp only [percentVars]; split <;> decide)]
  rintro ⟨_, _, h⟩
  exact h b!"LC_COLLATE" (by decide) (by decide)

example : main (percentVars b!"5_") = (fromEnv (percentVars b!"5_")).string :=
  (C98_exactly_partial _ (by intro n; simp only [percentVars]; split <;> decide)).2 ⟨by decide, by decide, by decide⟩

example : ∃ rest, main (fun n => if n = b!"LANG" then b!"a%-*.2de" else b!"C") = b!"LANG=\"a" ++ (b!"%!(BADWIDTH)" ++ [] ++ b!"%!" ++ [100] ++ b!"(MISSING)" ++ Printf0.printf0 rest) :=
  ⟨_, C98_directives (fun n => if n = b!"LANG" then b!"a%-*.2de" else b!"C") b!"LANG=\"a" b!"-" _ .star (some (.digits b!"2")) 100 (by decide) (by decide) trivial
    (by intro n h; cases h; exact ⟨by decide, by decide, by decide, by decide⟩) (by decide) rfl⟩

example : ∃ rest, main (fun n => if n = b!"LANG" then b!"100%de" else b!"C") = b!"LANG=\"100" ++ b!"%!" ++ [100] ++ b!"(MISSING)" ++ Printf0.printf0 rest :=
  ⟨_, C98_counterexample (fun n => if n = b!"LANG" then b!"100%de" else b!"C") b!"LANG=\"100" _ 100 (by decide) (by decide) rfl⟩

/-! ## C54 -/

/-- The text of an era. -/
def eraText (reverse : Bool) (offset start end_ name format : Bytes) : Bytes :=
  (if reverse then b!"-" else b!"+") ++ b!":" ++ offset ++ b!":" ++ start ++ b!":" ++ end_ ++ b!":" ++ name ++ b!":" ++ format

theorem splitFuel_stable (x : UInt8) : ∀ (n m : Nat) (s : Bytes), s.length < n → s.length < m → splitFuel [x] n s = splitFuel [x] m s := by
  intro n
  induction n with
  | zero => intro m s h; omega
  | succ n ih =>
    intro m s h1 h2
    obtain ⟨m, rfl⟩ : ∃ k, m = k + 1 := ⟨m - 1, by omega⟩
    simp only [splitFuel]
    cases hc : cutAt [x] s with
    | none => rfl
    | some p =>
      have hl := congrArg List.length (cutAt_eq [x] s p.1 p.2 hc)
      simp only [List.length_append, List.length_cons, List.length_nil] at hl
      simp only
      rw [ih m p.2 (by omega) (by omega)]

theorem split_cons {x : UInt8} {a : Bytes} (b : Bytes) (h : x ∉ a) : split (a ++ x :: b) [x] = a :: split b [x] := by
  have e1 : split (a ++ x :: b) [x] = a :: splitFuel [x] (a ++ x :: b).length b := by
    simp only [split, splitFuel, cutAt_byte x a b h]
  rw [e1, split, splitFuel_stable x _ (b.length + 1) b (by simp; omega) (by omega)]

/-- **C54** Round trip: any direction, any 64-bit offset, colon-free dates and name, any format. -/
theorem C54_round_trip (reverse : Bool) (n : Int) (h1 : -2 ^ 63 ≤ n) (h2 : n < 2 ^ 63) (start end_ name format : Bytes)
    (hs : 58 ∉ start) (he : 58 ∉ end_) (hn : 58 ∉ name) :
    newEra (eraText reverse (itoa n) start end_ name format) =
      .ok { reverse := reverse, offset := n, startDate := start, endDate := end_, name := name, format := format } := by
  have hd : ∀ k, 58 ∉ natToDec k := by
    intro k hk
    have := (natToDec_spec k).2.1 _ hk
    revert this; decide
  have hi : 58 ∉ itoa n := by
    simp only [itoa]
    split
    · simp [hd]
    · exact hd _
  have e : eraText reverse (itoa n) start end_ name format =
      (if reverse then b!"-" else b!"+") ++ 58 :: (itoa n ++ 58 :: (start ++ 58 :: (end_ ++ 58 :: (name ++ 58 :: format)))) := by
    simp [eraText]
  have hdir : 58 ∉ (if reverse then b!"-" else b!"+" : Bytes) := by cases reverse <;> decide
  have hj := join_split format b!":"
  have hsplit : split (eraText reverse (itoa n) start end_ name format) b!":" =
      (if reverse then b!"-" else b!"+") :: itoa n :: start :: end_ :: name :: split format b!":" := by
    rw [e, split_cons _ hdir, split_cons _ hi, split_cons _ hs, split_cons _ he, split_cons _ hn]
  cases hf : split format b!":" with
  | nil => exact absurd hf (splitFuel_ne_nil _ _ _)
  | cons p ps =>
    rw [hf] at hsplit hj
    simp only [newEra, hsplit, C72_atoi_itoa n h1 h2, hj]
    cases reverse <;> simp

/-- **C54** The number of fields is the number of colons plus one; fewer than six is an error. -/
theorem C54_fields (fields : List Bytes) (hne : fields ≠ []) (h : ∀ f ∈ fields, 58 ∉ f) (hl : fields.length < 6) :
    newEra (join b!":" fields) = .error .fields := by
  rw [newEra, split_join_byte 58 fields hne h]
  match fields, hl with
  | [], _ => rfl
  | [_], _ => rfl
  | [_, _], _ => rfl
  | [_, _, _], _ => rfl
  | [_, _, _, _], _ => rfl
  | [_, _, _, _, _], _ => rfl

/-- **C54** With six fields or more a bad direction is an error, and a bad offset gives an empty era and no
error. -/
theorem C54_bad (p0 p1 p2 p3 p4 p5 : Bytes) (ps : List Bytes) (h : ∀ f ∈ p0 :: p1 :: p2 :: p3 :: p4 :: p5 :: ps, 58 ∉ f) :
    (p0 ≠ b!"+" → p0 ≠ b!"-" → newEra (join b!":" (p0 :: p1 :: p2 :: p3 :: p4 :: p5 :: ps)) = .error .direction) ∧
    ((p0 = b!"+" ∨ p0 = b!"-") → (∀ n, atoi p1 ≠ (n, none)) →
      newEra (join b!":" (p0 :: p1 :: p2 :: p3 :: p4 :: p5 :: ps)) = .ok {}) := by
  rw [newEra, split_join_byte 58 _ (by simp) h]
  constructor
  · intro h1 h2
    simp [h1, h2]
  · intro h1 h2
    cases ha : atoi p1 with
    | mk n e =>
      cases e with
      | none => exact absurd ha (h2 n)
      | some e => rcases h1 with rfl | rfl <;> simp [ha]

example : newEra b!"+:2:1990/01/01:+*:Heisei:%EC:%Ey" =
    .ok { offset := 2, startDate := b!"1990/01/01", endDate := b!"+*", name := b!"Heisei", format := b!"%EC:%Ey" } := by decide +kernel

example : newEra b!"+:two:a:b:c:d" = .ok {} := by decide +kernel

end Locale
