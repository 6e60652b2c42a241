import Verif.Cut.CommandLine
import Verif.Cut.Props

/-! # C81: what cut makes of its command line -/

namespace Cut
open Go Go.FlagLib

/-! ## Specification -/

/-- Options as POSIX writes them with a separate value, and the two without one. -/
inductive Item where
  | value (letter : UInt8) (v : Bytes)
  | plain (letter : UInt8)
  deriving DecidableEq

/-- The letters cut knows. -/
def Item.OK : Item → Prop
  | .value x _ => x ∈ b!"fbcd"
  | .plain x => x ∈ b!"ns"

/-- The arguments of an option. -/
def Item.args : Item → List Bytes
  | .value x v => [[45, x], v]
  | .plain x => [[45, x]]

/-- The last value given for a letter. -/
def lastValue (x : UInt8) : List Item → Option Bytes
  | [] => none
  | .value y v :: is => (lastValue x is).or (if y = x then some v else none)
  | .plain _ :: is => lastValue x is

/-- What can follow the options: nothing, `--`, or an operand, that is, an argument that does not begin
with a dash or is a single dash. -/
def EndsOptions : List Bytes → Prop
  | [] => True
  | a :: _ => a = b!"--" ∨ a = b!"-" ∨ a.head? ≠ some 45

/-- The message cut ends with, given whether there is a selection. -/
def message (selected : Bool) : Bytes :=
  if selected then b!"Error: only specify one of -f, -b, and -c" else b!"Error: gotta specify at least one of -f, -b, and -c"

/-- Is there a selection: a non-empty last value of one of the three letters? -/
def selects (items : List Item) : Bool :=
  [102, 98, 99].any (fun x => (lastValue x items).getD [] != [])

/-! ## Proofs -/

/-- The assignment an option makes. -/
def Item.entry : Item → Bytes × Bytes
  | .value x v => ([x], v)
  | .plain x => ([x], b!"true")

theorem parse_item {i : Item} (h : i.OK) (rest : List Bytes) (set : List (Bytes × Bytes)) :
    parse formal (i.args ++ rest) set = parse formal rest (set ++ [i.entry]) := by
  cases i with
  | value x v =>
    simp only [Item.OK, List.mem_cons, List.not_mem_nil, or_false] at h
    rcases h with rfl | rfl | rfl | rfl <;> rfl
  | plain x =>
    simp only [Item.OK, List.mem_cons, List.not_mem_nil, or_false] at h
    rcases h with rfl | rfl <;> rfl

theorem parse_items (items : List Item) : (∀ i ∈ items, i.OK) → ∀ (rest : List Bytes) (set : List (Bytes × Bytes)),
    parse formal ((items.map Item.args).flatten ++ rest) set = parse formal rest (set ++ items.map Item.entry) := by
  induction items with
  | nil => intro _ rest set; simp
  | cons i is ih =>
    intro h rest set
    simp only [List.map_cons, List.flatten_cons, List.append_assoc]
    rw [parse_item (h i (by simp)), ih (fun j hj => h j (by simp [hj]))]
    simp

theorem parse_end {t : List Bytes} (h : EndsOptions t) (set : List (Bytes × Bytes)) : ∃ args, parse formal t set = .ok set args := by
  match t, h with
  | [], _ => exact ⟨[], rfl⟩
  | a :: t, h =>
    rcases h with rfl | rfl | h
    · exact ⟨t, rfl⟩
    · exact ⟨_, rfl⟩
    · have : classify a = .operand := by
        match a, h with
        | [], _ => rfl
        | [_], _ => rfl
        | c :: d :: rest, h =>
          have hc : c ≠ 45 := by intro e; subst e; simp at h
          simp [classify, hc]
      exact ⟨a :: t, by simp [parse, this]⟩

theorem last_append (name : Bytes) (xs ys : List (Bytes × Bytes)) : last name (xs ++ ys) = (last name ys).or (last name xs) := by
  simp only [last, List.reverse_append, List.find?_append]
  cases h : List.find? (fun p => p.1 == name) ys.reverse <;> simp

theorem last_items (x : UInt8) (hx : x ∉ b!"ns") (items : List Item) (h : ∀ i ∈ items, i.OK) :
    last [x] (items.map Item.entry) = lastValue x items := by
  induction items with
  | nil => rfl
  | cons i is ih =>
    have e : (i :: is).map Item.entry = [i.entry] ++ is.map Item.entry := rfl
    rw [e, last_append, ih (fun j hj => h j (by simp [hj]))]
    cases i with
    | value y v =>
      simp only [lastValue, Item.entry, last]
      by_cases hy : y = x
      · subst hy; simp
      · simp [hy]
    | plain y =>
      have hy : y ≠ x := by
        intro e; subst e
        exact hx (h (.plain y) (by simp))
      simp [lastValue, Item.entry, last, hy]

theorem main_message (o : Options) : main o = ⟨[], message (o.fields != [] || o.bytes != [] || o.chars != []), 1⟩ := by
  obtain ⟨f, b, c, d, n, s⟩ := o
  cases f <;> cases b <;> cases c <;> simp [main, checkArgs, message]

/-- **C81** Options with separate values, in any order and number, followed by operands: the command line is
understood (the last value of each letter counts), but cut only ever ends with status 1 and a message that
depends on whether there is a selection. -/
theorem C81_separate_values (hs : Nat) (usage : Bytes) (items : List Item) (h : ∀ i ∈ items, i.OK) (t : List Bytes) (ht : EndsOptions t) :
    run hs usage ((items.map Item.args).flatten ++ t) = ⟨[], message (selects items), 1⟩ := by
  obtain ⟨args, e⟩ := parse_end ht (items.map Item.entry)
  rw [run, parse_items items h]
  simp only [List.nil_append, e]
  rw [main_message]
  simp only [options, last_items 102 (by decide) items h, last_items 98 (by decide) items h, last_items 99 (by decide) items h]
  simp [selects, Bool.or_assoc]

example : run 0 b!"Usage" [b!"-d", b!":", b!"-f", b!"1,3", b!"-s", b!"/etc/passwd"] =
    ⟨[], b!"Error: only specify one of -f, -b, and -c", 1⟩ :=
  C81_separate_values 0 b!"Usage" [.value 100 b!":", .value 102 b!"1,3", .plain 115] (by simp [Item.OK]) [b!"/etc/passwd"] (.inr (.inr (by decide)))

theorem last_plain (x : UInt8) (hx : x ∈ b!"ns") (items : List Item) (h : ∀ i ∈ items, i.OK) :
    last [x] (items.map Item.entry) = if .plain x ∈ items then some b!"true" else none := by
  induction items with
  | nil => rfl
  | cons i is ih =>
    have e : (i :: is).map Item.entry = [i.entry] ++ is.map Item.entry := rfl
    rw [e, last_append, ih (fun j hj => h j (by simp [hj]))]
    cases i with
    | value y v =>
      have hy : y ≠ x := by
        intro e; subst e
        have := h (.value y v) (by simp)
        simp only [Item.OK, List.mem_cons, List.not_mem_nil, or_false] at this hx
        rcases this with rfl | rfl | rfl | rfl <;> simp at hx
      by_cases hm : Item.plain x ∈ is <;> simp [hm, Item.entry, last, hy]
    | plain y =>
      by_cases hm : Item.plain x ∈ is
      · simp [hm]
      · by_cases hy : y = x
        · subst hy; simp [hm, Item.entry, last]
        · have hy' : x ≠ y := fun e => hy e.symm
          simp [hm, Item.entry, last, hy, hy']

/-- **C81** What cut takes from such a command line: the last value of each letter, a tab as the delimiter if none is
given, and the two letters without a value. -/
theorem C81_values (items : List Item) (h : ∀ i ∈ items, i.OK) (t : List Bytes) (ht : EndsOptions t) :
    ∃ set args, parse formal ((items.map Item.args).flatten ++ t) [] = .ok set args ∧
      options set =
        { fields := (lastValue 102 items).getD [], bytes := (lastValue 98 items).getD [], chars := (lastValue 99 items).getD []
          delim := (lastValue 100 items).getD b!"\t", noSplit := decide (.plain 110 ∈ items), suppress := decide (.plain 115 ∈ items) } := by
  obtain ⟨args, e⟩ := parse_end ht (items.map Item.entry)
  refine ⟨_, _, (by rw [parse_items items h]; simpa using e), ?_⟩
  simp only [options, last_items 102 (by decide) items h, last_items 98 (by decide) items h, last_items 99 (by decide) items h,
    last_items 100 (by decide) items h, last_plain 110 (by decide) items h, last_plain 115 (by decide) items h]
  by_cases h1 : Item.plain 110 ∈ items <;> by_cases h2 : Item.plain 115 ∈ items <;> simp [h1, h2, parseBool]

example : ∃ set args, parse formal [b!"-f", b!"1", b!"-s", b!"-f", b!"2", b!"x"] [] = .ok set args ∧
    options set = { fields := b!"2", bytes := [], chars := [], delim := b!"\t", noSplit := false, suppress := true } :=
  C81_values [.value 102 b!"1", .plain 115, .value 102 b!"2"] (by simp [Item.OK]) [b!"x"] (.inr (.inr (by decide)))

/-- The ways to write a truth value. -/
def booleans : List (Bytes × Bool) :=
  [(b!"1", true), (b!"t", true), (b!"T", true), (b!"TRUE", true), (b!"true", true), (b!"True", true),
    (b!"0", false), (b!"f", false), (b!"F", false), (b!"FALSE", false), (b!"false", false), (b!"False", false)]

theorem parseBool_eq (v : Bytes) (b : Bool) : parseBool v = some b ↔ (v, b) ∈ booleans := by
  have tr : (v, true) ∈ booleans ↔ (v = b!"1" ∨ v = b!"t" ∨ v = b!"T" ∨ v = b!"TRUE" ∨ v = b!"true" ∨ v = b!"True") := by
    simp [booleans]
  have fa : (v, false) ∈ booleans ↔ (v = b!"0" ∨ v = b!"f" ∨ v = b!"F" ∨ v = b!"FALSE" ∨ v = b!"false" ∨ v = b!"False") := by
    simp [booleans]
  unfold parseBool
  cases b with
  | true =>
    rw [tr]
    split
    · simpa
    · rename_i k1
      split
      · rename_i k2
        simp [k1, k2]
      · rename_i k2
        simp [k1, k2]
  | false =>
    rw [fa]
    split
    · rename_i k
      simp only [Option.some.injEq, Bool.true_eq_false, false_iff]
      rcases k with rfl | rfl | rfl | rfl | rfl | rfl <;> decide
    · rename_i k1
      split
      · rename_i k2
        simp [k1, k2]
      · rename_i k2
        simp [k1, k2]

/-- **C81** The letters without a value also take one after an equals sign: twelve spellings are understood, with their
value, anything else is refused with status 2. -/
theorem C81_boolean_values (hs : Nat) (usage : Bytes) (items : List Item) (h : ∀ i ∈ items, i.OK) (x : UInt8) (hx : x ∈ b!"ns")
    (v : Bytes) (t : List Bytes) (ht : EndsOptions t) :
    (∀ b, (v, b) ∈ booleans → ∃ set args, parse formal ((items.map Item.args).flatten ++ (45 :: x :: 61 :: v) :: t) [] = .ok set args ∧
      (if x = 110 then (options set).noSplit else (options set).suppress) = b) ∧
    ((∀ b, (v, b) ∉ booleans) → (run hs usage ((items.map Item.args).flatten ++ (45 :: x :: 61 :: v) :: t)).stdout = [] ∧
      (run hs usage ((items.map Item.args).flatten ++ (45 :: x :: 61 :: v) :: t)).exit = 2) := by
  have e1 : classify (45 :: x :: 61 :: v) = .flag [x] (some v) := by
    simp only [List.mem_cons, List.not_mem_nil, or_false] at hx
    rcases hx with rfl | rfl <;> simp [classify, classifyName, splitEq]
  have e2 : formal [x] = some .bool := by
    simp only [List.mem_cons, List.not_mem_nil, or_false] at hx
    rcases hx with rfl | rfl <;> rfl
  constructor
  · intro b hb
    have hp := (parseBool_eq v b).mpr hb
    obtain ⟨args, e⟩ := parse_end ht (items.map Item.entry ++ [([x], v)])
    refine ⟨items.map Item.entry ++ [([x], v)], args, ?_, ?_⟩
    · rw [parse_items items h]
      simp only [parse, e1, e2, hp, List.nil_append]
      exact e
    · simp only [List.mem_cons, List.not_mem_nil, or_false] at hx
      rcases hx with rfl | rfl <;> simp [options, last_append, last, hp]
  · intro hb
    have hp : parseBool v = none := by
      cases e : parseBool v with
      | none => rfl
      | some b => exact absurd ((parseBool_eq v b).mp e) (hb b)
    rw [run, parse_items items h]
    simp only [parse, e1, e2, hp, if_pos, and_self]

example : ∃ set args, parse formal [b!"-f", b!"1", b!"-s", b!"-s=F", b!"x"] [] = .ok set args ∧ (options set).suppress = false := by
  have := (C81_boolean_values 0 [] [.value 102 b!"1", .plain 115] (by simp [Item.OK]) 115 (by decide) b!"F" [b!"x"]
    (.inr (.inr (by decide)))).1 false (by decide)
  exact this

example : (run 0 [] [b!"-n=yes"]).exit = 2 :=
  ((C81_boolean_values 0 [] [] (by simp) 110 (by decide) b!"yes" [] trivial).2 (by decide)).2

theorem splitEq_append (w : Bytes) : ∃ u, (splitEq w).1 ++ u = w ∧ (61 ∉ w → (splitEq w).1 = w ∧ (splitEq w).2 = none) := by
  induction w with
  | nil => exact ⟨[], rfl, fun _ => ⟨rfl, rfl⟩⟩
  | cons c cs ih =>
    obtain ⟨u, h1, h2⟩ := ih
    simp only [splitEq]
    by_cases hc : c = 61
    · subst hc
      exact ⟨61 :: cs, by simp, by simp⟩
    · rw [if_neg hc]
      refine ⟨u, by simp [h1], ?_⟩
      intro hn
      obtain ⟨g1, g2⟩ := h2 (by intro hm; exact hn (by simp [hm]))
      exact ⟨by simp [g1], g2⟩

/-- **C81** A value attached to its letter, or letters bundled, as POSIX allows (`-f1`, `-ns`), are refused with
status 2: the whole word is taken for the name of a flag. -/
theorem C81_attached_refused (hs : Nat) (usage : Bytes) (items : List Item) (h : ∀ i ∈ items, i.OK) (x c : UInt8) (w : Bytes)
    (hx : x ∈ b!"fbcdns") (hc : c ≠ 61) (hw : 61 ∉ w) (t : List Bytes) :
    run hs usage ((items.map Item.args).flatten ++ (45 :: x :: c :: w) :: t) =
      ⟨[], b!"flag provided but not defined: -" ++ (x :: c :: w) ++ [nl] ++ usage, 2⟩ := by
  rw [run, parse_items items h]
  obtain ⟨_, _, h2⟩ := splitEq_append w
  obtain ⟨g1, g2⟩ := h2 hw
  have hx1 : x ≠ 45 ∧ x ≠ 61 ∧ x ≠ 104 := by
    simp only [List.mem_cons, List.not_mem_nil, or_false] at hx
    rcases hx with rfl | rfl | rfl | rfl | rfl | rfl <;> decide
  have e1 : classify (45 :: x :: c :: w) = .flag (x :: c :: w) none := by
    simp [classify, classifyName, splitEq, hx1.1, hx1.2.1, hc, g1, g2]
  have e2 : formal (x :: c :: w) = none := by simp [formal]
  have e3 : ¬ ((x :: c :: w) = b!"help" ∨ (x :: c :: w) = b!"h") := by
    rintro (e | e) <;> simp at e
    exact hx1.2.2 e.1
  simp only [parse, e1, e2, if_neg e3]

example : run 0 b!"Usage" [b!"-s", b!"-f1", b!"file"] = ⟨[], b!"flag provided but not defined: -f1\nUsage", 2⟩ :=
  C81_attached_refused 0 b!"Usage" [.plain 115] (by simp [Item.OK]) 102 49 [] (by decide) (by decide) (by decide) [b!"file"]

/-- **C81** A letter that needs a value, at the end of the line, is refused with status 2. -/
theorem C81_missing_value (hs : Nat) (usage : Bytes) (items : List Item) (h : ∀ i ∈ items, i.OK) (x : UInt8) (hx : x ∈ b!"fbcd") :
    run hs usage ((items.map Item.args).flatten ++ [[45, x]]) = ⟨[], b!"flag needs an argument: -" ++ [x] ++ [nl] ++ usage, 2⟩ := by
  rw [run, parse_items items h]
  simp only [List.mem_cons, List.not_mem_nil, or_false] at hx
  rcases hx with rfl | rfl | rfl | rfl <;> rfl

example : run 0 b!"Usage" [b!"-s", b!"-f"] = ⟨[], b!"flag needs an argument: -f\nUsage", 2⟩ :=
  C81_missing_value 0 b!"Usage" [.plain 115] (by simp [Item.OK]) 102 (by decide)

/-- Arguments that ask for help. -/
def AsksHelp (a : Bytes) : Prop := ∃ dashes name tail, a = dashes ++ name ++ tail ∧ (dashes = b!"-" ∨ dashes = b!"--") ∧
  (name = b!"h" ∨ name = b!"help") ∧ (tail = [] ∨ tail.head? = some 61)

/-- What follows the name of a flag: nothing, or an equals sign and the value. -/
def valueText : Option Bytes → Bytes
  | none => []
  | some v => 61 :: v

theorem splitEq_value (w : Bytes) : w = (splitEq w).1 ++ valueText (splitEq w).2 := by
  induction w with
  | nil => rfl
  | cons c cs ih =>
    simp only [splitEq]
    by_cases hc : c = 61
    · subst hc; simp [valueText]
    · rw [if_neg hc]
      simp only [List.cons_append]
      rw [← ih]

theorem classifyName_flag {w name : Bytes} {value : Option Bytes} (h : classifyName w = .flag name value) :
    w = name ++ valueText value := by
  match w, h with
  | c :: cs, h =>
    simp only [classifyName] at h
    by_cases hc : c = 45 ∨ c = 61
    · rw [if_pos hc] at h; cases h
    · rw [if_neg hc] at h
      cases h
      rw [List.cons_append, ← splitEq_value cs]

theorem classify_flag {s name : Bytes} {value : Option Bytes} (h : classify s = .flag name value) :
    ∃ dashes, (dashes = b!"-" ∨ dashes = b!"--") ∧ s = dashes ++ name ++ valueText value := by
  match s, h with
  | c :: d :: rest, h =>
    simp only [classify] at h
    by_cases hc : c ≠ 45
    · rw [if_pos hc] at h; cases h
    · rw [if_neg hc] at h
      have hc : c = 45 := by simpa using hc
      by_cases hd : d = 45
      · rw [if_pos hd] at h
        by_cases hr : rest = []
        · rw [if_pos hr] at h; cases h
        · rw [if_neg hr] at h
          exact ⟨b!"--", .inr rfl, by rw [List.append_assoc, ← classifyName_flag h]; simp [hc, hd]⟩
      · rw [if_neg hd] at h
        exact ⟨b!"-", .inl rfl, by rw [List.append_assoc, ← classifyName_flag h]; simp [hc]⟩

theorem parse_help : ∀ (n : Nat) (args : List Bytes), args.length ≤ n → ∀ set, parse formal args set = .help → ∃ a ∈ args, AsksHelp a := by
  intro n
  induction n with
  | zero => intro args hn set h; cases args with
    | nil => cases h
    | cons a t => simp at hn
  | succ n ih =>
    intro args hn set h
    match args, hn, h with
    | s :: args, hn, h =>
      simp only [List.length_cons] at hn
      have lift : ∀ {bs : List Bytes}, bs.length ≤ n → (∀ b ∈ bs, b ∈ args) → ∀ set, parse formal bs set = .help → ∃ a ∈ s :: args, AsksHelp a := by
        intro bs hb hsub set hh
        obtain ⟨a, ha, hq⟩ := ih bs hb set hh
        exact ⟨a, by simp [hsub a ha], hq⟩
      cases hcl : classify s with
      | operand => simp [parse, hcl] at h
      | dashes => simp [parse, hcl] at h
      | bad => simp [parse, hcl] at h
      | flag name value =>
        cases hf : formal name with
        | none =>
          simp only [parse, hcl, hf] at h
          by_cases hh : name = b!"help" ∨ name = b!"h"
          · obtain ⟨dashes, hd, e⟩ := classify_flag hcl
            refine ⟨s, by simp, dashes, name, _, e, hd, hh.symm, ?_⟩
            cases value <;> simp [valueText]
          · rw [if_neg hh] at h; cases h
        | some k =>
          cases k with
          | bool =>
            cases value with
            | none =>
              simp only [parse, hcl, hf] at h
              exact lift (by omega) (by simp) _ h
            | some v =>
              simp only [parse, hcl, hf] at h
              by_cases hb : parseBool v = none
              · rw [if_pos hb] at h; cases h
              · rw [if_neg hb] at h
                exact lift (by omega) (by simp) _ h
          | string =>
            cases value with
            | some v =>
              simp only [parse, hcl, hf] at h
              exact lift (by omega) (by simp) _ h
            | none =>
              cases args with
              | nil => simp [parse, hcl, hf] at h
              | cons v args =>
                simp only [parse, hcl, hf] at h
                simp only [List.length_cons] at hn
                exact lift (by omega) (by intro b hb; simp [hb]) _ h

/-- **C81** Whatever the command line, cut prints nothing on its standard output and fails with status 1 or 2,
unless an argument asks for help. -/
theorem C81_never_works (hs : Nat) (usage : Bytes) (args : List Bytes) :
    (run hs usage args).stdout = [] ∧
    ((run hs usage args).exit = 1 ∨ (run hs usage args).exit = 2 ∨ ((run hs usage args).exit = hs ∧ ∃ a ∈ args, AsksHelp a)) := by
  simp only [run]
  cases h : parse formal args [] with
  | ok set t => exact ⟨(C52_always_fails _).1, .inl (C52_always_fails _).2⟩
  | bad msg => exact ⟨rfl, .inr (.inl rfl)⟩
  | help => exact ⟨rfl, .inr (.inr ⟨rfl, parse_help _ args (Nat.le_refl _) [] h⟩)⟩

end Cut
