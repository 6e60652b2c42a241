import Verif.Flag.Model
import Verif.Go.Utf8Props

/-! # C31–C35: option parsing -/

namespace Flag
open Go

variable {p : Parser} {parseInt : Bytes → Option Int}

/-! ## Specification -/

/-- An argument that ends the options and is itself an operand. -/
def IsOperand (a : Bytes) : Prop := a.head? ≠ some 45 ∨ a = b!"-"

/-- The argument made of a dash and the given letters. -/
def dash (ls : List Nat) : Bytes := 45 :: ofRunes ls

/-- A non-empty string of boolean flags that is not the single letter `-` (which would read `--`). -/
structure BoolBundle (p : Parser) (ls : List Nat) : Prop where
  ne : ls ≠ []
  notDash : ls ≠ [45]
  valid : ∀ c ∈ ls, ValidRune c
  registered : ∀ c ∈ ls, ∃ a, p.bools c = some a

/-- What comes after the options: nothing, an operand, or `--`; and the positional arguments. -/
inductive Tail : List Bytes → List Bytes → Prop
  | none : Tail [] []
  | operand (a : Bytes) (rest : List Bytes) : IsOperand a → Tail (a :: rest) (a :: rest)
  | dashes (rest : List Bytes) : Tail (b!"--" :: rest) rest

/-! ## Letters -/

theorem lettersAux_skip (xs rest : Bytes) : lettersAux xs.length (xs ++ rest) = lettersAux 0 rest := by
  induction xs with
  | nil => rfl
  | cons x xs ih => simpa [lettersAux] using ih

/-- The bytes after the first byte of a rune. -/
def after (c : Nat) (rest : Bytes) : Bytes := (encodeRune c).tail ++ rest

theorem letters_encode (c : Nat) (h : ValidRune c) (rest : Bytes) :
    letters (encodeRune c ++ rest) = (c, after c rest) :: letters rest := by
  obtain ⟨b, bs, e, hd⟩ := decode_encode c h rest
  unfold after
  rw [e]
  simp only [letters, List.cons_append, lettersAux, hd, Nat.add_sub_cancel, lettersAux_skip, List.tail_cons]

theorem after_ascii (c : Nat) (h : c < 128) (rest : Bytes) : after c rest = rest := by
  simp [after, encodeRune, h]

theorem bundle_bools (ls : List Nat) (hv : ∀ c ∈ ls, ValidRune c) (hr : ∀ c ∈ ls, ∃ a, p.bools c = some a)
    (more : Bytes) (rest : List Bytes) : ∀ st,
    bundle p parseInt (letters (ofRunes ls ++ more)) rest st =
      bundle p parseInt (letters more) rest (ls.foldl (fun s c => s.setBool ((p.bools c).getD 0)) st) := by
  induction ls with
  | nil => intro st; rfl
  | cons c ls ih =>
    intro st
    obtain ⟨a, ha⟩ := hr c (by simp)
    have e : ofRunes (c :: ls) ++ more = encodeRune c ++ (ofRunes ls ++ more) := by simp [ofRunes]
    rw [e, letters_encode c (hv c (by simp))]
    simp only [bundle, ha, List.foldl_cons]
    rw [ih (fun x hx => hv x (by simp [hx])) (fun x hx => hr x (by simp [hx]))]
    rfl

/-- The first letter's first byte is `-` only for the letter `-`. -/
theorem encode_ne_nil (c : Nat) : encodeRune c ≠ [] := by
  unfold encodeRune
  repeat' split
  all_goals simp

theorem encode_head_dash (c : Nat) (h : ValidRune c) (rest : Bytes) (e : encodeRune c ++ rest = [45]) : c = 45 ∧ rest = [] := by
  obtain ⟨b, bs, hb, hd⟩ := decode_encode c h rest
  rw [hb] at e
  simp only [List.cons_append, List.cons.injEq, List.append_eq_nil_iff] at e
  obtain ⟨rfl, rfl, rfl⟩ := e
  have : decodeRune 45 ([] ++ []) = (45, 1) := decodeRune_ascii 45 _ (by decide)
  rw [this] at hd
  simp at hd
  exact ⟨hd.symm, rfl⟩

theorem dash_is_option (ls : List Nat) (hne : ls ≠ []) (hd : ls ≠ [45]) (hv : ∀ c ∈ ls, ValidRune c) :
    ¬ ((dash ls).length = 0 ∨ (dash ls).head? ≠ some 45 ∨ dash ls = b!"-") ∧ dash ls ≠ b!"--" := by
  obtain ⟨c, cs, rfl⟩ := List.exists_cons_of_ne_nil hne
  have hc := encode_ne_nil c
  constructor
  · simp [dash, ofRunes, hc]
  · intro e
    simp only [dash, ofRunes, List.flatMap_cons, List.cons.injEq, true_and] at e
    obtain ⟨rfl, h2⟩ := encode_head_dash c (hv c (by simp)) _ e
    apply hd
    cases cs with
    | nil => rfl
    | cons d ds =>
      simp only [List.flatMap_cons, List.append_eq_nil_iff] at h2
      exact absurd h2.1 (encode_ne_nil d)

theorem parse_step (arg : Bytes) (rest : List Bytes) (st : Store)
    (h1 : ¬ (arg.length = 0 ∨ arg.head? ≠ some 45 ∨ arg = b!"-")) (h2 : arg ≠ b!"--") :
    parse p parseInt (arg :: rest) st =
      (match (bundle p parseInt (letters arg.tail) rest st).val with
       | .error e => ⟨.error e, (bundle p parseInt (letters arg.tail) rest st).store⟩
       | .ok rest' => parse p parseInt rest' (bundle p parseInt (letters arg.tail) rest st).store) := by
  rw [parse, if_neg h1, if_neg h2]
  split
  · next h => rw [h]
  · next h => rw [h]

theorem parse_dash (ls : List Nat) (rest : List Bytes) (st : Store) (hne : ls ≠ []) (hd : ls ≠ [45])
    (hv : ∀ c ∈ ls, ValidRune c) :
    parse p parseInt (dash ls :: rest) st =
      (match (bundle p parseInt (letters (ofRunes ls)) rest st).val with
       | .error e => ⟨.error e, (bundle p parseInt (letters (ofRunes ls)) rest st).store⟩
       | .ok rest' => parse p parseInt rest' (bundle p parseInt (letters (ofRunes ls)) rest st).store) := by
  obtain ⟨h1, h2⟩ := dash_is_option ls hne hd hv
  rw [parse_step _ _ _ h1 h2]
  rfl

theorem parse_operand (a : Bytes) (rest : List Bytes) (st : Store) (h : IsOperand a) :
    parse p parseInt (a :: rest) st = ⟨.ok (a :: rest), st⟩ := by
  rw [parse, if_pos]
  rcases h with h | h
  · exact .inr (.inl h)
  · exact .inr (.inr h)

theorem parse_dashes (rest : List Bytes) (st : Store) :
    parse p parseInt (b!"--" :: rest) st = ⟨.ok rest, st⟩ := by
  rw [parse, if_neg (by simp), if_pos rfl]

theorem parse_tail {t pos} (h : Tail t pos) (st : Store) : parse p parseInt t st = ⟨.ok pos, st⟩ := by
  cases h with
  | none => rw [parse]
  | operand a rest h => exact parse_operand a rest st h
  | dashes => exact parse_dashes _ st

/-! ## C31 -/

theorem bundle_suffix (ls : List (Nat × Bytes)) : ∀ (rest : List Bytes) (st : Store) (rest' : List Bytes),
    (bundle p parseInt ls rest st).val = .ok rest' →
    ∃ used, rest = used ++ rest' ∧ ∀ t, bundle p parseInt ls (used ++ t) st =
      ⟨.ok t, (bundle p parseInt ls rest st).store⟩ := by
  induction ls with
  | nil => intro rest st rest' h; simp [bundle] at h; subst h; exact ⟨[], rfl, fun t => rfl⟩
  | cons l ls ih =>
    intro rest st rest' h
    obtain ⟨c, value⟩ := l
    cases hb : p.bools c with
    | some a =>
      simp only [bundle, hb] at h ⊢
      obtain ⟨used, e, hu⟩ := ih rest _ rest' h
      exact ⟨used, e, hu⟩
    | none =>
      by_cases hv : value.length = 0
      · cases rest with
        | nil => simp [bundle, hb, valueOf, hv] at h
        | cons v rest1 =>
          have e1 : ∀ r, valueOf value (v :: r) = some (v, r) := by intro r; simp [valueOf, hv]
          simp only [bundle, hb, e1] at h ⊢
          cases ha : assign p parseInt c v st with
          | mk val st' =>
            cases val with
            | error e => simp [ha] at h
            | ok u =>
              simp only [ha] at h ⊢
              obtain ⟨used, e, hu⟩ := ih rest1 st' rest' h
              refine ⟨v :: used, by rw [e]; rfl, ?_⟩
              intro t
              simp only [List.cons_append, e1, ha]
              exact hu t
      · have e1 : ∀ r, valueOf value r = some (value, r) := by intro r; simp [valueOf, hv]
        simp only [bundle, hb, e1] at h ⊢
        cases ha : assign p parseInt c value st with
        | mk val st' =>
          cases val with
          | error e => simp [ha] at h
          | ok u =>
            simp only [ha] at h ⊢
            exact ih rest st' rest' h

/-- C31: when parsing succeeds, the input is options followed by the positional arguments, by `--` and
the positional arguments, or by nothing; and replacing everything after the first operand, or after
`--`, by other arguments changes neither the flags nor the success. -/
theorem C31_suffix (input : List Bytes) (st : Store) (pos : List Bytes)
    (h : (parse p parseInt input st).val = .ok pos) :
    pos <:+ input ∧
    ((pos = []) ∨
     (∃ opts a rest, input = opts ++ a :: rest ∧ pos = a :: rest ∧ IsOperand a ∧
        ∀ t, parse p parseInt (opts ++ a :: t) st = ⟨.ok (a :: t), (parse p parseInt input st).store⟩) ∨
     (∃ opts, input = opts ++ b!"--" :: pos ∧
        ∀ t, parse p parseInt (opts ++ b!"--" :: t) st = ⟨.ok t, (parse p parseInt input st).store⟩)) := by
  match input with
  | [] =>
    rw [parse] at h
    simp at h
    subst h
    exact ⟨List.suffix_refl _, .inl rfl⟩
  | arg :: rest =>
    by_cases h1 : arg.length = 0 ∨ arg.head? ≠ some 45 ∨ arg = b!"-"
    · have hop : IsOperand arg := by
        rcases h1 with h1 | h1 | h1
        · left; have := List.length_eq_zero_iff.1 h1; subst this; simp
        · exact .inl h1
        · exact .inr h1
      rw [parse_operand _ _ _ hop] at h
      simp only [Except.ok.injEq] at h
      subst h
      refine ⟨List.suffix_refl _, .inr (.inl ⟨[], arg, rest, rfl, rfl, hop, ?_⟩)⟩
      intro t
      rw [parse_operand _ _ _ hop]
      exact parse_operand _ _ _ hop
    · by_cases h2 : arg = b!"--"
      · subst h2
        rw [parse_dashes] at h
        simp only [Except.ok.injEq] at h
        subst h
        refine ⟨List.suffix_cons _ _, .inr (.inr ⟨[], rfl, ?_⟩)⟩
        intro t
        rw [parse_dashes]
        exact parse_dashes _ _
      · rw [parse_step _ _ _ h1 h2] at h ⊢
        cases hb : (bundle p parseInt (letters arg.tail) rest st).val with
        | error e => simp [hb] at h
        | ok rest' =>
          simp only [hb] at h ⊢
          have hlen := bundle_rest _ hb
          obtain ⟨used, e, hu⟩ := bundle_suffix _ _ _ _ hb
          obtain ⟨hs, hc⟩ := C31_suffix rest' _ pos h
          refine ⟨?_, ?_⟩
          · obtain ⟨x, hx⟩ := hs
            exact ⟨arg :: used ++ x, by rw [e, ← hx]; simp⟩
          · rcases hc with hc | ⟨opts, a, r, ei, ep, hop, ht⟩ | ⟨opts, ei, ht⟩
            · exact .inl hc
            · refine .inr (.inl ⟨arg :: used ++ opts, a, r, by rw [e, ei]; simp, ep, hop, ?_⟩)
              intro t
              have : arg :: used ++ opts ++ a :: t = arg :: (used ++ (opts ++ a :: t)) := by simp
              rw [this, parse_step _ _ _ h1 h2, hu]
              exact ht t
            · refine .inr (.inr ⟨arg :: used ++ opts, by rw [e, ei]; simp, ?_⟩)
              intro t
              have : arg :: used ++ opts ++ b!"--" :: t = arg :: (used ++ (opts ++ b!"--" :: t)) := by simp
              rw [this, parse_step _ _ _ h1 h2, hu]
              exact ht t
termination_by input.length

/-- C31: `--` in front leaves everything after it alone. -/
theorem C31_double_dash (rest : List Bytes) (st : Store) :
    parse p parseInt (b!"--" :: rest) st = ⟨.ok rest, st⟩ := parse_dashes rest st

/-! ## C32 -/

theorem setBools (ls : List Nat) : ∀ st : Store,
    (ls.foldl (fun s c => s.setBool ((p.bools c).getD 0)) st).int = st.int ∧
    (ls.foldl (fun s c => s.setBool ((p.bools c).getD 0)) st).str = st.str ∧
    ∀ a, (ls.foldl (fun s c => s.setBool ((p.bools c).getD 0)) st).bool a = true ↔
      st.bool a = true ∨ ∃ c ∈ ls, (p.bools c).getD 0 = a := by
  induction ls with
  | nil => intro st; simp
  | cons c ls ih =>
    intro st
    obtain ⟨h1, h2, h3⟩ := ih (st.setBool ((p.bools c).getD 0))
    refine ⟨h1, h2, fun a => ?_⟩
    rw [List.foldl_cons, h3]
    simp only [Store.setBool, List.mem_cons, exists_eq_or_imp]
    by_cases e : a = (p.bools c).getD 0
    · simp [e]
    · have e' : ¬ (p.bools c).getD 0 = a := fun h => e h.symm
      simp [e, e']

/-- The arguments of several bundles. -/
theorem parse_bundles (bs : List (List Nat)) (h : ∀ b ∈ bs, BoolBundle p b) (t : List Bytes) : ∀ st,
    parse p parseInt (bs.map dash ++ t) st =
      parse p parseInt t (bs.flatten.foldl (fun s c => s.setBool ((p.bools c).getD 0)) st) := by
  induction bs with
  | nil => intro st; rfl
  | cons b bs ih =>
    intro st
    have hb := h b (by simp)
    have e := bundle_bools (parseInt := parseInt) b hb.valid hb.registered [] (bs.map dash ++ t) st
    rw [List.append_nil] at e
    rw [List.map_cons, List.cons_append, parse_dash b _ _ hb.ne hb.notDash hb.valid, e]
    have e2 : ∀ st', bundle p parseInt (letters []) (bs.map dash ++ t) st' = ⟨.ok (bs.map dash ++ t), st'⟩ := fun _ => rfl
    simp only [e2, List.flatten_cons, List.foldl_append]
    exact ih (fun x hx => h x (by simp [hx])) _

/-- C32: bundles of boolean flags followed by operands set exactly the flags named and nothing else. -/
theorem C32_bool_bundles (bs : List (List Nat)) (h : ∀ b ∈ bs, BoolBundle p b) {t pos} (ht : Tail t pos) (st : Store) :
    (parse p parseInt (bs.map dash ++ t) st).val = .ok pos ∧
    (parse p parseInt (bs.map dash ++ t) st).store.int = st.int ∧
    (parse p parseInt (bs.map dash ++ t) st).store.str = st.str ∧
    ∀ a, (parse p parseInt (bs.map dash ++ t) st).store.bool a = true ↔
      st.bool a = true ∨ ∃ b ∈ bs, ∃ c ∈ b, p.bools c = some a := by
  rw [parse_bundles bs h, parse_tail ht]
  obtain ⟨h1, h2, h3⟩ := setBools (p := p) bs.flatten st
  refine ⟨rfl, h1, h2, fun a => ?_⟩
  simp only [h3]
  constructor
  · rintro (h' | ⟨c, hc, e⟩)
    · exact .inl h'
    · obtain ⟨b, hb, hcb⟩ := List.mem_flatten.1 hc
      obtain ⟨a', ha'⟩ := (h b hb).registered c hcb
      rw [ha'] at e
      simp at e
      exact .inr ⟨b, hb, c, hcb, by rw [ha', e]⟩
  · rintro (h' | ⟨b, hb, c, hcb, e⟩)
    · exact .inl h'
    · exact .inr ⟨c, List.mem_flatten.2 ⟨b, hb, hcb⟩, by rw [e]; rfl⟩

/-! ## C33 -/

/-- An option with a separate value: boolean letters, a value letter, the value. -/
structure ValueOpt where
  bools : List Nat
  letter : Nat
  value : Bytes

/-- The two arguments of such an option. -/
def ValueOpt.args (o : ValueOpt) : List Bytes := [dash (o.bools ++ [o.letter]), o.value]

/-- The option is usable with the parser: the letter is ASCII and names a string or integer flag and no
boolean one. -/
structure ValueOpt.OK (p : Parser) (o : ValueOpt) : Prop where
  valid : ∀ c ∈ o.bools, ValidRune c
  registered : ∀ c ∈ o.bools, ∃ a, p.bools c = some a
  ascii : o.letter < 128
  notBool : p.bools o.letter = none
  known : p.strings o.letter ≠ none ∨ p.ints o.letter ≠ none
  notDash : o.bools = [] → o.letter ≠ 45

/-- The last value given for the string variable `a`, if any. -/
def lastString (p : Parser) (a : Nat) : List ValueOpt → Option Bytes
  | [] => none
  | o :: os => (lastString p a os).or (if p.strings o.letter = some a then some o.value else none)

/-- The last value given for the integer variable `a`, if any. -/
def lastInt (p : Parser) (parseInt : Bytes → Option Int) (a : Nat) : List ValueOpt → Option Int
  | [] => none
  | o :: os => (lastInt p parseInt a os).or
      (if p.strings o.letter = none ∧ p.ints o.letter = some a then parseInt o.value else none)

/-- The value is acceptable for the letter. -/
def ValueOpt.Parses (p : Parser) (parseInt : Bytes → Option Int) (o : ValueOpt) : Prop :=
  p.strings o.letter ≠ none ∨ ∃ n, parseInt o.value = some n

/-- The boolean letters of an option, applied. -/
def ValueOpt.setBools (p : Parser) (o : ValueOpt) (st : Store) : Store :=
  o.bools.foldl (fun s c => s.setBool ((p.bools c).getD 0)) st

theorem bundle_valueOpt (o : ValueOpt) (h : o.OK p) (t : List Bytes) (st : Store) :
    bundle p parseInt (letters (ofRunes (o.bools ++ [o.letter]))) (o.value :: t) st =
      (match assign p parseInt o.letter o.value (o.setBools p st) with
       | ⟨.ok (), st'⟩ => ⟨.ok t, st'⟩
       | ⟨.error e, st'⟩ => ⟨.error e, st'⟩) := by
  have e : ofRunes (o.bools ++ [o.letter]) = ofRunes o.bools ++ encodeRune o.letter := by simp [ofRunes]
  rw [e, bundle_bools o.bools h.valid h.registered]
  have hvr : ValidRune o.letter := .inl (by have := h.ascii; omega)
  have hl := letters_encode o.letter hvr []
  rw [List.append_nil, after_ascii _ h.ascii] at hl
  rw [hl]
  simp only [bundle, h.notBool, valueOf, List.length_nil, if_true]
  rfl

theorem parse_valueOpt (o : ValueOpt) (h : o.OK p) (t : List Bytes) (st : Store) :
    parse p parseInt (o.args ++ t) st =
      (match assign p parseInt o.letter o.value (o.setBools p st) with
       | ⟨.ok (), st'⟩ => parse p parseInt t st'
       | ⟨.error e, st'⟩ => ⟨.error e, st'⟩) := by
  have hvr : ValidRune o.letter := .inl (by have := h.ascii; omega)
  have h1 : o.bools ++ [o.letter] ≠ [] := by simp
  have h2 : o.bools ++ [o.letter] ≠ [45] := by
    intro e
    have hb : o.bools = [] := by
      have := congrArg List.length e
      simp at this
      exact this
    rw [hb] at e
    simp at e
    exact h.notDash hb e
  have h3 : ∀ c ∈ o.bools ++ [o.letter], ValidRune c := by
    intro c hc
    rcases List.mem_append.1 hc with hc | hc
    · exact h.valid c hc
    · simp at hc; subst hc; exact hvr
  simp only [ValueOpt.args, List.cons_append, List.nil_append]
  rw [parse_dash _ _ _ h1 h2 h3, bundle_valueOpt o h t st]
  cases assign p parseInt o.letter o.value (o.setBools p st) with
  | mk val st' => cases val <;> rfl

theorem assign_ok (o : ValueOpt) (h : o.OK p) (hp : o.Parses p parseInt) (st : Store) :
    ∃ st', assign p parseInt o.letter o.value st = ⟨.ok (), st'⟩ ∧ st'.bool = st.bool ∧
      (∀ a, st'.str a = (if p.strings o.letter = some a then some o.value else none).getD (st.str a)) ∧
      (∀ a, st'.int a = (if p.strings o.letter = none ∧ p.ints o.letter = some a then parseInt o.value else none).getD
        (st.int a)) := by
  unfold assign
  cases hs : p.strings o.letter with
  | some b =>
    refine ⟨_, rfl, rfl, fun a => ?_, fun a => by simp [Store.setStr]⟩
    simp only [Store.setStr, Option.some.injEq]
    by_cases e : a = b
    · subst e; simp
    · have e' : ¬ b = a := fun h => e h.symm
      simp [e, e']
  | none =>
    obtain ⟨n, hn⟩ := hp.resolve_left (by simp [hs])
    cases hi : p.ints o.letter with
    | none => rcases h.known with hk | hk <;> simp_all
    | some b =>
      simp only [hn]
      refine ⟨_, rfl, rfl, fun a => by simp [Store.setInt], fun a => ?_⟩
      simp only [Store.setInt, Option.some.injEq, true_and]
      by_cases e : a = b
      · subst e; simp
      · have e' : ¬ b = a := fun h => e h.symm
        simp [e, e']

/-- C33: a sequence of options with separate acceptable values, followed by operands: parsing succeeds,
every variable holds the last value given for it (or is unchanged), and exactly the boolean flags
named are set. -/
theorem C33_values (os : List ValueOpt) (h : ∀ o ∈ os, o.OK p) (hp : ∀ o ∈ os, o.Parses p parseInt)
    {t pos} (ht : Tail t pos) : ∀ st : Store,
    (parse p parseInt ((os.map ValueOpt.args).flatten ++ t) st).val = .ok pos ∧
    (∀ a, (parse p parseInt ((os.map ValueOpt.args).flatten ++ t) st).store.str a =
      (lastString p a os).getD (st.str a)) ∧
    (∀ a, (parse p parseInt ((os.map ValueOpt.args).flatten ++ t) st).store.int a =
      (lastInt p parseInt a os).getD (st.int a)) ∧
    (∀ a, (parse p parseInt ((os.map ValueOpt.args).flatten ++ t) st).store.bool a = true ↔
      st.bool a = true ∨ ∃ o ∈ os, ∃ c ∈ o.bools, p.bools c = some a) := by
  induction os with
  | nil =>
    intro st
    simp only [List.map_nil, List.flatten_nil, List.nil_append, parse_tail ht]
    simp [lastString, lastInt]
  | cons o os ih =>
    intro st
    have ho := h o (by simp)
    obtain ⟨st', ha, hb, hs, hi⟩ := assign_ok o ho (hp o (by simp)) (o.setBools p st)
    obtain ⟨i1, i2, i3, i4⟩ := ih (fun x hx => h x (by simp [hx])) (fun x hx => hp x (by simp [hx])) st'
    obtain ⟨b1, b2, b3⟩ := setBools (p := p) o.bools st
    have e : ((o :: os).map ValueOpt.args).flatten ++ t = o.args ++ ((os.map ValueOpt.args).flatten ++ t) := by simp
    rw [e, parse_valueOpt o ho, ha]
    simp only
    refine ⟨i1, fun a => ?_, fun a => ?_, fun a => ?_⟩
    · rw [i2, hs]
      simp only [lastString, ValueOpt.setBools, b2]
      cases lastString p a os <;> simp
    · rw [i3, hi]
      simp only [lastInt, ValueOpt.setBools, b1]
      cases lastInt p parseInt a os <;> simp
    · rw [i4, hb]
      simp only [ValueOpt.setBools, b3]
      constructor
      · rintro ((h' | ⟨c, hc, e⟩) | ⟨o', ho', h'⟩)
        · exact .inl h'
        · obtain ⟨a', ha'⟩ := ho.registered c hc
          rw [ha'] at e
          simp at e
          exact .inr ⟨o, by simp, c, hc, by rw [ha', e]⟩
        · exact .inr ⟨o', by simp [ho'], h'⟩
      · rintro (h' | ⟨o', ho', c, hc, e2⟩)
        · exact .inl (.inl h')
        · rcases List.mem_cons.1 ho' with rfl | ho'
          · exact .inl (.inr ⟨c, hc, by rw [e2]; rfl⟩)
          · exact .inr ⟨o', ho', c, hc, e2⟩

/-- C33: an integer flag whose value does not parse makes parsing fail; the options before it have taken
effect, nothing after it has, whatever follows. -/
theorem C33_bad_integer (os : List ValueOpt) (h : ∀ o ∈ os, o.OK p) (hp : ∀ o ∈ os, o.Parses p parseInt)
    (o : ValueOpt) (ho : o.OK p) (hbad : ¬ o.Parses p parseInt) (t : List Bytes) : ∀ (st : Store),
    (parse p parseInt ((os.map ValueOpt.args).flatten ++ o.args ++ t) st).val = .error .nonInt ∧
    (∀ a, (parse p parseInt ((os.map ValueOpt.args).flatten ++ o.args ++ t) st).store.str a =
      (lastString p a os).getD (st.str a)) ∧
    (∀ a, (parse p parseInt ((os.map ValueOpt.args).flatten ++ o.args ++ t) st).store.int a =
      (lastInt p parseInt a os).getD (st.int a)) := by
  induction os with
  | nil =>
    intro st
    have hs : p.strings o.letter = none := by
      cases hs : p.strings o.letter with
      | none => rfl
      | some a => exact absurd (.inl (by simp [hs])) hbad
    have hn : parseInt o.value = none := by
      cases hn : parseInt o.value with
      | none => rfl
      | some a => exact absurd (.inr ⟨a, hn⟩) hbad
    have : assign p parseInt o.letter o.value (o.setBools p st) = ⟨.error .nonInt, o.setBools p st⟩ := by
      unfold assign
      rw [hs]
      cases hi : p.ints o.letter with
      | none => rcases ho.known with hk | hk <;> simp_all
      | some b => simp [hn]
    obtain ⟨b1, b2, b3⟩ := setBools (p := p) o.bools st
    simp only [List.map_nil, List.flatten_nil, List.nil_append]
    rw [parse_valueOpt o ho, this]
    simp [lastString, lastInt, ValueOpt.setBools, b1, b2]
  | cons o' os ih =>
    intro st
    have ho' := h o' (by simp)
    obtain ⟨st', ha, hb, hs, hi⟩ := assign_ok o' ho' (hp o' (by simp)) (o'.setBools p st)
    obtain ⟨i1, i2, i3⟩ := ih (fun x hx => h x (by simp [hx])) (fun x hx => hp x (by simp [hx])) st'
    obtain ⟨b1, b2, b3⟩ := setBools (p := p) o'.bools st
    have e : ((o' :: os).map ValueOpt.args).flatten ++ o.args ++ t =
        o'.args ++ ((os.map ValueOpt.args).flatten ++ o.args ++ t) := by simp
    rw [e, parse_valueOpt o' ho', ha]
    simp only
    refine ⟨i1, fun a => ?_, fun a => ?_⟩
    · rw [i2, hs]
      simp only [lastString, ValueOpt.setBools, b2]
      cases lastString p a os <;> simp
    · rw [i3, hi]
      simp only [lastInt, ValueOpt.setBools, b1]
      cases lastInt p parseInt a os <;> simp

/-! ## C34 -/

/-- C34: what an attached value really does: it is assigned, and then its characters are processed as a
bundle of their own. -/
theorem C34_attached (x a : Nat) (hx : x < 128) (hb : p.bools x = none) (hs : p.strings x = some a) (v : List Nat)
    (hv : ∀ c ∈ v, ValidRune c) (hne : v ≠ []) (hd : v ≠ [45]) (rest : List Bytes) (st : Store) :
    parse p parseInt (dash (x :: v) :: rest) st = parse p parseInt (dash v :: rest) (st.setStr a (ofRunes v)) := by
  have hvr : ValidRune x := .inl (by omega)
  have hlen : ofRunes v ≠ [] := by
    obtain ⟨c, cs, rfl⟩ := List.exists_cons_of_ne_nil hne
    simp [ofRunes, encode_ne_nil]
  rw [parse_dash (x :: v) rest st (by simp) (by simp [hne]) (by simpa [hvr] using hv), parse_dash v rest _ hne hd hv]
  have e : ofRunes (x :: v) = encodeRune x ++ ofRunes v := by simp [ofRunes]
  rw [e, letters_encode x hvr, after_ascii x hx]
  have hl : ¬ (ofRunes v).length = 0 := fun h => hlen (List.length_eq_zero_iff.1 h)
  simp only [bundle, hb, valueOf, if_neg hl, assign, hs]

/-- The parser of the counterexample: `-o` takes a string, `-v` is boolean. -/
def demo : Parser := ((({} : Parser).stringVar 0 111).boolVar 0 118)

/-- C34 is false: with a string flag `o` and a boolean flag `v`, `-ov` also sets `v`; and `-of` fails. -/
theorem C34_counterexample (st : Store) :
    (parse demo parseInt [b!"-ov"] st).store.bool 0 = true ∧ (parse demo parseInt [b!"-ov"] st).store.str 0 = b!"v" ∧
    ((parse demo parseInt [b!"-of"] st).val = .error (.panic .index)) ∧
    ((parse demo parseInt [b!"-of", b!"x"] st).val = .error .unknown) := by
  have l1 : letters b!"ov" = [(111, b!"v"), (118, [])] := by decide
  have l2 : letters b!"of" = [(111, b!"f"), (102, [])] := by decide
  refine ⟨?_, ?_, ?_, ?_⟩
  · rw [parse_step _ _ _ (by simp) (by simp)]
    simp [l1, bundle, demo, Parser.stringVar, Parser.boolVar, valueOf, assign, parse, Store.setBool, Store.setStr]
  · rw [parse_step _ _ _ (by simp) (by simp)]
    simp [l1, bundle, demo, Parser.stringVar, Parser.boolVar, valueOf, assign, parse, Store.setBool, Store.setStr]
  · rw [parse_step _ _ _ (by simp) (by simp)]
    simp [l2, bundle, demo, Parser.stringVar, Parser.boolVar, valueOf, assign]
  · rw [parse_step _ _ _ (by simp) (by simp)]
    simp [l2, bundle, demo, Parser.stringVar, Parser.boolVar, valueOf, assign]

/-- C34, the part that holds: if every character of the attached value is a boolean flag that is already
set, the value is assigned and nothing else changes. -/
theorem C34_attached_partial (x a : Nat) (hx : x < 128) (hb : p.bools x = none) (hs : p.strings x = some a)
    (v : List Nat) (hv : BoolBundle p v) (st : Store)
    (hset : ∀ c ∈ v, ∀ b, p.bools c = some b → st.bool b = true) {t pos} (ht : Tail t pos) :
    (parse p parseInt (dash (x :: v) :: t) st).val = .ok pos ∧
    (∀ b, (parse p parseInt (dash (x :: v) :: t) st).store.bool b = st.bool b) ∧
    (parse p parseInt (dash (x :: v) :: t) st).store.int = st.int ∧
    (∀ b, (parse p parseInt (dash (x :: v) :: t) st).store.str b = if b = a then ofRunes v else st.str b) := by
  rw [C34_attached x a hx hb hs v hv.valid hv.ne hv.notDash]
  have h := C32_bool_bundles (parseInt := parseInt) [v] (by simpa using hv) ht (st.setStr a (ofRunes v))
  simp only [List.map_cons, List.map_nil, List.cons_append, List.nil_append] at h
  obtain ⟨h1, h2, h3, h4⟩ := h
  refine ⟨h1, fun b => ?_, h2, fun b => by rw [h3]; rfl⟩
  rw [Bool.eq_iff_iff, h4]
  constructor
  · rintro (h' | ⟨b', hb', c, hc, e⟩)
    · exact h'
    · simp at hb'; subst hb'; exact hset c hc b e
  · intro h'; exact .inl h'

/-! ## C35 -/

/-- C35: if the last argument ends in an ASCII letter that is not a boolean flag, after boolean
letters, parsing panics: also for a registered value flag, instead of reporting an error. -/
theorem C35_missing_value (bs : List (List Nat)) (h : ∀ b ∈ bs, BoolBundle p b) (ls : List Nat) (x : Nat)
    (hv : ∀ c ∈ ls, ValidRune c) (hr : ∀ c ∈ ls, ∃ a, p.bools c = some a) (hx : x < 128) (hb : p.bools x = none)
    (hd : ls = [] → x ≠ 45) (st : Store) :
    (parse p parseInt (bs.map dash ++ [dash (ls ++ [x])]) st).val = .error (.panic .index) := by
  rw [parse_bundles bs h]
  generalize bs.flatten.foldl (fun s c => s.setBool ((p.bools c).getD 0)) st = st1
  have hvr : ValidRune x := .inl (by omega)
  have h2 : ls ++ [x] ≠ [45] := by
    intro e
    have hb : ls = [] := by
      have := congrArg List.length e
      simp at this
      exact this
    rw [hb] at e
    simp at e
    exact hd hb e
  rw [parse_dash _ _ _ (by simp) h2 (by
    intro c hc
    rcases List.mem_append.1 hc with hc | hc
    · exact hv c hc
    · simp at hc; subst hc; exact hvr)]
  have e : ofRunes (ls ++ [x]) = ofRunes ls ++ encodeRune x := by simp [ofRunes]
  have hl := letters_encode x hvr []
  rw [List.append_nil, after_ascii _ hx] at hl
  rw [e, bundle_bools ls hv hr, hl]
  simp [bundle, hb, valueOf]

/-- C35: a value flag that is not ASCII never reads a separate value: it receives the trailing bytes of
its own encoding. -/
theorem C35_non_ascii (x a : Nat) (hvr : ValidRune x) (hx : 128 ≤ x) (hb : p.bools x = none) (hs : p.strings x = some a)
    (rest : List Bytes) (st : Store) :
    parse p parseInt (dash [x] :: rest) st = parse p parseInt rest (st.setStr a (encodeRune x).tail) := by
  rw [parse_dash [x] rest st (by simp) (by simp; omega) (by simpa using hvr)]
  have hl := letters_encode x hvr []
  have e : ofRunes [x] = encodeRune x ++ [] := by simp [ofRunes]
  have hlen : (after x []).length ≠ 0 := by
    have : ¬ x < 128 := by omega
    simp only [after, encodeRune, this, if_false]
    repeat' split
    all_goals simp
  have e3 : after x [] = (encodeRune x).tail := by simp [after]
  have e4 : letters [] = [] := rfl
  rw [e3] at hlen
  rw [e, hl]
  simp only [bundle, hb, valueOf, if_neg hlen, assign, hs, e3, e4]

/-! ## Examples: the hypotheses are met -/

example : BoolBundle demo [118, 118] := ⟨by simp, by simp, by simp [ValidRune], by simp [demo, Parser.boolVar]⟩

example : ValueOpt.OK demo ⟨[118], 111, b!"x"⟩ :=
  ⟨by simp [ValidRune], by simp [demo, Parser.boolVar], by simp, by simp [demo, Parser.boolVar, Parser.stringVar],
    .inl (by simp [demo, Parser.boolVar, Parser.stringVar]), by simp⟩

example (st : Store) : (parse demo parseInt [b!"-vo", b!"1", b!"-o", b!"2", b!"--", b!"-v"] st).store.str 0 = b!"2" := by
  have h := (C33_values (p := demo) (parseInt := parseInt) [⟨[118], 111, b!"1"⟩, ⟨[], 111, b!"2"⟩]
    (by
      intro o ho
      simp only [List.mem_cons, List.not_mem_nil, or_false] at ho
      rcases ho with rfl | rfl
      · exact ⟨by simp [ValidRune], by simp [demo, Parser.boolVar], by simp,
          by simp [demo, Parser.boolVar, Parser.stringVar], .inl (by simp [demo, Parser.boolVar, Parser.stringVar]), by simp⟩
      · exact ⟨by simp, by simp, by simp, by simp [demo, Parser.boolVar, Parser.stringVar],
          .inl (by simp [demo, Parser.boolVar, Parser.stringVar]), by simp⟩)
    (by
      intro o ho
      simp only [List.mem_cons, List.not_mem_nil, or_false] at ho
      rcases ho with rfl | rfl <;> exact .inl (by simp [demo, Parser.boolVar, Parser.stringVar]))
    (.dashes [b!"-v"]) st).2.1 0
  exact h

end Flag
