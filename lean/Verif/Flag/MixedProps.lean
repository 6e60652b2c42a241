import Verif.Flag.Props

/-!
# C32, C33, C35: bundles and options with values in any order

`-v -n 5 -q`: the theorems about bundles and about options with values, for command lines that mix them.
-/

namespace Flag
open Go

variable {p : Parser} {parseInt : Bytes → Option Int}

/-! ## Specification -/

/-- One option on the command line: a bundle of boolean flags, or an option with a separate value. -/
inductive Opt where
  | flags (ls : List Nat)
  | value (o : ValueOpt)

/-- The arguments it is given as. -/
def Opt.args : Opt → List Bytes
  | .flags ls => [dash ls]
  | .value o => o.args

/-- It is usable with the parser. -/
def Opt.OK (p : Parser) : Opt → Prop
  | .flags ls => BoolBundle p ls
  | .value o => o.OK p

/-- Its value, if it needs an integer, is one. -/
def Opt.Parses (p : Parser) (parseInt : Bytes → Option Int) : Opt → Prop
  | .flags _ => True
  | .value o => o.Parses p parseInt

/-- The letters of boolean flags in it. -/
def Opt.bools : Opt → List Nat
  | .flags ls => ls
  | .value o => o.bools

/-- The options with values among them. -/
def withValues : List Opt → List ValueOpt
  | [] => []
  | .flags _ :: os => withValues os
  | .value o :: os => o :: withValues os

/-- The command line. -/
def line (os : List Opt) : List Bytes := (os.map Opt.args).flatten

/-- The variables after the options `os`. -/
structure After (p : Parser) (parseInt : Bytes → Option Int) (os : List Opt) (st st' : Store) : Prop where
  str : ∀ a, st'.str a = (lastString p a (withValues os)).getD (st.str a)
  int : ∀ a, st'.int a = (lastInt p parseInt a (withValues os)).getD (st.int a)
  bool : ∀ a, st'.bool a = true ↔ st.bool a = true ∨ ∃ o ∈ os, ∃ c ∈ o.bools, p.bools c = some a

/-! ## Proofs -/

theorem setBools_registered (ls : List Nat) (h : ∀ c ∈ ls, ∃ a, p.bools c = some a) (st : Store) (a : Nat) :
    (ls.foldl (fun s c => s.setBool ((p.bools c).getD 0)) st).bool a = true ↔ st.bool a = true ∨ ∃ c ∈ ls, p.bools c = some a := by
  rw [(setBools (p := p) ls st).2.2 a]
  constructor
  · rintro (h' | ⟨c, hc, e⟩)
    · exact .inl h'
    · obtain ⟨b, hb⟩ := h c hc
      rw [hb] at e
      simp only [Option.getD_some] at e
      exact .inr ⟨c, hc, by rw [hb, e]⟩
  · rintro (h' | ⟨c, hc, e⟩)
    · exact .inl h'
    · exact .inr ⟨c, hc, by rw [e]; rfl⟩

theorem parse_line (os : List Opt) (h : ∀ o ∈ os, o.OK p) (hp : ∀ o ∈ os, o.Parses p parseInt) : ∀ st : Store,
    ∃ st', After p parseInt os st st' ∧ ∀ t, parse p parseInt (line os ++ t) st = parse p parseInt t st' := by
  induction os with
  | nil => intro st; exact ⟨st, ⟨by simp [withValues, lastString], by simp [withValues, lastInt], by simp⟩, fun t => rfl⟩
  | cons o os ih =>
    intro st
    have ho := h o (by simp)
    have hpo := hp o (by simp)
    cases o with
    | flags ls =>
      have hb : BoolBundle p ls := ho
      obtain ⟨st', ⟨h1, h2, h3⟩, h4⟩ := ih (fun x hx => h x (by simp [hx])) (fun x hx => hp x (by simp [hx]))
        (ls.foldl (fun s c => s.setBool ((p.bools c).getD 0)) st)
      obtain ⟨b1, b2, -⟩ := setBools (p := p) ls st
      refine ⟨st', ⟨fun a => ?_, fun a => ?_, fun a => ?_⟩, fun t => ?_⟩
      · rw [h1, b2]; rfl
      · rw [h2, b1]; rfl
      · rw [h3, setBools_registered ls hb.registered]
        simp only [List.mem_cons, exists_eq_or_imp, Opt.bools, or_assoc]
      · have := parse_bundles (parseInt := parseInt) [ls] (by simpa using hb) (line os ++ t) st
        simp only [List.map_cons, List.map_nil, List.cons_append, List.nil_append, List.flatten_cons, List.flatten_nil, List.append_nil] at this
        rw [← h4, ← this]
        rfl
    | value v =>
      have hv : v.OK p := ho
      have hpv : v.Parses p parseInt := hpo
      obtain ⟨st1, ha, hb, hs, hi⟩ := assign_ok v hv hpv (v.setBools p st)
      obtain ⟨st', ⟨h1, h2, h3⟩, h4⟩ := ih (fun x hx => h x (by simp [hx])) (fun x hx => hp x (by simp [hx])) st1
      obtain ⟨b1, b2, -⟩ := setBools (p := p) v.bools st
      refine ⟨st', ⟨fun a => ?_, fun a => ?_, fun a => ?_⟩, fun t => ?_⟩
      · rw [h1, hs]
        simp only [withValues, lastString, ValueOpt.setBools, b2]
        cases lastString p a (withValues os) <;> simp
      · rw [h2, hi]
        simp only [withValues, lastInt, ValueOpt.setBools, b1]
        cases lastInt p parseInt a (withValues os) <;> simp
      · rw [h3, hb]
        simp only [ValueOpt.setBools]
        rw [setBools_registered v.bools hv.registered]
        simp only [List.mem_cons, exists_eq_or_imp, Opt.bools, or_assoc]
      · have e : line (.value v :: os) ++ t = v.args ++ (line os ++ t) := by simp [line, Opt.args]
        rw [e, parse_valueOpt v hv, ha, ← h4]

/-! ## Properties -/

/-- C33: bundles and options with separate acceptable values in any order, followed by operands: parsing succeeds, every
variable holds the last value given for it (or is unchanged), and exactly the boolean flags named are set. -/
theorem C33_mixed (os : List Opt) (h : ∀ o ∈ os, o.OK p) (hp : ∀ o ∈ os, o.Parses p parseInt) {t pos} (ht : Tail t pos) (st : Store) :
    (parse p parseInt (line os ++ t) st).val = .ok pos ∧ After p parseInt os st (parse p parseInt (line os ++ t) st).store := by
  obtain ⟨st', h1, h2⟩ := parse_line os h hp st
  rw [h2, parse_tail ht]
  exact ⟨rfl, h1⟩

/-- C33: if the value of an integer flag is no integer, parsing fails; the options before it have taken effect (and the boolean flags
in front of its letter), nothing after it has, whatever follows. -/
theorem C33_mixed_bad_integer (os : List Opt) (h : ∀ o ∈ os, o.OK p) (hp : ∀ o ∈ os, o.Parses p parseInt) (o : ValueOpt) (ho : o.OK p)
    (hbad : ¬ o.Parses p parseInt) (t : List Bytes) (st : Store) :
    (parse p parseInt (line os ++ o.args ++ t) st).val = .error .nonInt ∧
    ∃ st', After p parseInt os st st' ∧ (parse p parseInt (line os ++ o.args ++ t) st).store.str = st'.str ∧
      (parse p parseInt (line os ++ o.args ++ t) st).store.int = st'.int ∧
      ∀ a, (parse p parseInt (line os ++ o.args ++ t) st).store.bool a = true ↔ st'.bool a = true ∨ ∃ c ∈ o.bools, p.bools c = some a := by
  obtain ⟨st', h1, h2⟩ := parse_line os h hp st
  have hs : p.strings o.letter = none := by
    cases hs : p.strings o.letter with
    | none => rfl
    | some a => exact absurd (.inl (by simp [hs])) hbad
  have hn : parseInt o.value = none := by
    cases hn : parseInt o.value with
    | none => rfl
    | some a => exact absurd (.inr ⟨a, hn⟩) hbad
  have hasg : assign p parseInt o.letter o.value (o.setBools p st') = ⟨.error .nonInt, o.setBools p st'⟩ := by
    unfold assign
    rw [hs]
    cases hi : p.ints o.letter with
    | none => rcases ho.known with hk | hk <;> simp_all
    | some b => simp [hn]
  obtain ⟨b1, b2, -⟩ := setBools (p := p) o.bools st'
  rw [List.append_assoc, h2, parse_valueOpt o ho, hasg]
  exact ⟨rfl, st', h1, b2, b1, fun a => setBools_registered o.bools ho.registered st' a⟩

/-- C35: after any options, if the last argument ends in an ASCII letter that is not a boolean flag, parsing panics: also for a
registered value flag. -/
theorem C35_missing_value_mixed (os : List Opt) (h : ∀ o ∈ os, o.OK p) (hp : ∀ o ∈ os, o.Parses p parseInt) (ls : List Nat) (x : Nat)
    (hv : ∀ c ∈ ls, ValidRune c) (hr : ∀ c ∈ ls, ∃ a, p.bools c = some a) (hx : x < 128) (hb : p.bools x = none)
    (hd : ls = [] → x ≠ 45) (st : Store) :
    (parse p parseInt (line os ++ [dash (ls ++ [x])]) st).val = .error (.panic .index) := by
  obtain ⟨st', -, h2⟩ := parse_line os h hp st
  rw [h2]
  exact C35_missing_value [] (by simp) ls x hv hr hx hb hd st'

/-- C33: an unknown ASCII letter that is followed by something is an error, after any options. -/
theorem C33_unknown (os : List Opt) (h : ∀ o ∈ os, o.OK p) (hp : ∀ o ∈ os, o.Parses p parseInt) (ls : List Nat) (x : Nat)
    (hv : ∀ c ∈ ls, ValidRune c) (hr : ∀ c ∈ ls, ∃ a, p.bools c = some a) (hx : x < 128) (hb : p.bools x = none)
    (hs : p.strings x = none) (hi : p.ints x = none) (hd : ls = [] → x ≠ 45) (v : Bytes) (t : List Bytes) (st : Store) :
    (parse p parseInt (line os ++ dash (ls ++ [x]) :: v :: t) st).val = .error .unknown := by
  obtain ⟨st', -, h2⟩ := parse_line os h hp st
  rw [h2]
  have hvr : ValidRune x := .inl (by omega)
  have h3 : ls ++ [x] ≠ [45] := by
    intro e
    have hb : ls = [] := by
      have := congrArg List.length e
      simp at this
      exact this
    rw [hb] at e
    simp at e
    exact hd hb e
  rw [parse_dash _ _ _ (by simp) h3 (by
    intro c hc
    rcases List.mem_append.1 hc with hc | hc
    · exact hv c hc
    · simp at hc; subst hc; exact hvr)]
  have e : ofRunes (ls ++ [x]) = ofRunes ls ++ encodeRune x := by simp [ofRunes]
  have hl := letters_encode x hvr []
  rw [List.append_nil, after_ascii _ hx] at hl
  rw [e, bundle_bools ls hv hr, hl]
  simp [bundle, hb, valueOf, assign, hs, hi]

/-- `-v -o x -v f`. -/
example (st : Store) : (parse demo parseInt [b!"-v", b!"-o", b!"x", b!"-v", b!"f"] st).val = .ok [b!"f"] ∧
    (parse demo parseInt [b!"-v", b!"-o", b!"x", b!"-v", b!"f"] st).store.str 0 = b!"x" := by
  have hb : BoolBundle demo [118] := ⟨by simp, by simp, by simp [ValidRune], by simp [demo, Parser.boolVar]⟩
  have hv : ValueOpt.OK demo ⟨[], 111, b!"x"⟩ :=
    ⟨by simp, by simp, by simp, by simp [demo, Parser.boolVar, Parser.stringVar], by simp [demo, Parser.boolVar, Parser.stringVar], by simp⟩
  have := C33_mixed (p := demo) (parseInt := parseInt) [.flags [118], .value ⟨[], 111, b!"x"⟩, .flags [118]]
    (by simp [Opt.OK, hb, hv]) (by simp [Opt.Parses, ValueOpt.Parses, demo, Parser.boolVar, Parser.stringVar])
    (.operand b!"f" [] (.inl (by decide))) st
  refine ⟨this.1, ?_⟩
  have h : (parse demo parseInt [b!"-v", b!"-o", b!"x", b!"-v", b!"f"] st).store.str 0 = _ := this.2.str 0
  rw [h]
  simp [withValues, lastString, demo, Parser.boolVar, Parser.stringVar]

end Flag
