import Verif.Flag.MixedProps

/-! # C141: reading a command line again, in another order, and in one piece or several -/

namespace Flag
open Go

variable {p : Parser} {parseInt : Bytes → Option Int}

/-! ## Model -/

/-- parse.go:10, 21-24: `Parse` of a parser whose `Input` is nil takes the arguments of the process (of which there must be at least
one: `os.Args[1:]`) and keeps them. The result is that of `Parse` and `Input` afterwards. -/
def parseFrom (p : Parser) (parseInt : Bytes → Option Int) (input : Option (List Bytes)) (osArgs : List Bytes) (st : Store) :
    Res (List Bytes) × Option (List Bytes) :=
  match input with
  | some l => (parse p parseInt l st, some l)
  | none =>
    match osArgs with
    | [] => (⟨.error (.panic .index), st⟩, none)
    | _ :: l => (parse p parseInt l st, some l)

/-! ## What parsing writes -/

/-- An assignment to a variable. -/
inductive Write where
  | b (a : Nat)
  | i (a : Nat) (x : Int)
  | s (a : Nat) (v : Bytes)

def Write.run (st : Store) : Write → Store
  | .b a => st.setBool a
  | .i a x => st.setInt a x
  | .s a v => st.setStr a v

/-- The assignment is to a variable registered for a letter, and the value is from the command line. -/
def Write.OK (p : Parser) (parseInt : Bytes → Option Int) (args : List Bytes) : Write → Prop
  | .b a => ∃ c, p.bools c = some a
  | .i a x => (∃ c, p.ints c = some a) ∧ ∃ arg ∈ args, ∃ v, v <:+ arg ∧ parseInt v = some x
  | .s a v => (∃ c, p.strings c = some a) ∧ ∃ arg ∈ args, v <:+ arg

def lastB (a : Nat) : List Write → Bool
  | [] => false
  | .b a' :: ws => lastB a ws || decide (a = a')
  | _ :: ws => lastB a ws

def lastI (a : Nat) : List Write → Option Int
  | [] => none
  | .i a' x :: ws => (lastI a ws).or (if a = a' then some x else none)
  | _ :: ws => lastI a ws

def lastS (a : Nat) : List Write → Option Bytes
  | [] => none
  | .s a' x :: ws => (lastS a ws).or (if a = a' then some x else none)
  | _ :: ws => lastS a ws

theorem run_reads (ws : List Write) : ∀ st : Store, (∀ a, (ws.foldl Write.run st).bool a = (lastB a ws || st.bool a)) ∧
    (∀ a, (ws.foldl Write.run st).int a = (lastI a ws).getD (st.int a)) ∧ (∀ a, (ws.foldl Write.run st).str a = (lastS a ws).getD (st.str a)) := by
  induction ws with
  | nil => intro st; simp [lastB, lastI, lastS]
  | cons w ws ih =>
    intro st
    obtain ⟨h1, h2, h3⟩ := ih (w.run st)
    simp only [List.foldl_cons, h1, h2, h3]
    cases w with
    | b a' =>
      refine ⟨fun a => ?_, fun a => rfl, fun a => rfl⟩
      simp only [Write.run, Store.setBool, lastB]
      by_cases e : a = a' <;> simp [e]
    | i a' x =>
      refine ⟨fun a => rfl, fun a => ?_, fun a => rfl⟩
      simp only [Write.run, Store.setInt, lastI]
      cases lastI a ws <;> by_cases e : a = a' <;> simp [e]
    | s a' x =>
      refine ⟨fun a => rfl, fun a => rfl, fun a => ?_⟩
      simp only [Write.run, Store.setStr, lastS]
      cases lastS a ws <;> by_cases e : a = a' <;> simp [e]

theorem store_ext {s t : Store} (h1 : ∀ a, s.bool a = t.bool a) (h2 : ∀ a, s.int a = t.int a) (h3 : ∀ a, s.str a = t.str a) : s = t := by
  cases s; cases t
  congr
  · exact funext h1
  · exact funext h2
  · exact funext h3

theorem run_twice (ws : List Write) (st : Store) : ws.foldl Write.run (ws.foldl Write.run st) = ws.foldl Write.run st := by
  obtain ⟨h1, h2, h3⟩ := run_reads ws st
  obtain ⟨g1, g2, g3⟩ := run_reads ws (ws.foldl Write.run st)
  refine store_ext (fun a => ?_) (fun a => ?_) (fun a => ?_)
  · rw [g1, h1]; cases lastB a ws <;> simp
  · rw [g2, h2]; cases lastI a ws <;> simp
  · rw [g3, h3]; cases lastS a ws <;> simp

theorem mem_lastB {a : Nat} {ws : List Write} (h : lastB a ws = true) : .b a ∈ ws := by
  induction ws with
  | nil => cases h
  | cons w ws ih => cases w <;> simp_all [lastB] <;> grind

theorem mem_lastI {a : Nat} {x : Int} {ws : List Write} (h : lastI a ws = some x) : .i a x ∈ ws := by
  induction ws with
  | nil => cases h
  | cons w ws ih =>
    cases w with
    | i a' y =>
      simp only [lastI, Option.or_eq_some_iff] at h
      rcases h with h | ⟨-, h⟩
      · simp [ih h]
      · split at h
        · next e => cases h; subst e; simp
        · cases h
    | _ => simp only [lastI] at h; simp [ih h]

theorem mem_lastS {a : Nat} {x : Bytes} {ws : List Write} (h : lastS a ws = some x) : .s a x ∈ ws := by
  induction ws with
  | nil => cases h
  | cons w ws ih =>
    cases w with
    | s a' y =>
      simp only [lastS, Option.or_eq_some_iff] at h
      rcases h with h | ⟨-, h⟩
      · simp [ih h]
      · split at h
        · next e => cases h; subst e; simp
        · cases h
    | _ => simp only [lastS] at h; simp [ih h]

theorem lettersAux_suffix (s : Bytes) : ∀ k, ∀ cv ∈ lettersAux k s, cv.2 <:+ s := by
  induction s with
  | nil => intro k cv h; simp [lettersAux] at h
  | cons b bs ih =>
    intro k cv h
    cases k with
    | succ k => exact (ih k cv h).trans (List.suffix_cons _ _)
    | zero =>
      simp only [lettersAux, List.mem_cons] at h
      rcases h with h | h
      · subst h; exact List.suffix_cons _ _
      · exact (ih _ cv h).trans (List.suffix_cons _ _)

theorem bundle_writes (arg : Bytes) (args : List Bytes) (ha : arg ∈ args) (ls : List (Nat × Bytes)) : ∀ rest : List Bytes,
    (∀ cv ∈ ls, cv.2 <:+ arg) → (∀ r ∈ rest, r ∈ args) →
    ∃ (ws : List Write) (val : Except Err (List Bytes)), (∀ w ∈ ws, w.OK p parseInt args) ∧ (∀ st, bundle p parseInt ls rest st = ⟨val, ws.foldl Write.run st⟩) ∧
      ∀ rest', val = .ok rest' → ∀ r ∈ rest', r ∈ args := by
  induction ls with
  | nil => intro rest _ hr; exact ⟨[], .ok rest, by simp, fun st => rfl, by rintro _ ⟨⟩; exact hr⟩
  | cons l ls ih =>
    obtain ⟨c, value⟩ := l
    intro rest hs hr
    have hs' : ∀ cv ∈ ls, cv.2 <:+ arg := fun cv h => hs cv (by simp [h])
    cases hb : p.bools c with
    | some a =>
      obtain ⟨ws, val, h1, h2, h3⟩ := ih rest hs' hr
      refine ⟨.b a :: ws, val, ?_, fun st => ?_, h3⟩
      · intro w hw
        rcases List.mem_cons.1 hw with h | h
        · subst h; exact ⟨c, hb⟩
        · exact h1 w h
      · simp only [bundle, hb, h2, List.foldl_cons]; rfl
    | none =>
      cases hv : valueOf value rest with
      | none => exact ⟨[], .error (.panic .index), by simp, fun st => by simp [bundle, hb, hv], by intro _ h; cases h⟩
      | some vr =>
        obtain ⟨v, rest1⟩ := vr
        have hv' : (∃ arg ∈ args, v <:+ arg) ∧ ∀ r ∈ rest1, r ∈ args := by
          unfold valueOf at hv
          split at hv
          · cases rest with
            | nil => cases hv
            | cons r rs => cases hv; exact ⟨⟨v, hr v (by simp), List.suffix_refl _⟩, fun r h => hr r (by simp [h])⟩
          · cases hv; exact ⟨⟨arg, ha, hs (c, value) (by simp)⟩, hr⟩
        obtain ⟨ws, val, h1, h2, h3⟩ := ih rest1 hs' hv'.2
        cases hst : p.strings c with
        | some a =>
          refine ⟨.s a v :: ws, val, ?_, fun st => ?_, h3⟩
          · intro w hw
            rcases List.mem_cons.1 hw with h | h
            · subst h; exact ⟨⟨c, hst⟩, hv'.1⟩
            · exact h1 w h
          · simp only [bundle, hb, hv, assign, hst, h2, List.foldl_cons]; rfl
        | none =>
          cases hi : p.ints c with
          | none => exact ⟨[], .error .unknown, by simp, fun st => by simp [bundle, hb, hv, assign, hst, hi], by intro _ h; cases h⟩
          | some a =>
            cases hn : parseInt v with
            | none => exact ⟨[], .error .nonInt, by simp, fun st => by simp [bundle, hb, hv, assign, hst, hi, hn], by intro _ h; cases h⟩
            | some x =>
              refine ⟨.i a x :: ws, val, ?_, fun st => ?_, h3⟩
              · intro w hw
                rcases List.mem_cons.1 hw with h | h
                · subst h
                  obtain ⟨ar, har, hsf⟩ := hv'.1
                  exact ⟨⟨c, hi⟩, ar, har, v, hsf, hn⟩
                · exact h1 w h
              · simp only [bundle, hb, hv, assign, hst, hi, hn, h2, List.foldl_cons]; rfl

theorem parse_writes (args : List Bytes) (input : List Bytes) (hin : ∀ r ∈ input, r ∈ args) :
    ∃ (ws : List Write) (val : Except Err (List Bytes)), (∀ w ∈ ws, w.OK p parseInt args) ∧ ∀ st, parse p parseInt input st = ⟨val, ws.foldl Write.run st⟩ := by
  match input with
  | [] => exact ⟨[], .ok [], by simp, fun st => by rw [parse]; rfl⟩
  | arg :: rest =>
    by_cases h1 : arg.length = 0 ∨ arg.head? ≠ some 45 ∨ arg = b!"-"
    · exact ⟨[], .ok (arg :: rest), by simp, fun st => by rw [parse, if_pos h1]; rfl⟩
    · by_cases h2 : arg = b!"--"
      · exact ⟨[], .ok rest, by simp, fun st => by rw [parse, if_neg h1, if_pos h2]; rfl⟩
      · obtain ⟨ws, val, g1, g2, g3⟩ := bundle_writes (p := p) (parseInt := parseInt) arg args (hin arg (by simp)) (letters arg.tail) rest
          (fun cv h => (lettersAux_suffix _ _ cv h).trans (List.tail_suffix _)) (fun r h => hin r (by simp [h]))
        cases val with
        | error e => exact ⟨ws, .error e, g1, fun st => by rw [parse_step _ _ _ h1 h2, g2]⟩
        | ok rest' =>
          have hlen : rest'.length ≤ rest.length := bundle_rest (p := p) (parseInt := parseInt) (letters arg.tail) (rest := rest)
            (st := ⟨fun _ => false, fun _ => 0, fun _ => []⟩) (by rw [g2])
          obtain ⟨ws', val', k1, k2⟩ := parse_writes args rest' (g3 rest' rfl)
          refine ⟨ws ++ ws', val', ?_, fun st => ?_⟩
          · intro w hw
            rcases List.mem_append.1 hw with h | h
            · exact g1 w h
            · exact k1 w h
          · rw [parse_step _ _ _ h1 h2, g2]
            simp only [k2, List.foldl_append]
termination_by input.length
decreasing_by simp; omega

/-! ## Properties -/

/-- **C141** Whatever the command line: what parsing returns does not depend on what was in the variables. -/
theorem C141_outcome (input : List Bytes) (st st' : Store) : (parse p parseInt input st).val = (parse p parseInt input st').val := by
  obtain ⟨ws, val, -, h⟩ := parse_writes (p := p) (parseInt := parseInt) input input (fun _ h => h)
  rw [h, h]

/-- **C141** Whatever the command line: parsing it again gives the same result and leaves the variables as they are. -/
theorem C141_twice (input : List Bytes) (st : Store) : parse p parseInt input (parse p parseInt input st).store = parse p parseInt input st := by
  obtain ⟨ws, val, -, h⟩ := parse_writes (p := p) (parseInt := parseInt) input input (fun _ h => h)
  rw [h, h, run_twice]

/-- **C141** Whatever the command line, also one that is refused: a boolean variable is as it was or set, and set only if it is registered; an
integer or string variable that is not as it was is registered, and holds what stands at the end of an argument. -/
theorem C141_variables (input : List Bytes) (st : Store) (a : Nat) :
    ((parse p parseInt input st).store.bool a = st.bool a ∨ (parse p parseInt input st).store.bool a = true ∧ ∃ c, p.bools c = some a) ∧
    ((parse p parseInt input st).store.int a = st.int a ∨
      (∃ c, p.ints c = some a) ∧ ∃ arg ∈ input, ∃ v, v <:+ arg ∧ parseInt v = some ((parse p parseInt input st).store.int a)) ∧
    ((parse p parseInt input st).store.str a = st.str a ∨
      (∃ c, p.strings c = some a) ∧ ∃ arg ∈ input, (parse p parseInt input st).store.str a <:+ arg) := by
  obtain ⟨ws, val, hw, h⟩ := parse_writes (p := p) (parseInt := parseInt) input input (fun _ h => h)
  obtain ⟨h1, h2, h3⟩ := run_reads ws st
  simp only [h, h1, h2, h3]
  refine ⟨?_, ?_, ?_⟩
  · cases e : lastB a ws with
    | false => exact .inl (by simp)
    | true => exact .inr ⟨by simp, hw _ (mem_lastB e)⟩
  · cases e : lastI a ws with
    | none => exact .inl rfl
    | some x => exact .inr (hw _ (mem_lastI e))
  · cases e : lastS a ws with
    | none => exact .inl rfl
    | some x => exact .inr (hw _ (mem_lastS e))

/-- **C141** A parser without input of its own parses the arguments of the process, and keeps them: parsing again gives the same
result whatever the arguments of the process are by then. -/
theorem C141_kept (prog : Bytes) (args later : List Bytes) (st : Store) :
    (parseFrom p parseInt none (prog :: args) st).1 = parse p parseInt args st ∧
    parseFrom p parseInt (parseFrom p parseInt none (prog :: args) st).2 later (parseFrom p parseInt none (prog :: args) st).1.store =
      parseFrom p parseInt none (prog :: args) st := by
  refine ⟨rfl, ?_⟩
  simp only [parseFrom, C141_twice]

/-- The options that give a value to the string variable `a`. -/
def givesString (p : Parser) (a : Nat) (o : ValueOpt) : Bool := decide (p.strings o.letter = some a)

/-- The options that give a value to the integer variable `a`. -/
def givesInt (p : Parser) (a : Nat) (o : ValueOpt) : Bool := decide (p.strings o.letter = none ∧ p.ints o.letter = some a)

theorem lastString_filter (p : Parser) (a : Nat) (os : List ValueOpt) : lastString p a (os.filter (givesString p a)) = lastString p a os := by
  induction os with
  | nil => rfl
  | cons o os ih =>
    rw [List.filter_cons]
    split
    · rw [lastString, lastString, ih]
    · next h =>
      have : ¬ p.strings o.letter = some a := by simpa [givesString] using h
      rw [lastString, if_neg this, ih, Option.or_none]

theorem lastInt_filter (p : Parser) (parseInt : Bytes → Option Int) (a : Nat) (os : List ValueOpt) :
    lastInt p parseInt a (os.filter (givesInt p a)) = lastInt p parseInt a os := by
  induction os with
  | nil => rfl
  | cons o os ih =>
    rw [List.filter_cons]
    split
    · rw [lastInt, lastInt, ih]
    · next h =>
      have : ¬ (p.strings o.letter = none ∧ p.ints o.letter = some a) := by
        unfold givesInt at h
        rwa [decide_eq_true_eq] at h
      rw [lastInt, if_neg this, ih, Option.or_none]

/-- **C141** The order of the options does not matter, as long as those that give a value to the same variable are in the same order; what follows
them does not matter either. -/
theorem C141_order (os os' : List Opt) (h : ∀ o ∈ os, o.OK p) (hp : ∀ o ∈ os, o.Parses p parseInt) (hperm : os.Perm os')
    (hs : ∀ a, (withValues os).filter (givesString p a) = (withValues os').filter (givesString p a))
    (hi : ∀ a, (withValues os).filter (givesInt p a) = (withValues os').filter (givesInt p a)) (t : List Bytes) (st : Store) :
    parse p parseInt (line os ++ t) st = parse p parseInt (line os' ++ t) st := by
  obtain ⟨s1, a1, e1⟩ := parse_line os h hp st
  obtain ⟨s2, a2, e2⟩ := parse_line os' (fun o ho => h o (hperm.mem_iff.2 ho)) (fun o ho => hp o (hperm.mem_iff.2 ho)) st
  rw [e1, e2]
  congr 1
  refine store_ext (fun a => ?_) (fun a => ?_) (fun a => ?_)
  · have b1 := a1.bool a
    have b2 := a2.bool a
    have : s1.bool a = true ↔ s2.bool a = true := by
      rw [b1, b2]
      simp only [hperm.mem_iff]
    cases e1 : s1.bool a <;> cases e2 : s2.bool a <;> simp_all
  · rw [a1.int, a2.int, ← lastInt_filter, hi, lastInt_filter]
  · rw [a1.str, a2.str, ← lastString_filter, hs, lastString_filter]

/-- An option with its letters in one argument each. -/
def Opt.apart : Opt → List Opt
  | .flags ls => ls.map (fun c => .flags [c])
  | .value o => o.bools.map (fun c => .flags [c]) ++ [.value { o with bools := [] }]

theorem withValues_apart (os : List Opt) : (withValues (os.flatMap Opt.apart)).map (fun o => (o.letter, o.value)) =
    (withValues os).map (fun o => (o.letter, o.value)) := by
  have hf : ∀ (ls : List Nat) (r : List Opt), withValues (ls.map (fun c => Opt.flags [c]) ++ r) = withValues r := by
    intro ls r
    induction ls with
    | nil => rfl
    | cons l ls ih => simpa [withValues] using ih
  induction os with
  | nil => rfl
  | cons o os ih =>
    cases o with
    | flags ls => simp [Opt.apart, hf, withValues, ih]
    | value o => simp [Opt.apart, hf, withValues, ih]

theorem lastString_congr {os os' : List ValueOpt} (h : os.map (fun o => (o.letter, o.value)) = os'.map (fun o => (o.letter, o.value))) (a : Nat) :
    lastString p a os = lastString p a os' ∧ lastInt p parseInt a os = lastInt p parseInt a os' := by
  induction os generalizing os' with
  | nil => cases os' with
    | nil => exact ⟨rfl, rfl⟩
    | cons _ _ => simp at h
  | cons o os ih => cases os' with
    | nil => simp at h
    | cons o' os' =>
      simp only [List.map_cons, List.cons.injEq, Prod.mk.injEq] at h
      obtain ⟨i1, i2⟩ := ih h.2
      simp only [lastString, lastInt, i1, i2, h.1.1, h.1.2, and_self]

/-- **C141** Letters in one argument or in several: `-ab -cx v` is `-a -b -c -x v`, whatever follows. (A letter cannot be `-`.) -/
theorem C141_bundling (os : List Opt) (h : ∀ o ∈ os, o.OK p) (hp : ∀ o ∈ os, o.Parses p parseInt)
    (hd : ∀ o ∈ os, 45 ∉ o.bools ∧ ∀ v, o = .value v → v.letter ≠ 45) (t : List Bytes) (st : Store) :
    parse p parseInt (line os ++ t) st = parse p parseInt (line (os.flatMap Opt.apart) ++ t) st := by
  have single : ∀ c, ValidRune c → c ≠ 45 → (∃ a, p.bools c = some a) → (Opt.flags [c]).OK p := by
    intro c hv hc hr
    exact ⟨by simp, by simpa using hc, by simpa using hv, by simpa using hr⟩
  have hall : ∀ o ∈ os.flatMap Opt.apart, o.OK p ∧ o.Parses p parseInt := by
    intro o' ho'
    obtain ⟨o, ho, hm⟩ := List.mem_flatMap.1 ho'
    have hok := h o ho
    have hpo := hp o ho
    obtain ⟨hd1, hd2⟩ := hd o ho
    cases o with
    | flags ls =>
      obtain ⟨c, hc, rfl⟩ := List.mem_map.1 hm
      have hb : BoolBundle p ls := hok
      exact ⟨single c (hb.valid c hc) (fun e => hd1 (e ▸ hc)) (hb.registered c hc), trivial⟩
    | value v =>
      have hv : v.OK p := hok
      rcases List.mem_append.1 hm with hm | hm
      · obtain ⟨c, hc, rfl⟩ := List.mem_map.1 hm
        exact ⟨single c (hv.valid c hc) (fun e => hd1 (e ▸ hc)) (hv.registered c hc), trivial⟩
      · rw [List.mem_singleton] at hm
        subst hm
        exact ⟨⟨by simp, by simp, hv.ascii, hv.notBool, hv.known, fun _ => hd2 v rfl⟩, hpo⟩
  obtain ⟨s1, a1, e1⟩ := parse_line os h hp st
  obtain ⟨s2, a2, e2⟩ := parse_line (os.flatMap Opt.apart) (fun o ho => (hall o ho).1) (fun o ho => (hall o ho).2) st
  rw [e1, e2]
  congr 1
  have hl := fun a => lastString_congr (p := p) (parseInt := parseInt) (withValues_apart os) a
  refine store_ext (fun a => ?_) (fun a => ?_) (fun a => ?_)
  · have hb : (∃ o ∈ os, ∃ c ∈ o.bools, p.bools c = some a) ↔ ∃ o ∈ os.flatMap Opt.apart, ∃ c ∈ o.bools, p.bools c = some a := by
      constructor
      · rintro ⟨o, ho, c, hc, e⟩
        refine ⟨.flags [c], List.mem_flatMap.2 ⟨o, ho, ?_⟩, c, by simp [Opt.bools], e⟩
        cases o with
        | flags ls => exact List.mem_map.2 ⟨c, hc, rfl⟩
        | value v => exact List.mem_append.2 (.inl (List.mem_map.2 ⟨c, hc, rfl⟩))
      · rintro ⟨o', ho', c, hc, e⟩
        obtain ⟨o, ho, hm⟩ := List.mem_flatMap.1 ho'
        refine ⟨o, ho, c, ?_, e⟩
        cases o with
        | flags ls =>
          obtain ⟨d, hd, rfl⟩ := List.mem_map.1 hm
          simp only [Opt.bools, List.mem_singleton] at hc
          subst hc; exact hd
        | value v =>
          rcases List.mem_append.1 hm with hm | hm
          · obtain ⟨d, hd, rfl⟩ := List.mem_map.1 hm
            simp only [Opt.bools, List.mem_singleton] at hc
            subst hc; exact hd
          · rw [List.mem_singleton] at hm
            subst hm
            simp [Opt.bools] at hc
    have b1 := a1.bool a
    have b2 := a2.bool a
    rw [hb] at b1
    have : s1.bool a = true ↔ s2.bool a = true := by rw [b1, b2]
    cases e1 : s1.bool a <;> cases e2 : s2.bool a <;> simp_all
  · rw [a1.int, a2.int, (hl a).2]
  · rw [a1.str, a2.str, (hl a).1]

/-- `-v -o x f` and `-o x -v f`; `-vo x f` is the first of them. -/
example (t : List Bytes) (st : Store) :
    parse demo parseInt (b!"-v" :: b!"-o" :: b!"x" :: t) st = parse demo parseInt (b!"-o" :: b!"x" :: b!"-v" :: t) st ∧
    parse demo parseInt (b!"-vo" :: b!"x" :: t) st = parse demo parseInt (b!"-v" :: b!"-o" :: b!"x" :: t) st := by
  have hb : BoolBundle demo [118] := ⟨by simp, by simp, by simp [ValidRune], by simp [demo, Parser.boolVar]⟩
  have hv : ValueOpt.OK demo ⟨[], 111, b!"x"⟩ :=
    ⟨by simp, by simp, by simp, by simp [demo, Parser.boolVar, Parser.stringVar], by simp [demo, Parser.boolVar, Parser.stringVar], by simp⟩
  have hw : ValueOpt.OK demo ⟨[118], 111, b!"x"⟩ :=
    ⟨by simp [ValidRune], by simp [demo, Parser.boolVar], by simp, by simp [demo, Parser.boolVar, Parser.stringVar],
      by simp [demo, Parser.boolVar, Parser.stringVar], by simp⟩
  have hq : ∀ bs, Opt.Parses demo parseInt (.value ⟨bs, 111, b!"x"⟩) := by
    intro bs; simp [Opt.Parses, ValueOpt.Parses, demo, Parser.boolVar, Parser.stringVar]
  constructor
  · exact C141_order (p := demo) (parseInt := parseInt) [.flags [118], .value ⟨[], 111, b!"x"⟩] [.value ⟨[], 111, b!"x"⟩, .flags [118]]
      (by simp [Opt.OK, hb, hv]) (by simp [hq]; trivial) (List.Perm.swap _ _ _) (fun a => rfl) (fun a => rfl) t st
  · exact C141_bundling (p := demo) (parseInt := parseInt) [.value ⟨[118], 111, b!"x"⟩]
      (by simp [Opt.OK, hw]) (by simp [hq]) (by simp [Opt.bools]) t st

end Flag
