import Verif.Ed.ParseProps
import Verif.Ed.ProcessProps
import Verif.Ed.EchoProps
import Verif.Ed.SaveProps

/-!
# From typed characters to the saved file (C77)

Scanner, grouping of lines, parser, channel, commands and saving put together.
-/

namespace Ed
open Go

/-! ## What is typed -/

/-- An address as typed. -/
def SAddr.typed : SAddr → Bytes
  | .num n => natToDec n
  | .dot => b!"."
  | .last => b!"$"

/-- The lines typed for a command. -/
def SCmd.typed : SCmd → List Bytes
  | .append a t => (a.typed ++ b!"a") :: (t ++ [b!"."])
  | .insert a t => (a.typed ++ b!"i") :: (t ++ [b!"."])
  | .change a b t => (a.typed ++ b!"," ++ b.typed ++ b!"c") :: (t ++ [b!"."])
  | .delete a b => [a.typed ++ b!"," ++ b.typed ++ b!"d"]
  | .print a b => [a.typed ++ b!"," ++ b.typed ++ b!"p"]
  | .number a b => [a.typed ++ b!"," ++ b.typed ++ b!"n"]
  | .lineNo a => [a.typed ++ b!"="]

/-- Texts that can be typed: ASCII, the first line not a lone dot, no other line starting with a dot. -/
structure Typeable (t : List Bytes) : Prop where
  block : BlockOK t
  first : t.head? ≠ some b!"."

/-- The text of a command, if it has one, can be typed. -/
def SCmd.Typeable : SCmd → Prop
  | .append _ t | .insert _ t | .change _ _ t => Ed.Typeable t
  | _ => True

/-! ## Grouping -/

/-- Lines the pattern accepts end with one of the three letters and spaces. -/
def EndsAIC (l : Bytes) : Prop := ∃ x c w, l = x ++ c :: w ∧ (c = 97 ∨ c = 105 ∨ c = 99) ∧ ∀ d ∈ w, isS d = true

theorem EndsAIC.cons {l : Bytes} (c : UInt8) (h : EndsAIC l) : EndsAIC (c :: l) := by
  obtain ⟨x, d, w, rfl, h2, h3⟩ := h
  exact ⟨c :: x, d, w, rfl, h2, h3⟩

theorem starK_ends {p : UInt8 → Bool} {k : Bytes → Bool} (h : ∀ l, k l = true → EndsAIC l) : ∀ l, starK p k l = true → EndsAIC l := by
  intro l
  induction l with
  | nil => exact h []
  | cons c cs ih =>
    intro hs
    simp only [starK, Bool.or_eq_true, Bool.and_eq_true] at hs
    rcases hs with hs | ⟨_, hs⟩
    · exact h _ hs
    · exact (ih hs).cons c

theorem starK_spaces : ∀ l, starK isS List.isEmpty l = true → ∀ d ∈ l, isS d = true := by
  intro l
  induction l with
  | nil => simp
  | cons c cs ih =>
    intro hs d hd
    simp only [starK, Bool.or_eq_true, Bool.and_eq_true, List.isEmpty_cons, Bool.false_eq_true, false_or] at hs
    rcases List.mem_cons.1 hd with rfl | hd
    · exact hs.1
    · exact ih hs.2 d hd

theorem isStart_ends (l : Bytes) (h : isStart l = true) : EndsAIC l := by
  have h1 : ∀ l, letterK (starK isS List.isEmpty) l = true → EndsAIC l := by
    intro l hl
    cases l with
    | nil => cases hl
    | cons c cs =>
      simp only [letterK, Bool.and_eq_true, Bool.or_eq_true, beq_iff_eq] at hl
      exact ⟨[], c, cs, rfl, by rcases hl.1 with (h | h) | h <;> simp [h], starK_spaces cs hl.2⟩
  have h2 := starK_ends (p := isS) (starK_ends (p := isA) (starK_ends (p := isS) h1))
  have h3 : ∀ l, optComma (starK isS (starK isA (starK isS (letterK (starK isS List.isEmpty))))) l = true → EndsAIC l := by
    intro l hl
    cases l with
    | nil => exact h2 _ hl
    | cons c cs =>
      simp only [optComma, Bool.or_eq_true, Bool.and_eq_true] at hl
      rcases hl with ⟨_, hl⟩ | hl
      · exact (h2 _ hl).cons c
      · exact h2 _ hl
  exact starK_ends (p := isS) (starK_ends (p := isA) (starK_ends (p := isS) h3)) l h

theorem not_start {x : Bytes} {c : UInt8} (h1 : isS c = false) (h2 : c ≠ 97 ∧ c ≠ 105 ∧ c ≠ 99) : isStart (x ++ [c]) = false := by
  cases h : isStart (x ++ [c]) with
  | false => rfl
  | true =>
    obtain ⟨y, d, w, e, hd, hw⟩ := isStart_ends _ h
    exfalso
    rcases List.eq_nil_or_concat w with rfl | ⟨w', z, rfl⟩
    · have := (List.append_inj' (e.trans (by simp : y ++ [d] = y ++ [d])) (by simp)).2
      simp only [List.cons.injEq, and_true] at this
      subst this
      obtain ⟨a, b, c⟩ := h2
      rcases hd with hd | hd | hd <;> contradiction
    · have e2 : x ++ [c] = (y ++ d :: w') ++ [z] := by simpa using e
      have := (List.append_inj' e2 (by simp)).2
      simp only [List.cons.injEq, and_true] at this
      subst this
      have := hw c (by simp)
      rw [h1] at this
      cases this

theorem starK_skip {p : UInt8 → Bool} {k : Bytes → Bool} : ∀ (a b : Bytes), (∀ c ∈ a, p c = true) → k b = true → starK p k (a ++ b) = true := by
  intro a
  induction a with
  | nil => intro b _ hb; cases b <;> simp [starK, hb]
  | cons c a ih =>
    intro b ha hb
    simp [starK, ha c (by simp), ih b (fun d hd => ha d (by simp [hd])) hb]

theorem typed_isA (a : SAddr) : ∀ c ∈ a.typed, isA c = true := by
  intro c hc
  cases a with
  | num n => simp only [isA, (natToDec_spec n).2.1 c hc, Bool.true_or]
  | dot => simp [SAddr.typed] at hc; subst hc; decide
  | last => simp [SAddr.typed] at hc; subst hc; decide

theorem start_one (a : SAddr) (c : UInt8) (hc : c = 97 ∨ c = 105 ∨ c = 99) : isStart (a.typed ++ [c]) = true := by
  have k1 : letterK (starK isS List.isEmpty) [c] = true := by rcases hc with rfl | rfl | rfl <;> decide
  have skip0 : ∀ {p k l}, k l = true → starK p k l = true := fun {p k l} h => starK_skip (p := p) (k := k) [] l (by simp) h
  have k2 : optComma (starK isS (starK isA (starK isS (letterK (starK isS List.isEmpty))))) [c] = true := by
    simp only [optComma, Bool.or_eq_true]
    exact Or.inr (skip0 (skip0 (skip0 k1)))
  exact skip0 (starK_skip _ _ (typed_isA a) (skip0 k2))

theorem start_two (a b : SAddr) (c : UInt8) (hc : c = 97 ∨ c = 105 ∨ c = 99) : isStart (a.typed ++ b!"," ++ b.typed ++ [c]) = true := by
  have k1 : letterK (starK isS List.isEmpty) [c] = true := by rcases hc with rfl | rfl | rfl <;> decide
  have skip0 : ∀ {p k l}, k l = true → starK p k l = true := fun {p k l} h => starK_skip (p := p) (k := k) [] l (by simp) h
  have k2 : optComma (starK isS (starK isA (starK isS (letterK (starK isS List.isEmpty))))) (44 :: (b.typed ++ [c])) = true := by
    simp only [optComma, Bool.or_eq_true, Bool.and_eq_true, beq_self_eq_true, true_and]
    exact Or.inl (skip0 (starK_skip _ _ (typed_isA b) (skip0 k1)))
  have : a.typed ++ b!"," ++ b.typed ++ [c] = a.typed ++ (44 :: (b.typed ++ [c])) := by simp
  rw [this]
  exact skip0 (starK_skip _ _ (typed_isA a) (skip0 k2))

theorem groups_block : ∀ (t : List Bytes) (b : List Bytes) (rest : List Bytes), (∀ l ∈ t, l ≠ b!".") →
    groups (some b) (t ++ b!"." :: rest) = join [nl] (b.reverse ++ t ++ [b!"."]) :: groups none rest := by
  intro t
  induction t with
  | nil => intro b rest _; simp [groups]
  | cons l t ih =>
    intro b rest h
    rw [List.cons_append, groups, if_neg (h l (by simp)), ih _ _ (fun m hm => h m (by simp [hm]))]
    simp

theorem Typeable.noTerm {t : List Bytes} (h : Typeable t) : ∀ l ∈ t, l ≠ b!"." := by
  intro l hl
  obtain ⟨hb, hf⟩ := h
  cases t with
  | nil => cases hl
  | cons m t =>
    rcases List.mem_cons.1 hl with rfl | hl
    · rintro rfl; exact hf rfl
    · rintro rfl; exact hb.noDot _ hl rfl

/-! ## Parsing what is typed -/

/-- Addresses of the grammar. -/
def SAddr.syn : SAddr → AddrSyn
  | .num n => .lit (natToDec n)
  | .dot => .dot
  | .last => .dollar

theorem SAddr.syn_bytes (a : SAddr) : a.syn.bytes = a.typed := by cases a <;> rfl

theorem SAddr.syn_ok (a : SAddr) : a.syn.OK := by
  cases a with
  | num n => exact ⟨(natToDec_spec n).1, (natToDec_spec n).2.1⟩
  | dot => trivial
  | last => trivial

theorem SAddr.denotes (a : SAddr) : Denotes a.syn.address a := by
  cases a with
  | num n => exact ⟨rfl, rfl, (natToDec_spec n).1, (natToDec_spec n).2.1, (natToDec_spec n).2.2.1⟩
  | dot => exact ⟨rfl, rfl⟩
  | last => exact ⟨rfl, rfl⟩

theorem syn_typ_ne (a : SAddr) : a.syn.address.typ ≠ .null := by cases a <;> simp [SAddr.syn, AddrSyn.address]

theorem default_start (c : Command) (h : c.start.typ ≠ .null) : setDefaultAddresses c = c := by
  simp [setDefaultAddresses, h]

/-- The command structure typed commands become. -/
def SCmd.parsed : SCmd → Command
  | .append a t => { typ := .append, start := a.syn.address, text := join [nl] t }
  | .insert a t => { typ := .insert, start := a.syn.address, text := join [nl] t }
  | .change a b t => { typ := .change, start := a.syn.address, end_ := b.syn.address, text := join [nl] t }
  | .delete a b => { typ := .delete, start := a.syn.address, end_ := b.syn.address }
  | .print a b => { typ := .print, start := a.syn.address, end_ := b.syn.address }
  | .number a b => { typ := .number, start := a.syn.address, end_ := b.syn.address }
  | .lineNo a => { typ := .lineNumber, start := a.syn.address }

theorem SCmd.says (sc : SCmd) : Says sc.parsed sc := by
  cases sc <;> simp only [Says, SCmd.parsed] <;>
    rw [default_start _ (by exact syn_typ_ne _)] <;> simp [SAddr.denotes]

theorem SCmd.parsed_not_quit (sc : SCmd) : sc.parsed.typ ≠ .quit := by cases sc <;> simp [SCmd.parsed]

/-- The text handed to the parser for a typed command, without the newline. -/
def SCmd.text1 (sc : SCmd) : Bytes := join [nl] sc.typed

theorem join_two (x : Bytes) (t : List Bytes) (ht : t ≠ []) : join [nl] (x :: (t ++ [b!"."])) ++ [nl] = x ++ [nl] ++ block t := by
  rw [join_cons _ _ (by simp), block]
  have := unlines_eq_join (t ++ [b!"."]) (by simp)
  have h2 : ∀ u v : List Bytes, unlines (u ++ v) = unlines u ++ unlines v := by
    intro u v
    induction u with
    | nil => rfl
    | cons a u ih => simp [unlines, ih]
  rw [h2] at this
  have e : (nl : UInt8) = 10 := rfl
  have e3 : unlines [b!"."] = [46, 10] := rfl
  rw [e3] at this
  rw [this]
  simp [e]

theorem parse_typed (sc : SCmd) (h : sc.Typeable) : parseCommands (sc.text1 ++ [nl]) = some [sc.parsed] := by
  have e : (nl : UInt8) = 10 := rfl
  cases sc with
  | append a t =>
    have := (C68_append_insert [] blanks_nil (.one a.syn []) ⟨a.syn_ok, blanks_nil⟩ trivial t h.block).1
    simp only [SCmd.text1, SCmd.typed]
    rw [join_two _ t h.block.ne]
    simpa [RangeSyn.bytes, SAddr.syn_bytes, RangeSyn.start, SCmd.parsed, e] using this
  | insert a t =>
    have := (C68_append_insert [] blanks_nil (.one a.syn []) ⟨a.syn_ok, blanks_nil⟩ trivial t h.block).2
    simp only [SCmd.text1, SCmd.typed]
    rw [join_two _ t h.block.ne]
    simpa [RangeSyn.bytes, SAddr.syn_bytes, RangeSyn.start, SCmd.parsed, e] using this
  | change a b t =>
    have := C68_change [] blanks_nil (.both false a.syn [] [] b.syn []) ⟨a.syn_ok, b.syn_ok, blanks_nil, blanks_nil, blanks_nil⟩ t h.block
    simp only [SCmd.text1, SCmd.typed]
    rw [join_two _ t h.block.ne]
    simpa [RangeSyn.bytes, SAddr.syn_bytes, RangeSyn.start, RangeSyn.end_, SCmd.parsed, e, sepByte] using this
  | delete a b =>
    have := C67_range_commands [] [] blanks_nil blanks_nil (.both false a.syn [] [] b.syn [])
      ⟨a.syn_ok, b.syn_ok, blanks_nil, blanks_nil, blanks_nil⟩ 100 .delete (by decide)
    simpa [SCmd.text1, SCmd.typed, join, RangeSyn.bytes, SAddr.syn_bytes, RangeSyn.start, RangeSyn.end_, SCmd.parsed, e, sepByte] using this
  | print a b =>
    have := C67_range_commands [] [] blanks_nil blanks_nil (.both false a.syn [] [] b.syn [])
      ⟨a.syn_ok, b.syn_ok, blanks_nil, blanks_nil, blanks_nil⟩ 112 .print (by decide)
    simpa [SCmd.text1, SCmd.typed, join, RangeSyn.bytes, SAddr.syn_bytes, RangeSyn.start, RangeSyn.end_, SCmd.parsed, e, sepByte] using this
  | number a b =>
    have := C67_range_commands [] [] blanks_nil blanks_nil (.both false a.syn [] [] b.syn [])
      ⟨a.syn_ok, b.syn_ok, blanks_nil, blanks_nil, blanks_nil⟩ 110 .number (by decide)
    simpa [SCmd.text1, SCmd.typed, join, RangeSyn.bytes, SAddr.syn_bytes, RangeSyn.start, RangeSyn.end_, SCmd.parsed, e, sepByte] using this
  | lineNo a =>
    have := C67_line_number [] [] blanks_nil blanks_nil (.one a.syn []) ⟨a.syn_ok, blanks_nil⟩ trivial
    have e2 : ({ a.syn.address with text := a.syn.bytes } : Address) = a.syn.address := by cases a <;> rfl
    simp only [RangeSyn.bytes, RangeSyn.start, List.append_nil, List.nil_append, e2] at this
    simpa [SCmd.text1, SCmd.typed, join, SAddr.syn_bytes, SCmd.parsed, e] using this

theorem groups_typed (sc : SCmd) (h : sc.Typeable) (rest : List Bytes) :
    groups none (sc.typed ++ rest) = sc.text1 :: groups none rest := by
  cases sc with
  | append a t =>
    simp only [SCmd.typed, SCmd.text1, List.cons_append, List.append_assoc]
    rw [groups, if_pos (start_one a 97 (by simp))]
    simpa using groups_block t [a.typed ++ b!"a"] rest h.noTerm
  | insert a t =>
    simp only [SCmd.typed, SCmd.text1, List.cons_append, List.append_assoc]
    rw [groups, if_pos (start_one a 105 (by simp))]
    simpa using groups_block t [a.typed ++ b!"i"] rest h.noTerm
  | change a b t =>
    simp only [SCmd.typed, SCmd.text1, List.cons_append]
    rw [groups, if_pos (start_two a b 99 (by simp))]
    simpa using groups_block t [a.typed ++ b!"," ++ b.typed ++ b!"c"] rest h.noTerm
  | delete a b =>
    have := not_start (x := a.typed ++ b!"," ++ b.typed) (c := 100) (by decide) (by decide)
    simp only [SCmd.typed, SCmd.text1, List.cons_append, List.nil_append, join]
    rw [groups, if_neg (by rw [this]; decide)]
  | print a b =>
    have := not_start (x := a.typed ++ b!"," ++ b.typed) (c := 112) (by decide) (by decide)
    simp only [SCmd.typed, SCmd.text1, List.cons_append, List.nil_append, join]
    rw [groups, if_neg (by rw [this]; decide)]
  | number a b =>
    have := not_start (x := a.typed ++ b!"," ++ b.typed) (c := 110) (by decide) (by decide)
    simp only [SCmd.typed, SCmd.text1, List.cons_append, List.nil_append, join]
    rw [groups, if_neg (by rw [this]; decide)]
  | lineNo a =>
    have := not_start (x := a.typed) (c := 61) (by decide) (by decide)
    simp only [SCmd.typed, SCmd.text1, List.cons_append, List.nil_append, join]
    rw [groups, if_neg (by rw [this]; decide)]

theorem groups_script : ∀ (scs : List SCmd), (∀ sc ∈ scs, sc.Typeable) → ∀ rest,
    groups none (scs.flatMap SCmd.typed ++ rest) = scs.map SCmd.text1 ++ groups none rest := by
  intro scs
  induction scs with
  | nil => intro _ rest; rfl
  | cons sc scs ih =>
    intro h rest
    rw [List.flatMap_cons, List.append_assoc, groups_typed sc (h sc (by simp)), ih (fun x hx => h x (by simp [hx]))]
    rfl

theorem events_script (errText : Bytes → Bytes) : ∀ (scs : List SCmd), (∀ sc ∈ scs, sc.Typeable) →
    (scs.map SCmd.text1).flatMap (eventsOf errText) = (scs.map SCmd.parsed).flatMap evs := by
  intro scs
  induction scs with
  | nil => intro _; rfl
  | cons sc scs ih =>
    intro h
    simp only [List.map_cons, List.flatMap_cons, ih (fun x hx => h x (by simp [hx]))]
    rw [eventsOf_some (parse_typed sc (h sc (by simp))), List.flatMap_cons, List.flatMap_nil, List.append_nil]

/-! ## C77 -/

theorem edit_not_start (name : Bytes) : isStart (b!"e " ++ name) = false := by
  have h1 : isS 101 = false := by decide
  have h2 : isA 101 = false := by decide
  simp [isStart, starK, optComma, letterK, h1, h2]

/-- The reader's actions on `e name`, a script, `w` and `q`. -/
theorem program_script (errText : Bytes → Bytes) (name : Bytes) (hn : NameOK name) (hnp : PlainLine (b!"e " ++ name)) (scs : List SCmd)
    (ht : ∀ sc ∈ scs, sc.Typeable) (hp : ∀ l ∈ scs.flatMap SCmd.typed, PlainLine l) :
    program errText (mainInput (some name) (unlines (scs.flatMap SCmd.typed ++ [b!"w", b!"q"]))) =
      ({ typ := .edit, params := [name] } :: (scs.map SCmd.parsed ++ [{ typ := .write }, { typ := .quit }])).flatMap evs := by
  have e1 : mainInput (some name) (unlines (scs.flatMap SCmd.typed ++ [b!"w", b!"q"])) =
      unlines ((b!"e " ++ name) :: (scs.flatMap SCmd.typed ++ [b!"w", b!"q"])) := by simp [mainInput, unlines]
  have e2 : scanLines (unlines ((b!"e " ++ name) :: (scs.flatMap SCmd.typed ++ [b!"w", b!"q"]))) =
      ((b!"e " ++ name) :: (scs.flatMap SCmd.typed ++ [b!"w", b!"q"]), false) := by
    refine scanLines_unlines _ ?_
    intro l hl
    simp only [List.mem_cons, List.mem_append, List.not_mem_nil, or_false] at hl
    rcases hl with rfl | hl | rfl | rfl
    · exact hnp
    · exact hp l hl
    · exact plain_ascii _ (by decide) (by decide) (by decide)
    · exact plain_ascii _ (by decide) (by decide) (by decide)
  have p1 : parseCommands (b!"e " ++ name ++ [nl]) = some [{ typ := .edit, params := [name] }] := by
    have := C67_names [] b!" " blanks_nil (by simp [Blanks]) (by simp) name hn 101 .edit (by decide)
    simpa using this
  have p2 : parseCommands (b!"w" ++ [nl]) = some [{ typ := .write }] := by decide +kernel
  have p3 : parseCommands (b!"q" ++ [nl]) = some [{ typ := .quit }] := by decide +kernel
  have g : groups none [b!"w", b!"q"] = [b!"w", b!"q"] := by decide
  rw [program, e1, texts_short (by rw [e2]), e2]
  simp only
  rw [groups, if_neg (by rw [edit_not_start]; decide), groups_script scs ht, g, List.flatMap_cons, List.flatMap_append, events_script errText scs ht]
  have v1 : eventsOf errText (b!"e " ++ name) = [.send { typ := .edit, params := [name] }] := by rw [eventsOf_some p1]; rfl
  have v2 : eventsOf errText b!"w" = [.send { typ := .write }] := by rw [eventsOf_some p2]; rfl
  have v3 : eventsOf errText b!"q" = [.send { typ := .quit }] := by rw [eventsOf_some p3]; rfl
  have w1 : evs { typ := .edit, params := [name] } = [.send { typ := .edit, params := [name] }] := rfl
  have w2 : evs { typ := .write } = [.send { typ := .write }] := rfl
  have w3 : evs { typ := .quit } = [.send { typ := .quit }] := rfl
  rw [v1, List.flatMap_cons, v2, List.flatMap_cons, v3, List.flatMap_cons, w1, List.flatMap_append, List.flatMap_cons, w2, List.flatMap_cons, w3]
  simp [scanError]

theorem runOk_of_runAll {env : Env} : ∀ {cs : List Command} {s s' : State} {outs : List Bytes},
    (∀ c ∈ cs, c.typ ≠ .quit ∧ c.typ ≠ .write) → runAll env s cs = .ok (s', outs) →
    outs.length = cs.length ∧
    RunOk env s cs s' ((cs.zip outs).flatMap fun p => [.trace (traceLine p.1), .result (p.2 ++ [nl])]) := by
  intro cs
  induction cs with
  | nil =>
    intro s s' outs _ h
    simp only [runAll, Except.ok.injEq, Prod.mk.injEq] at h
    obtain ⟨rfl, rfl⟩ := h
    exact ⟨rfl, rfl, rfl⟩
  | cons c cs ih =>
    intro s s' outs hq h
    simp only [runAll] at h
    split at h
    · cases h
    · rename_i s1 out h1
      split at h
      · cases h
      · rename_i s2 outs2 h2
        simp only [Except.ok.injEq, Prod.mk.injEq] at h
        obtain ⟨rfl, rfl⟩ := h
        obtain ⟨i1, i2⟩ := ih (fun d hd => hq d (by simp [hd])) h2
        refine ⟨by simp [i1], (hq c (by simp)).1, s1, out, _, h1, ?_, i2⟩
        simp [preamble, (hq c (by simp)).2]

theorem results_zip : ∀ (cs : List Command) (outs : List Bytes), outs.length = cs.length →
    results ((cs.zip outs).flatMap fun p => [.trace (traceLine p.1), .result (p.2 ++ [nl])]) = outs.map (· ++ [nl]) := by
  intro cs
  induction cs with
  | nil => intro outs h; simp at h; subst h; rfl
  | cons c cs ih =>
    intro outs h
    cases outs with
    | nil => simp at h
    | cons o outs => simp only [List.zip_cons_cons, List.flatMap_cons, results_append, results, List.map_cons]; rw [ih outs (by simpa using h)]; rfl

theorem saysAll_parsed : ∀ scs : List SCmd, SaysAll (scs.map SCmd.parsed) scs := by
  intro scs
  induction scs with
  | nil => trivial
  | cons sc scs ih => exact ⟨sc.says, ih⟩

theorem session_clean : ∀ (scs : List SCmd) {st : LState}, Clean st.lines → SessionOk st scs → Clean (sessionEnd st scs).lines := by
  intro scs
  induction scs with
  | nil => intro st h _; exact h
  | cons sc scs ih => intro st _ hok; exact ih hok.2.1 hok.2.2.2

/-- How an address is shown: its kind, its text, and 0. -/
def SAddr.shown : SAddr → Bytes
  | .num n => b!"{3 " ++ natToDec n ++ b!" 0}"
  | .dot => b!"{1 . 0}"
  | .last => b!"{2 $ 0}"

/-- The line about a command: its kind, the two addresses, an empty destination, the text and an empty list. -/
def SCmd.shown : SCmd → Bytes
  | .append a t => b!"cmd {1 " ++ a.shown ++ b!" {0  0} {0  0} " ++ join b!"\n" t ++ b!" []}\n"
  | .insert a t => b!"cmd {11 " ++ a.shown ++ b!" {0  0} {0  0} " ++ join b!"\n" t ++ b!" []}\n"
  | .change a b t => b!"cmd {2 " ++ a.shown ++ b!" " ++ b.shown ++ b!" {0  0} " ++ join b!"\n" t ++ b!" []}\n"
  | .delete a b => b!"cmd {3 " ++ a.shown ++ b!" " ++ b.shown ++ b!" {0  0}  []}\n"
  | .print a b => b!"cmd {17 " ++ a.shown ++ b!" " ++ b.shown ++ b!" {0  0}  []}\n"
  | .number a b => b!"cmd {16 " ++ a.shown ++ b!" " ++ b.shown ++ b!" {0  0}  []}\n"
  | .lineNo a => b!"cmd {28 " ++ a.shown ++ b!" {0  0} {0  0}  []}\n"

theorem shown_addr (a : SAddr) : a.syn.address.shown = a.shown := by
  cases a with
  | num n =>
    simp only [SAddr.syn, AddrSyn.address, AddrSyn.typ, AddrSyn.bytes, Address.shown, AddrType.code, SAddr.shown,
      show natToDec 3 = b!"3" from by decide, show itoa 0 = b!"0" from by decide]
    simp
  | dot => decide
  | last => decide

theorem shown_none : ({} : Address).shown = b!"{0  0}" := by decide

theorem shown_cmd (sc : SCmd) : traceLine sc.parsed = sc.shown := by
  cases sc <;> simp only [SCmd.parsed, traceLine, Command.shown, SCmd.shown, shown_addr, shown_none, CmdType.code,
    show natToDec 1 = b!"1" from by decide, show natToDec 11 = b!"11" from by decide, show natToDec 2 = b!"2" from by decide,
    show natToDec 3 = b!"3" from by decide, show natToDec 17 = b!"17" from by decide, show natToDec 16 = b!"16" from by decide,
    show natToDec 28 = b!"28" from by decide, join] <;> simp

/-- What `ed name` prints for a script with these results: the lines about the commands and the results. -/
def scriptTranscript (name : Bytes) (scs : List SCmd) (outs : List Bytes) : List Bytes :=
  [b!"cmd {4 {0  0} {0  0} {0  0}  [" ++ name ++ b!"]}\n", b!"\n"] ++
  (scs.zip outs).flatMap (fun p => [p.1.shown, p.2 ++ b!"\n"]) ++
  [b!"cmd {27 {0  0} {0  0} {0  0}  []}\n", b!"f is '" ++ name ++ b!"', tmp is '" ++ name ++ b!".swp'\n", b!"\n",
    b!"cmd {19 {0  0} {0  0} {0  0}  []}\n"]

theorem transcript_shown (name : Bytes) (scs : List SCmd) (outs : List Bytes) :
    [traceLine { typ := .edit, params := [name] }, [nl]] ++
    (scs.zip outs).flatMap (fun p => [traceLine p.1.parsed, p.2 ++ [nl]]) ++
    [traceLine { typ := .write }, b!"f is '" ++ name ++ b!"', tmp is '" ++ name ++ b!".swp'\n", [nl], traceLine { typ := .quit }] =
    scriptTranscript name scs outs := by
  simp only [shown_cmd, scriptTranscript]
  rw [show traceLine { typ := .write } = b!"cmd {27 {0  0} {0  0} {0  0}  []}\n" from by decide,
    show traceLine { typ := .quit } = b!"cmd {19 {0  0} {0  0} {0  0}  []}\n" from by decide]
  simp only [traceLine, Command.shown, shown_none, CmdType.code, show natToDec 4 = b!"4" from by decide, join]
  simp

/-- What the reader prints for such a script: the texts it parses. -/
def SCmd.echoes : SCmd → List Bytes
  | .append _ t | .insert _ t | .change _ _ t => [b!"t " ++ join [nl] t ++ [nl]]
  | _ => []

theorem echoes_parsed (scs : List SCmd) : (echoes (scs.map SCmd.parsed)).map Msg.bytes = scs.flatMap SCmd.echoes := by
  induction scs with
  | nil => rfl
  | cons sc scs ih =>
    rw [List.map_cons, List.flatMap_cons, ← ih]
    cases sc <;> rfl

/-- The whole of the proof of C77 and `C83_script`. -/
theorem script_run (env : Env) (errText : Bytes → Bytes) (s0 : State) (name : Bytes) (hn : NameOK name) (hnp : PlainLine (b!"e " ++ name))
    (ls : List Bytes) (hfs : s0.fs name = some (unlines ls)) (hc : Clean ls) (hlen : ls.length < 2 ^ 62)
    (scs : List SCmd) (hok : SessionOk ⟨ls, ls.length⟩ scs) (ht : ∀ sc ∈ scs, sc.Typeable) (hp : ∀ l ∈ scs.flatMap SCmd.typed, PlainLine l)
    (hsave : ∀ k, (env.outcome k).stat = none ∧ (env.outcome k).writeFile = none ∧ (env.outcome k).rename = none)
    (st : Sys) (how : End)
    (hs : Steps env (initial errText s0 (mainInput (some name) (unlines (scs.flatMap SCmd.typed ++ [b!"w", b!"q"])))) st)
    (he : st.cons.ended = some how) :
    (how = .quit ∧ st.ed.fs name = some (unlines (sessionEnd ⟨ls, ls.length⟩ scs).lines) ∧
    (∀ n, n ≠ name → n ≠ tmpName name → st.ed.fs n = s0.fs n) ∧
    results st.out = ([] :: (sessionOutputs ⟨ls, ls.length⟩ scs ++ [[]])).map (· ++ [nl]) ∧ errors st.out = []) ∧
    (st.out.filter Msg.isMain).map Msg.bytes = scriptTranscript name scs (sessionOutputs ⟨ls, ls.length⟩ scs) ∧
    (st.out.filter Msg.isReader).map Msg.bytes = scs.flatMap SCmd.echoes := by
  have hprog := program_script errText name hn hnp scs ht hp
  obtain ⟨h1, h2, _⟩ := C69_schedule_independent env errText s0 _ st how hs he
  obtain ⟨t1, t2⟩ := C83_transcript env errText s0 _ st how hs he
  rw [hprog] at h1 h2 t1 t2
  have hrep : errors st.out = [] := by
    rw [reports_evs, List.prefix_nil] at h2
    exact h2
  -- the editor opens the file
  let s1 : State := { s0 with filename := name, pt := Txt.newPieceTable (unlines ls) true (unlines ls).length, currentLine := ls.length }
  have sh1 : Shows s1 ls := ⟨(opened_shows ls 0).reach, (opened_shows ls 0).text⟩
  have hopen : processCommand env s0 { typ := .edit, params := [name] } = .ok (s1, []) := by
    have sh : Shows { s1 with currentLine := s0.currentLine } ls := ⟨sh1.reach, sh1.text⟩
    have hg := getLines_shows sh hc.plain
    have hed : edit env s0 name = .ok (s1, none) := by
      simp only [s1] at hg ⊢
      simp only [edit, hfs, hg, dropBlank_clean hc.lastNe]
    have e : setDefaultAddresses { typ := .edit, params := [name] } = { typ := .edit, params := [name], start := aCur, end_ := aCur } := rfl
    simp only [processCommand, e, List.headD_cons, hed]
    rfl
  -- the script
  obtain ⟨s2, hrun, sh2, _, hfs2, hname⟩ := C63_session env scs (scs.map SCmd.parsed) (s := s1) (st := ⟨ls, ls.length⟩) sh1 hc rfl hlen
    (saysAll_parsed scs) hok
  have hn2 : s2.filename = name := hname
  -- saving
  have hend := session_clean scs (st := ⟨ls, ls.length⟩) hc hok
  have hsv : (saveTrace (env.outcome s2.writes) s2.fs s2.filename (unlines (sessionEnd ⟨ls, ls.length⟩ scs).lines)).2 = none := by
    obtain ⟨a, b, c⟩ := hsave s2.writes
    have hex : s2.fs s2.filename = some (unlines ls) := by rw [hfs2, hn2]; exact hfs
    simp [saveTrace, statError, hex, a, b, c]
  obtain ⟨s3, hw, hfile, hname3, _, _, hother, _⟩ := C71_whole_partial env sh2 hend.plain { typ := .write } rfl hsv
  obtain ⟨hl, hrun'⟩ := runOk_of_runAll (env := env) (by
      intro c hc
      obtain ⟨sc, _, rfl⟩ := List.mem_map.1 hc
      exact ⟨sc.parsed_not_quit, by cases sc <;> simp [SCmd.parsed]⟩) hrun
  have hpre : preamble s2 { typ := .write } = [.trace (traceLine { typ := .write }), .trace (saveLine s2)] := by
    simp [preamble, sh2.text]
  let ms : List Msg := [.trace (traceLine { typ := .edit, params := [name] }), .result [nl]] ++
      (((scs.map SCmd.parsed).zip (sessionOutputs ⟨ls, ls.length⟩ scs)).flatMap fun p => [.trace (traceLine p.1), .result (p.2 ++ [nl])]) ++
      [.trace (traceLine { typ := .write }), .trace (saveLine s2), .result [nl]]
  have hr : RunOk env s0 ({ typ := .edit, params := [name] } :: (scs.map SCmd.parsed ++ [{ typ := .write }])) s3 ms := by
    have := hrun'.snoc (c := { typ := .write }) (by simp) hw
    refine ⟨by simp, s1, [], _, hopen, ?_, this⟩
    rw [hpre]
    simp [ms, preamble]
  have hresms : results ms = ([] :: (sessionOutputs ⟨ls, ls.length⟩ scs ++ [[]])).map (· ++ [nl]) := by
    simp only [ms, results_append, results_zip _ _ hl]
    simp [results]
  have hseq := hr.sequential [{ typ := .quit }]
  have htr := hr.transcript [{ typ := .quit }]
  have hsends : sends (({ typ := .edit, params := [name] } :: (scs.map SCmd.parsed ++ [{ typ := .write }, { typ := .quit }])).flatMap evs) =
      ({ typ := .edit, params := [name] } :: (scs.map SCmd.parsed ++ [{ typ := .write }])) ++ [{ typ := .quit }] := by
    rw [sends_evs]; simp
  rw [hsends, hseq] at h1
  rw [hsends, htr] at t1
  have hlast : Ed.sequential env s3 [{ typ := .quit }] = (.quit, s3, []) := by simp [Ed.sequential]
  rw [hlast] at h1
  simp only [Prod.mk.injEq, List.append_nil] at h1
  obtain ⟨rfl, rfl, hres⟩ := h1
  have hquit : st.cons = .quit := by cases hk : st.cons <;> rw [hk] at he <;> simp [Cons.ended] at he ⊢
  have hsaid := all_said (q := ({ typ := .edit, params := [name] } :: (scs.map SCmd.parsed ++ [{ typ := .write }])).flatMap evs)
    (c := { typ := .quit }) hs hquit (by rw [hprog]; simp [List.flatMap_append, evs, CmdType.hasText])
    (by rw [← hres, hresms, sends_evs]; simp [hl])
  refine ⟨⟨rfl, ?_, ?_, by rw [← hres, hresms], hrep⟩, ?_, ?_⟩
  · rw [hn2] at hfile
    exact hfile
  · intro n hn1 hn3
    rw [hother n (by rw [hn2]; exact hn1) (by rw [hn2]; exact hn3), hfs2]
  · rw [t1]
    have e : ((scs.map SCmd.parsed).zip (sessionOutputs ⟨ls, ls.length⟩ scs)) =
        (scs.zip (sessionOutputs ⟨ls, ls.length⟩ scs)).map (fun p => (p.1.parsed, p.2)) := by
      rw [List.zip_map_left]; rfl
    rw [← transcript_shown]
    simp only [ms, e, transcript, if_true, List.map_append, List.flatMap_map, List.map_flatMap, List.map_cons,
      List.map_nil, Msg.bytes, saveLine, tmpName, hn2]
    simp
  · rw [hsaid, hprog, readerMsgs_evs, ← echoes_parsed]
    have e : ∀ l : List SCmd, echoes ({ typ := .edit, params := [name] } :: (l.map SCmd.parsed ++ [{ typ := .write }, { typ := .quit }])) =
        echoes (l.map SCmd.parsed) := by
      intro l
      simp [echoes, CmdType.hasText]
    rw [e]

/-- **C77** `ed name`, given any script of in-range commands on its standard input followed by `w` and `q`: for
every schedule of its goroutines, when it has stopped it has stopped because of `q`, the file holds exactly
the lines the reference editor ends with, no other file but the temporary one has changed, the results in the
output are those of the reference editor in order (an empty one for `e` and `w`), and there is no error
message. -/
theorem C77_script (env : Env) (errText : Bytes → Bytes) (s0 : State) (name : Bytes) (hn : NameOK name) (hnp : PlainLine (b!"e " ++ name))
    (ls : List Bytes) (hfs : s0.fs name = some (unlines ls)) (hc : Clean ls) (hlen : ls.length < 2 ^ 62)
    (scs : List SCmd) (hok : SessionOk ⟨ls, ls.length⟩ scs) (ht : ∀ sc ∈ scs, sc.Typeable) (hp : ∀ l ∈ scs.flatMap SCmd.typed, PlainLine l)
    (hsave : ∀ k, (env.outcome k).stat = none ∧ (env.outcome k).writeFile = none ∧ (env.outcome k).rename = none)
    (st : Sys) (how : End)
    (hs : Steps env (initial errText s0 (mainInput (some name) (unlines (scs.flatMap SCmd.typed ++ [b!"w", b!"q"])))) st)
    (he : st.cons.ended = some how) :
    how = .quit ∧ st.ed.fs name = some (unlines (sessionEnd ⟨ls, ls.length⟩ scs).lines) ∧
    (∀ n, n ≠ name → n ≠ tmpName name → st.ed.fs n = s0.fs n) ∧
    results st.out = ([] :: (sessionOutputs ⟨ls, ls.length⟩ scs ++ [[]])).map (· ++ [nl]) ∧ errors st.out = [] :=
  (script_run env errText s0 name hn hnp ls hfs hc hlen scs hok ht hp hsave st how hs he).1

/-- **C83** The whole standard output of `ed name` for such a script, whatever the schedule: the main goroutine prints not only
the results, but in front of each a line showing the parsed command, and for `w` a line with the names of the two files; the
reader prints the text of every `a`, `i` and `c`, each after a letter `t`. The output is these two, each in its order, mixed
(`C83_reader_place` and `C83_main_place` say how). -/
theorem C83_script (env : Env) (errText : Bytes → Bytes) (s0 : State) (name : Bytes) (hn : NameOK name) (hnp : PlainLine (b!"e " ++ name))
    (ls : List Bytes) (hfs : s0.fs name = some (unlines ls)) (hc : Clean ls) (hlen : ls.length < 2 ^ 62)
    (scs : List SCmd) (hok : SessionOk ⟨ls, ls.length⟩ scs) (ht : ∀ sc ∈ scs, sc.Typeable) (hp : ∀ l ∈ scs.flatMap SCmd.typed, PlainLine l)
    (hsave : ∀ k, (env.outcome k).stat = none ∧ (env.outcome k).writeFile = none ∧ (env.outcome k).rename = none)
    (st : Sys) (how : End)
    (hs : Steps env (initial errText s0 (mainInput (some name) (unlines (scs.flatMap SCmd.typed ++ [b!"w", b!"q"])))) st)
    (he : st.cons.ended = some how) :
    (st.out.filter Msg.isMain).map Msg.bytes = scriptTranscript name scs (sessionOutputs ⟨ls, ls.length⟩ scs) ∧
    (st.out.filter Msg.isReader).map Msg.bytes = scs.flatMap SCmd.echoes ∧
    (scs.flatMap SCmd.echoes = [] → stdout st.out = (scriptTranscript name scs (sessionOutputs ⟨ls, ls.length⟩ scs)).flatten) := by
  obtain ⟨h1, h2⟩ := (script_run env errText s0 name hn hnp ls hfs hc hlen scs hok ht hp hsave st how hs he).2
  refine ⟨h1, h2, fun h => ?_⟩
  rw [h, List.map_eq_nil_iff] at h2
  rw [← h1, all_main h2, stdout, List.flatMap_def]

/-- An editor just started, on a file `f` with two lines. -/
def fresh : State := { pt := Txt.newPieceTable [] false 0, filename := [], currentLine := 0, writes := 0
                       fs := fun n => if n = b!"f" then some b!"one\ntwo\n" else none }

/-- Delete line 1, append two lines at the end, print everything. -/
def demoScript : List SCmd := [.delete (.num 1) (.num 1), .append .last [b!"three", b!"four"], .print (.num 1) .last]

example : demoScript.flatMap SCmd.typed = [b!"1,1d", b!"$a", b!"three", b!"four", b!".", b!"1,$p"] := by decide

example (errText : Bytes → Bytes) : ∃ st, Steps demoEnv (initial errText fresh
      (mainInput (some b!"f") (unlines [b!"1,1d", b!"$a", b!"three", b!"four", b!".", b!"1,$p", b!"w", b!"q"]))) st ∧
    st.cons = .quit ∧ st.ed.fs b!"f" = some b!"two\nthree\nfour\n" ∧
    results st.out = [b!"\n", b!"\n", b!"\n", b!"two\nthree\nfour\n", b!"\n"] := by
  obtain ⟨st, how, hs, he⟩ := C69_stops demoEnv _ (initial errText fresh (mainInput (some b!"f") (unlines (demoScript.flatMap SCmd.typed ++
    [b!"w", b!"q"])))) (Nat.le_refl _)
  obtain ⟨rfl, h2, _, h4, _⟩ := C77_script demoEnv errText fresh b!"f" ⟨by decide, by decide, by decide, by rintro c cs ⟨⟩; decide⟩
    (plain_ascii _ (by decide) (by decide) (by decide)) [b!"one", b!"two"] rfl (clean_of _ (by decide) (by decide)) (by decide) demoScript
    ⟨⟨by decide, by decide, by decide⟩, clean_of _ (by decide) (by decide), by decide, ⟨by decide, by decide, plain_of _ (by decide)⟩,
      clean_of _ (by decide) (by decide), by decide, ⟨by decide, by decide, by decide⟩, clean_of _ (by decide) (by decide), by decide, trivial⟩
    (by
      intro sc hsc
      simp only [demoScript, List.mem_cons, List.not_mem_nil, or_false] at hsc
      rcases hsc with rfl | rfl | rfl
      · trivial
      · exact ⟨⟨by decide, by decide, by decide, by decide⟩, by decide⟩
      · trivial)
    (plain_of _ (by decide)) (fun _ => ⟨rfl, rfl, rfl⟩) st how hs he
  refine ⟨st, hs, ?_, h2, h4⟩
  cases hk : st.cons <;> rw [hk] at he <;> simp [Cons.ended] at he

/-- **C83** is false: asked to print the first line of a file, ed prints much more. -/
theorem C83_counterexample (errText : Bytes → Bytes) (st : Sys) (how : End)
    (hs : Steps demoEnv (initial errText fresh (mainInput (some b!"f") (unlines [b!"1,1p", b!"w", b!"q"]))) st)
    (he : st.cons.ended = some how) :
    stdout st.out = [b!"cmd {4 {0  0} {0  0} {0  0}  [f]}\n", b!"\n", b!"cmd {17 {3 1 0} {3 1 0} {0  0}  []}\n", b!"one\n",
       b!"cmd {27 {0  0} {0  0} {0  0}  []}\n", b!"f is 'f', tmp is 'f.swp'\n", b!"\n",
       b!"cmd {19 {0  0} {0  0} {0  0}  []}\n"].flatten := by
  rw [(C83_script demoEnv errText fresh b!"f" ⟨by decide, by decide, by decide, by rintro c cs ⟨⟩; decide⟩
    (plain_ascii _ (by decide) (by decide) (by decide)) [b!"one", b!"two"] rfl (clean_of _ (by decide) (by decide)) (by decide)
    [.print (.num 1) (.num 1)]
    ⟨⟨by decide, by decide, by decide⟩, clean_of _ (by decide) (by decide), by decide, trivial⟩
    (by
      intro sc hsc
      simp only [List.mem_cons, List.not_mem_nil, or_false] at hsc
      subst hsc
      trivial)
    (plain_of _ (by decide)) (fun _ => ⟨rfl, rfl, rfl⟩) st how hs he).2.2 rfl]
  decide +kernel

end Ed
