import Verif.Ed.Backwards

/-! # Line numbers of any size (C172)

A number typed as an address may have any number of digits. The code turns it into a 64-bit integer, the largest one if it is too big, and
then adds one to it for `a`, `d` and `c`. -/

namespace Ed
open Go

/-- ed.go:265: what a number typed as an address stands for. -/
theorem addrLine_any (env : Env) (s : State) {a : Address} {v : Nat} (hd : Denotes a (.num v)) : addrLine env s a = .ok (min v (2 ^ 63 - 1) : Nat) := by
  by_cases hb : v < 2 ^ 63
  · rw [addrLine_num env s hd hb, Nat.min_eq_left (by omega)]
  · obtain ⟨h1, h2, h3, h4, h5⟩ := hd
    simp only [addrLine, h1, h2, atoi_digits _ h3 h4, h5]
    rw [if_neg hb, Nat.min_eq_right (by omega)]
    simp only [Int.add_zero]
    rw [wrap64_id (by omega) (by omega)]
    rfl

/-- ed.go:145-158: the smallest integer as a line number. -/
theorem getLineAddr_least {s : State} {ls : List Bytes} (h : Shows s ls) (hc : Clean ls) (hl : ls.length < 2 ^ 63 - 1) :
    getLineAddr s (-2 ^ 63) = .error .index := by
  simp only [getLineAddr, getLines_shows h hc.plain, dropBlank_clean hc.lastNe]
  rw [if_neg (by omega), if_neg (by rw [show wrap64 ((-2 ^ 63 : Int) - 1) = 2 ^ 63 - 1 by decide]; omega)]

private theorem cut_any (ls t : List Bytes) (k : Nat) : ls.take (min k ls.length) ++ t ++ ls.drop (min k ls.length) = ls.take k ++ t ++ ls.drop k := by
  by_cases hk : k ≤ ls.length
  · rw [Nat.min_eq_left hk]
  · rw [Nat.min_eq_right (by omega), List.take_of_length_le (by omega), List.take_of_length_le (by omega),
      List.drop_of_length_le (by omega), List.drop_of_length_le (by omega)]

private theorem wrap_top : wrap64 (((2 ^ 63 - 1 : Nat) : Int) + 1) = -2 ^ 63 := by decide

/-- **C172** `v=` answers the number that was typed if it is below 2^63 and 2^63-1 otherwise. -/
theorem C172_shown (env : Env) (s : State) (c : Command) (hty : c.typ = .lineNumber) (v : Nat) (ha : Denotes c.start (.num v)) :
    processCommand env s c = .ok (s, natToDec (min v (2 ^ 63 - 1))) := by
  have hne : c.start.typ ≠ .null := by rw [ha.1]; decide
  simp only [processCommand, setDefault_given c hne, hty, addrLine_any env s ha, bind, Except.bind]
  have : itoa ((min v (2 ^ 63 - 1) : Nat) : Int) = natToDec (min v (2 ^ 63 - 1)) := by
    simp only [itoa]
    rw [if_neg (by omega)]
    rfl
  rw [this]
  rfl

/-- **C172** (partial: expected is that all numbers beyond the last line are treated alike) `vi` is: whatever the number, the text goes before
line `v`, at the end if there is none. `va` is up to 2^63-2; every larger number ends the program. -/
theorem C172_add_partial (env : Env) {s : State} {ls : List Bytes} (h : Shows s ls) (hc : Clean ls) (hl : ls.length < 2 ^ 63 - 1) (c : Command) (v : Nat)
    (ha : Denotes c.start (.num v)) (t : List Bytes) (ht : TextOK t) (htext : c.text = join [nl] t) :
    (c.typ = .insert → ∃ s', processCommand env s c = .ok (s', []) ∧ Shows s' (ls.take (v - 1) ++ t ++ ls.drop (v - 1)) ∧ s'.currentLine = s.currentLine) ∧
    (c.typ = .append → v < 2 ^ 63 - 1 → ∃ s', processCommand env s c = .ok (s', []) ∧ Shows s' (ls.take v ++ t ++ ls.drop v) ∧
      s'.currentLine = wrap64 ((v : Int) + 1 + t.length)) ∧
    (c.typ = .append → 2 ^ 63 - 1 ≤ v → processCommand env s c = .error (.panic .index)) := by
  have hne : c.start.typ ≠ .null := by rw [ha.1]; decide
  have hA := addrLine_any env s ha
  refine ⟨fun hty => ?_, fun hty hv => ?_, fun hty hv => ?_⟩
  · obtain ⟨pt', e, sh⟩ := insert_shows h hc.plain ((min v (2 ^ 63 - 1) : Nat) : Int) (by omega) (by omega) t ht.ne
    rw [index_clean hc.lastNe, show min (min v (2 ^ 63 - 1) - 1) ls.length = min (v - 1) ls.length by omega, cut_any] at sh
    refine ⟨{ s with pt := pt' }, ?_, sh, rfl⟩
    simp only [processCommand, setDefault_given c hne, hty, hA, bind, Except.bind, htext, e]
    rfl
  · rw [Nat.min_eq_left (by omega)] at hA
    obtain ⟨pt', e, sh⟩ := insert_shows h hc.plain ((v : Int) + 1) (by omega) (by omega) t ht.ne
    have hi : index ls ((v : Int) + 1) = min v ls.length := index_clean hc.lastNe (v + 1)
    rw [hi, cut_any] at sh
    refine ⟨{ s with pt := pt', currentLine := wrap64 ((v : Int) + 1 + t.length) }, ?_, ⟨sh.reach, sh.text⟩, rfl⟩
    simp only [processCommand, setDefault_given c hne, hty, hA, bind, Except.bind, htext, linesIn_join t ht]
    rw [wrap64_id (i := (v : Int) + 1) (by omega) (by omega), e]
    rfl
  · rw [Nat.min_eq_right (by omega)] at hA
    simp only [processCommand, setDefault_given c hne, hty, hA, bind, Except.bind, htext, wrap_top, insertBeforeLine, getLineAddr_least h hc hl]
    rfl

/-- **C172** (partial, as above) `v,wd` deletes those of the lines that exist if `w` is at most 2^63-2; every larger `w` ends the program,
whatever `v`. -/
theorem C172_delete_partial (env : Env) {s : State} {ls : List Bytes} (h : Shows s ls) (hc : Clean ls) (hl : ls.length < 2 ^ 63 - 1) (c : Command) (v w : Nat)
    (ha : Denotes c.start (.num v)) (hb : Denotes c.end_ (.num w)) (hty : c.typ = .delete) :
    (w < 2 ^ 63 - 1 → v ≤ w + 1 → ∃ s', processCommand env s c = .ok (s', []) ∧ Shows s' (ls.take (v - 1) ++ ls.drop w) ∧ s'.currentLine = v) ∧
    (2 ^ 63 - 1 ≤ w → processCommand env s c = .error (.panic .index)) := by
  have hne : c.start.typ ≠ .null := by rw [ha.1]; decide
  refine ⟨fun hw hvw => ?_, fun hw => ?_⟩
  · obtain ⟨pt', e, sh⟩ := delete_shows h hc.plain v w (by omega) (by omega) (by omega)
    have i1 := index_clean hc.lastNe v
    have i2 : index ls ((w : Int) + 1) = min w ls.length := index_clean hc.lastNe (w + 1)
    rw [i1, i2] at sh
    have e1 : ls.take (min (v - 1) ls.length) = ls.take (v - 1) := by rw [← List.take_take, List.take_length]
    have e2 : ls.drop (min w ls.length) = ls.drop w := by
      by_cases hk : w ≤ ls.length
      · rw [Nat.min_eq_left hk]
      · rw [Nat.min_eq_right (by omega), List.drop_eq_nil_of_le (Nat.le_refl _), List.drop_eq_nil_of_le (by omega)]
    rw [e1, e2] at sh
    refine ⟨{ s with pt := pt', currentLine := (v : Int) }, ?_, ⟨sh.reach, sh.text⟩, rfl⟩
    simp only [processCommand, setDefault_given c hne, hty, addrLine_num env s ha (by omega), addrLine_num env s hb (by omega), bind, Except.bind, e, lift,
      addrLine_num env _ ha (show v < 2 ^ 63 by omega)]
    rfl
  · have hB := addrLine_any env s hb
    rw [Nat.min_eq_right (by omega)] at hB
    have hA := addrLine_any env s ha
    have g := getLineAddr_shows h hc.plain ((min v (2 ^ 63 - 1) : Nat) : Int) (by omega) (by omega)
    simp only [processCommand, setDefault_given c hne, hty, hA, hB, bind, Except.bind, delete, g, wrap_top, getLineAddr_least h hc hl, lift]

/-- **C172** (partial, as above) The same for `v,wc`. -/
theorem C172_change_partial (env : Env) {s : State} {ls : List Bytes} (h : Shows s ls) (hc : Clean ls) (hl : ls.length < 2 ^ 63 - 1) (c : Command) (v w : Nat)
    (ha : Denotes c.start (.num v)) (hb : Denotes c.end_ (.num w)) (hty : c.typ = .change) (hw : 2 ^ 63 - 1 ≤ w) :
    processCommand env s c = .error (.panic .index) := by
  have hne : c.start.typ ≠ .null := by rw [ha.1]; decide
  have hB := addrLine_any env s hb
  rw [Nat.min_eq_right (by omega)] at hB
  have hA := addrLine_any env s ha
  have g := getLineAddr_shows h hc.plain ((min v (2 ^ 63 - 1) : Nat) : Int) (by omega) (by omega)
  simp only [processCommand, setDefault_given c hne, hty, hA, hB, bind, Except.bind, delete, g, wrap_top, getLineAddr_least h hc hl, lift]

/-- **C172** What follows a number near the limit: after `va`, with `v` at most 2^63-2 but beyond the last line, a plain `a` puts its text at the end of
the buffer, as after any other number, if `v` and the lines added stay below 2^63-2; it ends the program if they come to just that, and puts its
text before the first line of the buffer if they exceed it. -/
theorem C172_then_append (env : Env) {s : State} {ls : List Bytes} (h : Shows s ls) (hc : Clean ls) (v : Nat) (t u : List Bytes) (ht : TextOK t) (hu : TextOK u)
    (hcl : Clean (ls ++ t)) (c d : Command) (ha : Denotes c.start (.num v)) (hty : c.typ = .append) (htext : c.text = join [nl] t)
    (hd : d.typ = .append) (hs : d.start.typ = .null) (hdt : d.text = join [nl] u) (hv : ls.length < v) (hv2 : v < 2 ^ 63 - 1)
    (hlen : ls.length + t.length < 2 ^ 62) :
    ∃ s1, processCommand env s c = .ok (s1, []) ∧ Shows s1 (ls ++ t) ∧
      (v + t.length < 2 ^ 63 - 2 → ∃ s2, processCommand env s1 d = .ok (s2, []) ∧ Shows s2 (ls ++ t ++ u)) ∧
      (v + t.length = 2 ^ 63 - 2 → processCommand env s1 d = .error (.panic .index)) ∧
      (2 ^ 63 - 2 < v + t.length → ∃ s2, processCommand env s1 d = .ok (s2, []) ∧ Shows s2 (u ++ (ls ++ t))) := by
  obtain ⟨s1, e, sh, cur⟩ := (C172_add_partial env h hc (by omega) c v ha t ht htext).2.1 hty hv2
  rw [List.take_of_length_le (by omega), List.drop_of_length_le (by omega), List.append_nil] at sh
  have hA : ∀ i : Int, s1.currentLine = i → -2 ^ 63 ≤ i → i < 2 ^ 63 → addrLine env s1 (setDefaultAddresses d).start = .ok i := by
    intro i hi h1 h2
    have : (setDefaultAddresses d).start = ⟨.current, b!".", 0⟩ := by
      simp only [setDefaultAddresses, hs, if_true, hd]
      split <;> rfl
    rw [this]
    simp only [addrLine, hi, Int.add_zero, wrap64_id h1 h2]
  refine ⟨s1, e, sh, fun hk => ?_, fun hk => ?_, fun hk => ?_⟩
  · rw [wrap64_id (by omega) (by omega)] at cur
    obtain ⟨pt', e, sh2⟩ := insert_shows sh hcl.plain ((v : Int) + 1 + t.length + 1) (by omega) (by omega) u hu.ne
    have hi : index (ls ++ t) ((v : Int) + 1 + t.length + 1) = (ls ++ t).length := by
      simp only [index, dropBlank_clean hcl.lastNe, List.length_append]
      omega
    rw [hi, List.take_length, List.drop_length, List.append_nil] at sh2
    refine ⟨{ s1 with pt := pt', currentLine := wrap64 (wrap64 ((v : Int) + 1 + t.length + 1) + linesIn d.text) }, ?_, ⟨sh2.reach, sh2.text⟩⟩
    simp only [processCommand, typ_setDefault, hd, hA _ cur (by omega) (by omega), bind, Except.bind, text_setDefault, hdt]
    rw [wrap64_id (i := (v : Int) + 1 + t.length + 1) (by omega) (by omega), e]
    rfl
  · rw [wrap64_id (by omega) (by omega)] at cur
    simp only [processCommand, typ_setDefault, hd, hA _ cur (by omega) (by omega), bind, Except.bind, text_setDefault, hdt]
    rw [show (v : Int) + 1 + t.length + 1 = ((2 ^ 63 - 1 : Nat) : Int) + 1 by omega, wrap_top]
    simp only [insertBeforeLine, getLineAddr_least sh hcl (by rw [List.length_append]; omega)]
    rfl
  · have hw : wrap64 ((v : Int) + 1 + t.length) = (v : Int) + 1 + t.length - 2 ^ 64 := by
      simp only [wrap64]
      omega
    rw [hw] at cur
    obtain ⟨pt', e, sh2⟩ := insert_shows sh hcl.plain ((v : Int) + 1 + t.length - 2 ^ 64 + 1) (by omega) (by omega) u hu.ne
    have hi : index (ls ++ t) ((v : Int) + 1 + t.length - 2 ^ 64 + 1) = 0 := by
      simp only [index]
      omega
    rw [hi, List.take_zero, List.drop_zero, List.nil_append] at sh2
    refine ⟨{ s1 with pt := pt', currentLine := wrap64 (wrap64 ((v : Int) + 1 + t.length - 2 ^ 64 + 1) + linesIn d.text) }, ?_, ⟨sh2.reach, sh2.text⟩⟩
    simp only [processCommand, typ_setDefault, hd, hA _ cur (by omega) (by omega), bind, Except.bind, text_setDefault, hdt]
    rw [wrap64_id (i := (v : Int) + 1 + t.length - 2 ^ 64 + 1) (by omega) (by omega), e]
    rfl

/-- **C172** As typed: for a number of any length whose value is 2^63-1 or more, `va` with its text and `x,vd` with any number `x` end the program, and
`vi` with its text is carried out. -/
theorem C172_typed (env : Env) {s : State} {ls : List Bytes} (h : Shows s ls) (hc : Clean ls) (hl : ls.length < 2 ^ 63 - 1) (w0 w9 : Bytes) (hw0 : Blanks w0) (hw9 : Blanks w9)
    (v x : Bytes) (hv : v ≠ [] ∧ ∀ c ∈ v, isDigit c = true) (hx : x ≠ [] ∧ ∀ c ∈ x, isDigit c = true) (hbig : 2 ^ 63 - 1 ≤ digitsVal v)
    (t : List Bytes) (ht : TextOK t) (hb : BlockOK t) :
    (∃ c, parseCommands (w0 ++ v ++ b!"a\n" ++ block t) = some [c] ∧ processCommand env s c = .error (.panic .index)) ∧
    (∃ c, parseCommands (w0 ++ (x ++ (44 :: v) ++ [100]) ++ w9 ++ [10]) = some [c] ∧ processCommand env s c = .error (.panic .index)) ∧
    (∃ c s', parseCommands (w0 ++ v ++ b!"i\n" ++ block t) = some [c] ∧ processCommand env s c = .ok (s', []) ∧ Shows s' (ls ++ t)) := by
  have dv : Denotes (AddrSyn.lit v).address (.num (digitsVal v)) := ⟨rfl, rfl, hv.1, hv.2, rfl⟩
  have dx : Denotes (AddrSyn.lit x).address (.num (digitsVal x)) := ⟨rfl, rfl, hx.1, hx.2, rfl⟩
  have p := C68_append_insert w0 hw0 (.one (.lit v) []) ⟨hv, by simp [Blanks]⟩ (by simp [RangeSyn.Simple]) t hb
  have q := C67_range_commands w0 w9 hw0 hw9 (.both false (.lit x) [] [] (.lit v) []) ⟨hx, hv, by simp [Blanks], by simp [Blanks], by simp [Blanks]⟩ 100 .delete
    (by decide)
  simp only [RangeSyn.bytes, AddrSyn.bytes, List.append_nil, List.nil_append, sepByte] at p q
  refine ⟨⟨_, p.1, ?_⟩, ⟨_, q, ?_⟩, ?_⟩
  · exact (C172_add_partial env h hc hl _ _ dv t ht rfl).2.2 rfl hbig
  · exact (C172_delete_partial env h hc hl _ _ _ dx dv rfl).2 hbig
  · obtain ⟨s', e, sh, _⟩ := (C172_add_partial env h hc hl { typ := .insert, start := (AddrSyn.lit v).address, text := join [10] t } _ dv t ht rfl).1 rfl
    rw [List.take_of_length_le (by omega), List.drop_of_length_le (by omega), List.append_nil] at sh
    exact ⟨_, s', p.2, e, sh⟩

private theorem ascii1 {x : Bytes} (h1 : nl ∉ x) (h2 : x.getLast? ≠ some cr) (h3 : x.length < 100) : TextOK [x] :=
  ⟨by simp, by intro l hl; simp at hl; subst hl; exact plain_ascii _ h1 h2 h3⟩

/-- **C172** The expected statement is false: in a buffer of four lines `9223372036854775806a` adds its line at the end, `9223372036854775807a` ends the
program; and after the first, a plain `a` adds its line at the beginning. -/
theorem C172_counterexample (env : Env) (d : Command) (hd : d = { typ := .append, text := b!"y" }) :
    (∃ s1 s2, processCommand env (opened demoLines 4) { typ := .append, start := numAddr 9223372036854775806, text := b!"x" } = .ok (s1, []) ∧
      Shows s1 (demoLines ++ [b!"x"]) ∧ processCommand env s1 d = .ok (s2, []) ∧ Shows s2 (b!"y" :: demoLines ++ [b!"x"])) ∧
    processCommand env (opened demoLines 4) { typ := .append, start := numAddr 9223372036854775807, text := b!"x" } = .error (.panic .index) := by
  subst hd
  constructor
  · obtain ⟨s1, h1, h2, _, _, h3⟩ := C172_then_append env (opened_shows demoLines 4) demo_clean 9223372036854775806 [b!"x"] [b!"y"]
      (ascii1 (by decide) (by decide) (by decide)) (ascii1 (by decide) (by decide) (by decide)) (clean_of _ (by decide) (by decide))
      { typ := .append, start := numAddr 9223372036854775806, text := b!"x" } { typ := .append, text := b!"y" } (numAddr_denotes _) rfl rfl rfl rfl rfl
      (by decide) (by decide) (by decide)
    obtain ⟨s2, h4, h5⟩ := h3 (by decide)
    exact ⟨s1, s2, h1, h2, h4, h5⟩
  · exact (C172_add_partial env (opened_shows demoLines 4) demo_clean (by decide) { typ := .append, start := numAddr 9223372036854775807, text := b!"x" } 9223372036854775807
      (numAddr_denotes _) [b!"x"] (ascii1 (by decide) (by decide) (by decide)) rfl).2.2 rfl (by decide)

/-- A number of 30 digits, as typed: `=` answers 2^63-1; `i` adds at the end; `1,...d` ends the program. -/
example (env : Env) : processCommand env (opened demoLines 4) { typ := .lineNumber, start := ⟨.num, b!"100000000000000000000000000000", 0⟩ } =
      .ok (opened demoLines 4, b!"9223372036854775807") ∧
    (∃ s', processCommand env (opened demoLines 4) { typ := .insert, start := ⟨.num, b!"100000000000000000000000000000", 0⟩, text := b!"x" } = .ok (s', []) ∧
      Shows s' (demoLines ++ [b!"x"])) ∧
    processCommand env (opened demoLines 4) { typ := .delete, start := numAddr 1, end_ := ⟨.num, b!"100000000000000000000000000000", 0⟩ } =
      .error (.panic .index) := by
  have hd : Denotes ⟨.num, b!"100000000000000000000000000000", 0⟩ (.num 100000000000000000000000000000) :=
    ⟨rfl, rfl, by decide, by decide, by decide⟩
  refine ⟨?_, ?_, ?_⟩
  · rw [C172_shown env _ _ rfl _ hd]
    have : natToDec (min 100000000000000000000000000000 (2 ^ 63 - 1)) = b!"9223372036854775807" := by decide +kernel
    rw [this]
  · obtain ⟨s', h1, h2, _⟩ := (C172_add_partial env (opened_shows demoLines 4) demo_clean (by decide)
      { typ := .insert, start := ⟨.num, b!"100000000000000000000000000000", 0⟩, text := b!"x" } _ hd [b!"x"] (ascii1 (by decide) (by decide) (by decide)) rfl).1 rfl
    exact ⟨s', h1, h2⟩
  · exact (C172_delete_partial env (opened_shows demoLines 4) demo_clean (by decide)
      { typ := .delete, start := numAddr 1, end_ := ⟨.num, b!"100000000000000000000000000000", 0⟩ } 1 _ (numAddr_denotes 1) hd rfl).2 (by decide)

end Ed
