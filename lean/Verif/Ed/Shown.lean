import Verif.Ed.GrammarProps
import Verif.Ed.Process
import Verif.Go.StrconvProps

/-!
# The line that is printed about a command (C122)

ed.go:248 prints every command it receives, `cmd` and the fields of the structure. Nothing is quoted; different commands
are shown differently all the same.
-/

namespace Ed
open Go

/-- Splitting at the first byte of a kind. -/
theorem cut_first {c : UInt8} {a b x y : Bytes} (ha : c ∉ a) (hb : c ∉ b) (h : a ++ c :: x = b ++ c :: y) : a = b ∧ x = y := by
  induction a generalizing b with
  | nil =>
    cases b with
    | nil => exact ⟨rfl, by simpa using h⟩
    | cons d b => simp only [List.nil_append, List.cons_append, List.cons.injEq] at h; simp [h.1] at hb
  | cons d a ih =>
    cases b with
    | nil => simp only [List.nil_append, List.cons_append, List.cons.injEq] at h; simp [h.1] at ha
    | cons e b =>
      simp only [List.cons_append, List.cons.injEq] at h
      obtain ⟨h1, h2⟩ := ih (fun h => ha (by simp [h])) (fun h => hb (by simp [h])) h.2
      exact ⟨by rw [h.1, h1], h2⟩

/-- Splitting at the end of a pattern. -/
theorem cut_pattern {d : UInt8} {a b x y : Bytes} (ha : PatternOK d a) (hb : PatternOK d b) (h : a ++ d :: x = b ++ d :: y) : a = b ∧ x = y := by
  have no : ∀ {a b z y : Bytes}, PatternOK d a → PatternOK d b → b = a ++ z → d :: x = z ++ d :: y → z = [] := by
    intro a b z y ha hb e1 e2
    cases z with
    | nil => rfl
    | cons w z =>
      simp only [List.cons_append, List.cons.injEq] at e2
      rw [← e2.1] at e1
      exact absurd (hb.esc _ _ e1) ha.last
  rcases List.append_eq_append_iff.mp h with ⟨z, e1, e2⟩ | ⟨z, e1, e2⟩
  · have hz := no ha hb e1 e2
    subst hz
    exact ⟨by simpa using e1.symm, by simpa using e2⟩
  · cases z with
    | nil => exact ⟨by simpa using e1, by simpa using e2.symm⟩
    | cons w z =>
      simp only [List.cons_append, List.cons.injEq] at e2
      rw [← e2.1] at e1
      exact absurd (ha.esc _ _ e1) hb.last

/-- Texts of addresses: a pattern with something after it, or something without a brace. -/
def ShownText (t : AddrType) (x : Bytes) : Prop :=
  (t = .regex ∧ ∃ body tail, PatternOK 47 body ∧ 125 ∉ tail ∧ x = 47 :: (body ++ 47 :: tail)) ∨
  (t = .regexReverse ∧ ∃ body tail, PatternOK 63 body ∧ 125 ∉ tail ∧ x = 63 :: (body ++ 63 :: tail)) ∨
  (t ≠ .regex ∧ t ≠ .regexReverse ∧ 125 ∉ x)

/-- An address of a command that has been read. -/
def Shown (a : Address) : Prop := a.offset = 0 ∧ ShownText a.typ a.text

theorem addr_code_inj {s t : AddrType} (h : s.code = t.code) : s = t := by cases s <;> cases t <;> first | rfl | cases h
theorem cmd_code_inj {s t : CmdType} (h : s.code = t.code) : s = t := by cases s <;> cases t <;> first | rfl | cases h

theorem code_no_space (n : Nat) : (32 : UInt8) ∉ natToDec n := by
  intro h
  have := (natToDec_spec n).2.1 32 h
  revert this
  decide

theorem after_text {x y : Bytes} {r r' : Bytes} (hx : 125 ∉ x) (hy : 125 ∉ y) (h : x ++ (b!" 0}" ++ r) = y ++ (b!" 0}" ++ r')) : x = y ∧ r = r' := by
  have h' : (x ++ b!" 0") ++ 125 :: r = (y ++ b!" 0") ++ 125 :: r' := by simpa using h
  obtain ⟨h1, h2⟩ := cut_first (by simp [hx]) (by simp [hy]) h'
  exact ⟨List.append_cancel_right h1, h2⟩

theorem address_apart {a b : Address} {r r' : Bytes} (ha : Shown a) (hb : Shown b) (h : a.shown ++ r = b.shown ++ r') : a = b ∧ r = r' := by
  obtain ⟨a1, a2⟩ := ha
  obtain ⟨b1, b2⟩ := hb
  have z : itoa 0 = b!"0" := by decide
  simp only [Address.shown, a1, b1, z] at h
  have h' : natToDec a.typ.code ++ 32 :: (a.text ++ (b!" 0}" ++ r)) = natToDec b.typ.code ++ 32 :: (b.text ++ (b!" 0}" ++ r')) := by
    simpa using h
  obtain ⟨h1, h2⟩ := cut_first (code_no_space _) (code_no_space _) h'
  have ht := addr_code_inj (natToDec_injective h1)
  have fin : a.text = b.text → r = r' → a = b ∧ r = r' := by
    intro e1 e2
    refine ⟨?_, e2⟩
    cases a; cases b
    simp only at ht e1 a1 b1
    subst ht e1 a1 b1
    rfl
  rcases a2 with ⟨t1, body, tail, p1, p2, e1⟩ | ⟨t1, body, tail, p1, p2, e1⟩ | ⟨t1, t2, p⟩
  · rcases b2 with ⟨-, body', tail', q1, q2, e2⟩ | ⟨t2, -⟩ | ⟨t2, -⟩
    · rw [e1, e2] at h2
      have h3 : body ++ 47 :: (tail ++ (b!" 0}" ++ r)) = body' ++ 47 :: (tail' ++ (b!" 0}" ++ r')) := by simpa using h2
      obtain ⟨rfl, h4⟩ := cut_pattern p1 q1 h3
      obtain ⟨rfl, h5⟩ := after_text p2 q2 h4
      exact fin (by rw [e1, e2]) h5
    · rw [← ht, t1] at t2; cases t2
    · exact absurd (ht ▸ t1) t2
  · rcases b2 with ⟨t2, -⟩ | ⟨-, body', tail', q1, q2, e2⟩ | ⟨-, t2, -⟩
    · rw [← ht, t1] at t2; cases t2
    · rw [e1, e2] at h2
      have h3 : body ++ 63 :: (tail ++ (b!" 0}" ++ r)) = body' ++ 63 :: (tail' ++ (b!" 0}" ++ r')) := by simpa using h2
      obtain ⟨rfl, h4⟩ := cut_pattern p1 q1 h3
      obtain ⟨rfl, h5⟩ := after_text p2 q2 h4
      exact fin (by rw [e1, e2]) h5
    · exact absurd (ht ▸ t1) t2
  · rcases b2 with ⟨u1, -⟩ | ⟨u1, -⟩ | ⟨-, -, q⟩
    · exact absurd (ht ▸ u1) t1
    · exact absurd (ht ▸ u1) t2
    · obtain ⟨e, h5⟩ := after_text p q h2
      exact fin e h5

/-! ## The commands that are read -/

theorem digits_no_brace {ds : Bytes} (h : ∀ c ∈ ds, isDigit c = true) : (125 : UInt8) ∉ ds := fun hm => absurd (h _ hm) (by decide)

theorem addr_text {a : AddrSyn} (h : a.OK) {w : Bytes} (hw : 125 ∉ w) : ShownText a.typ (a.bytes ++ w) := by
  have plain : ∀ {a : AddrSyn}, a.OK → a.Plain → ∀ {w : Bytes}, 125 ∉ w → ShownText a.typ (a.bytes ++ w) := by
    intro a h hp w hw
    cases a with
    | lit ds => exact .inr (.inr ⟨by simp, by simp, by simp only [AddrSyn.bytes, List.mem_append, not_or]; exact ⟨digits_no_brace h.2, hw⟩⟩)
    | dot => exact .inr (.inr ⟨by simp, by simp, by simpa [AddrSyn.bytes] using hw⟩)
    | dollar => exact .inr (.inr ⟨by simp, by simp, by simpa [AddrSyn.bytes] using hw⟩)
    | re body => exact .inl ⟨rfl, body, w, h, hw, by simp [AddrSyn.bytes]⟩
    | mark c =>
      refine .inr (.inr ⟨by simp, by simp, ?_⟩)
      simp only [AddrSyn.bytes, List.mem_append, List.mem_cons, List.not_mem_nil, or_false, not_or]
      refine ⟨⟨by decide, ?_⟩, hw⟩
      intro e
      rw [← e] at h
      exact absurd h.2 (by decide)
    | back body => exact .inr (.inl ⟨rfl, body, w, h, hw, by simp [AddrSyn.bytes]⟩)
    | off a m ds => cases hp
  cases a with
  | off a m ds =>
    have hs : (125 : UInt8) ≠ signByte m := by cases m <;> decide
    have e : (AddrSyn.off a m ds).bytes ++ w = a.bytes ++ (signByte m :: ds ++ w) := by simp [AddrSyn.bytes]
    rw [e]
    exact plain h.1 h.2.1 (by simp [hs, digits_no_brace h.2.2, hw])
  | lit ds => exact plain h trivial hw
  | dot => exact plain h trivial hw
  | dollar => exact plain h trivial hw
  | re body => exact plain h trivial hw
  | mark c => exact plain h trivial hw
  | back body => exact plain h trivial hw

theorem shown_address {a : AddrSyn} (h : a.OK) : Shown a.address :=
  ⟨rfl, by have := addr_text h (w := []) (by simp); simpa [AddrSyn.address] using this⟩

theorem shown_null : Shown {} := ⟨rfl, .inr (.inr ⟨by simp, by simp, by simp⟩)⟩

theorem shown_range {r : RangeSyn} (h : r.OK) : Shown r.start ∧ Shown r.end_ := by
  have k1 : Shown aCur := ⟨rfl, .inr (.inr ⟨by decide, by decide, by decide⟩)⟩
  have k2 : Shown aFirst := ⟨rfl, .inr (.inr ⟨by decide, by decide, by decide⟩)⟩
  have k3 : Shown aLast := ⟨rfl, .inr (.inr ⟨by decide, by decide, by decide⟩)⟩
  cases r with
  | none => exact ⟨shown_null, shown_null⟩
  | one a w => exact ⟨shown_address h.1, shown_address h.1⟩
  | both s a w1 w2 b w3 => exact ⟨shown_address h.1, shown_address h.2.1⟩
  | startOnly s a w => exact ⟨shown_address h.1, shown_address h.1⟩
  | endOnly s w1 b w2 => exact ⟨by show Shown (if s then aCur else aFirst); split <;> assumption, shown_address h.1⟩
  | all s => exact ⟨by show Shown (if s then aCur else aFirst); split <;> assumption, k3⟩

/-- The commands with something in the list of parameters. -/
def CmdType.listed (t : CmdType) : Bool := t ∈ [CmdType.edit, .editForce, .filename, .mark]

theorem blanks_no_brace {w : Bytes} (h : Blanks w) : (125 : UInt8) ∉ w := fun hm => by
  have := h _ hm
  revert this
  decide

theorem reads_shape {u : Bytes} {c : Command} (h : Reads u c) : Shown c.start ∧ Shown c.end_ ∧ Shown c.dest ∧
    if c.typ.listed then c.text = [] ∧ (c.params = [] ∨ ∃ p, p ≠ [] ∧ c.params = [p]) else c.params = [] := by
  have no : ∀ {l : List (UInt8 × CmdType)} {a t}, (a, t) ∈ l → (l.all fun p => !p.2.listed) = true → t.listed = false := by
    intro l a t h g
    have := List.all_eq_true.mp g _ h
    simpa using this
  have yes : ∀ {l : List (UInt8 × CmdType)} {a t}, (a, t) ∈ l → (l.all fun p => p.2.listed) = true → t.listed = true := by
    intro l a t h g
    exact List.all_eq_true.mp g _ h
  cases h with
  | range _ _ _ hr hl => exact ⟨(shown_range hr).1, (shown_range hr).2, shown_null, by rw [if_neg (by rw [no hl (by decide)]; simp)]⟩
  | @number w0 w9 r _ _ hr hs =>
    refine ⟨?_, shown_null, shown_null, rfl⟩
    cases r with
    | none => exact ⟨rfl, .inr (.inr ⟨by decide, by decide, by decide⟩)⟩
    | one a w => exact ⟨rfl, addr_text hr.1 (blanks_no_brace hr.2)⟩
    | _ => cases hs
  | null _ hr _ => exact ⟨(shown_range hr).1, shown_null, shown_null, rfl⟩
  | bare _ _ hl => exact ⟨shown_null, shown_null, shown_null, by rw [if_neg (by rw [no hl (by decide)]; simp)]⟩
  | unnamed _ _ hl => exact ⟨shown_null, shown_null, shown_null, by rw [if_pos (yes hl (by decide))]; exact ⟨rfl, .inl rfl⟩⟩
  | named _ _ _ hn hl => exact ⟨shown_null, shown_null, shown_null, by rw [if_pos (yes hl (by decide))]; exact ⟨rfl, .inr ⟨_, hn.1, rfl⟩⟩⟩
  | write _ _ hr => exact ⟨(shown_range hr).1, (shown_range hr).2, shown_null, rfl⟩
  | writeNamed _ _ _ _ hr => exact ⟨(shown_range hr).1, (shown_range hr).2, shown_null, rfl⟩
  | mark _ _ hr _ _ _ => exact ⟨(shown_range hr).1, shown_null, shown_null, rfl, .inr ⟨_, by simp, rfl⟩⟩
  | dest _ _ hr ha hl => exact ⟨(shown_range hr).1, (shown_range hr).2, shown_address ha, by rw [if_neg (by rw [no hl (by decide)]; simp)]⟩
  | read _ _ _ _ hr _ => exact ⟨(shown_range hr).1, shown_null, shown_null, rfl⟩
  | shell => exact ⟨shown_null, shown_null, shown_null, rfl⟩
  | add _ _ hr _ hl _ => exact ⟨(shown_range hr).1, shown_null, shown_null, by rw [if_neg (by rw [no hl (by decide)]; simp)]⟩
  | change _ _ hr _ => exact ⟨(shown_range hr).1, (shown_range hr).2, shown_null, rfl⟩

/-- **C122** Commands that are shown in the same way are the same. -/
theorem C122_told_apart {u u' : Bytes} {c c' : Command} (h : Reads u c) (h' : Reads u' c') (e : traceLine c = traceLine c') : c = c' := by
  obtain ⟨a1, a2, a3, a4⟩ := reads_shape h
  obtain ⟨b1, b2, b3, b4⟩ := reads_shape h'
  have e0 : natToDec c.typ.code ++ 32 :: (c.start.shown ++ (32 :: (c.end_.shown ++ (32 :: (c.dest.shown ++ (32 :: (c.text ++ (b!" [" ++ (join b!" " c.params ++ b!"]}\n"))))))))) =
      natToDec c'.typ.code ++ 32 :: (c'.start.shown ++ (32 :: (c'.end_.shown ++ (32 :: (c'.dest.shown ++ (32 :: (c'.text ++ (b!" [" ++ (join b!" " c'.params ++ b!"]}\n"))))))))) := by
    simpa [traceLine, Command.shown, nl] using e
  obtain ⟨e1, e2⟩ := cut_first (code_no_space _) (code_no_space _) e0
  have ht := cmd_code_inj (natToDec_injective e1)
  obtain ⟨s1, e3⟩ := address_apart a1 b1 e2
  obtain ⟨s2, e4⟩ := address_apart a2 b2 (List.cons.inj e3).2
  obtain ⟨s3, e5⟩ := address_apart a3 b3 (List.cons.inj e4).2
  have e6 := (List.cons.inj e5).2
  have fin : c.text = c'.text → c.params = c'.params → c = c' := by
    intro x y
    cases c; cases c'
    simp only at ht s1 s2 s3 x y
    subst ht s1 s2 s3 x y
    rfl
  by_cases hl : c.typ.listed = true
  · rw [if_pos hl] at a4
    rw [if_pos (ht ▸ hl)] at b4
    rw [a4.1, b4.1] at e6
    have e7 : join b!" " c.params = join b!" " c'.params := by
      have : join b!" " c.params ++ b!"]}\n" = join b!" " c'.params ++ b!"]}\n" := by simpa using e6
      exact List.append_cancel_right this
    refine fin (by rw [a4.1, b4.1]) ?_
    rcases a4.2 with p | ⟨p, hp, p1⟩ <;> rcases b4.2 with q | ⟨q, hq, q1⟩
    · rw [p, q]
    · rw [p, q1] at e7; exact absurd (by simpa [join] using e7.symm) hq
    · rw [p1, q] at e7; exact absurd (by simpa [join] using e7) hp
    · rw [p1, q1] at e7 ⊢; simpa [join] using e7
  · rw [if_neg hl] at a4
    rw [if_neg (ht ▸ hl)] at b4
    rw [a4, b4] at e6
    exact fin (List.append_cancel_right e6) (by rw [a4, b4])

/-- **C122** So two ASCII texts for which the same lines are printed are the same commands. -/
theorem C122_texts {s s' : Bytes} (ha : ∀ c ∈ s, c < 0x80) (ha' : ∀ c ∈ s', c < 0x80) {cs cs' : List Command} (h : parseCommands s = some cs)
    (h' : parseCommands s' = some cs') (e : cs.map traceLine = cs'.map traceLine) : cs = cs' := by
  have g := (C105_exact s ha cs).mp h
  have g' := (C105_exact s' ha' cs').mp h'
  clear ha ha' h h'
  induction g generalizing s' cs' with
  | nil => cases cs' <;> simp at e ⊢
  | cons hr _ ih =>
    cases g' with
    | nil => simp at e
    | cons hr' hs' =>
      simp only [List.map_cons, List.cons.injEq] at e
      rw [C122_told_apart hr hr' e.1, ih e.2 hs']

/-- Two commands that only just differ: a search forwards and one backwards, with a brace in the pattern. -/
example : Reads b!"/a 0} {0  0}/p" { typ := .print, start := (AddrSyn.re b!"a 0} {0  0}").address, end_ := (AddrSyn.re b!"a 0} {0  0}").address } ∧
    Reads b!"?a?p" { typ := .print, start := (AddrSyn.back b!"a").address, end_ := (AddrSyn.back b!"a").address } :=
  have nb : Blanks [] := fun _ h => by cases h
  ⟨.range (w0 := []) (ws := []) (w9 := []) (r := .one (.re b!"a 0} {0  0}") []) nb nb nb ⟨.plain (by decide) (by decide), nb⟩ (letter := 112) (by decide),
   .range (w0 := []) (ws := []) (w9 := []) (r := .one (.back b!"a") []) nb nb nb ⟨.plain (by decide) (by decide), nb⟩ (letter := 112) (by decide)⟩

end Ed
