import Verif.Ed.BlockProps
import Verif.Ed.EchoProps

/-!
# What becomes of the rest of a block

The reader collects a block up to a line that is exactly a dot, but the grammar ends the text at a dot followed by
blanks (ed.peg.go:1046-1106, ed.go:214-239). What is collected after that is parsed as if it had been typed on its own:
the rules do not depend on the position, and no action uses the bounds another command left behind.
-/

namespace Ed
open Go

/-! ## Parsing further on in the buffer -/

/-- A token of a rule that started `k` runes later. -/
def Tok.later (k : Nat) : Tok → Tok
  | .pegText b e => .pegText (b + k) (e + k)
  | .act n => .act n

/-- The result of a rule that started `k` runes later. -/
def laterR (k : Nat) (r : Nat × List Nat × List Tok) : Nat × List Nat × List Tok := (r.1 + k, r.2.1, r.2.2.map (Tok.later k))

/-- The rule does not look at the position. -/
def Uniform (p : P) : Prop := ∀ k pos rs, p (pos + k) rs = (p pos rs).map (laterR k)

theorem Uniform.cls (f : Nat → Bool) : Uniform (Ed.cls f) := by
  intro k pos rs
  cases rs with
  | nil => rfl
  | cons c rs =>
    simp only [Ed.cls]
    split
    · simp [laterR]; omega
    · rfl

theorem Uniform.act (n : Nat) : Uniform (Ed.act n) := fun _ _ _ => rfl

theorem Uniform.seq {p q : P} (hp : Uniform p) (hq : Uniform q) : Uniform (p ⬝ q) := by
  intro k pos rs
  simp only [Ed.seq, hp k pos rs]
  cases p pos rs with
  | none => rfl
  | some r =>
    simp only [Option.map_some, laterR, hq k r.1 r.2.1]
    cases q r.1 r.2.1 with
    | none => rfl
    | some r' => simp [laterR]

theorem Uniform.alt {p q : P} (hp : Uniform p) (hq : Uniform q) : Uniform (p / q) := by
  intro k pos rs
  simp only [Ed.alt, hp k pos rs, hq k pos rs]
  cases p pos rs <;> rfl

theorem Uniform.opt {p : P} (hp : Uniform p) : Uniform (Ed.opt p) := by
  intro k pos rs
  simp only [Ed.opt, hp k pos rs]
  cases p pos rs <;> rfl

theorem Uniform.notP {p : P} (hp : Uniform p) : Uniform (Ed.notP p) := by
  intro k pos rs
  simp only [Ed.notP, hp k pos rs]
  cases p pos rs <;> rfl

theorem Uniform.capture {p : P} (hp : Uniform p) : Uniform (Ed.capture p) := by
  intro k pos rs
  simp only [Ed.capture, hp k pos rs]
  cases p pos rs with
  | none => rfl
  | some r => simp [laterR, Tok.later]

theorem Uniform.starAux {p : P} (hp : Uniform p) (k : Nat) : ∀ (n pos : Nat) (rs : List Nat),
    Ed.starAux p n (pos + k) rs = laterR k (Ed.starAux p n pos rs) := by
  intro n
  induction n with
  | zero => intro pos rs; rfl
  | succ n ih =>
    intro pos rs
    simp only [Ed.starAux, hp k pos rs]
    cases p pos rs with
    | none => rfl
    | some r =>
      simp only [Option.map_some, laterR, ih]
      simp

theorem Uniform.star {p : P} (hp : Uniform p) : Uniform (Ed.star p) := fun k pos rs => by
  simp only [Ed.star, hp.starAux k, Option.map_some]

theorem Uniform.plus {p : P} (hp : Uniform p) : Uniform (Ed.plus p) := hp.seq hp.star

/-! ## Executing further on in the buffer -/

/-- Two states of `Execute` that agree on the command and the address being built. -/
def Agree (_ : Nat) (s s' : Exec) : Prop := s.cmd = s'.cmd ∧ s.addr = s'.addr

/-- And whose bounds stand for the same text. -/
def AgreeText (k : Nat) (s s' : Exec) : Prop := Agree k s s' ∧ s.b = s'.b + k ∧ s.e = s'.e + k

/-- Executing the tokens later in a longer buffer sends the same commands, from states related by `I` to states related by `O`. -/
def Moves (I O : Nat → Exec → Exec → Prop) (t : List Tok) : Prop :=
  ∀ (A B : Bytes) (s s' : Exec) (r1 r2 : List Tok), I A.length s s' →
    (∀ s1 s1', O A.length s1 s1' → execute (A ++ B) s1 r1 = execute B s1' r2) →
    execute (A ++ B) s (t.map (Tok.later A.length) ++ r1) = execute B s' (t ++ r2)

theorem Moves.nil {I O : Nat → Exec → Exec → Prop} (h : ∀ k s s', I k s s' → O k s s') : Moves I O [] :=
  fun A B s s' r1 r2 hi hk => hk s s' (h _ _ _ hi)

theorem Moves.app {I M O : Nat → Exec → Exec → Prop} {a b : List Tok} (ha : Moves I M a) (hb : Moves M O b) : Moves I O (a ++ b) := by
  intro A B s s' r1 r2 hi hk
  rw [List.map_append, List.append_assoc, List.append_assoc]
  exact ha A B s s' _ _ hi (fun s1 s1' h => hb A B s1 s1' _ _ h hk)

theorem Moves.mono {I O I' O' : Nat → Exec → Exec → Prop} {t : List Tok} (h : Moves I O t) (h1 : ∀ k s s', I' k s s' → I k s s')
    (h2 : ∀ k s s', O k s s' → O' k s s') : Moves I' O' t :=
  fun A B s s' r1 r2 hi hk => h A B s s' r1 r2 (h1 _ _ _ hi) (fun s1 s1' ho => hk s1 s1' (h2 _ _ _ ho))

theorem AgreeText.agree (k : Nat) (s s' : Exec) (h : AgreeText k s s') : Agree k s s' := h.1

theorem AgreeText.text {A B : Bytes} {s s' : Exec} (h : AgreeText A.length s s') : s.text (A ++ B) = s'.text B := by
  obtain ⟨_, h1, h2⟩ := h
  simp only [Exec.text, h1, h2]
  rw [Nat.add_comm s'.b, List.drop_append, List.drop_eq_nil_of_le (by omega)]
  have e1 : s'.e + A.length - (A.length + s'.b) = s'.e - s'.b := by omega
  have e2 : A.length + s'.b - A.length = s'.b := by omega
  rw [e1, e2, List.nil_append]

theorem step_text {A B : Bytes} {s s' : Exec} (h : AgreeText A.length s s') (n : Nat) :
    AgreeText A.length (s.step (A ++ B) n) (s'.step B n) := by
  have ht := h.text (B := B)
  obtain ⟨⟨h1, h2⟩, h3, h4⟩ := h
  unfold Exec.step
  split <;> exact ⟨⟨by simp [h1, h2, ht], by simp [h1, h2, ht]⟩, h3, h4⟩

/-- The actions that use the text. -/
def usesText (n : Nat) : Bool := n == 2 || n == 4 || n == 5 || n == 7 || n == 8 || n == 16 || n == 19 || n == 32

theorem step_agree {A B : Bytes} {s s' : Exec} (h : Agree A.length s s') (n : Nat) (hn : usesText n = false) :
    Agree A.length (s.step (A ++ B) n) (s'.step B n) := by
  obtain ⟨h1, h2⟩ := h
  unfold Exec.step
  split <;> first | (exact absurd hn (by decide)) | exact ⟨by simp [h1, h2], by simp [h1, h2]⟩

theorem Moves.actText (n : Nat) : Moves AgreeText AgreeText [.act n] := by
  intro A B s s' r1 r2 hi hk
  simp only [List.map_cons, List.map_nil, Tok.later, List.cons_append, List.nil_append, execute]
  split
  · rw [hk { s with cmd := {} } { s' with cmd := {} } ⟨⟨rfl, hi.1.2⟩, hi.2⟩, hi.1.1]
  · exact hk _ _ (step_text hi n)

theorem Moves.act {n : Nat} (hn : usesText n = false) : Moves Agree Agree [.act n] := by
  intro A B s s' r1 r2 hi hk
  simp only [List.map_cons, List.map_nil, Tok.later, List.cons_append, List.nil_append, execute]
  split
  · rw [hk { s with cmd := {} } { s' with cmd := {} } ⟨rfl, hi.2⟩, hi.1]
  · exact hk _ _ (step_agree hi n hn)

theorem Moves.pegText (b e : Nat) : Moves Agree AgreeText [.pegText b e] := by
  intro A B s s' r1 r2 hi hk
  simp only [List.map_cons, List.map_nil, Tok.later, List.cons_append, List.nil_append, execute]
  exact hk _ _ ⟨hi, rfl, rfl⟩

/-- The rule does not look at the position and its tokens mean the same further on in a buffer. -/
structure Local (I O : Nat → Exec → Exec → Prop) (p : P) : Prop where
  pos : Uniform p
  toks : ∀ pos rs pos' rs' t, p pos rs = some (pos', rs', t) → Moves I O t

theorem Local.cls {f : Nat → Bool} : Local Agree Agree (Ed.cls f) := by
  refine ⟨Uniform.cls f, ?_⟩
  intro pos rs pos' rs' t h
  cases rs with
  | nil => cases h
  | cons c rs =>
    simp only [Ed.cls] at h
    split at h
    · cases h; exact .nil (fun _ _ _ h => h)
    · cases h

theorem Local.clsText {f : Nat → Bool} : Local AgreeText AgreeText (Ed.cls f) := by
  refine ⟨Uniform.cls f, ?_⟩
  intro pos rs pos' rs' t h
  cases rs with
  | nil => cases h
  | cons c rs =>
    simp only [Ed.cls] at h
    split at h
    · cases h; exact .nil (fun _ _ _ h => h)
    · cases h

theorem Local.act {n : Nat} (hn : usesText n = false) : Local Agree Agree (Ed.act n) :=
  ⟨Uniform.act n, fun pos rs pos' rs' t h => by cases h; exact .act hn⟩

theorem Local.actText (n : Nat) : Local AgreeText Agree (Ed.act n) :=
  ⟨Uniform.act n, fun pos rs pos' rs' t h => by cases h; exact (Moves.actText n).mono (fun _ _ _ h => h) AgreeText.agree⟩

theorem Local.seq {I M O : Nat → Exec → Exec → Prop} {p q : P} (hp : Local I M p) (hq : Local M O q) : Local I O (p ⬝ q) := by
  refine ⟨hp.pos.seq hq.pos, ?_⟩
  intro pos rs pos' rs' t h
  simp only [Ed.seq] at h
  cases h1 : p pos rs with
  | none => simp [h1] at h
  | some r1 =>
    obtain ⟨pos1, rs1, t1⟩ := r1
    simp only [h1] at h
    cases h2 : q pos1 rs1 with
    | none => simp [h2] at h
    | some r2 =>
      obtain ⟨pos2, rs2, t2⟩ := r2
      simp only [h2, Option.some.injEq, Prod.mk.injEq] at h
      obtain ⟨rfl, rfl, rfl⟩ := h
      exact (hp.toks _ _ _ _ _ h1).app (hq.toks _ _ _ _ _ h2)

theorem Local.alt {I O : Nat → Exec → Exec → Prop} {p q : P} (hp : Local I O p) (hq : Local I O q) : Local I O (p / q) := by
  refine ⟨hp.pos.alt hq.pos, ?_⟩
  intro pos rs pos' rs' t h
  simp only [Ed.alt] at h
  cases h1 : p pos rs with
  | none => rw [h1] at h; exact hq.toks _ _ _ _ _ h
  | some r => rw [h1] at h; cases h; exact hp.toks _ _ _ _ _ h1

theorem Local.opt {p : P} (hp : Local Agree Agree p) : Local Agree Agree (Ed.opt p) := by
  refine ⟨hp.pos.opt, ?_⟩
  intro pos rs pos' rs' t h
  simp only [Ed.opt] at h
  cases h1 : p pos rs with
  | none => rw [h1] at h; cases h; exact .nil (fun _ _ _ h => h)
  | some r => rw [h1] at h; cases h; exact hp.toks _ _ _ _ _ h1

theorem Local.notP {p : P} (hp : Uniform p) : Local Agree Agree (Ed.notP p) := by
  refine ⟨hp.notP, ?_⟩
  intro pos rs pos' rs' t h
  cases (notP_some h).1
  exact .nil (fun _ _ _ h => h)

theorem Local.star {p : P} (hp : Local Agree Agree p) : Local Agree Agree (Ed.star p) := by
  refine ⟨hp.pos.star, ?_⟩
  intro pos rs pos' rs' t h
  have aux : ∀ n pos rs, Moves Agree Agree (Ed.starAux p n pos rs).2.2 := by
    intro n
    induction n with
    | zero => intro pos rs; exact .nil (fun _ _ _ h => h)
    | succ n ih =>
      intro pos rs
      simp only [Ed.starAux]
      cases h1 : p pos rs with
      | none => exact .nil (fun _ _ _ h => h)
      | some r => exact (hp.toks _ _ _ _ _ h1).app (ih _ _)
  have h1 := aux (rs.length + 1) pos rs
  simp only [Ed.star, Option.some.injEq] at h
  rw [h] at h1
  exact h1

theorem Local.plus {p : P} (hp : Local Agree Agree p) : Local Agree Agree (Ed.plus p) := hp.seq hp.star

theorem Local.capture {p : P} (hp : Local Agree Agree p) : Local Agree AgreeText (Ed.capture p) := by
  refine ⟨hp.pos.capture, ?_⟩
  intro pos rs pos' rs' t h
  simp only [Ed.capture] at h
  cases h1 : p pos rs with
  | none => simp [h1] at h
  | some r =>
    obtain ⟨a, b, d⟩ := r
    simp only [h1] at h
    cases h
    exact (hp.toks _ _ _ _ _ h1).app (.pegText _ _)

/-! ## The rules -/

theorem chr_local {c : Nat} : Local Agree Agree (chr c) := Local.cls

theorem letter_local {c n : Nat} (h : usesText n = false) : Local Agree Agree (chr c ⬝ act n) := chr_local.seq (.act h)

theorem sp_local : Local Agree Agree sp := Local.plus Local.cls

theorem blanks_local : Local Agree Agree (star sp) := sp_local.star

theorem regex_local {d : Nat} : Local Agree Agree (plus ((chr 92 ⬝ chr d) / (notP (chr 10 / chr d) ⬝ dot))) :=
  .plus (.alt (chr_local.seq chr_local) ((Local.notP ((Uniform.cls _).alt (Uniform.cls _))).seq .cls))

theorem addr_local : Local Agree Agree addr := by
  refine .alt (Local.seq (Local.capture (.plus .cls)) (.actText _)) ?_
  refine .alt (chr_local.seq (Local.cls.seq (.act rfl))) ?_
  refine .alt (chr_local.seq (regex_local.seq (chr_local.seq (.act rfl)))) ?_
  refine .alt (chr_local.seq (regex_local.seq (chr_local.seq (.act rfl)))) ?_
  exact .alt (letter_local rfl) (letter_local rfl)

theorem addrO_local : Local Agree Agree addrO :=
  Local.seq (Local.capture (addr_local.seq (.opt (Local.cls.seq (Local.cls.star))))) (.actText _)

theorem startAddr_local : Local Agree Agree startAddr := blanks_local.seq (addrO_local.seq (blanks_local.seq (.act rfl)))

theorem endAddr_local : Local Agree Agree endAddr := blanks_local.seq (addrO_local.seq (blanks_local.seq (.act rfl)))

theorem range_local : Local Agree Agree range := by
  have s := startAddr_local
  have n := endAddr_local
  have c : ∀ {k : Nat}, Local Agree Agree (chr k) := chr_local
  have a : ∀ {k : Nat}, usesText k = false → Local Agree Agree (act k) := Local.act
  exact .alt (s.seq (c.seq n)) (.alt (s.seq (c.seq (a rfl))) (.alt (c.seq (n.seq (a rfl))) (.alt (s.seq (c.seq n))
    (.alt (s.seq (c.seq (a rfl))) (.alt (c.seq (n.seq (a rfl))) (.alt (s.seq (a rfl)) (.alt (c.seq (a rfl)) (c.seq (a rfl)))))))))

theorem param_local {n : Nat} : Local Agree Agree (capture param ⬝ act n) :=
  Local.seq (Local.capture (.plus ((Local.notP (Uniform.cls _)).seq .cls))) (.actText n)

theorem text_local : Local Agree Agree text := by
  have ht : Uniform textTerm := (Uniform.cls _).seq (Uniform.cls _)
  exact Local.seq (Local.capture (.star ((Local.notP ht).seq .cls))) (Local.seq (Local.seq Local.clsText Local.clsText) (.actText 8))

theorem cmd_local : Local Agree Agree cmd := by
  have l : ∀ {c n : Nat}, usesText n = false → Local Agree Agree (chr c ⬝ act n) := letter_local
  have r := Local.opt range_local
  have s := Local.opt startAddr_local
  have bare : Local Agree Agree bareCmd := .alt (l rfl) (.alt (l rfl) (.alt (l rfl) (.alt (l rfl) (.alt (l rfl) (l rfl)))))
  have pc : Local Agree Agree paramC := .alt (l rfl) (.alt (l rfl) (l rfl))
  have par : Local Agree Agree paramCmd := .alt (pc.seq (sp_local.seq param_local)) pc
  have rc : Local Agree Agree rangeC := .alt (l rfl) (.alt (l rfl) (.alt (l rfl) (.alt (l rfl) (l rfl))))
  have ran : Local Agree Agree rangeCmd := r.seq (blanks_local.seq rc)
  have add : Local Agree Agree addrCmd := by
    refine .alt (Local.seq startAddr_local.capture (Local.seq (Local.seq Local.clsText ?_) (.actText 16))) (l rfl)
    exact ⟨Uniform.act 36, fun pos rs pos' rs' t h => by cases h; exact Moves.actText 36⟩
  have chg : Local Agree Agree changeTextCmd := r.seq ((l rfl).seq (chr_local.seq text_local))
  have atx : Local Agree Agree addTextCmd := s.seq (Local.seq (.alt (l rfl) (l rfl)) (chr_local.seq text_local))
  have mar : Local Agree Agree markCmd := s.seq (chr_local.seq (Local.seq (Local.capture .cls) (.actText 2)))
  have des : Local Agree Agree destCmd := r.seq (Local.seq (.alt (l rfl) (l rfl)) (Local.seq addrO_local.capture (.actText 3)))
  have rea : Local Agree Agree readCmd := s.seq (chr_local.seq (sp_local.seq param_local))
  have wri : Local Agree Agree writeCmd := .alt (r.seq (chr_local.seq (sp_local.seq param_local))) (r.seq (chr_local.seq (.act rfl)))
  have she : Local Agree Agree shellCmd := chr_local.seq param_local
  exact .alt bare (.alt par (.alt ran (.alt add (.alt chg (.alt atx (.alt mar (.alt des (.alt rea (.alt wri (.alt she s))))))))))

theorem e_local : Local Agree Agree e := blanks_local.seq (cmd_local.seq (blanks_local.seq (chr_local.seq (.act rfl))))

/-! ## A buffer whose first command is known -/

/-- The rune lists. -/
theorem runes_ascii_append (A B : Bytes) (hA : ∀ c ∈ A, c < 0x80) : runes (A ++ B) = rn A ++ runes B := by
  simp only [runes, chunks_ascii A B hA, List.map_append, rn, List.map_map]
  rfl

/-- If the first round of the loop reads `A`, what follows is parsed as if it stood alone. -/
theorem parse_rest {A B : Bytes} (hA : ∀ c ∈ A, c < 0x80) {t : List Tok} (hk : Keeps t)
    (h : e 0 (rn A ++ runes B) = some (A.length, runes B, t ++ [.act 1])) :
    parseCommands (A ++ B) = (parseCommands B).map ((runToks (A ++ B) {} t).cmd :: ·) := by
  have hR := runes_ascii_append A B hA
  have hl := e_local.pos.starAux A.length ((runes B).length + 1) 0 (runes B)
  have h0 := starAux_unbounded e_consumes (runes (A ++ B)).length ((runes B).length + 1) A.length (runes B) (by
    rw [hR]
    have : A ≠ [] := by
      rintro rfl
      have := e_consumes _ _ _ _ _ h
      simp [rn] at this
    have := List.length_pos_iff.2 this
    simp [rn]; omega) (by omega)
  rw [Nat.zero_add] at hl
  rw [hl] at h0
  have hsB : star e 0 (runes B) = some (starAux e ((runes B).length + 1) 0 (runes B)) := rfl
  generalize starAux e ((runes B).length + 1) 0 (runes B) = r at h0 hsB
  obtain ⟨p, rs, ts⟩ := r
  have hm := (Local.star e_local).toks _ _ _ _ _ hsB
  have hs : star e 0 (runes (A ++ B)) = some (p + A.length, rs, (t ++ [.act 1]) ++ ts.map (Tok.later A.length)) := by
    simp only [star, starAux]
    rw [hR, h, ← hR]
    simp only [h0, laterR]
  simp only [parseCommands, parse, first, seq, hs, hsB]
  cases rs with
  | cons c rs => rfl
  | nil =>
    simp only [notP, dot, cls, act, Option.map_some, Option.some.injEq]
    have h1 : execute (A ++ B) {} (((t ++ [.act 1]) ++ ts.map (Tok.later A.length)) ++ [.act 0]) =
        (runToks (A ++ B) {} t).cmd :: execute (A ++ B) { runToks (A ++ B) {} t with cmd := {} } (ts.map (Tok.later A.length) ++ [.act 0]) := by
      rw [List.append_assoc, List.append_assoc, exec_quiet _ t {} _ hk.1]
      simp [execute]
    have h2 := hm A B { runToks (A ++ B) {} t with cmd := {} } {} [.act 0] [.act 0] ⟨rfl, hk.2 _ _ rfl⟩ (by
      intro s1 s1' _
      simp [execute])
    simpa using h1.trans (congrArg _ h2)

/-- `e` around a command that is not the last. -/
theorem e_some_rest {w0 body w9 : Bytes} (rest : List Nat) (hw0 : Blanks w0) (hw9 : Blanks w9) {t : List Tok}
    (hb : Stops isBlank (rn body ++ (rn w9 ++ 10 :: rest)))
    (hc : cmd w0.length (rn body ++ (rn w9 ++ 10 :: rest)) = some (w0.length + body.length, rn w9 ++ 10 :: rest, t)) :
    e 0 (rn (w0 ++ body ++ w9 ++ [10]) ++ rest) = some ((w0 ++ body ++ w9 ++ [10]).length, rest, t ++ [.act 1]) := by
  have h1 := star_sp (rn w0) (rn body ++ (rn w9 ++ 10 :: rest)) 0 hw0.rn hb
  have h2 := star_sp (rn w9) (10 :: rest) (w0.length + body.length) hw9.rn (Stops.cons (by decide))
  simp only [rn, List.length_map, Nat.zero_add] at h1 h2
  have := seq_some h1 (seq_some hc (seq_some h2 (seq_some (p := newLine) chr_some (act_some 1))))
  simpa [e, List.append_assoc, Nat.add_assoc] using this

/-- What stands before the rest: a first line, the text, and a dot with blanks. -/
def cutBlock (w0 : Bytes) (r : RangeSyn) (letter : UInt8) (ls : List Bytes) (w : Bytes) : Bytes :=
  w0 ++ r.bytes ++ [letter, 10] ++ unlines ls ++ 46 :: (w ++ [10])

theorem cutBlock_eq (w0 : Bytes) (r : RangeSyn) (letter : UInt8) {ls : List Bytes} (h : ls ≠ []) (w : Bytes) :
    cutBlock w0 r letter ls w = w0 ++ (r.bytes ++ letter :: 10 :: (join [10] ls ++ [10, 46])) ++ w ++ [10] := by
  rw [cutBlock, unlines_eq_join ls h]; simp

theorem cutBlock_ascii {w0 : Bytes} (hw0 : Blanks w0) {r : RangeSyn} (hr : r.OK) {letter : UInt8} (hl : letter < 0x80) {ls : List Bytes}
    (hb : BlockOK ls) {w : Bytes} (hw : Blanks w) : ∀ c ∈ cutBlock w0 r letter ls w, c < 0x80 := by
  intro c hc
  rw [cutBlock_eq _ _ _ hb.ne] at hc
  simp only [List.mem_append, List.mem_cons, List.not_mem_nil, or_false] at hc
  rcases hc with ((hc | hc | rfl | rfl | hc | rfl | rfl) | hc) | rfl
  · exact blanks_ascii hw0 c hc
  · exact range_ascii hr c hc
  · exact hl
  · decide
  · exact join_ascii hb.ascii c hc
  · decide
  · decide
  · exact blanks_ascii hw c hc
  · decide

/-- `runToks` and `execute` on the same tokens. -/
theorem cmd_of_execute {buffer : Bytes} {t : List Tok} (hk : Quiet t) {c : Command} {cs : List Command}
    (h : execute buffer {} (t ++ [.act 1]) = c :: cs) : (runToks buffer {} t).cmd = c := by
  rw [exec_quiet _ t {} _ hk] at h
  simp only [execute, if_true, List.cons.injEq] at h
  exact h.1

theorem block_rest_toks {w0 : Bytes} (hw0 : Blanks w0) {r : RangeSyn} (hr : r.OK) {letter : UInt8} (hl : letter < 0x80)
    (hbl : isBlank letter.toNat = false) {ls : List Bytes} (hb : BlockOK ls) {w : Bytes} (hw : Blanks w) (B : Bytes) {t : List Tok}
    (hc : cmd w0.length (rn r.bytes ++ letter.toNat :: 10 :: (rn (join [10] ls) ++ 10 :: 46 :: (rn w ++ 10 :: runes B))) =
      some (w0.length + r.bytes.length + 2 + (join [10] ls).length + 2, rn w ++ 10 :: runes B, t)) {c : Command}
    (hx : (runToks (cutBlock w0 r letter ls w ++ B) {} t).cmd = c) :
    parseCommands (cutBlock w0 r letter ls w ++ B) = (parseCommands B).map (c :: ·) := by
  have el : w0.length + (r.bytes ++ letter :: 10 :: (join [10] ls ++ [10, 46])).length =
      w0.length + r.bytes.length + 2 + (join [10] ls).length + 2 := by simp; omega
  have he := e_some_rest (w0 := w0) (body := r.bytes ++ letter :: 10 :: (join [10] ls ++ [10, 46])) (w9 := w) (runes B) hw0 hw (t := t)
    (by simpa using range_not_blank r hr letter.toNat hbl _) (by rw [el]; simpa using hc)
  obtain ⟨_, _, _, _, hk⟩ := cmd_runs _ _ _ _ _ hc
  rw [← cutBlock_eq _ _ _ hb.ne] at he
  rw [parse_rest (cutBlock_ascii hw0 hr hl hb hw) hk he, hx]

/-- **C87** Exactly what becomes of a block in which a line is a dot and blanks (with no blanks it is the end of the block):
the lines before it are the text of one command, and all that follows, whatever it is, is parsed as if it had been typed on
its own. If that does not parse nothing at all is executed, and the text is lost too. -/
theorem C87_rest (w0 : Bytes) (hw0 : Blanks w0) (r : RangeSyn) (hr : r.OK) (ls : List Bytes) (hb : BlockOK ls) (w : Bytes) (hw : Blanks w)
    (B : Bytes) :
    (r.Simple → parseCommands (w0 ++ r.bytes ++ b!"a\n" ++ unlines ls ++ 46 :: (w ++ nl :: B)) =
      (parseCommands B).map ({ typ := .append, start := r.start, text := join [nl] ls } :: ·)) ∧
    (r.Simple → parseCommands (w0 ++ r.bytes ++ b!"i\n" ++ unlines ls ++ 46 :: (w ++ nl :: B)) =
      (parseCommands B).map ({ typ := .insert, start := r.start, text := join [nl] ls } :: ·)) ∧
    parseCommands (w0 ++ r.bytes ++ b!"c\n" ++ unlines ls ++ 46 :: (w ++ nl :: B)) =
      (parseCommands B).map ({ typ := .change, start := r.start, end_ := r.end_, text := join [nl] ls } :: ·) := by
  have ht := join_no_term ls hb
  have hat : ∀ letter, At (cutBlock w0 r letter ls w ++ B) w0.length r.bytes := fun letter =>
    ⟨w0, [letter, 10] ++ unlines ls ++ 46 :: (w ++ [10]) ++ B, by simp [cutBlock], rfl⟩
  have hat2 : ∀ letter, At (cutBlock w0 r letter ls w ++ B) (w0.length + r.bytes.length + 2) (join [10] ls) := fun letter =>
    ⟨w0 ++ r.bytes ++ [letter, 10], [10, 46] ++ w ++ [10] ++ B, by rw [cutBlock_eq _ _ _ hb.ne]; simp, by simp; omega⟩
  have hq1 : ∀ letter (n : Nat) (typ : CmdType), r.Simple → (∀ buffer (s : Exec), s.step buffer n = { s with cmd := { s.cmd with typ := typ } }) →
      n ≠ 1 → Quiet (r.toks1 w0.length ++ [.act n, .pegText (w0.length + r.bytes.length + 2) (w0.length + r.bytes.length + 2 + (join [10] ls).length), .act 8]) →
      (runToks (cutBlock w0 r letter ls w ++ B) {} (r.toks1 w0.length ++ [.act n, .pegText (w0.length + r.bytes.length + 2)
        (w0.length + r.bytes.length + 2 + (join [10] ls).length), .act 8])).cmd = { typ := typ, start := r.start, text := join [10] ls } := by
    intro letter n typ hs hstep hn hq
    refine cmd_of_execute hq (cs := []) ?_
    have hsl := (hat2 letter).slice
    have hat := hat letter
    generalize cutBlock w0 r letter ls w ++ B = buffer at hat hsl
    obtain ⟨b', e', h⟩ := exec_range1 _ r hs _ hat ([.act n, .pegText (w0.length + r.bytes.length + 2)
      (w0.length + r.bytes.length + 2 + (join [10] ls).length), .act 8] ++ [.act 1])
    rw [List.append_assoc, h]
    simp only [List.cons_append, List.nil_append]
    rw [exec_act _ _ _ _ hn, hstep]
    simp only [execute, Exec.step, hsl]
    rfl
  have fit : ∀ letter : UInt8, w0 ++ r.bytes ++ [letter, 10] ++ unlines ls ++ 46 :: (w ++ nl :: B) = cutBlock w0 r letter ls w ++ B := by
    intro letter; simp [cutBlock, nl]
  have hc1 := fun hs => cmd_add r hr hs (97, 38) (.inl rfl) (rn (join [10] ls)) ht (rn w ++ 10 :: runes B) w0.length
  have hc2 := fun hs => cmd_add r hr hs (105, 39) (.inr rfl) (rn (join [10] ls)) ht (rn w ++ 10 :: runes B) w0.length
  have hc3 := cmd_change r hr (rn (join [10] ls)) ht (rn w ++ 10 :: runes B) w0.length
  have hrl : (rn (join [10] ls)).length = (join [10] ls).length := by simp [rn]
  rw [hrl] at hc3
  refine ⟨fun hs => ?_, fun hs => ?_, ?_⟩
  · have hc := hc1 hs
    rw [hrl] at hc
    obtain ⟨_, _, _, _, hk⟩ := cmd_runs _ _ _ _ _ hc
    exact (congrArg parseCommands (fit 97)).trans (block_rest_toks (letter := 97) hw0 hr (by decide) (by decide) hb hw B hc (hq1 97 38 .append hs (fun _ _ => rfl) (by decide) hk.1))
  · have hc := hc2 hs
    rw [hrl] at hc
    obtain ⟨_, _, _, _, hk⟩ := cmd_runs _ _ _ _ _ hc
    exact (congrArg parseCommands (fit 105)).trans (block_rest_toks (letter := 105) hw0 hr (by decide) (by decide) hb hw B hc (hq1 105 39 .insert hs (fun _ _ => rfl) (by decide) hk.1))
  · obtain ⟨_, _, _, _, hk⟩ := cmd_runs _ _ _ _ _ hc3
    refine (congrArg parseCommands (fit 99)).trans (block_rest_toks (letter := 99) hw0 hr (by decide) (by decide) hb hw B hc3 (cmd_of_execute hk.1 (cs := []) ?_))
    have hsl := (hat2 99).slice
    have hat := hat 99
    generalize cutBlock w0 r 99 ls w ++ B = buffer at hat hsl
    obtain ⟨b', e', h⟩ := exec_range _ r _ hat ([.act 37, .pegText (w0.length + r.bytes.length + 2)
      (w0.length + r.bytes.length + 2 + (join [10] ls).length), .act 8] ++ [.act 1])
    rw [List.append_assoc, h]
    simp only [List.cons_append, List.nil_append, execute, Exec.step, hsl]
    rfl

/-- The rest is two commands and the final dot, a third; a rest that does not parse takes the text with it. -/
example : parseCommands b!"$a\nx\n. \n1d\nw\n.\n" =
      some [{ typ := .append, start := ⟨.last, b!"$", 0⟩, text := b!"x" },
        { typ := .delete, start := ⟨.num, b!"1", 0⟩, end_ := ⟨.num, b!"1", 0⟩ }, { typ := .write }, { typ := .null, start := ⟨.current, b!".", 0⟩ }] ∧
    parseCommands b!"$a\nx\n. \nDear all,\n.\n" = none := by
  have h := fun B => (C87_rest [] blanks_nil (.one .dollar []) ⟨trivial, blanks_nil⟩ [b!"x"] ⟨by decide, by decide, by decide, by decide⟩
    [32] (by intro c hc; simp at hc; simp [hc]) B).1 trivial
  refine ⟨(h b!"1d\nw\n.\n").trans (by decide +kernel), (h b!"Dear all,\n.\n").trans (by decide +kernel)⟩

/-! ## Exactly when a block is one command -/

/-- A dot line among the lines is found in their runes. -/
theorem dot_line_infix (L : List (List Nat)) (x : List Nat) (hx : 46 :: x ∈ L.tail) : [10, 46] <:+: runeLines L := by
  cases L with
  | nil => cases hx
  | cons a L =>
    simp only [List.tail_cons] at hx
    obtain ⟨L1, L2, rfl⟩ := List.append_of_mem hx
    have e1 : ∀ (L1 : List (List Nat)) (u : List Nat), ∃ z, u ++ 10 :: runeLines L1 = z ++ [10] := by
      intro L1
      induction L1 with
      | nil => intro u; exact ⟨u, by simp [runeLines]⟩
      | cons b L1 ih =>
        intro u
        obtain ⟨z, hz⟩ := ih (u ++ 10 :: b)
        exact ⟨z, by rw [← hz]; simp [runeLines]⟩
    obtain ⟨z, hz⟩ := e1 L1 a
    refine ⟨z, x ++ 10 :: runeLines L2, ?_⟩
    have : runeLines (a :: (L1 ++ (46 :: x) :: L2)) = (a ++ 10 :: runeLines L1) ++ 46 :: (x ++ 10 :: runeLines L2) := by simp [runeLines]
    rw [this, hz]
    simp

/-- **C87** A block of typed text that parses is one command exactly when no line of it, other than the first line of the text
and the very last line of all, is a dot followed by blanks. -/
theorem C87_block_exact {l : Bytes} {body fin : List Bytes} (hs : isStart l = true) (hn : ∀ x ∈ l :: body, nl ∉ x)
    (hf : fin = [] ∨ fin = [b!"."]) (hd : ∀ x ∈ body, x ≠ b!".") (cmds : List Command)
    (h : parseCommands (join [nl] (l :: body ++ fin) ++ [nl]) = some cmds) :
    (∃ c, cmds = [c]) ↔ ∀ x ∈ (body ++ fin).tail.dropLast, ¬ DotBlank x := by
  have hR : runes (join [nl] (l :: body ++ fin) ++ [nl]) = runeLines ((l :: body ++ fin).map runes) := runes_join _ (by simp)
  have hR2 : runeLines ((l :: body ++ fin).map runes) = runes l ++ 10 :: runeLines ((body ++ fin).map runes) := by simp [runeLines]
  obtain ⟨u, us, t, h1, h2, hu, hus, he⟩ := units_of h (by rw [hR, hR2]; simp)
  rw [hR, hR2] at he
  obtain ⟨c, rest', hc, hup⟩ := start_upto hs (hn l (by simp)) (10 :: runeLines ((body ++ fin).map runes))
  obtain ⟨h0, d, t0, w, e1, e2, e3, e4, e0⟩ := e_block hc hup he
  have hnl : ∀ x ∈ l :: body ++ fin, 10 ∉ runes x := by
    intro x hx
    apply runes_no_nl _ x (Nat.le_refl _)
    simp only [List.cons_append, List.mem_cons, List.mem_append] at hx
    rcases hx with rfl | hx | hx
    · exact hn x (by simp)
    · exact hn x (by simp [hx])
    · rcases hf with rfl | rfl
      · cases hx
      · simp at hx; subst hx; decide
  have e1' : runes l ++ 10 :: runeLines ((body ++ fin).map runes) = (h0 ++ [d]) ++ 10 :: (t0 ++ 10 :: ((46 :: w) ++ 10 :: us.flatten)) := by
    rw [e1]; simp
  obtain ⟨_, e5⟩ := head_line (hnl l (by simp)) (by
    simp only [List.mem_append, List.mem_singleton, not_or]
    exact ⟨e2, by rcases e3 with rfl | rfl | rfl <;> decide⟩) e1'
  have hw10 : 10 ∉ 46 :: w := by
    simp only [List.mem_cons, not_or]
    refine ⟨by decide, fun hm => ?_⟩
    rcases e4 10 hm with h | h <;> cases h
  obtain ⟨L1, L2, f1, f2, f3⟩ := later_line _ t0 (46 :: w) us.flatten (by
    intro x hx
    obtain ⟨y, hy, rfl⟩ := List.mem_map.1 hx
    exact hnl y (by simp only [List.mem_append] at hy; simp only [List.cons_append, List.mem_cons, List.mem_append]; exact .inr hy)) hw10 e5
  -- the text is the lines before
  have f4 : t0 ++ [10] = runeLines L1 := by
    rw [f1, f3] at e5
    have e6 : runeLines (L1 ++ (46 :: w) :: L2) = runeLines L1 ++ ((46 :: w) ++ 10 :: runeLines L2) := by simp [runeLines]
    have e7 : t0 ++ 10 :: ((46 :: w) ++ 10 :: runeLines L2) = (t0 ++ [10]) ++ ((46 :: w) ++ 10 :: runeLines L2) := by simp
    rw [e6, e7] at e5
    exact (List.append_cancel_right e5).symm
  obtain ⟨t1, t2', g1, g2, g3⟩ := List.map_eq_append_iff.1 f1
  obtain ⟨z, t2, rfl, g4, g5⟩ := List.map_eq_cons_iff.1 g3
  have hz := runes_ascii (46 :: w) z (by
    intro x hx
    rcases List.mem_cons.1 hx with rfl | hx
    · decide
    · rcases e4 x hx with rfl | rfl <;> decide) g4
  have ht1 : t1 ≠ [] := by rintro rfl; exact f2 (by simpa using g2.symm)
  have hone : (∃ c, cmds = [c]) ↔ t2 = [] := by
    rw [← List.length_eq_one_iff, ← h2]
    constructor
    · intro hu1
      have : us = [] := List.length_eq_zero_iff.1 (by omega)
      subst this
      cases t2 with
      | nil => rfl
      | cons y t2 => rw [← g5] at f3; simp [runeLines] at f3
    · rintro rfl
      have hL2 : L2 = [] := by simpa using g5.symm
      rw [hL2] at f3
      cases us with
      | nil => rfl
      | cons v us =>
        exfalso
        have := unit_ne (hus v (by simp))
        simp [runeLines] at f3
        exact this f3.1
  rw [hone, g1]
  obtain ⟨a, t1, rfl⟩ : ∃ a t, t1 = a :: t := by
    cases t1 with
    | nil => exact absurd rfl ht1
    | cons a t => exact ⟨a, t, rfl⟩
  constructor
  · rintro rfl x hx ⟨v, rfl, hv, hvb⟩
    simp only [List.cons_append, List.tail_cons, List.dropLast_concat] at hx
    refine e0 ?_
    rw [f4, ← g2]
    have hr : runes (46 :: v) = 46 :: rn v := by
      rw [chunks_rn _ (by
        intro c hc
        rcases List.mem_cons.1 hc with rfl | hc
        · decide
        · rcases hvb c hc with rfl | rfl <;> decide)]
      rfl
    refine dot_line_infix _ (rn v) ?_
    rw [List.map_cons, List.tail_cons, ← hr]
    exact List.mem_map_of_mem hx
  · intro hall
    rcases List.eq_nil_or_concat t2 with ht | ⟨t3, y, ht⟩
    · exact ht
    exfalso
    subst ht
    have hbody : body ++ fin = (a :: t1 ++ z :: t3) ++ [y] := by rw [g1]; simp
    have hzin : z ∈ body := by
      rcases hf with rfl | rfl
      · rw [List.append_nil] at hbody
        rw [hbody]; simp
      · have := (List.append_inj' hbody rfl).1
        rw [this]; simp
    refine hall z ?_ ⟨w.map UInt8.ofNat, hz, ?_, ?_⟩
    · have : ((a :: t1) ++ z :: t3.concat y).tail = (t1 ++ z :: t3) ++ [y] := by simp
      rw [this, List.dropLast_concat]
      simp
    · intro hw0
      have : w = [] := by simpa using hw0
      subst this
      exact hd z hzin hz
    · intro b hb
      obtain ⟨n, hn, rfl⟩ := List.mem_map.1 hb
      rcases e4 n hn with rfl | rfl
      · exact .inl rfl
      · exact .inr rfl

/-- A block cut short by the end of the input, whose last line is a dot and a blank: one command all the same. -/
example : isStart b!"a" = true ∧ parseCommands (join [nl] (b!"a" :: [b!"x", b!"y", b!". "] ++ []) ++ [nl]) =
    some [{ typ := .append, text := b!"x\ny" }] := ⟨by decide +kernel, by decide +kernel⟩

end Ed
