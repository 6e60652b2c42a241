import Verif.Ed.Grammar
import Verif.Ed.TypedProps

/-! # The parser accepts exactly the command language, and gives every command its meaning (C105) -/

namespace Ed
open Go

/-- Wherever the text stands, the parser takes it and sends the command. -/
def Sends (u : Bytes) (c : Command) : Prop :=
  ∀ (pos : Nat) (rest : List Nat), ∃ t, e pos (rn u ++ 10 :: rest) = some (pos + u.length + 1, rest, t) ∧
    ∀ (buffer : Bytes) (b0 e0 : Nat) (ts : List Tok), At buffer pos u →
      ∃ b' e', execute buffer ⟨b0, e0, {}, {}⟩ (t ++ ts) = c :: execute buffer ⟨b', e', {}, {}⟩ ts

theorem sends_of {w0 body w9 : Bytes} {c : Command} (hw0 : Blanks w0) (hw9 : Blanks w9) (T : Nat → List Tok)
    (hb : ∀ rest, Stops isBlank (rn body ++ (rn w9 ++ 10 :: rest)))
    (hc : ∀ pos rest, cmd pos (rn body ++ (rn w9 ++ 10 :: rest)) = some (pos + body.length, rn w9 ++ 10 :: rest, T pos))
    (hx : ∀ buffer pos b0 e0 ts, At buffer pos body →
      ∃ b' e', execute buffer ⟨b0, e0, {}, {}⟩ (T pos ++ .act 1 :: ts) = c :: execute buffer ⟨b', e', {}, {}⟩ ts) :
    Sends (w0 ++ body ++ w9) c := by
  intro pos rest
  have h1 := star_sp (rn w0) (rn body ++ (rn w9 ++ 10 :: rest)) pos hw0.rn (hb rest)
  have h2 := star_sp (rn w9) (10 :: rest) (pos + w0.length + body.length) hw9.rn (Stops.cons (by decide))
  simp only [rn, List.length_map] at h1 h2
  have := seq_some h1 (seq_some (hc (pos + w0.length) rest) (seq_some h2 (seq_some (p := newLine) chr_some (act_some 1))))
  refine ⟨T (pos + w0.length) ++ [.act 1], ?_, ?_⟩
  · have el : pos + (w0 ++ body ++ w9).length + 1 = pos + w0.length + body.length + w9.length + 1 := by simp; omega
    rw [el]
    simpa [e, List.append_assoc] using this
  · intro buffer b0 e0 ts hat
    obtain ⟨b', e', h⟩ := hx buffer (pos + w0.length) b0 e0 ts hat.left.right
    exact ⟨b', e', by simpa using h⟩

theorem exec_range' (buffer : Bytes) (r : RangeSyn) (pos : Nat) (h : At buffer pos r.bytes) (b0 e0 : Nat) (ts : List Tok) :
    ∃ b' e', execute buffer ⟨b0, e0, {}, {}⟩ (r.toks pos ++ ts) = execute buffer ⟨b', e', { start := r.start, end_ := r.end_ }, {}⟩ ts := by
  cases r with
  | none => exact ⟨b0, e0, rfl⟩
  | one a w =>
    simp only [RangeSyn.toks, List.append_assoc]
    rw [exec_addr buffer a pos h.left _ rfl]
    exact ⟨_, _, rfl⟩
  | both s a w1 w2 b w3 =>
    simp only [RangeSyn.toks, List.append_assoc, List.cons_append]
    rw [exec_addr buffer a pos h.left _ rfl, exec_act _ _ _ _ (by decide)]
    have hb : At buffer (pos + a.bytes.length + w1.length + 1 + w2.length) b.bytes := h.right.right.tail.right.left
    rw [exec_addr buffer b _ hb _ rfl]
    exact ⟨_, _, rfl⟩
  | startOnly s a w =>
    simp only [RangeSyn.toks, List.append_assoc, List.cons_append, List.nil_append]
    rw [exec_addr buffer a pos h.left _ rfl, exec_act _ _ _ _ (by decide)]
    cases s <;> exact ⟨_, _, rfl⟩
  | endOnly s w1 b w2 =>
    simp only [RangeSyn.toks, List.append_assoc, List.cons_append, List.nil_append]
    have hb : At buffer (pos + 1 + w1.length) b.bytes := h.tail.right.left
    rw [exec_addr buffer b _ hb _ rfl, exec_act _ _ _ _ (by decide)]
    cases s <;> exact ⟨_, _, rfl⟩
  | all s => cases s <;> exact ⟨_, _, rfl⟩

theorem exec_range1' (buffer : Bytes) (r : RangeSyn) (hs : r.Simple) (pos : Nat) (h : At buffer pos r.bytes) (b0 e0 : Nat) (ts : List Tok) :
    ∃ b' e', execute buffer ⟨b0, e0, {}, {}⟩ (r.toks1 pos ++ ts) = execute buffer ⟨b', e', { start := r.start }, {}⟩ ts := by
  cases r with
  | none => exact ⟨b0, e0, rfl⟩
  | one a w =>
    simp only [RangeSyn.toks1, List.append_assoc]
    rw [exec_addr buffer a pos h.left _ rfl]
    exact ⟨_, _, rfl⟩
  | both => exact hs.elim
  | startOnly => exact hs.elim
  | endOnly => exact hs.elim
  | all => exact hs.elim

/-- The letters of the range commands in the parser. -/
theorem rangeLetter_of {letter : UInt8} {typ : CmdType} (hl : (letter, typ) ∈ rangeCommands) :
    ∃ n, (letter.toNat, n, typ) ∈ rangeLetter ∧ n ≠ 1 ∧ isBlank letter.toNat = false ∧
      ∀ (b : Bytes) (s : Exec), s.step b n = { s with cmd := { s.cmd with typ := typ } } := by
  simp only [rangeCommands, List.mem_cons, Prod.mk.injEq, List.not_mem_nil, or_false] at hl
  rcases hl with ⟨rfl, rfl⟩ | ⟨rfl, rfl⟩ | ⟨rfl, rfl⟩ | ⟨rfl, rfl⟩ | ⟨rfl, rfl⟩
  · exact ⟨40, by decide, by decide, by decide, fun _ _ => rfl⟩
  · exact ⟨41, by decide, by decide, by decide, fun _ _ => rfl⟩
  · exact ⟨42, by decide, by decide, by decide, fun _ _ => rfl⟩
  · exact ⟨43, by decide, by decide, by decide, fun _ _ => rfl⟩
  · exact ⟨44, by decide, by decide, by decide, fun _ _ => rfl⟩

theorem sends_range (w0 ws w9 : Bytes) (hw0 : Blanks w0) (hws : Blanks ws) (hw9 : Blanks w9) (r : RangeSyn) (hr : r.OK)
    (letter : UInt8) (typ : CmdType) (hl : (letter, typ) ∈ rangeCommands) :
    Sends (w0 ++ (r.bytes ++ (ws ++ [letter])) ++ w9) { typ := typ, start := r.start, end_ := r.end_ } := by
  obtain ⟨n, hx, h1, hbl, hst⟩ := rangeLetter_of hl
  have ex : ∀ (r : RangeSyn) (ws : Bytes) buffer pos b0 e0 ts, At buffer pos (r.bytes ++ (ws ++ [letter])) →
      ∃ b' e', execute buffer ⟨b0, e0, {}, {}⟩ ((r.toks pos ++ [.act n]) ++ .act 1 :: ts) =
        { typ := typ, start := r.start, end_ := r.end_ } :: execute buffer ⟨b', e', {}, {}⟩ ts := by
    intro r ws buffer pos b0 e0 ts hat
    obtain ⟨b', e', h⟩ := exec_range' buffer r pos hat.left b0 e0 ([.act n] ++ .act 1 :: ts)
    refine ⟨b', e', ?_⟩
    rw [List.append_assoc, h]
    simp only [List.cons_append, List.nil_append]
    rw [exec_act _ _ _ _ h1, hst]
    rfl
  have plain : ∀ (w0 : Bytes), Blanks w0 → ∀ (r : RangeSyn), r.OK →
      Sends (w0 ++ (r.bytes ++ ([] ++ [letter])) ++ w9) { typ := typ, start := r.start, end_ := r.end_ } := by
    intro w0 hw0 r hr
    refine sends_of hw0 hw9 (fun pos => r.toks pos ++ [.act n]) (fun rest => ?_) (fun pos rest => ?_) (ex r [])
    · simpa using range_not_blank r hr letter.toNat hbl (rn w9 ++ 10 :: rest)
    · simpa [Nat.add_assoc] using cmd_range r hr _ hx (rn w9 ++ 10 :: rest) pos
  have gap : ((∃ s a w, r = .startOnly s a w) ∨ ∃ s, r = .all s) →
      Sends (w0 ++ (r.bytes ++ (ws ++ [letter])) ++ w9) { typ := typ, start := r.start, end_ := r.end_ } := by
    intro hg
    refine sends_of hw0 hw9 (fun pos => r.toks pos ++ [.act n]) (fun rest => ?_) (fun pos rest => ?_) (ex r ws)
    · rcases hg with ⟨s, a, w, rfl⟩ | ⟨s, rfl⟩
      · simpa [RangeSyn.bytes] using addr_not_blank a hr.1 (rn (w ++ [sepByte s]) ++ (rn ws ++ letter.toNat :: (rn w9 ++ 10 :: rest)))
      · cases s <;> exact Stops.cons (by decide)
    · simpa [Nat.add_assoc] using cmd_range_gap r hr hg ws hws _ hx (rn w9 ++ 10 :: rest) pos
  cases r with
  | none => simpa [RangeSyn.bytes, RangeSyn.start, RangeSyn.end_] using plain (w0 ++ ws) (hw0.append hws) .none trivial
  | one a w => simpa [RangeSyn.bytes, RangeSyn.start, RangeSyn.end_] using plain w0 hw0 (.one a (w ++ ws)) ⟨hr.1, hr.2.append hws⟩
  | both s a w1 w2 b w3 =>
    simpa [RangeSyn.bytes, RangeSyn.start, RangeSyn.end_] using
      plain w0 hw0 (.both s a w1 w2 b (w3 ++ ws)) ⟨hr.1, hr.2.1, hr.2.2.1, hr.2.2.2.1, hr.2.2.2.2.append hws⟩
  | startOnly s a w => exact gap (Or.inl ⟨s, a, w, rfl⟩)
  | endOnly s w1 b w2 =>
    simpa [RangeSyn.bytes, RangeSyn.start, RangeSyn.end_] using plain w0 hw0 (.endOnly s w1 b (w2 ++ ws)) ⟨hr.1, hr.2.1, hr.2.2.append hws⟩
  | all s => exact gap (Or.inr ⟨s, rfl⟩)

theorem sends_number (w0 w9 : Bytes) (hw0 : Blanks w0) (hw9 : Blanks w9) (r : RangeSyn) (hr : r.OK) (hs : r.Simple) :
    Sends (w0 ++ (r.bytes ++ [61]) ++ w9) { typ := .lineNumber, start := { r.start with text := r.bytes } } := by
  refine sends_of hw0 hw9 r.toksEq (fun rest => ?_) (fun pos rest => ?_) ?_
  · simpa using range_not_blank r hr 61 (by decide) (rn w9 ++ 10 :: rest)
  · simpa [Nat.add_assoc] using cmd_equals r hr hs (rn w9 ++ 10 :: rest) pos
  · intro buffer pos b0 e0 ts hat
    have hat' := hat.left
    cases r with
    | none => exact ⟨_, _, rfl⟩
    | one a w =>
      have hsl := hat'.slice
      simp only [RangeSyn.bytes, List.length_append, ← Nat.add_assoc] at hsl
      simp only [RangeSyn.toksEq, List.append_assoc, List.cons_append, List.nil_append]
      rw [exec_addr buffer a _ hat'.left _ rfl]
      simp only [execute, Exec.step, hsl, RangeSyn.start, RangeSyn.bytes]
      exact ⟨_, _, rfl⟩
    | both => exact hs.elim
    | startOnly => exact hs.elim
    | endOnly => exact hs.elim
    | all => exact hs.elim

theorem sends_null (w0 : Bytes) (hw0 : Blanks w0) (r : RangeSyn) (hr : r.OK) (hs : r.Simple) :
    Sends (w0 ++ r.bytes ++ []) { start := r.start } := by
  refine sends_of hw0 blanks_nil (fun pos => r.toks1 pos) (fun rest => ?_) (fun pos rest => ?_) ?_
  · simpa using range_not_blank r hr 10 (by decide) rest
  · simpa using cmd_null r hr hs rest pos
  · intro buffer pos b0 e0 ts hat
    obtain ⟨b', e', h⟩ := exec_range1' buffer r hs pos hat b0 e0 (.act 1 :: ts)
    exact ⟨b', e', by rw [h]; rfl⟩

theorem sends_bare (w0 w9 : Bytes) (hw0 : Blanks w0) (hw9 : Blanks w9) (letter : UInt8) (typ : CmdType)
    (hl : (letter, typ) ∈ bareCommands) : Sends (w0 ++ [letter] ++ w9) { typ := typ } := by
  obtain ⟨n, hx, h1, hbl, hst⟩ : ∃ n, (letter.toNat, n, typ) ∈ bareLetter ∧ n ≠ 1 ∧ isBlank letter.toNat = false ∧
      ∀ (b : Bytes) (s : Exec), s.step b n = { s with cmd := { s.cmd with typ := typ } } := by
    simp only [bareCommands, List.mem_cons, Prod.mk.injEq, List.not_mem_nil, or_false] at hl
    rcases hl with ⟨rfl, rfl⟩ | ⟨rfl, rfl⟩ | ⟨rfl, rfl⟩ | ⟨rfl, rfl⟩ | ⟨rfl, rfl⟩ | ⟨rfl, rfl⟩
    · exact ⟨26, by decide, by decide, by decide, fun _ _ => rfl⟩
    · exact ⟨27, by decide, by decide, by decide, fun _ _ => rfl⟩
    · exact ⟨28, by decide, by decide, by decide, fun _ _ => rfl⟩
    · exact ⟨29, by decide, by decide, by decide, fun _ _ => rfl⟩
    · exact ⟨30, by decide, by decide, by decide, fun _ _ => rfl⟩
    · exact ⟨31, by decide, by decide, by decide, fun _ _ => rfl⟩
  refine sends_of hw0 hw9 (fun _ => [.act n]) (fun rest => Stops.cons hbl) (fun pos rest => ?_) ?_
  · simpa using cmd_bare _ hx (rn w9 ++ 10 :: rest) pos
  · intro buffer pos b0 e0 ts hat
    refine ⟨b0, e0, ?_⟩
    rw [List.cons_append, exec_act _ _ _ _ h1, hst]
    rfl

theorem paramLetter_of {letter : UInt8} {typ : CmdType} (hl : (letter, typ) ∈ nameCommands) :
    ∃ n, (letter.toNat, n, typ) ∈ paramLetter ∧ n ≠ 1 ∧ isBlank letter.toNat = false ∧
      ∀ (b : Bytes) (s : Exec), s.step b n = { s with cmd := { s.cmd with typ := typ } } := by
  simp only [nameCommands, List.mem_cons, Prod.mk.injEq, List.not_mem_nil, or_false] at hl
  rcases hl with ⟨rfl, rfl⟩ | ⟨rfl, rfl⟩ | ⟨rfl, rfl⟩
  · exact ⟨33, by decide, by decide, by decide, fun _ _ => rfl⟩
  · exact ⟨34, by decide, by decide, by decide, fun _ _ => rfl⟩
  · exact ⟨35, by decide, by decide, by decide, fun _ _ => rfl⟩

theorem sends_unnamed (w0 w9 : Bytes) (hw0 : Blanks w0) (hw9 : Blanks w9) (letter : UInt8) (typ : CmdType)
    (hl : (letter, typ) ∈ nameCommands) : Sends (w0 ++ [letter] ++ w9) { typ := typ } := by
  obtain ⟨n, hx, h1, hbl, hst⟩ := paramLetter_of hl
  refine sends_of hw0 hw9 (fun _ => [.act n]) (fun rest => Stops.cons hbl) (fun pos rest => ?_) ?_
  · by_cases hne : w9 = []
    · subst hne
      exact cmd_noName _ hx rest pos
    · exact cmd_noNameBlanks _ hx w9 hw9 hne rest pos
  · intro buffer pos b0 e0 ts hat
    refine ⟨b0, e0, ?_⟩
    rw [List.cons_append, exec_act _ _ _ _ h1, hst]
    rfl

theorem sends_named (w0 ws name : Bytes) (hw0 : Blanks w0) (hws : Blanks ws) (hne : ws ≠ []) (hn : NameOK name) (letter : UInt8)
    (typ : CmdType) (hl : (letter, typ) ∈ nameCommands) : Sends (w0 ++ (letter :: (ws ++ name)) ++ []) { typ := typ, params := [name] } := by
  obtain ⟨n, hx, h1, hbl, hst⟩ := paramLetter_of hl
  refine sends_of hw0 blanks_nil (fun pos => [.act n, .pegText (pos + 1 + ws.length) (pos + 1 + ws.length + name.length), .act 32])
    (fun rest => Stops.cons hbl) (fun pos rest => ?_) ?_
  · simpa [Nat.add_assoc, Nat.add_comm, Nat.add_left_comm] using cmd_param _ hx ws name hws hne hn.ne hn.nl hn.blank rest pos
  · intro buffer pos b0 e0 ts hat
    have hsl := hat.tail.right.slice
    refine ⟨pos + 1 + ws.length, pos + 1 + ws.length + name.length, ?_⟩
    rw [List.cons_append, exec_act _ _ _ _ h1, hst]
    simp only [List.cons_append, List.nil_append, execute, Exec.step, hsl]
    rfl

theorem sends_write (w0 w9 : Bytes) (hw0 : Blanks w0) (hw9 : Blanks w9) (r : RangeSyn) (hr : r.OK) :
    Sends (w0 ++ (r.bytes ++ [119]) ++ w9) { typ := .write, start := r.start, end_ := r.end_ } := by
  refine sends_of hw0 hw9 (fun pos => r.toks pos ++ [.act 6]) (fun rest => ?_) (fun pos rest => ?_) ?_
  · simpa using range_not_blank r hr 119 (by decide) (rn w9 ++ 10 :: rest)
  · by_cases hne : w9 = []
    · subst hne
      simpa [Nat.add_assoc] using cmd_write r hr rest pos
    · simpa [Nat.add_assoc] using cmd_writeBlanks r hr w9 hw9 hne rest pos
  · intro buffer pos b0 e0 ts hat
    obtain ⟨b', e', h⟩ := exec_range' buffer r pos hat.left b0 e0 ([.act 6] ++ .act 1 :: ts)
    exact ⟨b', e', by rw [List.append_assoc, h]; rfl⟩

theorem sends_writeNamed (w0 ws name : Bytes) (hw0 : Blanks w0) (hws : Blanks ws) (hne : ws ≠ []) (hn : NameOK name) (r : RangeSyn) (hr : r.OK) :
    Sends (w0 ++ (r.bytes ++ 119 :: (ws ++ name)) ++ []) { typ := .write, start := r.start, end_ := r.end_, text := name } := by
  refine sends_of hw0 blanks_nil (fun pos => r.toks pos ++
    [.pegText (pos + r.bytes.length + 1 + ws.length) (pos + r.bytes.length + 1 + ws.length + name.length), .act 5]) (fun rest => ?_) (fun pos rest => ?_) ?_
  · simpa using range_not_blank r hr 119 (by decide) (rn ws ++ (rn name ++ 10 :: rest))
  · simpa [Nat.add_assoc, Nat.add_comm, Nat.add_left_comm] using cmd_writeName r hr ws name hws hne hn.ne hn.nl hn.blank rest pos
  · intro buffer pos b0 e0 ts hat
    have hsl := hat.right.tail.right.slice
    obtain ⟨b', e', h⟩ := exec_range' buffer r pos hat.left b0 e0
      ([.pegText (pos + r.bytes.length + 1 + ws.length) (pos + r.bytes.length + 1 + ws.length + name.length), .act 5] ++ .act 1 :: ts)
    refine ⟨pos + r.bytes.length + 1 + ws.length, pos + r.bytes.length + 1 + ws.length + name.length, ?_⟩
    rw [List.append_assoc, h]
    simp only [List.cons_append, List.nil_append, execute, Exec.step, hsl]
    rfl

theorem sends_read (w0 ws name : Bytes) (hw0 : Blanks w0) (hws : Blanks ws) (hne : ws ≠ []) (hn : NameOK name) (r : RangeSyn) (hr : r.OK) (hs : r.Simple) :
    Sends (w0 ++ (r.bytes ++ 114 :: (ws ++ name)) ++ []) { typ := .read, start := r.start, text := name } := by
  refine sends_of hw0 blanks_nil (fun pos => r.toks1 pos ++
    [.pegText (pos + r.bytes.length + 1 + ws.length) (pos + r.bytes.length + 1 + ws.length + name.length), .act 4]) (fun rest => ?_) (fun pos rest => ?_) ?_
  · simpa using range_not_blank r hr 114 (by decide) (rn ws ++ (rn name ++ 10 :: rest))
  · simpa [Nat.add_assoc, Nat.add_comm, Nat.add_left_comm] using cmd_read r hr hs ws name hws hne hn.ne hn.nl hn.blank rest pos
  · intro buffer pos b0 e0 ts hat
    have hsl := hat.right.tail.right.slice
    obtain ⟨b', e', h⟩ := exec_range1' buffer r hs pos hat.left b0 e0
      ([.pegText (pos + r.bytes.length + 1 + ws.length) (pos + r.bytes.length + 1 + ws.length + name.length), .act 4] ++ .act 1 :: ts)
    refine ⟨pos + r.bytes.length + 1 + ws.length, pos + r.bytes.length + 1 + ws.length + name.length, ?_⟩
    rw [List.append_assoc, h]
    simp only [List.cons_append, List.nil_append, execute, Exec.step, hsl]
    rfl

theorem sends_mark (w0 w9 : Bytes) (hw0 : Blanks w0) (hw9 : Blanks w9) (r : RangeSyn) (hr : r.OK) (hs : r.Simple) (x : UInt8)
    (h1 : 97 ≤ x) (h2 : x ≤ 122) : Sends (w0 ++ (r.bytes ++ [107, x]) ++ w9) { typ := .mark, start := r.start, params := [[x]] } := by
  have hx : isLower x.toNat = true := by
    have a := UInt8.le_iff_toNat_le.1 h1
    have b := UInt8.le_iff_toNat_le.1 h2
    simp only [isLower, Bool.and_eq_true, decide_eq_true_eq]
    exact ⟨a, b⟩
  refine sends_of hw0 hw9 (fun pos => r.toks1 pos ++ [.pegText (pos + r.bytes.length + 1) (pos + r.bytes.length + 2), .act 2])
    (fun rest => ?_) (fun pos rest => ?_) ?_
  · simpa using range_not_blank r hr 107 (by decide) (x.toNat :: (rn w9 ++ 10 :: rest))
  · simpa [Nat.add_assoc] using cmd_mark r hr hs x.toNat hx (rn w9 ++ 10 :: rest) pos
  · intro buffer pos b0 e0 ts hat
    have hsl := hat.right.tail.slice
    obtain ⟨b', e', h⟩ := exec_range1' buffer r hs pos hat.left b0 e0
      ([.pegText (pos + r.bytes.length + 1) (pos + r.bytes.length + 2), .act 2] ++ .act 1 :: ts)
    refine ⟨pos + r.bytes.length + 1, pos + r.bytes.length + 2, ?_⟩
    rw [List.append_assoc, h]
    simp only [List.length_singleton, Nat.add_assoc, Nat.reduceAdd] at hsl
    simp only [List.cons_append, List.nil_append, execute, Exec.step, Nat.add_assoc, hsl]
    rfl

theorem sends_dest (w0 w9 : Bytes) (hw0 : Blanks w0) (hw9 : Blanks w9) (r : RangeSyn) (hr : r.OK) (a : AddrSyn) (ha : a.OK) (letter : UInt8)
    (typ : CmdType) (hl : (letter, typ) ∈ destCommands) :
    Sends (w0 ++ (r.bytes ++ letter :: a.bytes) ++ w9) { typ := typ, start := r.start, end_ := r.end_, dest := a.address } := by
  obtain ⟨n, hx, h1, hbl, hst⟩ : ∃ n, ((letter.toNat, n) = (109, 45) ∨ (letter.toNat, n) = (116, 46)) ∧ n ≠ 1 ∧ isBlank letter.toNat = false ∧
      ∀ (b : Bytes) (s : Exec), s.step b n = { s with cmd := { s.cmd with typ := typ } } := by
    simp only [destCommands, List.mem_cons, Prod.mk.injEq, List.not_mem_nil, or_false] at hl
    rcases hl with ⟨rfl, rfl⟩ | ⟨rfl, rfl⟩
    · exact ⟨45, by decide, by decide, by decide, fun _ _ => rfl⟩
    · exact ⟨46, by decide, by decide, by decide, fun _ _ => rfl⟩
  refine sends_of hw0 hw9 (fun pos => r.toks pos ++ .act n :: (a.toks (pos + r.bytes.length + 1) ++
        [.pegText (pos + r.bytes.length + 1) (pos + r.bytes.length + 1 + a.bytes.length), .act 3])) (fun rest => ?_) (fun pos rest => ?_) ?_
  · simpa using range_not_blank r hr letter.toNat hbl (rn a.bytes ++ (rn w9 ++ 10 :: rest))
  · have hafter : AfterAddr (rn w9 ++ 10 :: rest) := AfterBlanks.after (Stops.cons (by decide)) hw9
    simpa [Nat.add_assoc, Nat.add_comm, Nat.add_left_comm] using cmd_dest r hr _ hx a ha (rn w9 ++ 10 :: rest) hafter pos
  · intro buffer pos b0 e0 ts hat
    have hata := hat.right.tail
    obtain ⟨b', e', h⟩ := exec_range' buffer r pos hat.left b0 e0 (.act n :: (a.toks (pos + r.bytes.length + 1) ++
        ([.pegText (pos + r.bytes.length + 1) (pos + r.bytes.length + 1 + a.bytes.length), .act 3] ++ .act 1 :: ts)))
    refine ⟨pos + r.bytes.length + 1, pos + r.bytes.length + 1 + a.bytes.length, ?_⟩
    have e1 : (r.toks pos ++ .act n :: (a.toks (pos + r.bytes.length + 1) ++
        [.pegText (pos + r.bytes.length + 1) (pos + r.bytes.length + 1 + a.bytes.length), .act 3])) ++ .act 1 :: ts =
      r.toks pos ++ (.act n :: (a.toks (pos + r.bytes.length + 1) ++
        ([.pegText (pos + r.bytes.length + 1) (pos + r.bytes.length + 1 + a.bytes.length), .act 3] ++ .act 1 :: ts))) := by simp
    rw [e1, h, exec_act _ _ _ _ h1, hst, exec_addr buffer a _ hata _ rfl]
    rfl

theorem sends_shell (w0 text : Bytes) (hw0 : Blanks w0) (hne : text ≠ []) (hn : 10 ∉ text) :
    Sends (w0 ++ (33 :: text) ++ []) { typ := .shell, text := text } := by
  have hnl : 10 ∉ rn text := by
    intro hc
    obtain ⟨d, hd, e⟩ := List.mem_map.1 hc
    exact hn ((UInt8.toNat_inj.1 e : d = 10) ▸ hd)
  refine sends_of hw0 blanks_nil (fun pos => [.pegText (pos + 1) (pos + 1 + text.length), .act 7])
    (fun rest => Stops.cons (by decide)) (fun pos rest => ?_) ?_
  · simpa [Nat.add_assoc, Nat.add_comm, Nat.add_left_comm] using cmd_shell text hne hnl rest pos
  · intro buffer pos b0 e0 ts hat
    have hsl := hat.tail.slice
    refine ⟨pos + 1, pos + 1 + text.length, ?_⟩
    simp only [List.cons_append, List.nil_append, execute, Exec.step, hsl]
    rfl

theorem blockText_rn {t : Bytes} (h : BlockText t) : ¬ [10, 46] <:+: rn t ++ [10] := by
  rintro ⟨a, b, e⟩
  have e' : rn (t ++ [10]) = a ++ [10, 46] ++ b := by rw [e]; simp
  obtain ⟨l1, l2, e1, e2, e3⟩ := List.map_eq_append_iff.1 e'
  obtain ⟨l3, l4, rfl, e4, e5⟩ := List.map_eq_append_iff.1 e2
  obtain rfl : l4 = [10, 46] := by
    match l4, e5 with
    | [x, y], e5 =>
      simp only [List.map_cons, List.map_nil, List.cons.injEq, and_true] at e5
      rw [(UInt8.toNat_inj.1 e5.1 : x = 10), (UInt8.toNat_inj.1 e5.2 : y = 46)]
    | [], e5 => simp at e5
    | [_], e5 => simp at e5
    | _ :: _ :: _ :: _, e5 => simp at e5
  exact h.2 ⟨l3, l2, by rw [e1]⟩

theorem sends_change (w0 w9 : Bytes) (hw0 : Blanks w0) (hw9 : Blanks w9) (r : RangeSyn) (hr : r.OK) (t : Bytes) (ht : BlockText t) :
    Sends (w0 ++ (r.bytes ++ 99 :: 10 :: (t ++ [10, 46])) ++ w9) { typ := .change, start := r.start, end_ := r.end_, text := t } := by
  refine sends_of hw0 hw9 (fun pos => r.toks pos ++ [.act 37, .pegText (pos + r.bytes.length + 2) (pos + r.bytes.length + 2 + t.length), .act 8])
    (fun rest => ?_) (fun pos rest => ?_) ?_
  · simpa using range_not_blank r hr 99 (by decide) (10 :: (rn t ++ (10 :: 46 :: (rn w9 ++ 10 :: rest))))
  · have el : pos + (r.bytes ++ 99 :: 10 :: (t ++ [10, 46])).length = pos + r.bytes.length + 2 + t.length + 2 := by simp; omega
    rw [el]
    simpa using cmd_change r hr (rn t) (blockText_rn ht) (rn w9 ++ 10 :: rest) pos
  · intro buffer pos b0 e0 ts hat
    have hsl := hat.right.tail.tail.left.slice
    obtain ⟨b', e', h⟩ := exec_range' buffer r pos hat.left b0 e0
      ([.act 37, .pegText (pos + r.bytes.length + 2) (pos + r.bytes.length + 2 + t.length), .act 8] ++ .act 1 :: ts)
    refine ⟨pos + r.bytes.length + 2, pos + r.bytes.length + 2 + t.length, ?_⟩
    rw [List.append_assoc, h]
    simp only [List.cons_append, List.nil_append, execute, Exec.step, hsl]
    rfl

theorem sends_add (w0 w9 : Bytes) (hw0 : Blanks w0) (hw9 : Blanks w9) (r : RangeSyn) (hr : r.OK) (hs : r.Simple) (t : Bytes) (ht : BlockText t)
    (letter : UInt8) (typ : CmdType) (hl : (letter, typ) ∈ [((97 : UInt8), CmdType.append), (105, .insert)]) :
    Sends (w0 ++ (r.bytes ++ letter :: 10 :: (t ++ [10, 46])) ++ w9) { typ := typ, start := r.start, text := t } := by
  obtain ⟨n, hx, h1, hbl, hst⟩ : ∃ n, ((letter.toNat, n) = (97, 38) ∨ (letter.toNat, n) = (105, 39)) ∧ n ≠ 1 ∧ isBlank letter.toNat = false ∧
      ∀ (b : Bytes) (s : Exec), s.step b n = { s with cmd := { s.cmd with typ := typ } } := by
    simp only [List.mem_cons, Prod.mk.injEq, List.not_mem_nil, or_false] at hl
    rcases hl with ⟨rfl, rfl⟩ | ⟨rfl, rfl⟩
    · exact ⟨38, by decide, by decide, by decide, fun _ _ => rfl⟩
    · exact ⟨39, by decide, by decide, by decide, fun _ _ => rfl⟩
  refine sends_of hw0 hw9 (fun pos => r.toks1 pos ++ [.act n, .pegText (pos + r.bytes.length + 2) (pos + r.bytes.length + 2 + t.length), .act 8])
    (fun rest => ?_) (fun pos rest => ?_) ?_
  · simpa using range_not_blank r hr letter.toNat hbl (10 :: (rn t ++ (10 :: 46 :: (rn w9 ++ 10 :: rest))))
  · have el : pos + (r.bytes ++ letter :: 10 :: (t ++ [10, 46])).length = pos + r.bytes.length + 2 + t.length + 2 := by simp; omega
    rw [el]
    simpa using cmd_add r hr hs _ hx (rn t) (blockText_rn ht) (rn w9 ++ 10 :: rest) pos
  · intro buffer pos b0 e0 ts hat
    have hsl := hat.right.tail.tail.left.slice
    obtain ⟨b', e', h⟩ := exec_range1' buffer r hs pos hat.left b0 e0
      ([.act n, .pegText (pos + r.bytes.length + 2) (pos + r.bytes.length + 2 + t.length), .act 8] ++ .act 1 :: ts)
    refine ⟨pos + r.bytes.length + 2, pos + r.bytes.length + 2 + t.length, ?_⟩
    rw [List.append_assoc, h]
    simp only [List.cons_append, List.nil_append]
    rw [exec_act _ _ _ _ h1, hst]
    simp only [execute, Exec.step, hsl]
    rfl

theorem sends_of_reads {u : Bytes} {c : Command} (h : Reads u c) : Sends u c := by
  cases h with
  | range h0 hs h9 hr hl => exact sends_range _ _ _ h0 hs h9 _ hr _ _ hl
  | number h0 h9 hr hs => exact sends_number _ _ h0 h9 _ hr hs
  | null h0 hr hs => exact sends_null _ h0 _ hr hs
  | bare h0 h9 hl => exact sends_bare _ _ h0 h9 _ _ hl
  | unnamed h0 h9 hl => exact sends_unnamed _ _ h0 h9 _ _ hl
  | named h0 hs hne hn hl => exact sends_named _ _ _ h0 hs hne hn _ _ hl
  | write h0 h9 hr => exact sends_write _ _ h0 h9 _ hr
  | writeNamed h0 hs hne hn hr => exact sends_writeNamed _ _ _ h0 hs hne hn _ hr
  | mark h0 h9 hr hs h1 h2 => exact sends_mark _ _ h0 h9 _ hr hs _ h1 h2
  | dest h0 h9 hr ha hl => exact sends_dest _ _ h0 h9 _ hr _ ha _ _ hl
  | read h0 hs hne hn hr hsim => exact sends_read _ _ _ h0 hs hne hn _ hr hsim
  | shell h0 hne _ hn => exact sends_shell _ _ h0 hne hn
  | add h0 h9 hr hs hl ht => exact sends_add _ _ h0 h9 _ hr hs _ ht _ _ hl
  | change h0 h9 hr ht => exact sends_change _ _ h0 h9 _ hr _ ht

theorem script_sends {s : Bytes} {cs : List Command} (h : Script s cs) : ∀ (fuel pos : Nat), s.length < fuel →
    ∃ t, starAux e fuel pos (rn s) = (pos + s.length, [], t) ∧ ∀ (buffer : Bytes) (b0 e0 : Nat) (ts : List Tok), At buffer pos s →
      ∃ b' e', execute buffer ⟨b0, e0, {}, {}⟩ (t ++ ts) = cs ++ execute buffer ⟨b', e', {}, {}⟩ ts := by
  induction h with
  | nil =>
    intro fuel pos hf
    obtain ⟨k, rfl⟩ : ∃ k, fuel = k + 1 := ⟨fuel - 1, by simp at hf; omega⟩
    exact ⟨[], rfl, fun buffer b0 e0 ts _ => ⟨b0, e0, rfl⟩⟩
  | @cons u c s cs hu _ ih =>
    intro fuel pos hf
    obtain ⟨k, rfl⟩ : ∃ k, fuel = k + 1 := ⟨fuel - 1, by omega⟩
    obtain ⟨t, he, hx⟩ := sends_of_reads hu pos (rn s)
    obtain ⟨t2, he2, hx2⟩ := ih k (pos + u.length + 1) (by simp at hf; omega)
    refine ⟨t ++ t2, ?_, ?_⟩
    · have e1 : rn (u ++ 10 :: s) = rn u ++ 10 :: rn s := by simp
      have e2 : pos + (u ++ 10 :: s).length = pos + u.length + 1 + s.length := by simp; omega
      rw [e1, e2, starAux, he]
      simp only [he2]
    · intro buffer b0 e0 ts hat
      obtain ⟨b1, e1, h1⟩ := hx buffer b0 e0 (t2 ++ ts) hat.left
      obtain ⟨b2, e2, h2⟩ := hx2 buffer b1 e1 ts hat.right.tail
      exact ⟨b2, e2, by rw [List.append_assoc, h1, h2]; rfl⟩

theorem parse_of_script {s : Bytes} {cs : List Command} (ha : ∀ c ∈ s, c < 0x80) (h : Script s cs) : parseCommands s = some cs := by
  obtain ⟨t, he, hx⟩ := script_sends h ((rn s).length + 1) 0 (by simp)
  have h2 : star e 0 (rn s) = some (0 + s.length, [], t) := by simp only [star, he]
  have h3 := seq_some h2 (seq_some (p := notP dot) (pos1 := 0 + s.length) (rs1 := []) (t1 := []) rfl (act_some 0))
  simp only [parseCommands, parse, chunks_rn s ha, first]
  rw [h3]
  obtain ⟨b', e', hx⟩ := hx s 0 0 [.act 0] ⟨[], [], by simp, rfl⟩
  simp only [Option.map_some, List.nil_append, Option.some.injEq]
  exact hx.trans (by simp [execute])

/-- **C105** An ASCII text is accepted exactly if it is a script of commands, and then it means those commands, in order. -/
theorem C105_exact (s : Bytes) (ha : ∀ c ∈ s, c < 0x80) (cs : List Command) : parseCommands s = some cs ↔ Script s cs := by
  constructor
  · intro h
    obtain ⟨cs', hs⟩ := script_of_parse s ha (by
      simp only [parseCommands] at h
      cases hp : parse s with
      | none => rw [hp] at h; cases h
      | some t => rfl)
    have := parse_of_script ha hs
    rw [h] at this
    cases this
    exact hs
  · exact parse_of_script ha

/-- **C105** Everything else is a parse error. -/
theorem C105_rejected (s : Bytes) (ha : ∀ c ∈ s, c < 0x80) : parseCommands s = none ↔ ∀ cs, ¬ Script s cs := by
  constructor
  · intro h cs hs
    rw [parse_of_script ha hs] at h
    cases h
  · intro h
    cases hp : parseCommands s with
    | none => rfl
    | some cs => exact absurd ((C105_exact s ha cs).1 hp) (h cs)

theorem Reads.ascii {u : Bytes} {c : Command} (h : Reads u c) : ∀ x ∈ u, x < 0x80 := by
  have lets : ∀ {l : List (UInt8 × CmdType)} {a t}, (a, t) ∈ l → (∀ p ∈ l, p.1 < 0x80) → a < 0x80 := fun h g => g _ h
  cases h with
  | range h0 hs h9 hr hl =>
    intro x hx
    simp only [List.mem_append, List.mem_cons, List.not_mem_nil, or_false] at hx
    rcases hx with (hx | hx | hx | rfl) | hx
    · exact blanks_ascii h0 x hx
    · exact range_ascii hr x hx
    · exact blanks_ascii hs x hx
    · exact lets hl (by decide)
    · exact blanks_ascii h9 x hx
  | number h0 h9 hr hs =>
    intro x hx
    simp only [List.mem_append, List.mem_cons, List.not_mem_nil, or_false] at hx
    rcases hx with (hx | hx | rfl) | hx
    · exact blanks_ascii h0 x hx
    · exact range_ascii hr x hx
    · decide
    · exact blanks_ascii h9 x hx
  | null h0 hr hs =>
    intro x hx
    simp only [List.mem_append, List.not_mem_nil, or_false] at hx
    rcases hx with hx | hx
    · exact blanks_ascii h0 x hx
    · exact range_ascii hr x hx
  | bare h0 h9 hl =>
    intro x hx
    simp only [List.mem_append, List.mem_cons, List.not_mem_nil, or_false] at hx
    rcases hx with (hx | rfl) | hx
    · exact blanks_ascii h0 x hx
    · exact lets hl (by decide)
    · exact blanks_ascii h9 x hx
  | unnamed h0 h9 hl =>
    intro x hx
    simp only [List.mem_append, List.mem_cons, List.not_mem_nil, or_false] at hx
    rcases hx with (hx | rfl) | hx
    · exact blanks_ascii h0 x hx
    · exact lets hl (by decide)
    · exact blanks_ascii h9 x hx
  | named h0 hs hne hn hl =>
    intro x hx
    simp only [List.mem_append, List.mem_cons, List.not_mem_nil, or_false] at hx
    rcases hx with hx | rfl | hx | hx
    · exact blanks_ascii h0 x hx
    · exact lets hl (by decide)
    · exact blanks_ascii hs x hx
    · exact hn.ascii x hx
  | write h0 h9 hr =>
    intro x hx
    simp only [List.mem_append, List.mem_cons, List.not_mem_nil, or_false] at hx
    rcases hx with (hx | hx | rfl) | hx
    · exact blanks_ascii h0 x hx
    · exact range_ascii hr x hx
    · decide
    · exact blanks_ascii h9 x hx
  | writeNamed h0 hs hne hn hr =>
    intro x hx
    simp only [List.mem_append, List.mem_cons, List.not_mem_nil, or_false] at hx
    rcases hx with hx | hx | rfl | hx | hx
    · exact blanks_ascii h0 x hx
    · exact range_ascii hr x hx
    · decide
    · exact blanks_ascii hs x hx
    · exact hn.ascii x hx
  | mark h0 h9 hr hs h1 h2 =>
    intro x hx
    simp only [List.mem_append, List.mem_cons, List.not_mem_nil, or_false] at hx
    rcases hx with (hx | hx | rfl | rfl) | hx
    · exact blanks_ascii h0 x hx
    · exact range_ascii hr x hx
    · decide
    · exact UInt8.lt_of_le_of_lt h2 (by decide)
    · exact blanks_ascii h9 x hx
  | dest h0 h9 hr ha hl =>
    intro x hx
    simp only [List.mem_append, List.mem_cons] at hx
    rcases hx with (hx | hx | rfl | hx) | hx
    · exact blanks_ascii h0 x hx
    · exact range_ascii hr x hx
    · exact lets hl (by decide)
    · exact addr_ascii ha x hx
    · exact blanks_ascii h9 x hx
  | read h0 hs hne hn hr _ =>
    intro x hx
    simp only [List.mem_append, List.mem_cons, List.not_mem_nil, or_false] at hx
    rcases hx with hx | hx | rfl | hx | hx
    · exact blanks_ascii h0 x hx
    · exact range_ascii hr x hx
    · decide
    · exact blanks_ascii hs x hx
    · exact hn.ascii x hx
  | shell h0 _ ha _ =>
    intro x hx
    simp only [List.mem_append, List.mem_cons, List.not_mem_nil, or_false] at hx
    rcases hx with hx | rfl | hx
    · exact blanks_ascii h0 x hx
    · decide
    · exact ha x hx
  | add h0 h9 hr _ hl ht =>
    intro x hx
    simp only [List.mem_append, List.mem_cons, List.not_mem_nil, or_false] at hx
    rcases hx with (hx | hx | rfl | rfl | hx | rfl | rfl) | hx
    · exact blanks_ascii h0 x hx
    · exact range_ascii hr x hx
    · exact lets hl (by decide)
    · decide
    · exact ht.1 x hx
    · decide
    · decide
    · exact blanks_ascii h9 x hx
  | change h0 h9 hr ht =>
    intro x hx
    simp only [List.mem_append, List.mem_cons, List.not_mem_nil, or_false] at hx
    rcases hx with (hx | hx | rfl | rfl | hx | rfl | rfl) | hx
    · exact blanks_ascii h0 x hx
    · exact range_ascii hr x hx
    · decide
    · decide
    · exact ht.1 x hx
    · decide
    · decide
    · exact blanks_ascii h9 x hx

/-- **C105** A text has at most one meaning as a command. -/
theorem C105_one_meaning {u : Bytes} {c c' : Command} (h : Reads u c) (h' : Reads u c') : c = c' := by
  have ha : ∀ x ∈ u ++ [10], x < 0x80 := by
    intro x hx
    rcases List.mem_append.1 hx with hx | hx
    · exact h.ascii x hx
    · simp at hx; subst hx; decide
  have e := parse_of_script ha (.cons h .nil)
  have e' := parse_of_script ha (.cons h' .nil)
  rw [e] at e'
  simpa using e'

theorem script_nil {s : Bytes} {cs : List Command} (h : Script s cs) (hs : s = [] := by rfl) : cs = [] := by
  cases h with
  | nil => rfl
  | cons _ _ => simp at hs

/-- **C105** One line: exactly the lines that are commands are accepted, each as that one command. -/
theorem C105_line (l : Bytes) (ha : ∀ c ∈ l, c < 0x80) (hn : 10 ∉ l) (cs : List Command) :
    parseCommands (l ++ [10]) = some cs ↔ ∃ c, cs = [c] ∧ Reads l c := by
  have ha' : ∀ x ∈ l ++ [10], x < 0x80 := by
    intro x hx
    rcases List.mem_append.1 hx with hx | hx
    · exact ha x hx
    · simp at hx; subst hx; decide
  rw [C105_exact _ ha']
  constructor
  · intro h
    generalize hs : l ++ [10] = s at h
    cases h with
    | nil => simp at hs
    | @cons u c s cs hu hs' =>
      have hu10 : ∀ a b : Bytes, l = a ++ 10 :: b → False := fun a b e => hn (by simp [e])
      have hlen := congrArg List.length hs
      rcases List.append_eq_append_iff.1 hs with ⟨w, e1, e2⟩ | ⟨w, e1, e2⟩
      · cases w with
        | nil =>
          simp only [List.append_nil] at e1
          simp only [List.nil_append, List.cons.injEq, true_and] at e2
          subst e1 e2
          have := script_nil hs'
          subst this
          exact ⟨c, rfl, hu⟩
        | cons x w => simp at e2
      · cases w with
        | nil =>
          simp only [List.append_nil] at e1
          simp only [List.nil_append, List.cons.injEq, true_and] at e2
          subst e1 e2
          have := script_nil hs'
          subst this
          exact ⟨c, rfl, hu⟩
        | cons x w =>
          simp only [List.cons_append, List.cons.injEq] at e2
          exact absurd (by rw [e1, ← e2.1]) (hu10 u w)
  · rintro ⟨c, rfl, h⟩
    exact .cons h .nil

example : Reads b!"2,5p" { typ := .print, start := ⟨.num, b!"2", 0⟩, end_ := ⟨.num, b!"5", 0⟩ } :=
  .range (w0 := []) (ws := []) (w9 := []) (r := .both false (.lit b!"2") [] [] (.lit b!"5") []) (letter := 112) blanks_nil blanks_nil blanks_nil
    ⟨⟨by decide, by decide⟩, ⟨by decide, by decide⟩, blanks_nil, blanks_nil, blanks_nil⟩ (by decide)

/-- A line starting with a dot inside a text block ends it, and what follows is read as commands. -/
example : Script b!"a\nx\n. \n1d\n.\n" [{ typ := .append, text := b!"x" }, { typ := .delete, start := ⟨.num, b!"1", 0⟩, end_ := ⟨.num, b!"1", 0⟩ },
    { start := ⟨.current, b!".", 0⟩ }] :=
  (C105_exact _ (by decide) _).1 (by decide +kernel)

/-- Not commands: a mark that is no lower-case letter, `r` without a name, two offsets, a comma after a null command. -/
example : (∀ c, ¬ Reads b!"k{" c) ∧ (∀ c, ¬ Reads b!"kA" c) ∧ (∀ c, ¬ Reads b!"r  " c) ∧ (∀ c, ¬ Reads b!"1+1+1p" c) ∧ ∀ c, ¬ Reads b!"1,2" c := by
  refine ⟨?_, ?_, ?_, ?_, ?_⟩ <;>
    exact fun c h => by
      have hp := (C105_line _ (by decide) (by decide) [c]).2 ⟨c, rfl, h⟩
      rw [show parseCommands _ = none by decide +kernel] at hp
      cases hp

/-! ## The commands of the standard that are missing -/

/-- **C105** The global and substitute commands of the standard are not there: no text that starts with `g`, `G`, `s`, `v` or `V`,
with any addresses before it, is accepted, whatever follows. -/
theorem C105_missing (w0 rest : Bytes) (hw0 : Blanks w0) (r : RangeSyn) (hr : r.OK) (letter : UInt8) (hl : letter ∈ b!"gGsvV")
    (ha : ∀ c ∈ rest, c < 0x80) : parseCommands (w0 ++ (r.bytes ++ letter :: rest)) = none := by
  obtain ⟨hc, h1, h2, h3, h4, h5, h6, h7, h8, h9, hasc⟩ : isLetter letter.toNat = true ∧ isRangeC letter.toNat = false ∧ letter.toNat ≠ 61 ∧
      letter.toNat ≠ 99 ∧ (letter.toNat ≠ 97 ∧ letter.toNat ≠ 105) ∧ letter.toNat ≠ 107 ∧ (letter.toNat ≠ 109 ∧ letter.toNat ≠ 116) ∧
      letter.toNat ≠ 114 ∧ letter.toNat ≠ 119 ∧ (letter.toNat ≠ 10 ∧ isBlank letter.toNat = false) ∧ letter < 0x80 := by
    simp only [List.mem_cons, List.not_mem_nil, or_false] at hl
    rcases hl with rfl | rfl | rfl | rfl | rfl <;> decide
  have hcmd : ∀ pos, cmd pos (rn r.bytes ++ letter.toNat :: rn rest) = opt startAddr pos (rn r.bytes ++ letter.toNat :: rn rest) := by
    intro pos
    obtain ⟨g1, g2⟩ := bare_param_fail r hr letter.toNat hc (rn rest) pos
    exact alt_skip g1 (alt_skip g2 (alt_skip (rangeCmd_fail r hr _ hc h1 _ _) (alt_skip (addrCmd_fail r hr _ hc h2 _ _)
      (alt_skip (changeTextCmd_fail r hr _ hc h3 _ _) (alt_skip (addTextCmd_fail r hr _ hc h4 _ _)
      (alt_skip (markCmd_fail r hr _ hc h5 _ _) (alt_skip (destCmd_fail r hr _ hc h6 _ _)
      (alt_skip (readCmd_fail r hr _ hc h7 _ _) (alt_skip (writeCmd_fail r hr _ hc h8 _ _)
      (alt_skip (shellCmd_fail r hr _ hc _ _) rfl))))))))))
  have he : e 0 (rn (w0 ++ (r.bytes ++ letter :: rest))) = none := by
    have s1 := star_sp (rn w0) (rn r.bytes ++ letter.toNat :: rn rest) 0 hw0.rn (range_not_blank r hr letter.toNat h9.2 (rn rest))
    obtain ⟨pos', d, r', t, h, hd⟩ := optStart_any r hr letter.toNat (isLetter_follow hc) (rn rest) (0 + (rn w0).length)
    have hd' : d ≠ 10 ∧ isBlank d = false := by
      rcases hd with rfl | rfl | rfl
      · exact h9
      · decide
      · decide
    have e1 : rn (w0 ++ (r.bytes ++ letter :: rest)) = rn w0 ++ (rn r.bytes ++ letter.toNat :: rn rest) := by simp
    rw [e1]
    exact seq_fail2 s1 (seq_fail2 ((hcmd _).trans h) (seq_fail2 (star_sp_none _ _ (Stops.cons hd'.2)) (seq_fail1 (chr_fail_cons hd'.1))))
  have ha' : ∀ c ∈ w0 ++ (r.bytes ++ letter :: rest), c < 0x80 := by
    intro c hc
    simp only [List.mem_append, List.mem_cons] at hc
    rcases hc with hc | hc | rfl | hc
    · exact blanks_ascii hw0 c hc
    · exact range_ascii hr c hc
    · exact hasc
    · exact ha c hc
  have hne : ∃ c cs, rn (w0 ++ (r.bytes ++ letter :: rest)) = c :: cs := by
    cases h : w0 ++ (r.bytes ++ letter :: rest) with
    | nil => simp at h
    | cons c cs => exact ⟨_, _, rfl⟩
  obtain ⟨c, cs, hcs⟩ := hne
  simp only [parseCommands, parse, chunks_rn _ ha']
  have hst : star e 0 (rn (w0 ++ (r.bytes ++ letter :: rest))) = some (0, c :: cs, []) := by
    simp only [star, starAux, he]
    rw [hcs]
  have : first 0 (rn (w0 ++ (r.bytes ++ letter :: rest))) = none := seq_fail2 hst (seq_fail1 rfl)
  rw [this]
  rfl

example : parseCommands b!"1,$s/a/b/g\n" = none :=
  C105_missing [] b!"/a/b/g\n" blanks_nil (.both false (.lit b!"1") [] [] .dollar []) ⟨⟨by decide, by decide⟩, trivial, blanks_nil, blanks_nil, blanks_nil⟩
    115 (by decide) (by decide)

/-! ## A pattern that ends in an escaped slash -/

/-- **C105** The line is accepted (`PatternOK` allows escaped slashes), but the search is made for the pattern without its last slash:
a backslash is left at its end. -/
theorem C105_escaped_slash (env : Env) (s : State) (x : Bytes) (h : PatternOK 47 (x ++ b!"\\/")) :
    addrLine env s (AddrSyn.re (x ++ b!"\\/")).address = (regexMatch env s (x ++ b!"\\")).map (fun r => wrap64 (r.1 + 0)) := by
  have ht : trimSlash (b!"/" ++ (x ++ b!"\\") ++ b!"//") = x ++ b!"\\" := by
    refine trimSlash_both _ _ ?_ (by simp) (by simp) (by simp)
    intro c cs e
    cases x with
    | nil => cases e; decide
    | cons y x =>
      simp only [List.cons_append, List.cons.injEq] at e
      rw [← e.1]
      exact pattern_head h y (x ++ b!"\\/") rfl
  have e1 : b!"/" ++ (x ++ b!"\\/") ++ b!"/" = b!"/" ++ (x ++ b!"\\") ++ b!"//" := by simp
  simp only [addrLine, AddrSyn.address, AddrSyn.bytes]
  rw [e1, ht]
  cases regexMatch env s (x ++ b!"\\") <;> rfl

/-- `/a\//` is such a pattern. -/
example : PatternOK 47 (b!"a" ++ b!"\\/") := ⟨by decide, by decide, by decide, fun x y e => by
      match x, e with
      | [], e => cases e
      | [_], e => cases e
      | [_, _], e => cases e; rfl
      | _ :: _ :: _ :: x, e => simp at e, by decide⟩

end Ed
