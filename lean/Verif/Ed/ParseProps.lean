import Verif.Ed.PegCommands
import Verif.Ed.Spec
import Verif.Go.StrconvProps

/-! # Command lines parse to what they say (C67, C68) -/

namespace Ed
open Go

/-! ## From tokens to commands -/

/-- `xs` stands in the buffer at `pos`. -/
def At (buffer : Bytes) (pos : Nat) (xs : Bytes) : Prop := ∃ pre post, buffer = pre ++ xs ++ post ∧ pre.length = pos

theorem At.slice {buffer xs : Bytes} {pos : Nat} (h : At buffer pos xs) (cmd : Command) (addr : Address) :
    Exec.text buffer ⟨pos, pos + xs.length, cmd, addr⟩ = xs := by
  obtain ⟨pre, post, rfl, rfl⟩ := h
  simp [Exec.text, List.append_assoc]

theorem At.left {buffer xs ys : Bytes} {pos : Nat} (h : At buffer pos (xs ++ ys)) : At buffer pos xs := by
  obtain ⟨pre, post, rfl, rfl⟩ := h
  exact ⟨pre, ys ++ post, by simp, rfl⟩

theorem At.right {buffer xs ys : Bytes} {pos : Nat} (h : At buffer pos (xs ++ ys)) : At buffer (pos + xs.length) ys := by
  obtain ⟨pre, post, rfl, rfl⟩ := h
  exact ⟨pre ++ xs, post, by simp, by simp⟩

theorem At.tail {buffer ys : Bytes} {x : UInt8} {pos : Nat} (h : At buffer pos (x :: ys)) : At buffer (pos + 1) ys := by
  have : At buffer pos ([x] ++ ys) := h
  simpa using this.right

theorem At.zero (a b : Bytes) : At (a ++ b) 0 a := ⟨[], b, by simp, rfl⟩

theorem exec_act (buffer : Bytes) (s : Exec) (n : Nat) (ts : List Tok) (h : n ≠ 1) :
    execute buffer s (.act n :: ts) = execute buffer (s.step buffer n) ts := by simp [execute, h]

theorem exec_addr (buffer : Bytes) (a : AddrSyn) (pos : Nat) (h : At buffer pos a.bytes) (s : Exec) (hs : s.addr = {})
    (ts : List Tok) :
    execute buffer s (a.toks pos ++ ts) = execute buffer ⟨pos, pos + a.bytes.length, s.cmd, a.address⟩ ts := by
  have sl := h.slice
  have base : ∀ (a : AddrSyn) (s : Exec) (ts : List Tok), ∃ b' e', execute buffer s (a.toks0 pos ++ ts) =
      execute buffer ⟨b', e', s.cmd, { s.addr with typ := a.typ }⟩ ts := by
    intro a
    induction a with
    | off a m ds ih => exact fun s ts => ih s ts
    | lit ds => intro s ts; exact ⟨_, _, rfl⟩
    | dot => intro s ts; exact ⟨_, _, rfl⟩
    | dollar => intro s ts; exact ⟨_, _, rfl⟩
    | re body => intro s ts; exact ⟨_, _, rfl⟩
    | mark c => intro s ts; exact ⟨_, _, rfl⟩
    | back body => intro s ts; exact ⟨_, _, rfl⟩
  obtain ⟨b', e', h⟩ := base a s ([.pegText pos (pos + a.bytes.length), .act 19] ++ ts)
  simp only [AddrSyn.toks, List.append_assoc]
  rw [h]
  simp [execute, Exec.step, sl, AddrSyn.address, hs]

theorem exec_range (buffer : Bytes) (r : RangeSyn) (pos : Nat) (h : At buffer pos r.bytes) (ts : List Tok) :
    ∃ b' e', execute buffer {} (r.toks pos ++ ts) = execute buffer ⟨b', e', { start := r.start, end_ := r.end_ }, {}⟩ ts := by
  cases r with
  | none => exact ⟨0, 0, rfl⟩
  | one a w =>
    simp only [RangeSyn.toks, List.append_assoc]
    rw [exec_addr buffer a pos h.left {} rfl]
    exact ⟨_, _, rfl⟩
  | both s a w1 w2 b w3 =>
    simp only [RangeSyn.toks, List.append_assoc, List.cons_append]
    rw [exec_addr buffer a pos h.left {} rfl, exec_act _ _ _ _ (by decide)]
    have hb : At buffer (pos + a.bytes.length + w1.length + 1 + w2.length) b.bytes := h.right.right.tail.right.left
    rw [exec_addr buffer b _ hb _ rfl]
    exact ⟨_, _, rfl⟩
  | startOnly s a w =>
    simp only [RangeSyn.toks, List.append_assoc, List.cons_append, List.nil_append]
    rw [exec_addr buffer a pos h.left {} rfl, exec_act _ _ _ _ (by decide)]
    cases s <;> exact ⟨_, _, rfl⟩
  | endOnly s w1 b w2 =>
    simp only [RangeSyn.toks, List.append_assoc, List.cons_append, List.nil_append]
    have hb : At buffer (pos + 1 + w1.length) b.bytes := h.tail.right.left
    rw [exec_addr buffer b _ hb {} rfl, exec_act _ _ _ _ (by decide)]
    cases s <;> exact ⟨_, _, rfl⟩
  | all s => cases s <;> exact ⟨_, _, rfl⟩

theorem exec_range1 (buffer : Bytes) (r : RangeSyn) (hs : r.Simple) (pos : Nat) (h : At buffer pos r.bytes) (ts : List Tok) :
    ∃ b' e', execute buffer {} (r.toks1 pos ++ ts) = execute buffer ⟨b', e', { start := r.start }, {}⟩ ts := by
  cases r with
  | none => exact ⟨0, 0, rfl⟩
  | one a w =>
    simp only [RangeSyn.toks1, List.append_assoc]
    rw [exec_addr buffer a pos h.left {} rfl]
    exact ⟨_, _, rfl⟩
  | both => exact hs.elim
  | startOnly => exact hs.elim
  | endOnly => exact hs.elim
  | all => exact hs.elim

/-! ## One line is one parse -/

theorem chunks_rn : ∀ s : Bytes, (∀ c ∈ s, c < 0x80) → runes s = rn s := by
  intro s h
  have := chunks_ascii s [] h
  simp only [List.append_nil] at this
  simp only [runes, rn, this, List.map_append, List.map_map]
  simp [chunks, chunksAux, Function.comp_def]

theorem parse_line {buffer : Bytes} (ha : ∀ c ∈ buffer, c < 0x80) {n : Nat} {t : List Tok}
    (h : e 0 (rn buffer) = some (n, [], t)) (hne : buffer ≠ []) : parseCommands buffer = some (execute buffer {} (t ++ [.act 0])) := by
  have h2 : star e 0 (rn buffer) = some (n, [], t) := by
    obtain ⟨m, hm⟩ : ∃ m, (rn buffer).length + 1 = m + 1 + 1 := by
      cases buffer with
      | nil => exact absurd rfl hne
      | cons c cs => exact ⟨(rn cs).length, by simp⟩
    have he : e n [] = none := rfl
    simp only [star]
    rw [hm]
    simp [starAux, h, he]
  have h3 := seq_some h2 (seq_some (p := notP dot) (pos1 := n) (rs1 := []) (t1 := []) rfl (act_some 0))
  simp only [parseCommands, parse, chunks_rn buffer ha, first]
  rw [h3]
  rfl

/-- `e` around a command. -/
theorem e_some {w0 body w9 : Bytes} (hw0 : Blanks w0) (hw9 : Blanks w9) {t : List Tok}
    (hb : Stops isBlank (rn body ++ (rn w9 ++ [10])))
    (hc : cmd w0.length (rn body ++ (rn w9 ++ [10])) = some (w0.length + body.length, rn w9 ++ [10], t)) :
    e 0 (rn (w0 ++ body ++ w9 ++ [10])) = some (w0.length + body.length + w9.length + 1, [], t ++ [.act 1]) := by
  have h1 := star_sp (rn w0) (rn body ++ (rn w9 ++ [10])) 0 hw0.rn hb
  have h2 := star_sp (rn w9) [10] (w0.length + body.length) hw9.rn (Stops.cons (by decide))
  simp only [rn, List.length_map, Nat.zero_add] at h1 h2
  have := seq_some h1 (seq_some hc (seq_some h2 (seq_some (p := newLine) chr_some (act_some 1))))
  simpa [e, List.append_assoc] using this

theorem blanks_ascii {w : Bytes} (h : Blanks w) : ∀ c ∈ w, c < 0x80 := by
  intro c hc; rcases h c hc with rfl | rfl <;> decide

theorem digit_ascii {c : UInt8} (h : isDigit c = true) : c < 0x80 := by
  simp only [isDigit_iff] at h
  rw [UInt8.lt_iff_toNat_lt]
  have e : (128 : UInt8).toNat = 128 := rfl
  omega

theorem addr_ascii {a : AddrSyn} (h : a.OK) : ∀ c ∈ a.bytes, c < 0x80 := by
  induction a with
  | lit ds => intro c hc; exact digit_ascii (h.2 c hc)
  | dot => intro c hc; simp [AddrSyn.bytes] at hc; subst hc; decide
  | dollar => intro c hc; simp [AddrSyn.bytes] at hc; subst hc; decide
  | re body =>
    intro c hc
    simp [AddrSyn.bytes] at hc
    rcases hc with rfl | hc | rfl
    · decide
    · exact h.ascii c hc
    · decide
  | mark x =>
    intro c hc
    simp [AddrSyn.bytes] at hc
    rcases hc with rfl | rfl
    · decide
    · have h2 := h.2
      rw [UInt8.le_iff_toNat_le] at h2
      rw [UInt8.lt_iff_toNat_lt]
      have e1 : (128 : UInt8).toNat = 128 := rfl
      have e2 : (122 : UInt8).toNat = 122 := rfl
      omega
  | back body =>
    intro c hc
    simp [AddrSyn.bytes] at hc
    rcases hc with rfl | hc | rfl
    · decide
    · exact h.ascii c hc
    · decide
  | off a m ds ih =>
    intro c hc
    simp only [AddrSyn.bytes, List.mem_append, List.mem_cons] at hc
    rcases hc with hc | rfl | hc
    · exact ih h.1 c hc
    · cases m <;> decide
    · exact digit_ascii (h.2.2 c hc)

theorem range_ascii {r : RangeSyn} (h : r.OK) : ∀ c ∈ r.bytes, c < 0x80 := by
  have sepa : ∀ s, sepByte s < 0x80 := by decide
  intro c hc
  cases r with
  | none => simp [RangeSyn.bytes] at hc
  | one a w =>
    simp only [RangeSyn.bytes, List.mem_append] at hc
    rcases hc with hc | hc
    · exact addr_ascii h.1 c hc
    · exact blanks_ascii h.2 c hc
  | both s a w1 w2 b w3 =>
    obtain ⟨h1, h2, h3, h4, h5⟩ := h
    simp only [RangeSyn.bytes, List.mem_append, List.mem_cons] at hc
    rcases hc with hc | hc | rfl | hc | hc | hc
    · exact addr_ascii h1 c hc
    · exact blanks_ascii h3 c hc
    · exact sepa s
    · exact blanks_ascii h4 c hc
    · exact addr_ascii h2 c hc
    · exact blanks_ascii h5 c hc
  | startOnly s a w =>
    simp only [RangeSyn.bytes, List.mem_append, List.mem_cons, List.not_mem_nil, or_false] at hc
    rcases hc with hc | hc | rfl
    · exact addr_ascii h.1 c hc
    · exact blanks_ascii h.2 c hc
    · exact sepa s
  | endOnly s w1 b w2 =>
    simp only [RangeSyn.bytes, List.mem_append, List.mem_cons] at hc
    rcases hc with rfl | hc | hc | hc
    · exact sepa s
    · exact blanks_ascii h.2.1 c hc
    · exact addr_ascii h.1 c hc
    · exact blanks_ascii h.2.2 c hc
  | all s =>
    simp only [RangeSyn.bytes, List.mem_cons, List.not_mem_nil, or_false] at hc
    subst hc; exact sepa s

theorem range_not_blank (r : RangeSyn) (hr : r.OK) (c : Nat) (hc : isBlank c = false) (rest : List Nat) :
    Stops isBlank (rn r.bytes ++ c :: rest) := by
  obtain ⟨d, r', e, hd⟩ := range_head r hr c rest
  rw [e]
  refine Stops.cons ?_
  rcases hd with rfl | hd
  · exact hc
  · simp [isDig, isBlank] at hd ⊢; omega

/-! ## C67 -/

/-- The letters of the range commands and what they stand for. -/
def rangeCommands : List (UInt8 × CmdType) := [(100, .delete), (106, .join), (108, .list), (110, .number), (112, .print)]

/-- **C67** A range command: blanks, the addresses in any of the forms (none, `A`, `A,B`, `A,`, `,B`, `,` and
with `;`), the letter, blanks, newline. It parses to exactly one command with that type and those
addresses and nothing else. -/
theorem C67_range_commands (w0 w9 : Bytes) (hw0 : Blanks w0) (hw9 : Blanks w9) (r : RangeSyn) (hr : r.OK)
    (letter : UInt8) (typ : CmdType) (hl : (letter, typ) ∈ rangeCommands) :
    parseCommands (w0 ++ (r.bytes ++ [letter]) ++ w9 ++ [10]) = some [{ typ := typ, start := r.start, end_ := r.end_ }] := by
  obtain ⟨n, hx, ht⟩ : ∃ n, (letter.toNat, n, typ) ∈ rangeLetter ∧ 40 ≤ n ∧
      ∀ s : Exec, s.step (w0 ++ (r.bytes ++ [letter]) ++ w9 ++ [10]) n = { s with cmd := { s.cmd with typ := typ } } := by
    simp only [rangeCommands, List.mem_cons, Prod.mk.injEq, List.not_mem_nil, or_false] at hl
    rcases hl with ⟨rfl, rfl⟩ | ⟨rfl, rfl⟩ | ⟨rfl, rfl⟩ | ⟨rfl, rfl⟩ | ⟨rfl, rfl⟩
    · exact ⟨40, by decide, by decide, fun _ => rfl⟩
    · exact ⟨41, by decide, by decide, fun _ => rfl⟩
    · exact ⟨42, by decide, by decide, fun _ => rfl⟩
    · exact ⟨43, by decide, by decide, fun _ => rfl⟩
    · exact ⟨44, by decide, by decide, fun _ => rfl⟩
  have hlet : letter < 0x80 ∧ isBlank letter.toNat = false := by
    simp only [rangeCommands, List.mem_cons, Prod.mk.injEq, List.not_mem_nil, or_false] at hl
    rcases hl with ⟨rfl, rfl⟩ | ⟨rfl, rfl⟩ | ⟨rfl, rfl⟩ | ⟨rfl, rfl⟩ | ⟨rfl, rfl⟩ <;> decide
  have hc := cmd_range r hr _ hx (rn w9 ++ [10]) w0.length
  have he := e_some (body := r.bytes ++ [letter]) hw0 hw9 (t := r.toks w0.length ++ [.act n])
    (by simpa using range_not_blank r hr letter.toNat hlet.2 (rn w9 ++ [10]))
    (by simpa [Nat.add_assoc] using hc)
  rw [parse_line (by
    intro c hc
    simp only [List.mem_append, List.mem_cons, List.not_mem_nil, or_false] at hc
    rcases hc with ((hc | (hc | rfl)) | hc) | rfl
    · exact blanks_ascii hw0 c hc
    · exact range_ascii hr c hc
    · exact hlet.1
    · exact blanks_ascii hw9 c hc
    · decide) he (by simp)]
  have hat : At (w0 ++ (r.bytes ++ [letter]) ++ w9 ++ [10]) w0.length r.bytes := ⟨w0, [letter] ++ w9 ++ [10], by simp, rfl⟩
  obtain ⟨b', e', h⟩ := exec_range _ r _ hat ([.act n] ++ [.act 1] ++ [.act 0])
  simp only [List.append_assoc] at h ⊢
  rw [h]
  simp only [List.cons_append, List.nil_append]
  rw [exec_act _ _ _ _ (by omega)]
  simp only [List.append_assoc, List.cons_append, List.nil_append] at ht
  rw [ht.2]
  rfl

/-- The addresses the lines below are written with. -/
example : (RangeSyn.both false (.lit b!"2") [] b!" " .dollar []).bytes = b!"2, $" := rfl

example : parseCommands b!" 10,$p \n" = some [{ typ := .print, start := ⟨.num, b!"10", 0⟩, end_ := ⟨.last, b!"$", 0⟩ }] :=
  C67_range_commands b!" " b!" " (by simp [Blanks]) (by simp [Blanks])
    (.both false (.lit b!"10") [] [] .dollar []) (by simp [RangeSyn.OK, AddrSyn.OK, Blanks]; decide) 112 .print (by decide)

example : parseCommands b!";/ab/d\n" = some [{ typ := .delete, start := aCur, end_ := ⟨.regex, b!"/ab/", 0⟩ }] :=
  C67_range_commands [] [] (by simp [Blanks]) (by simp [Blanks])
    (.endOnly true [] (.re b!"ab") []) ⟨.plain (by decide) (by decide), blanks_nil, blanks_nil⟩ 100 .delete (by decide)

/-- An escaped delimiter in the pattern. -/
example : parseCommands b!"/a\\/b/p\n" = some [{ typ := .print, start := ⟨.regex, b!"/a\\/b/", 0⟩, end_ := ⟨.regex, b!"/a\\/b/", 0⟩ }] :=
  C67_range_commands [] [] (by simp [Blanks]) (by simp [Blanks])
    (.one (.re b!"a\\/b") []) ⟨⟨by decide, by decide, by decide, fun x y e => by
      match x, e with
      | [], e => cases e
      | [_], e => cases e
      | [_, _], e => cases e; rfl
      | [_, _, _], e => cases e
      | _ :: _ :: _ :: _ :: x, e => simp at e, by decide⟩, blanks_nil⟩ 112 .print (by decide)

example : parseCommands b!"n\n" = some [{ typ := .number }] :=
  C67_range_commands [] [] (by simp [Blanks]) (by simp [Blanks]) .none trivial 110 .number (by decide)

/-- **C67** In numbers: `a,bX` is command `X` from line `a` to line `b`. -/
theorem C67_numbers (a b : Nat) (letter : UInt8) (typ : CmdType) (hl : (letter, typ) ∈ rangeCommands) :
    ∃ c, parseCommands (natToDec a ++ [44] ++ natToDec b ++ [letter] ++ [10]) = some [c] ∧ c.typ = typ ∧
      Denotes c.start (.num a) ∧ Denotes c.end_ (.num b) ∧ c.text = [] ∧ c.params = [] := by
  have hd : ∀ n, (natToDec n ≠ [] ∧ ∀ c ∈ natToDec n, isDigit c = true) ∧ digitsVal (natToDec n) = n :=
    fun n => ⟨⟨(natToDec_spec n).1, (natToDec_spec n).2.1⟩, (natToDec_spec n).2.2.1⟩
  have := C67_range_commands [] [] blanks_nil blanks_nil (.both false (.lit (natToDec a)) [] [] (.lit (natToDec b)) [])
    ⟨(hd a).1, (hd b).1, blanks_nil, blanks_nil, blanks_nil⟩ letter typ hl
  refine ⟨{ typ := typ, start := ⟨.num, natToDec a, 0⟩, end_ := ⟨.num, natToDec b, 0⟩ }, ?_, rfl, ?_, ?_, rfl, rfl⟩
  · simpa [RangeSyn.start, RangeSyn.end_, AddrSyn.address, RangeSyn.bytes, AddrSyn.bytes, sepByte, List.append_assoc] using this
  · exact ⟨rfl, rfl, (hd a).1.1, (hd a).1.2, (hd a).2⟩
  · exact ⟨rfl, rfl, (hd b).1.1, (hd b).1.2, (hd b).2⟩

/-- Lines without text blocks or ranges: what is common to their proofs. -/
theorem parse_simple {w0 body w9 : Bytes} (hw0 : Blanks w0) (hw9 : Blanks w9) (ha : ∀ c ∈ body, c < 0x80) {t : List Tok}
    (hb : Stops isBlank (rn body ++ (rn w9 ++ [10])))
    (hc : cmd w0.length (rn body ++ (rn w9 ++ [10])) = some (w0.length + body.length, rn w9 ++ [10], t)) :
    parseCommands (w0 ++ body ++ w9 ++ [10]) = some (execute (w0 ++ body ++ w9 ++ [10]) {} (t ++ [.act 1, .act 0])) := by
  rw [parse_line (by
    intro c hc
    simp only [List.mem_append, List.mem_cons, List.not_mem_nil, or_false] at hc
    rcases hc with ((hc | hc) | hc) | rfl
    · exact blanks_ascii hw0 c hc
    · exact ha c hc
    · exact blanks_ascii hw9 c hc
    · decide) (e_some hw0 hw9 hb hc) (by simp)]
  simp

/-- The text the `=` command keeps as the address: everything up to the `=`. -/
theorem C67_line_number (w0 w9 : Bytes) (hw0 : Blanks w0) (hw9 : Blanks w9) (r : RangeSyn) (hr : r.OK) (hs : r.Simple) :
    parseCommands (w0 ++ (r.bytes ++ [61]) ++ w9 ++ [10]) =
      some [{ typ := .lineNumber, start := { r.start with text := r.bytes } }] := by
  have hc := cmd_equals r hr hs (rn w9 ++ [10]) w0.length
  rw [parse_simple (body := r.bytes ++ [61]) (t := r.toksEq w0.length) hw0 hw9 (by
    intro c hc
    simp only [List.mem_append, List.mem_cons, List.not_mem_nil, or_false] at hc
    rcases hc with hc | rfl
    · exact range_ascii hr c hc
    · decide)
    (by simpa using range_not_blank r hr 61 (by decide) (rn w9 ++ [10]))
    (by simpa [Nat.add_assoc] using hc)]
  have hat : At (w0 ++ (r.bytes ++ [61]) ++ w9 ++ [10]) w0.length r.bytes := ⟨w0, [61] ++ w9 ++ [10], by simp, rfl⟩
  generalize w0 ++ (r.bytes ++ [61]) ++ w9 ++ [10] = buffer at hat
  cases r with
  | none => rfl
  | one a w =>
    have hsl := hat.slice
    simp only [RangeSyn.bytes, List.length_append, ← Nat.add_assoc] at hsl
    simp only [RangeSyn.toksEq, List.append_assoc, List.cons_append, List.nil_append]
    rw [exec_addr buffer a _ hat.left {} rfl]
    simp [execute, Exec.step, hsl, RangeSyn.start, RangeSyn.bytes]
  | both => exact hs.elim
  | startOnly => exact hs.elim
  | endOnly => exact hs.elim
  | all => exact hs.elim

example : parseCommands b!"$=\n" = some [{ typ := .lineNumber, start := ⟨.last, b!"$", 0⟩ }] :=
  C67_line_number [] [] blanks_nil blanks_nil (.one .dollar []) ⟨trivial, blanks_nil⟩ trivial

/-- **C67** A blank before the `=` becomes part of the number, which then is not a number. -/
example : parseCommands b!"10 =\n" = some [{ typ := .lineNumber, start := ⟨.num, b!"10 ", 0⟩ }] :=
  C67_line_number [] [] blanks_nil blanks_nil (.one (.lit b!"10") b!" ") ⟨⟨by decide, by decide⟩, by simp [Blanks]⟩ trivial

/-- **C67** A line with only an address, or an empty line: the null command. -/
theorem C67_null (w0 : Bytes) (hw0 : Blanks w0) (r : RangeSyn) (hr : r.OK) (hs : r.Simple) :
    parseCommands (w0 ++ r.bytes ++ [] ++ [10]) = some [{ start := r.start }] := by
  have hc := cmd_null r hr hs [] w0.length
  rw [parse_simple (body := r.bytes) (w9 := []) (t := r.toks1 w0.length) hw0 blanks_nil (range_ascii hr)
    (by simpa using range_not_blank r hr 10 (by decide) [])
    (by simpa using hc)]
  have hat : At (w0 ++ r.bytes ++ [] ++ [10]) w0.length r.bytes := ⟨w0, [10], by simp, rfl⟩
  obtain ⟨b', e', h⟩ := exec_range1 _ r hs _ hat ([.act 1, .act 0])
  rw [h]
  rfl

example : parseCommands b!"3\n" = some [{ start := ⟨.num, b!"3", 0⟩ }] :=
  C67_null [] blanks_nil (.one (.lit b!"3") []) ⟨⟨by decide, by decide⟩, blanks_nil⟩ trivial

/-- The letters of the commands without addresses. -/
def bareCommands : List (UInt8 × CmdType) :=
  [(104, .help), (72, .helpMode), (80, .prompt), (113, .quit), (81, .quitForce), (117, .undo)]

/-- **C67** Commands that are a single letter. -/
theorem C67_bare (w0 w9 : Bytes) (hw0 : Blanks w0) (hw9 : Blanks w9) (letter : UInt8) (typ : CmdType)
    (hl : (letter, typ) ∈ bareCommands) :
    parseCommands (w0 ++ [letter] ++ w9 ++ [10]) = some [{ typ := typ }] := by
  simp only [bareCommands, List.mem_cons, Prod.mk.injEq, List.not_mem_nil, or_false] at hl
  have key : ∀ (n : Nat), (letter.toNat, n, typ) ∈ bareLetter → isBlank letter.toNat = false → letter < 0x80 →
      parseCommands (w0 ++ [letter] ++ w9 ++ [10]) = some (execute (w0 ++ [letter] ++ w9 ++ [10]) {} [.act n, .act 1, .act 0]) := by
    intro n hn hb ha
    have hc := cmd_bare _ hn (rn w9 ++ [10]) w0.length
    exact parse_simple (body := [letter]) (t := [.act n]) hw0 hw9 (by simpa using ha)
      (Stops.cons hb) (by simpa using hc)
  rcases hl with ⟨rfl, rfl⟩ | ⟨rfl, rfl⟩ | ⟨rfl, rfl⟩ | ⟨rfl, rfl⟩ | ⟨rfl, rfl⟩ | ⟨rfl, rfl⟩
  · exact key 26 (by decide) (by decide) (by decide)
  · exact key 27 (by decide) (by decide) (by decide)
  · exact key 28 (by decide) (by decide) (by decide)
  · exact key 29 (by decide) (by decide) (by decide)
  · exact key 30 (by decide) (by decide) (by decide)
  · exact key 31 (by decide) (by decide) (by decide)

example : parseCommands b!"q\n" = some [{ typ := .quit }] := C67_bare [] [] blanks_nil blanks_nil 113 .quit (by decide)

/-- File names as they can be typed: ASCII, no newline, not starting with a blank. -/
structure NameOK (name : Bytes) : Prop where
  ne : name ≠ []
  ascii : ∀ c ∈ name, c < 0x80
  noNl : 10 ∉ name
  head : ∀ c cs, name = c :: cs → c ≠ 32 ∧ c ≠ 9

theorem NameOK.nl {name : Bytes} (h : NameOK name) : 10 ∉ rn name := by
  intro hc
  obtain ⟨d, hd, e⟩ := List.mem_map.1 hc
  have : d = 10 := UInt8.toNat_inj.1 e
  exact h.noNl (this ▸ hd)

theorem NameOK.blank {name : Bytes} (h : NameOK name) : Stops isBlank (rn name) := by
  intro c r e
  cases name with
  | nil => cases e
  | cons d ds =>
    simp only [rn, List.map_cons, List.cons.injEq] at e
    obtain ⟨h1, h2⟩ := h.head d ds rfl
    rw [← e.1]
    have g : ∀ n : UInt8, d ≠ n → d.toNat ≠ n.toNat := fun n hn he => hn (UInt8.toNat_inj.1 he)
    have g1 : d.toNat ≠ 32 := g 32 h1
    have g2 : d.toNat ≠ 9 := g 9 h2
    simp [isBlank, g1, g2]

/-- The letters of the commands with a name. -/
def nameCommands : List (UInt8 × CmdType) := [(101, .edit), (69, .editForce), (102, .filename)]

/-- **C67** `e`, `E` and `f` with a name carry exactly that name (with any blanks at its end). -/
theorem C67_names (w0 ws : Bytes) (hw0 : Blanks w0) (hws : Blanks ws) (hne : ws ≠ []) (name : Bytes) (hn : NameOK name)
    (letter : UInt8) (typ : CmdType) (hl : (letter, typ) ∈ nameCommands) :
    parseCommands (w0 ++ (letter :: (ws ++ name)) ++ [] ++ [10]) = some [{ typ := typ, params := [name] }] := by
  have hat : At (w0 ++ (letter :: (ws ++ name)) ++ [] ++ [10]) (w0.length + 1 + ws.length) name :=
    ⟨w0 ++ [letter] ++ ws, [10], by simp, by simp; omega⟩
  have hsl := hat.slice
  simp only [nameCommands, List.mem_cons, Prod.mk.injEq, List.not_mem_nil, or_false] at hl
  have key : ∀ (n : Nat), (letter.toNat, n, typ) ∈ paramLetter → isBlank letter.toNat = false → letter < 0x80 →
      parseCommands (w0 ++ (letter :: (ws ++ name)) ++ [] ++ [10]) =
        some (execute (w0 ++ (letter :: (ws ++ name)) ++ [] ++ [10]) {} [.act n,
          .pegText (w0.length + 1 + ws.length) (w0.length + 1 + ws.length + name.length), .act 32, .act 1, .act 0]) := by
    intro n hx hb ha
    have hc := cmd_param _ hx ws name hws hne hn.ne hn.nl hn.blank [] w0.length
    exact parse_simple (body := letter :: (ws ++ name)) (w9 := []) (t := [.act n,
          .pegText (w0.length + 1 + ws.length) (w0.length + 1 + ws.length + name.length), .act 32]) hw0 blanks_nil (by
      intro c hc
      simp only [List.mem_cons, List.mem_append] at hc
      rcases hc with rfl | hc | hc
      · exact ha
      · exact blanks_ascii hws c hc
      · exact hn.ascii c hc) (Stops.cons hb)
      (by simpa [Nat.add_assoc, Nat.add_comm, Nat.add_left_comm] using hc)
  rcases hl with ⟨rfl, rfl⟩ | ⟨rfl, rfl⟩ | ⟨rfl, rfl⟩
  · rw [key 33 (by decide) (by decide) (by decide)]; simp only [execute, Exec.step, hsl]; rfl
  · rw [key 34 (by decide) (by decide) (by decide)]; simp only [execute, Exec.step, hsl]; rfl
  · rw [key 35 (by decide) (by decide) (by decide)]; simp only [execute, Exec.step, hsl]; rfl

example : parseCommands b!"e notes.txt\n" = some [{ typ := .edit, params := [b!"notes.txt"] }] :=
  C67_names [] b!" " blanks_nil (by simp [Blanks]) (by decide) b!"notes.txt"
    ⟨by decide, by decide, by decide, by intro c cs h; cases h; decide⟩ 101 .edit (by decide)

/-- **C67** `w` with a range and perhaps a name. -/
theorem C67_write (w0 : Bytes) (hw0 : Blanks w0) (r : RangeSyn) (hr : r.OK) :
    parseCommands (w0 ++ (r.bytes ++ [119]) ++ [] ++ [10]) = some [{ typ := .write, start := r.start, end_ := r.end_ }] ∧
    ∀ (ws name : Bytes), Blanks ws → ws ≠ [] → NameOK name →
      parseCommands (w0 ++ (r.bytes ++ 119 :: (ws ++ name)) ++ [] ++ [10]) =
        some [{ typ := .write, start := r.start, end_ := r.end_, text := name }] := by
  constructor
  · have hc := cmd_write r hr [] w0.length
    rw [parse_simple (body := r.bytes ++ [119]) (w9 := []) (t := r.toks w0.length ++ [.act 6]) hw0 blanks_nil (by
      intro c hc
      simp only [List.mem_append, List.mem_cons, List.not_mem_nil, or_false] at hc
      rcases hc with hc | rfl
      · exact range_ascii hr c hc
      · decide)
      (by simpa using range_not_blank r hr 119 (by decide) [10])
      (by simpa [Nat.add_assoc] using hc)]
    have hat : At (w0 ++ (r.bytes ++ [119]) ++ [] ++ [10]) w0.length r.bytes := ⟨w0, [119] ++ [10], by simp, rfl⟩
    obtain ⟨b', e', h⟩ := exec_range _ r _ hat ([.act 6] ++ [.act 1, .act 0])
    simp only [List.append_assoc] at h ⊢
    rw [h]
    rfl
  · intro ws name hws hne hn
    have hc := cmd_writeName r hr ws name hws hne hn.ne hn.nl hn.blank [] w0.length
    have hat2 : At (w0 ++ (r.bytes ++ 119 :: (ws ++ name)) ++ [] ++ [10]) (w0.length + r.bytes.length + 1 + ws.length) name :=
      ⟨w0 ++ r.bytes ++ [119] ++ ws, [10], by simp, by simp; omega⟩
    have hsl := hat2.slice
    rw [parse_simple (body := r.bytes ++ 119 :: (ws ++ name)) (w9 := []) (t := r.toks w0.length ++
        [.pegText (w0.length + r.bytes.length + 1 + ws.length) (w0.length + r.bytes.length + 1 + ws.length + name.length), .act 5])
      hw0 blanks_nil (by
      intro c hc
      simp only [List.mem_append, List.mem_cons] at hc
      rcases hc with hc | rfl | hc | hc
      · exact range_ascii hr c hc
      · decide
      · exact blanks_ascii hws c hc
      · exact hn.ascii c hc)
      (by simpa using range_not_blank r hr 119 (by decide) (rn ws ++ (rn name ++ [10])))
      (by simpa [Nat.add_assoc, Nat.add_comm, Nat.add_left_comm] using hc)]
    have hat : At (w0 ++ (r.bytes ++ 119 :: (ws ++ name)) ++ [] ++ [10]) w0.length r.bytes := ⟨w0, 119 :: (ws ++ name) ++ [10], by simp, rfl⟩
    generalize w0 ++ (r.bytes ++ 119 :: (ws ++ name)) ++ [] ++ [10] = buffer at hat hsl
    obtain ⟨b', e', h⟩ := exec_range _ r _ hat
      ([.pegText (w0.length + r.bytes.length + 1 + ws.length) (w0.length + r.bytes.length + 1 + ws.length + name.length), .act 5] ++
        [.act 1, .act 0])
    simp only [List.append_assoc] at h ⊢
    rw [h]
    simp only [List.cons_append, List.nil_append, execute, Exec.step, hsl]
    rfl

example : parseCommands b!"1,3w other\n" =
    some [{ typ := .write, start := ⟨.num, b!"1", 0⟩, end_ := ⟨.num, b!"3", 0⟩, text := b!"other" }] :=
  (C67_write [] blanks_nil (.both false (.lit b!"1") [] [] (.lit b!"3") [])
    ⟨⟨by decide, by decide⟩, ⟨by decide, by decide⟩, blanks_nil, blanks_nil, blanks_nil⟩).2 b!" " b!"other"
    (by simp [Blanks]) (by decide) ⟨by decide, by decide, by decide, by intro c cs h; cases h; decide⟩

/-! ## C68 -/

/-- A text block as typed: the lines, each with its newline, then a line with a dot. -/
def block (ls : List Bytes) : Bytes := unlines ls ++ [46, 10]

/-- Lines that can be entered: ASCII, without newline, and (but for the first) not starting with a dot. -/
structure BlockOK (ls : List Bytes) : Prop where
  ne : ls ≠ []
  ascii : ∀ l ∈ ls, ∀ c ∈ l, c < 0x80
  noNl : ∀ l ∈ ls, 10 ∉ l
  noDot : ∀ l ∈ ls.tail, l.head? ≠ some 46

theorem join_cons (l : Bytes) (ls : List Bytes) (h : ls ≠ []) : join [10] (l :: ls) = l ++ 10 :: join [10] ls := by
  cases ls with
  | nil => exact absurd rfl h
  | cons m ms => simp [join]

theorem unlines_eq_join : ∀ ls : List Bytes, ls ≠ [] → unlines ls = join [10] ls ++ [10] := by
  intro ls
  induction ls with
  | nil => intro h; exact absurd rfl h
  | cons l ls ih =>
    intro _
    by_cases h : ls = []
    · subst h; rfl
    · rw [join_cons l ls h]
      have : unlines (l :: ls) = l ++ [10] ++ unlines ls := by simp [unlines]
      rw [this, ih h]; simp

/-- No newline-dot inside the joined lines. -/
theorem join_no_term (ls : List Bytes) (h : BlockOK ls) : ¬ [10, 46] <:+: rn (join [10] ls) ++ [10] := by
  have step : ∀ (l : Bytes) (rest : List Nat), 10 ∉ l → rest.head? ≠ some 46 → [10, 46] <:+: rn l ++ 10 :: rest → [10, 46] <:+: rest := by
    intro l
    induction l with
    | nil =>
      intro rest _ hd hi
      simp only [rn, List.map_nil, List.nil_append] at hi
      rcases List.infix_cons_iff.1 hi with hp | hi
      · exfalso
        obtain ⟨r, hr⟩ := hp
        cases rest with
        | nil => simp at hr
        | cons d ds => simp at hr; exact hd (by simp [hr.1])
      · exact hi
    | cons c l ih =>
      intro rest hn hd hi
      simp only [rn, List.map_cons, List.cons_append] at hi
      rcases List.infix_cons_iff.1 hi with hp | hi
      · exfalso
        obtain ⟨r, hr⟩ := hp
        simp only [List.cons_append, List.nil_append, List.cons.injEq] at hr
        have : c = 10 := UInt8.toNat_inj.1 hr.1.symm
        exact hn (by simp [this])
      · exact ih rest (fun h => hn (by simp [h])) hd hi
  have main : ∀ (ls : List Bytes), ls ≠ [] → (∀ l ∈ ls, 10 ∉ l) → (∀ l ∈ ls.tail, l.head? ≠ some 46) →
      ¬ [10, 46] <:+: rn (join [10] ls) ++ [10] := by
    intro ls
    induction ls with
    | nil => intro h; exact absurd rfl h
    | cons l ls ih =>
      intro _ hn hd hi
      by_cases h : ls = []
      · subst h
        have := step l [] (hn l (by simp)) (by simp) (by simpa [join] using hi)
        simp at this
      · rw [join_cons l ls h] at hi
        simp only [rn, List.map_append, List.map_cons, List.append_assoc, List.cons_append] at hi
        refine ih h (fun m hm => hn m (by simp [hm])) (fun m hm => hd m (by simp; exact List.mem_of_mem_tail hm)) (step l _ (hn l (by simp)) ?_ hi)
        cases ls with
        | nil => exact absurd rfl h
        | cons m ms =>
          have hm := hd m (by simp)
          cases m with
          | nil =>
            by_cases hms : ms = []
            · subst hms; simp [join]
            · rw [join_cons _ _ hms]; simp
          | cons x xs =>
            have hx : x ≠ 46 := fun e => hm (by simp [e])
            have hx' : x.toNat ≠ 46 := fun e => hx (UInt8.toNat_inj.1 e)
            by_cases hms : ms = []
            · subst hms; simpa [join] using hx'
            · rw [join_cons _ _ hms]; simpa using hx'
  exact main ls h.ne h.noNl h.noDot

theorem join_ascii {ls : List Bytes} (h : ∀ l ∈ ls, ∀ c ∈ l, c < 0x80) : ∀ c ∈ join [10] ls, c < 0x80 := by
  induction ls with
  | nil => simp [join]
  | cons l ls ih =>
    intro c hc
    by_cases hn : ls = []
    · subst hn; exact h l (by simp) c (by simpa [join] using hc)
    · rw [join_cons l ls hn] at hc
      simp only [List.mem_append, List.mem_cons] at hc
      rcases hc with hc | rfl | hc
      · exact h l (by simp) c hc
      · decide
      · exact ih (fun l hl => h l (by simp [hl])) c hc

theorem block_eq (ls : List Bytes) (h : ls ≠ []) (pre : Bytes) : pre ++ block ls = pre ++ join [10] ls ++ [10, 46] ++ [10] := by
  rw [block, unlines_eq_join ls h]; simp

/-- **C68** `a` and `i` with a text block: one command that carries exactly the lines. -/
theorem C68_append_insert (w0 : Bytes) (hw0 : Blanks w0) (r : RangeSyn) (hr : r.OK) (hs : r.Simple) (ls : List Bytes) (hb : BlockOK ls) :
    parseCommands (w0 ++ r.bytes ++ b!"a\n" ++ block ls) = some [{ typ := .append, start := r.start, text := join [10] ls }] ∧
    parseCommands (w0 ++ r.bytes ++ b!"i\n" ++ block ls) = some [{ typ := .insert, start := r.start, text := join [10] ls }] := by
  have ht := join_no_term ls hb
  have key : ∀ (letter : UInt8) (n : Nat), ((letter.toNat, n) = (97, 38) ∨ (letter.toNat, n) = (105, 39)) →
      parseCommands (w0 ++ r.bytes ++ [letter, 10] ++ block ls) = some (execute (w0 ++ r.bytes ++ [letter, 10] ++ block ls) {}
        (r.toks1 w0.length ++ ([.act n, .pegText (w0.length + r.bytes.length + 2) (w0.length + r.bytes.length + 2 + (join [10] ls).length),
          .act 8] ++ [.act 1, .act 0]))) := by
    intro letter n hx
    have hlet : letter < 0x80 ∧ isBlank letter.toNat = false := by
      have : letter.toNat = 97 ∨ letter.toNat = 105 := by
        rcases hx with h | h
        · exact Or.inl (Prod.mk.inj h).1
        · exact Or.inr (Prod.mk.inj h).1
      constructor
      · rw [UInt8.lt_iff_toNat_lt]
        have e : (128 : UInt8).toNat = 128 := rfl
        omega
      · rcases this with h | h <;> rw [h] <;> decide
    have hc := cmd_add r hr hs (letter.toNat, n) hx (rn (join [10] ls)) ht [10] w0.length
    have e1 : w0 ++ r.bytes ++ [letter, 10] ++ block ls =
        w0 ++ (r.bytes ++ letter :: 10 :: (join [10] ls ++ [10, 46])) ++ [] ++ [10] := by
      rw [block_eq ls hb.ne]; simp
    have el : w0.length + (r.bytes ++ letter :: 10 :: (join [10] ls ++ [10, 46])).length =
        w0.length + r.bytes.length + 2 + (join [10] ls).length + 2 := by simp; omega
    rw [e1, parse_simple (body := r.bytes ++ letter :: 10 :: (join [10] ls ++ [10, 46])) (w9 := [])
      (t := r.toks1 w0.length ++ [.act n, .pegText (w0.length + r.bytes.length + 2) (w0.length + r.bytes.length + 2 + (join [10] ls).length),
          .act 8]) hw0 blanks_nil (by
      intro c hc
      simp only [List.mem_append, List.mem_cons, List.not_mem_nil, or_false] at hc
      rcases hc with hc | rfl | rfl | hc | rfl | rfl
      · exact range_ascii hr c hc
      · exact hlet.1
      · decide
      · exact join_ascii hb.ascii c hc
      · decide
      · decide)
      (by simpa using range_not_blank r hr letter.toNat hlet.2 _)
      (by rw [el]; simpa using hc)]
    simp [List.append_assoc]
  have fin : ∀ (letter : UInt8) (n : Nat) (typ : CmdType), (∀ buffer (s : Exec), s.step buffer n = { s with cmd := { s.cmd with typ := typ } }) →
      n ≠ 1 → execute (w0 ++ r.bytes ++ [letter, 10] ++ block ls) {}
        (r.toks1 w0.length ++ ([.act n, .pegText (w0.length + r.bytes.length + 2) (w0.length + r.bytes.length + 2 + (join [10] ls).length),
          .act 8] ++ [.act 1, .act 0])) = [{ typ := typ, start := r.start, text := join [10] ls }] := by
    intro letter n typ hstep hn
    have hat : At (w0 ++ r.bytes ++ [letter, 10] ++ block ls) w0.length r.bytes := ⟨w0, [letter, 10] ++ block ls, by simp, rfl⟩
    have hat2 : At (w0 ++ r.bytes ++ [letter, 10] ++ block ls) (w0.length + r.bytes.length + 2) (join [10] ls) :=
      ⟨w0 ++ r.bytes ++ [letter, 10], [10, 46] ++ [10], by rw [block_eq ls hb.ne]; simp, by simp; omega⟩
    have hsl := hat2.slice
    generalize w0 ++ r.bytes ++ [letter, 10] ++ block ls = buffer at hat hsl
    obtain ⟨b', e', h⟩ := exec_range1 _ r hs _ hat ([.act n, .pegText (w0.length + r.bytes.length + 2)
      (w0.length + r.bytes.length + 2 + (join [10] ls).length), .act 8] ++ [.act 1, .act 0])
    rw [h]
    simp only [List.cons_append, List.nil_append]
    rw [exec_act _ _ _ _ hn, hstep]
    simp only [execute, Exec.step, hsl]
    rfl
  have ea := key 97 38 (Or.inl rfl)
  have ei := key 105 39 (Or.inr rfl)
  rw [fin 97 38 .append (fun _ _ => rfl) (by decide)] at ea
  rw [fin 105 39 .insert (fun _ _ => rfl) (by decide)] at ei
  exact ⟨ea, ei⟩

/-- **C68** `c` with a text block. -/
theorem C68_change (w0 : Bytes) (hw0 : Blanks w0) (r : RangeSyn) (hr : r.OK) (ls : List Bytes) (hb : BlockOK ls) :
    parseCommands (w0 ++ r.bytes ++ b!"c\n" ++ block ls) =
      some [{ typ := .change, start := r.start, end_ := r.end_, text := join [10] ls }] := by
  have ht := join_no_term ls hb
  have hc := cmd_change r hr (rn (join [10] ls)) ht [10] w0.length
  have e1 : w0 ++ r.bytes ++ [99, 10] ++ block ls = w0 ++ (r.bytes ++ 99 :: 10 :: (join [10] ls ++ [10, 46])) ++ [] ++ [10] := by
    rw [block_eq ls hb.ne]; simp
  have hp : parseCommands (w0 ++ r.bytes ++ [99, 10] ++ block ls) = some (execute (w0 ++ r.bytes ++ [99, 10] ++ block ls) {}
      (r.toks w0.length ++ ([.act 37, .pegText (w0.length + r.bytes.length + 2) (w0.length + r.bytes.length + 2 + (join [10] ls).length),
        .act 8] ++ [.act 1, .act 0]))) := by
    have el : w0.length + (r.bytes ++ 99 :: 10 :: (join [10] ls ++ [10, 46])).length =
        w0.length + r.bytes.length + 2 + (join [10] ls).length + 2 := by simp; omega
    rw [e1, parse_simple (body := r.bytes ++ 99 :: 10 :: (join [10] ls ++ [10, 46])) (w9 := [])
      (t := r.toks w0.length ++ [.act 37, .pegText (w0.length + r.bytes.length + 2) (w0.length + r.bytes.length + 2 + (join [10] ls).length),
          .act 8]) hw0 blanks_nil (by
      intro c hc
      simp only [List.mem_append, List.mem_cons, List.not_mem_nil, or_false] at hc
      rcases hc with hc | rfl | rfl | hc | rfl | rfl
      · exact range_ascii hr c hc
      · decide
      · decide
      · exact join_ascii hb.ascii c hc
      · decide
      · decide)
      (by simpa using range_not_blank r hr 99 (by decide) _)
      (by rw [el]; simpa using hc)]
    simp [List.append_assoc]
  have hat : At (w0 ++ r.bytes ++ [99, 10] ++ block ls) w0.length r.bytes := ⟨w0, [99, 10] ++ block ls, by simp, rfl⟩
  have hat2 : At (w0 ++ r.bytes ++ [99, 10] ++ block ls) (w0.length + r.bytes.length + 2) (join [10] ls) :=
    ⟨w0 ++ r.bytes ++ [99, 10], [10, 46] ++ [10], by rw [block_eq ls hb.ne]; simp, by simp; omega⟩
  have hsl := hat2.slice
  refine hp.trans (congrArg some ?_)
  generalize w0 ++ r.bytes ++ [99, 10] ++ block ls = buffer at hat hsl
  obtain ⟨b', e', h⟩ := exec_range _ r _ hat ([.act 37, .pegText (w0.length + r.bytes.length + 2)
    (w0.length + r.bytes.length + 2 + (join [10] ls).length), .act 8] ++ [.act 1, .act 0])
  rw [h]
  simp only [List.cons_append, List.nil_append, execute, Exec.step, hsl]
  rfl

example : parseCommands b!"2a\n.x\n\nend\n.\n" =
    some [{ typ := .append, start := ⟨.num, b!"2", 0⟩, text := b!".x\n\nend" }] :=
  (C68_append_insert [] blanks_nil (.one (.lit b!"2") []) ⟨⟨by decide, by decide⟩, blanks_nil⟩ trivial [b!".x", b!"", b!"end"]
    ⟨by decide, by decide, by decide, by decide⟩).1

example : parseCommands b!"1,$c\nx\n.\n" =
    some [{ typ := .change, start := ⟨.num, b!"1", 0⟩, end_ := ⟨.last, b!"$", 0⟩, text := b!"x" }] :=
  C68_change [] blanks_nil (.both false (.lit b!"1") [] [] .dollar []) ⟨⟨by decide, by decide⟩, trivial, blanks_nil, blanks_nil, blanks_nil⟩ [b!"x"]
    ⟨by decide, by decide, by decide, by decide⟩

/-- **C68** What cannot be entered. A line starting with a dot, other than the first, ends the block and what
follows is a parse error; so is an empty block; of non-ASCII text only as many bytes survive as it has
characters. -/
theorem C68_limits :
    parseCommands b!"a\nx\n.y\n.\n" = none ∧ parseCommands b!"a\n.\n" = none ∧
    parseCommands (b!"a\n" ++ [0xC3, 0xA9] ++ b!"x\n.\n") = some [{ typ := .append, text := [0xC3, 0xA9] }] := by
  refine ⟨?_, ?_, ?_⟩ <;> decide +kernel

end Ed
