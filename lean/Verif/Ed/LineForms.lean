import Verif.Ed.OtherCommands

/-! # More lines that are commands: blanks in places where they are not needed (C105) -/

namespace Ed
open Go

theorem byteBlank {c : UInt8} (h : c = 32 ∨ c = 9) : isBlank c.toNat = true := by rcases h with rfl | rfl <;> rfl

/-- Blanks between `A,` or `,` and the letter. -/
theorem optRange_gap (r : RangeSyn) (hr : r.OK) (hg : (∃ s a w, r = .startOnly s a w) ∨ ∃ s, r = .all s) (ws : Bytes) (hws : Blanks ws)
    (c : Nat) (hc : Follow c) (rest : List Nat) (pos : Nat) :
    opt range pos (rn r.bytes ++ (rn ws ++ c :: rest)) = some (pos + r.bytes.length, rn ws ++ c :: rest, r.toks pos) := by
  have hen : ∀ p, endAddr p (rn ws ++ c :: rest) = none := fun p => endAddr_fail ws hws (c :: rest) p (hc.blank rest) (hc.notAddr rest)
  generalize htail : rn ws ++ c :: rest = tl at hen
  rcases hg with ⟨s, a, w, rfl⟩ | ⟨s, rfl⟩
  · obtain ⟨ha, hw⟩ := hr
    have e : rn (RangeSyn.startOnly s a w).bytes ++ tl = rn a.bytes ++ (rn w ++ ((sepByte s).toNat :: tl)) := by
      simp [RangeSyn.bytes]
    have h1 := startAddr0 a ha w hw ((sepByte s).toNat :: tl) pos (sep_afterBlanks s _)
    have h2 := sep_chr s (pos + a.bytes.length + w.length) tl
    have el : pos + (RangeSyn.startOnly s a w).bytes.length = pos + a.bytes.length + w.length + 1 := by simp [RangeSyn.bytes]; omega
    have key := seq_some h1 (seq_some h2 (act_some (if s then 11 else 9)))
    have et : (a.toks pos ++ [Tok.act 17]) ++ ([] ++ [.act (if s then 11 else 9)]) = (RangeSyn.startOnly s a w).toks pos := by
      simp [RangeSyn.toks]
    rw [et] at key
    rw [e, el]
    refine opt_some ?_
    cases s with
    | false => exact alt_skip (seq_fail2 h1 (seq_fail2 h2 (hen _))) (alt_left key)
    | true =>
      have n44 : ∀ p r, chr 44 p ((sepByte true).toNat :: r) = none := fun p r => chr_fail_cons (by decide)
      obtain ⟨d, r', eh, hd⟩ := addr_head a ha (rn w ++ ((sepByte true).toNat :: tl))
      have hno : chr 44 pos (rn a.bytes ++ (rn w ++ ((sepByte true).toNat :: tl))) = none := by
        rw [eh]
        refine chr_fail_cons ?_
        rintro rfl
        exact absurd hd (by decide)
      exact alt_skip (seq_fail2 h1 (seq_fail1 (n44 _ _))) (alt_skip (seq_fail2 h1 (seq_fail1 (n44 _ _)))
        (alt_skip (seq_fail1 hno) (alt_skip (seq_fail2 h1 (seq_fail2 h2 (hen _))) (alt_left key))))
  · have e : rn (RangeSyn.all s).bytes ++ tl = (sepByte s).toNat :: tl := by simp [RangeSyn.bytes]
    have h0 : ∀ p, startAddr p ((sepByte s).toNat :: tl) = none := fun p =>
      startAddr_fail0 p (sep_afterBlanks s _).blank (sep_notAddr s _)
    have h2 := sep_chr s pos tl
    have key := seq_some h2 (act_some (if s then 15 else 14))
    rw [e]
    refine opt_some ?_
    cases s with
    | false =>
      have n59 : ∀ p r, chr 59 p ((sepByte false).toNat :: r) = none := fun p r => chr_fail_cons (by decide)
      exact alt_skip (seq_fail1 (h0 _)) (alt_skip (seq_fail1 (h0 _)) (alt_skip (seq_fail2 h2 (seq_fail1 (hen _)))
        (alt_skip (seq_fail1 (h0 _)) (alt_skip (seq_fail1 (h0 _)) (alt_skip (seq_fail1 (n59 _ _))
        (alt_skip (seq_fail1 (h0 _)) (alt_left key)))))))
    | true =>
      have n44 : ∀ p r, chr 44 p ((sepByte true).toNat :: r) = none := fun p r => chr_fail_cons (by decide)
      exact alt_skip (seq_fail1 (h0 _)) (alt_skip (seq_fail1 (h0 _)) (alt_skip (seq_fail1 (n44 _ _))
        (alt_skip (seq_fail1 (h0 _)) (alt_skip (seq_fail1 (h0 _)) (alt_skip (seq_fail2 h2 (seq_fail1 (hen _)))
        (alt_skip (seq_fail1 (h0 _)) (alt_skip (seq_fail1 (n44 _ _)) key)))))))

theorem cmd_range_gap (r : RangeSyn) (hr : r.OK) (hg : (∃ s a w, r = .startOnly s a w) ∨ ∃ s, r = .all s) (ws : Bytes) (hws : Blanks ws)
    (x : Nat × Nat × CmdType) (hx : x ∈ rangeLetter) (rest : List Nat) (pos : Nat) :
    cmd pos (rn r.bytes ++ (rn ws ++ x.1 :: rest)) = some (pos + r.bytes.length + ws.length + 1, rest, r.toks pos ++ [.act x.2.1]) := by
  have hl : isLetter x.1 = true := by simp only [rangeLetter, List.mem_cons, List.not_mem_nil, or_false] at hx; rcases hx with rfl | rfl | rfl | rfl | rfl <;> decide
  have hno : bareCmd pos (rn r.bytes ++ (rn ws ++ x.1 :: rest)) = none ∧ paramCmd pos (rn r.bytes ++ (rn ws ++ x.1 :: rest)) = none := by
    obtain ⟨d, r', e, hd⟩ : ∃ d r', rn r.bytes ++ (rn ws ++ x.1 :: rest) = d :: r' ∧
        (isDig d || d == 47 || d == 46 || d == 36 || d == 44 || d == 59 || d == 39 || d == 63) = true := by
      rcases hg with ⟨s, a, w, rfl⟩ | ⟨s, rfl⟩
      · obtain ⟨d, r', e, hd⟩ := addr_head a hr.1 (rn (w ++ [sepByte s]) ++ (rn ws ++ x.1 :: rest))
        refine ⟨d, r', by rw [← e]; simp [RangeSyn.bytes], ?_⟩
        simp only [Bool.or_eq_true] at hd ⊢
        grind
      · exact ⟨_, _, rfl, by cases s <;> decide⟩
    rw [e]
    have : (d == 104 || d == 72 || d == 80 || d == 113 || d == 81 || d == 117) = false ∧ (d == 101 || d == 69 || d == 102) = false := by
      simp [isDig] at hd ⊢
      omega
    exact ⟨bareCmd_fail _ (Stops.cons this.1), paramCmd_fail _ (Stops.cons this.2)⟩
  refine alt_skip hno.1 (alt_skip hno.2 (alt_left ?_))
  have hlet : rangeC (pos + r.bytes.length + ws.length) (x.1 :: rest) = some (pos + r.bytes.length + ws.length + 1, rest, [.act x.2.1]) := by
    simp only [rangeLetter, List.mem_cons, List.not_mem_nil, or_false] at hx
    rcases hx with rfl | rfl | rfl | rfl | rfl <;> rfl
  have hsp := star_sp (rn ws) (x.1 :: rest) (pos + r.bytes.length) hws.rn ((isLetter_follow hl).blank rest)
  simp only [rn, List.length_map] at hsp
  have := seq_some (optRange_gap r hr hg ws hws x.1 (isLetter_follow hl) rest pos) (seq_some hsp hlet)
  simpa [rangeCmd] using this

/-- **C67** A range command with blanks between the address part and the letter. -/
theorem C67_range_gap (w0 ws w9 : Bytes) (hw0 : Blanks w0) (hws : Blanks ws) (hw9 : Blanks w9) (r : RangeSyn) (hr : r.OK)
    (letter : UInt8) (typ : CmdType) (hl : (letter, typ) ∈ rangeCommands) :
    parseCommands (w0 ++ (r.bytes ++ (ws ++ [letter])) ++ w9 ++ [10]) = some [{ typ := typ, start := r.start, end_ := r.end_ }] := by
  have app : ∀ {x y : Bytes}, Blanks x → Blanks y → Blanks (x ++ y) := by
    intro x y hx hy c hc
    rcases List.mem_append.1 hc with h | h
    · exact hx c h
    · exact hy c h
  have gap : ((∃ s a w, r = .startOnly s a w) ∨ ∃ s, r = .all s) →
      parseCommands (w0 ++ (r.bytes ++ (ws ++ [letter])) ++ w9 ++ [10]) = some [{ typ := typ, start := r.start, end_ := r.end_ }] := by
    intro hg
    obtain ⟨n, hx, ht⟩ : ∃ n, (letter.toNat, n, typ) ∈ rangeLetter ∧ 40 ≤ n ∧
        ∀ (b : Bytes) (s : Exec), s.step b n = { s with cmd := { s.cmd with typ := typ } } := by
      simp only [rangeCommands, List.mem_cons, Prod.mk.injEq, List.not_mem_nil, or_false] at hl
      rcases hl with ⟨rfl, rfl⟩ | ⟨rfl, rfl⟩ | ⟨rfl, rfl⟩ | ⟨rfl, rfl⟩ | ⟨rfl, rfl⟩
      · exact ⟨40, by decide, by decide, fun _ _ => rfl⟩
      · exact ⟨41, by decide, by decide, fun _ _ => rfl⟩
      · exact ⟨42, by decide, by decide, fun _ _ => rfl⟩
      · exact ⟨43, by decide, by decide, fun _ _ => rfl⟩
      · exact ⟨44, by decide, by decide, fun _ _ => rfl⟩
    have hlet : letter < 0x80 ∧ isBlank letter.toNat = false := by
      simp only [rangeCommands, List.mem_cons, Prod.mk.injEq, List.not_mem_nil, or_false] at hl
      rcases hl with ⟨rfl, rfl⟩ | ⟨rfl, rfl⟩ | ⟨rfl, rfl⟩ | ⟨rfl, rfl⟩ | ⟨rfl, rfl⟩ <;> decide
    have hc := cmd_range_gap r hr hg ws hws _ hx (rn w9 ++ [10]) w0.length
    have hnb : Stops isBlank (rn r.bytes ++ (rn ws ++ letter.toNat :: (rn w9 ++ [10]))) := by
      rcases hg with ⟨s, a, w, rfl⟩ | ⟨s, rfl⟩
      · simpa [RangeSyn.bytes] using addr_not_blank a hr.1 (rn (w ++ [sepByte s]) ++ (rn ws ++ letter.toNat :: (rn w9 ++ [10])))
      · cases s <;> exact Stops.cons (by decide)
    rw [parse_simple (body := r.bytes ++ (ws ++ [letter])) (t := r.toks w0.length ++ [.act n]) hw0 hw9 (by
      intro c hc
      simp only [List.mem_append, List.mem_cons, List.not_mem_nil, or_false] at hc
      rcases hc with hc | hc | rfl
      · exact range_ascii hr c hc
      · exact blanks_ascii hws c hc
      · exact hlet.1)
      (by simpa using hnb) (by simpa [Nat.add_assoc] using hc)]
    have hat : At (w0 ++ (r.bytes ++ (ws ++ [letter])) ++ w9 ++ [10]) w0.length r.bytes := ⟨w0, ws ++ [letter] ++ w9 ++ [10], by simp, rfl⟩
    generalize w0 ++ (r.bytes ++ (ws ++ [letter])) ++ w9 ++ [10] = buffer at hat
    obtain ⟨b', e', h⟩ := exec_range _ r _ hat ([.act n] ++ [.act 1, .act 0])
    simp only [List.append_assoc] at h ⊢
    rw [h]
    simp only [List.cons_append, List.nil_append]
    rw [exec_act _ _ _ _ (by omega), ht.2]
    rfl
  cases r with
  | none =>
    have := C67_range_commands (w0 ++ ws) w9 (app hw0 hws) hw9 .none trivial letter typ hl
    simpa [RangeSyn.bytes, RangeSyn.start, RangeSyn.end_] using this
  | one a w =>
    have := C67_range_commands w0 w9 hw0 hw9 (.one a (w ++ ws)) ⟨hr.1, app hr.2 hws⟩ letter typ hl
    simpa [RangeSyn.bytes, RangeSyn.start, RangeSyn.end_] using this
  | both s a w1 w2 b w3 =>
    have := C67_range_commands w0 w9 hw0 hw9 (.both s a w1 w2 b (w3 ++ ws)) ⟨hr.1, hr.2.1, hr.2.2.1, hr.2.2.2.1, app hr.2.2.2.2 hws⟩ letter typ hl
    simpa [RangeSyn.bytes, RangeSyn.start, RangeSyn.end_] using this
  | startOnly s a w => exact gap (Or.inl ⟨s, a, w, rfl⟩)
  | endOnly s w1 b w2 =>
    have := C67_range_commands w0 w9 hw0 hw9 (.endOnly s w1 b (w2 ++ ws)) ⟨hr.1, hr.2.1, app hr.2.2 hws⟩ letter typ hl
    simpa [RangeSyn.bytes, RangeSyn.start, RangeSyn.end_] using this
  | all s => exact gap (Or.inr ⟨s, rfl⟩)

example : parseCommands b!"2, \tp\n" = some [{ typ := .print, start := ⟨.num, b!"2", 0⟩, end_ := ⟨.num, b!"2", 0⟩ }] :=
  C67_range_gap [] b!" \t" [] blanks_nil (by simp [Blanks]) blanks_nil (.startOnly false (.lit b!"2") [])
    ⟨⟨by decide, by decide⟩, blanks_nil⟩ 112 .print (by decide)

theorem param_fail_nl (rest : List Nat) (pos : Nat) : param pos (10 :: rest) = none := rfl

theorem cmd_writeBlanks (r : RangeSyn) (hr : r.OK) (ws : Bytes) (hws : Blanks ws) (hne : ws ≠ []) (rest : List Nat) (pos : Nat) :
    cmd pos (rn r.bytes ++ 119 :: (rn ws ++ 10 :: rest)) = some (pos + r.bytes.length + 1, rn ws ++ 10 :: rest, r.toks pos ++ [.act 6]) := by
  obtain ⟨h1, h2⟩ := bare_param_fail r hr 119 rfl (rn ws ++ 10 :: rest) pos
  refine alt_skip h1 (alt_skip h2 (alt_skip (rangeCmd_fail r hr 119 rfl rfl _ _) (alt_skip (addrCmd_fail r hr 119 rfl (by decide) _ _)
    (alt_skip (changeTextCmd_fail r hr 119 rfl (by decide) _ _) (alt_skip (addTextCmd_fail r hr 119 rfl (by decide) _ _)
    (alt_skip (markCmd_fail r hr 119 rfl (by decide) _ _) (alt_skip (destCmd_fail r hr 119 rfl (by decide) _ _)
    (alt_skip (readCmd_fail r hr 119 rfl (by decide) _ _) (alt_left ?_)))))))))
  have ho := optRange r hr 119 (by decide) (rn ws ++ 10 :: rest) pos
  have hsp := sp_some (rn ws) (10 :: rest) (pos + r.bytes.length + 1) (by simpa using hne) hws.rn (Stops.cons (by decide))
  refine alt_skip (seq_fail2 ho (seq_fail2 chr_some (seq_fail2 hsp (seq_fail1 (capture_fail (param_fail_nl _ _)))))) ?_
  have := seq_some ho (seq_some (p := chr 119) chr_some (act_some 6))
  simpa using this

/-- **C67** `w` with blanks after it. -/
theorem C67_write_blanks (w0 ws : Bytes) (hw0 : Blanks w0) (hws : Blanks ws) (r : RangeSyn) (hr : r.OK) :
    parseCommands (w0 ++ (r.bytes ++ [119]) ++ ws ++ [10]) = some [{ typ := .write, start := r.start, end_ := r.end_ }] := by
  by_cases hne : ws = []
  · subst hne; exact (C67_write w0 hw0 r hr).1
  have hc := cmd_writeBlanks r hr ws hws hne [] w0.length
  rw [parse_simple (body := r.bytes ++ [119]) (w9 := ws) (t := r.toks w0.length ++ [.act 6]) hw0 hws (by
    intro c hc
    simp only [List.mem_append, List.mem_cons, List.not_mem_nil, or_false] at hc
    rcases hc with hc | rfl
    · exact range_ascii hr c hc
    · decide)
    (by simpa using range_not_blank r hr 119 (by decide) (rn ws ++ [10]))
    (by simpa [Nat.add_assoc] using hc)]
  have hat : At (w0 ++ (r.bytes ++ [119]) ++ ws ++ [10]) w0.length r.bytes := ⟨w0, [119] ++ ws ++ [10], by simp, rfl⟩
  obtain ⟨b', e', h⟩ := exec_range _ r _ hat ([.act 6] ++ [.act 1, .act 0])
  simp only [List.append_assoc] at h ⊢
  rw [h]
  rfl

theorem cmd_noNameBlanks (x : Nat × Nat × CmdType) (hx : x ∈ paramLetter) (ws : Bytes) (hws : Blanks ws) (hne : ws ≠ []) (rest : List Nat) (pos : Nat) :
    cmd pos (x.1 :: (rn ws ++ 10 :: rest)) = some (pos + 1, rn ws ++ 10 :: rest, [.act x.2.1]) := by
  have hbare : bareCmd pos (x.1 :: (rn ws ++ 10 :: rest)) = none := by
    refine bareCmd_fail _ (Stops.cons ?_)
    simp only [paramLetter, List.mem_cons, List.not_mem_nil, or_false] at hx
    rcases hx with rfl | rfl | rfl <;> rfl
  have hl : paramC pos (x.1 :: (rn ws ++ 10 :: rest)) = some (pos + 1, rn ws ++ 10 :: rest, [.act x.2.1]) := by
    simp only [paramLetter, List.mem_cons, List.not_mem_nil, or_false] at hx
    rcases hx with rfl | rfl | rfl <;> rfl
  have hsp := sp_some (rn ws) (10 :: rest) (pos + 1) (by simpa using hne) hws.rn (Stops.cons (by decide))
  exact alt_skip hbare (alt_left (alt_skip (seq_fail2 hl (seq_fail2 hsp (seq_fail1 (capture_fail (param_fail_nl _ _))))) hl))

/-- **C67** `e`, `E` and `f` without a name but with blanks. -/
theorem C67_noName_blanks (w0 ws : Bytes) (hw0 : Blanks w0) (hws : Blanks ws) (letter : UInt8) (typ : CmdType)
    (hl : (letter, typ) ∈ nameCommands) : parseCommands (w0 ++ [letter] ++ ws ++ [10]) = some [{ typ := typ }] := by
  by_cases hne : ws = []
  · subst hne; exact C67_noName w0 hw0 letter typ hl
  have key : ∀ (n : Nat), (letter.toNat, n, typ) ∈ paramLetter → isBlank letter.toNat = false → letter < 0x80 →
      parseCommands (w0 ++ [letter] ++ ws ++ [10]) = some (execute (w0 ++ [letter] ++ ws ++ [10]) {} [.act n, .act 1, .act 0]) := by
    intro n hx hb ha
    have hc := cmd_noNameBlanks _ hx ws hws hne [] w0.length
    exact parse_simple (body := [letter]) (w9 := ws) (t := [.act n]) hw0 hws (by simpa using ha) (Stops.cons hb) (by simpa using hc)
  simp only [nameCommands, List.mem_cons, Prod.mk.injEq, List.not_mem_nil, or_false] at hl
  rcases hl with ⟨rfl, rfl⟩ | ⟨rfl, rfl⟩ | ⟨rfl, rfl⟩
  · exact key 33 (by decide) (by decide) (by decide)
  · exact key 34 (by decide) (by decide) (by decide)
  · exact key 35 (by decide) (by decide) (by decide)

example : parseCommands b!"f  \n" = some [{ typ := .filename }] :=
  C67_noName_blanks [] b!"  " blanks_nil (by simp [Blanks]) 102 .filename (by decide)

end Ed
