import Verif.Ed.ParseProps

/-!
# Command lines for what the editor does not carry out (C67)

`k`, `m`, `t`, `r`, `!` and `e`, `E`, `f` without a name are parsed to what they say.
-/

namespace Ed
open Go

/-! ## The generated parser on these lines -/

theorem cmd_mark (r : RangeSyn) (hr : r.OK) (hs : r.Simple) (x : Nat) (hx : isLower x = true) (rest : List Nat) (pos : Nat) :
    cmd pos (rn r.bytes ++ 107 :: x :: rest) = some (pos + r.bytes.length + 2, rest, r.toks1 pos ++
      [.pegText (pos + r.bytes.length + 1) (pos + r.bytes.length + 2), .act 2]) := by
  obtain ⟨h1, h2⟩ := bare_param_fail r hr 107 rfl (x :: rest) pos
  refine alt_skip h1 (alt_skip h2 (alt_skip (rangeCmd_fail r hr 107 rfl rfl _ _) (alt_skip (addrCmd_fail r hr 107 rfl (by decide) _ _)
    (alt_skip (changeTextCmd_fail r hr 107 rfl (by decide) _ _) (alt_skip (addTextCmd_fail r hr 107 rfl (by decide) _ _)
    (alt_left ?_))))))
  have ho := optStart r hr hs 107 (by decide) (x :: rest) pos
  have := seq_some ho (seq_some (p := chr 107) chr_some (seq_some (capture_some (cls_some hx)) (act_some 2)))
  simpa [markCmd, Nat.add_assoc] using this

theorem cmd_dest (r : RangeSyn) (hr : r.OK) (x : Nat × Nat) (hx : x = (109, 45) ∨ x = (116, 46)) (a : AddrSyn) (ha : a.OK)
    (rest : List Nat) (hrest : AfterAddr rest) (pos : Nat) :
    cmd pos (rn r.bytes ++ x.1 :: (rn a.bytes ++ rest)) = some (pos + r.bytes.length + 1 + a.bytes.length, rest, r.toks pos ++
      .act x.2 :: (a.toks (pos + r.bytes.length + 1) ++
        [.pegText (pos + r.bytes.length + 1) (pos + r.bytes.length + 1 + a.bytes.length), .act 3])) := by
  have hl : isLetter x.1 = true := by rcases hx with rfl | rfl <;> rfl
  have hn : isRangeC x.1 = false ∧ x.1 ≠ 61 ∧ x.1 ≠ 99 ∧ (x.1 ≠ 97 ∧ x.1 ≠ 105) ∧ x.1 ≠ 107 := by rcases hx with rfl | rfl <;> decide
  obtain ⟨h1, h2⟩ := bare_param_fail r hr x.1 hl (rn a.bytes ++ rest) pos
  refine alt_skip h1 (alt_skip h2 (alt_skip (rangeCmd_fail r hr _ hl hn.1 _ _) (alt_skip (addrCmd_fail r hr _ hl hn.2.1 _ _)
    (alt_skip (changeTextCmd_fail r hr _ hl hn.2.2.1 _ _) (alt_skip (addTextCmd_fail r hr _ hl hn.2.2.2.1 _ _)
    (alt_skip (markCmd_fail r hr _ hl hn.2.2.2.2 _ _) (alt_left ?_)))))))
  have hlet : destC (pos + r.bytes.length) (x.1 :: (rn a.bytes ++ rest)) =
      some (pos + r.bytes.length + 1, rn a.bytes ++ rest, [.act x.2]) := by rcases hx with rfl | rfl <;> rfl
  have := seq_some (optRange r hr x.1 (isLetter_follow hl) (rn a.bytes ++ rest) pos)
    (seq_some hlet (seq_some (capture_some (addrO_some a ha rest _ hrest)) (act_some 3)))
  simpa [destCmd] using this

theorem cmd_read (r : RangeSyn) (hr : r.OK) (hs : r.Simple) (ws name : Bytes) (hw : Blanks ws) (hwn : ws ≠ []) (hn : name ≠ [])
    (hnl : 10 ∉ rn name) (hb : Stops isBlank (rn name)) (rest : List Nat) (pos : Nat) :
    cmd pos (rn r.bytes ++ 114 :: (rn ws ++ (rn name ++ 10 :: rest))) =
      some (pos + r.bytes.length + 1 + ws.length + name.length, 10 :: rest, r.toks1 pos ++
        [.pegText (pos + r.bytes.length + 1 + ws.length) (pos + r.bytes.length + 1 + ws.length + name.length), .act 4]) := by
  obtain ⟨h1, h2⟩ := bare_param_fail r hr 114 rfl (rn ws ++ (rn name ++ 10 :: rest)) pos
  refine alt_skip h1 (alt_skip h2 (alt_skip (rangeCmd_fail r hr 114 rfl rfl _ _) (alt_skip (addrCmd_fail r hr 114 rfl (by decide) _ _)
    (alt_skip (changeTextCmd_fail r hr 114 rfl (by decide) _ _) (alt_skip (addTextCmd_fail r hr 114 rfl (by decide) _ _)
    (alt_skip (markCmd_fail r hr 114 rfl (by decide) _ _) (alt_skip (destCmd_fail r hr 114 rfl (by decide) _ _) (alt_left ?_))))))))
  have ho := optStart r hr hs 114 (by decide) (rn ws ++ (rn name ++ 10 :: rest)) pos
  have hb' : Stops isBlank (rn name ++ 10 :: rest) := by
    cases name with
    | nil => exact absurd rfl hn
    | cons c cs => exact Stops.cons (hb c.toNat (rn cs) rfl)
  have h2 := sp_some (rn ws) (rn name ++ 10 :: rest) (pos + r.bytes.length + 1) (by simpa using hwn) hw.rn hb'
  have h3 := param_some (rn name) rest (pos + r.bytes.length + 1 + ws.length) (by simpa using hn) hnl
  simp only [rn, List.length_map] at h2 h3
  have := seq_some ho (seq_some (p := chr 114) chr_some (seq_some h2 (seq_some (capture_some h3) (act_some 4))))
  simpa [readCmd] using this

theorem cmd_shell (text : Bytes) (hn : text ≠ []) (hnl : 10 ∉ rn text) (rest : List Nat) (pos : Nat) :
    cmd pos (33 :: (rn text ++ 10 :: rest)) = some (pos + 1 + text.length, 10 :: rest,
      [.pegText (pos + 1) (pos + 1 + text.length), .act 7]) := by
  have hst : ∀ p (rs : List Nat), startAddr p (33 :: rs) = none := fun p rs =>
    startAddr_fail0 p (Stops.cons (by decide)) (Stops.cons (by decide))
  have hor : ∀ p (rs : List Nat), opt range p (33 :: rs) = some (p, 33 :: rs, []) := by
    intro p rs
    have := optRange .none trivial 33 (by decide) rs p
    simpa [RangeSyn.bytes, RangeSyn.toks] using this
  have hos : ∀ p (rs : List Nat), opt startAddr p (33 :: rs) = some (p, 33 :: rs, []) := fun p rs => opt_none (hst p rs)
  have no : ∀ (c : Nat) p (rs : List Nat), c ≠ 33 → chr c p (33 :: rs) = none := fun c p rs h => chr_fail_cons (Ne.symm h)
  refine alt_skip (bareCmd_fail _ (Stops.cons (by decide))) (alt_skip (paramCmd_fail _ (Stops.cons (by decide)))
    (alt_skip (seq_fail2 (hor _ _) (seq_fail2 (star_sp_none _ _ (Stops.cons (by decide))) (rangeC_fail (by decide) _ _)))
    (alt_skip (alt_fail (seq_fail1 (capture_fail (hst _ _))) (seq_fail1 (no _ _ _ (by decide))))
    (alt_skip (seq_fail2 (hor _ _) (seq_fail1 (seq_fail1 (no _ _ _ (by decide)))))
    (alt_skip (seq_fail2 (hos _ _) (seq_fail1 (alt_fail (seq_fail1 (no _ _ _ (by decide))) (seq_fail1 (no _ _ _ (by decide))))))
    (alt_skip (seq_fail2 (hos _ _) (seq_fail1 (no _ _ _ (by decide))))
    (alt_skip (seq_fail2 (hor _ _) (seq_fail1 (alt_fail (seq_fail1 (no _ _ _ (by decide))) (seq_fail1 (no _ _ _ (by decide))))))
    (alt_skip (seq_fail2 (hos _ _) (seq_fail1 (no _ _ _ (by decide))))
    (alt_skip (alt_fail (seq_fail2 (hor _ _) (seq_fail1 (no _ _ _ (by decide)))) (seq_fail2 (hor _ _) (seq_fail1 (no _ _ _ (by decide)))))
    (alt_left ?_))))))))))
  have h3 := param_some (rn text) rest (pos + 1) (by simpa using hn) hnl
  simp only [rn, List.length_map] at h3
  have := seq_some (p := chr 33) chr_some (seq_some (capture_some h3) (act_some 7))
  simpa [shellCmd] using this

theorem cmd_noName (x : Nat × Nat × CmdType) (hx : x ∈ paramLetter) (rest : List Nat) (pos : Nat) :
    cmd pos (x.1 :: 10 :: rest) = some (pos + 1, 10 :: rest, [.act x.2.1]) := by
  have hbare : bareCmd pos (x.1 :: 10 :: rest) = none := by
    refine bareCmd_fail _ (Stops.cons ?_)
    simp only [paramLetter, List.mem_cons, List.not_mem_nil, or_false] at hx
    rcases hx with rfl | rfl | rfl <;> rfl
  have hl : paramC pos (x.1 :: 10 :: rest) = some (pos + 1, 10 :: rest, [.act x.2.1]) := by
    simp only [paramLetter, List.mem_cons, List.not_mem_nil, or_false] at hx
    rcases hx with rfl | rfl | rfl <;> rfl
  exact alt_skip hbare (alt_left (alt_skip (seq_fail2 hl (seq_fail1 (sp_fail _ _ (Stops.cons (by decide))))) hl))

/-! ## C67: these lines parse to what they say -/

/-- **C67** `Akx`: the mark command with that letter. -/
theorem C67_mark (w0 w9 : Bytes) (hw0 : Blanks w0) (hw9 : Blanks w9) (r : RangeSyn) (hr : r.OK) (hs : r.Simple) (x : UInt8)
    (h1 : 97 ≤ x) (h2 : x ≤ 122) :
    parseCommands (w0 ++ (r.bytes ++ [107, x]) ++ w9 ++ [10]) = some [{ typ := .mark, start := r.start, params := [[x]] }] := by
  have hx : isLower x.toNat = true ∧ x < 0x80 := by
    rw [UInt8.le_iff_toNat_le] at h1 h2
    rw [UInt8.lt_iff_toNat_lt]
    have e1 : (97 : UInt8).toNat = 97 := rfl
    have e2 : (122 : UInt8).toNat = 122 := rfl
    have e3 : (128 : UInt8).toNat = 128 := rfl
    simp only [isLower, Bool.and_eq_true, decide_eq_true_eq]
    omega
  have hc := cmd_mark r hr hs x.toNat hx.1 (rn w9 ++ [10]) w0.length
  rw [parse_simple (body := r.bytes ++ [107, x]) (t := r.toks1 w0.length ++
      [.pegText (w0.length + r.bytes.length + 1) (w0.length + r.bytes.length + 2), .act 2]) hw0 hw9 (by
    intro c hc
    simp only [List.mem_append, List.mem_cons, List.not_mem_nil, or_false] at hc
    rcases hc with hc | rfl | rfl
    · exact range_ascii hr c hc
    · decide
    · exact hx.2)
    (by simpa using range_not_blank r hr 107 (by decide) (x.toNat :: (rn w9 ++ [10])))
    (by simpa [Nat.add_assoc] using hc)]
  have hat : At (w0 ++ (r.bytes ++ [107, x]) ++ w9 ++ [10]) w0.length r.bytes := ⟨w0, [107, x] ++ w9 ++ [10], by simp, rfl⟩
  have hat2 : At (w0 ++ (r.bytes ++ [107, x]) ++ w9 ++ [10]) (w0.length + r.bytes.length + 1) [x] :=
    ⟨w0 ++ r.bytes ++ [107], w9 ++ [10], by simp, by simp; omega⟩
  have hsl := hat2.slice
  generalize w0 ++ (r.bytes ++ [107, x]) ++ w9 ++ [10] = buffer at hat hsl
  obtain ⟨b', e', h⟩ := exec_range1 _ r hs _ hat
    ([.pegText (w0.length + r.bytes.length + 1) (w0.length + r.bytes.length + 2), .act 2] ++ [.act 1, .act 0])
  simp only [List.append_assoc] at h ⊢
  rw [h]
  simp only [List.length_cons, List.length_nil, Nat.zero_add, Nat.add_assoc, Nat.reduceAdd] at hsl
  simp only [List.cons_append, List.nil_append, execute, Exec.step, hsl, Nat.add_assoc]
  rfl

example : parseCommands b!"3kx\n" = some [{ typ := .mark, start := ⟨.num, b!"3", 0⟩, params := [b!"x"] }] :=
  C67_mark [] [] blanks_nil blanks_nil (.one (.lit b!"3") []) ⟨⟨by decide, by decide⟩, blanks_nil⟩ trivial 120 (by decide) (by decide)

/-- The letters of the commands with a destination. -/
def destCommands : List (UInt8 × CmdType) := [(109, .move), (116, .copy)]

/-- **C67** `rangemA` and `rangetA`: move and copy with that destination. -/
theorem C67_dest (w0 w9 : Bytes) (hw0 : Blanks w0) (hw9 : Blanks w9) (r : RangeSyn) (hr : r.OK) (a : AddrSyn) (ha : a.OK)
    (letter : UInt8) (typ : CmdType) (hl : (letter, typ) ∈ destCommands) :
    parseCommands (w0 ++ (r.bytes ++ letter :: a.bytes) ++ w9 ++ [10]) =
      some [{ typ := typ, start := r.start, end_ := r.end_, dest := a.address }] := by
  obtain ⟨x, hx, hxl, hlet, hstep⟩ : ∃ x : Nat × Nat, (x = (109, 45) ∨ x = (116, 46)) ∧ x.1 = letter.toNat ∧
      (letter < 0x80 ∧ isBlank letter.toNat = false ∧ x.2 ≠ 1) ∧
      ∀ (buffer : Bytes) (s : Exec), s.step buffer x.2 = { s with cmd := { s.cmd with typ := typ } } := by
    simp only [destCommands, List.mem_cons, Prod.mk.injEq, List.not_mem_nil, or_false] at hl
    rcases hl with ⟨rfl, rfl⟩ | ⟨rfl, rfl⟩
    · exact ⟨(109, 45), Or.inl rfl, rfl, by decide, fun _ _ => rfl⟩
    · exact ⟨(116, 46), Or.inr rfl, rfl, by decide, fun _ _ => rfl⟩
  have hrest : AfterAddr (rn w9 ++ [10]) := AfterBlanks.after (rs := [10]) (Stops.cons (by decide)) hw9
  have hc := cmd_dest r hr x hx a ha (rn w9 ++ [10]) hrest w0.length
  rw [hxl] at hc
  rw [parse_simple (body := r.bytes ++ letter :: a.bytes) (t := r.toks w0.length ++
      .act x.2 :: (a.toks (w0.length + r.bytes.length + 1) ++
        [.pegText (w0.length + r.bytes.length + 1) (w0.length + r.bytes.length + 1 + a.bytes.length), .act 3])) hw0 hw9 (by
    intro c hc
    simp only [List.mem_append, List.mem_cons] at hc
    rcases hc with hc | rfl | hc
    · exact range_ascii hr c hc
    · exact hlet.1
    · exact addr_ascii ha c hc)
    (by simpa using range_not_blank r hr letter.toNat hlet.2.1 (rn a.bytes ++ (rn w9 ++ [10])))
    (by simpa [Nat.add_assoc, Nat.add_comm, Nat.add_left_comm] using hc)]
  have hat : At (w0 ++ (r.bytes ++ letter :: a.bytes) ++ w9 ++ [10]) w0.length r.bytes :=
    ⟨w0, letter :: a.bytes ++ w9 ++ [10], by simp, rfl⟩
  have hat2 : At (w0 ++ (r.bytes ++ letter :: a.bytes) ++ w9 ++ [10]) (w0.length + r.bytes.length + 1) a.bytes :=
    ⟨w0 ++ r.bytes ++ [letter], w9 ++ [10], by simp, by simp; omega⟩
  generalize w0 ++ (r.bytes ++ letter :: a.bytes) ++ w9 ++ [10] = buffer at hat hat2
  simp only [List.append_assoc, List.cons_append]
  obtain ⟨b', e', h⟩ := exec_range _ r _ hat (.act x.2 :: (a.toks (w0.length + r.bytes.length + 1) ++
    [.pegText (w0.length + r.bytes.length + 1) (w0.length + r.bytes.length + 1 + a.bytes.length), .act 3, .act 1, .act 0]))
  rw [List.nil_append, h, exec_act _ _ _ _ hlet.2.2, hstep, exec_addr buffer a _ hat2 _ rfl]
  rfl

example : parseCommands b!"1,2m$\n" = some [{ typ := .move, start := ⟨.num, b!"1", 0⟩, end_ := ⟨.num, b!"2", 0⟩, dest := ⟨.last, b!"$", 0⟩ }] :=
  C67_dest [] [] blanks_nil blanks_nil (.both false (.lit b!"1") [] [] (.lit b!"2") [])
    ⟨⟨by decide, by decide⟩, ⟨by decide, by decide⟩, blanks_nil, blanks_nil, blanks_nil⟩ .dollar trivial 109 .move (by decide)

/-- **C67** `Ar name`: the read command with that name. -/
theorem C67_read (w0 : Bytes) (hw0 : Blanks w0) (r : RangeSyn) (hr : r.OK) (hs : r.Simple) (ws name : Bytes) (hws : Blanks ws)
    (hne : ws ≠ []) (hn : NameOK name) :
    parseCommands (w0 ++ (r.bytes ++ 114 :: (ws ++ name)) ++ [] ++ [10]) =
      some [{ typ := .read, start := r.start, text := name }] := by
  have hc := cmd_read r hr hs ws name hws hne hn.ne hn.nl hn.blank [] w0.length
  have hat2 : At (w0 ++ (r.bytes ++ 114 :: (ws ++ name)) ++ [] ++ [10]) (w0.length + r.bytes.length + 1 + ws.length) name :=
    ⟨w0 ++ r.bytes ++ [114] ++ ws, [10], by simp, by simp; omega⟩
  have hsl := hat2.slice
  rw [parse_simple (body := r.bytes ++ 114 :: (ws ++ name)) (w9 := []) (t := r.toks1 w0.length ++
      [.pegText (w0.length + r.bytes.length + 1 + ws.length) (w0.length + r.bytes.length + 1 + ws.length + name.length), .act 4])
    hw0 blanks_nil (by
    intro c hc
    simp only [List.mem_append, List.mem_cons] at hc
    rcases hc with hc | rfl | hc | hc
    · exact range_ascii hr c hc
    · decide
    · exact blanks_ascii hws c hc
    · exact hn.ascii c hc)
    (by simpa using range_not_blank r hr 114 (by decide) (rn ws ++ (rn name ++ [10])))
    (by simpa [Nat.add_assoc, Nat.add_comm, Nat.add_left_comm] using hc)]
  have hat : At (w0 ++ (r.bytes ++ 114 :: (ws ++ name)) ++ [] ++ [10]) w0.length r.bytes := ⟨w0, 114 :: (ws ++ name) ++ [10], by simp, rfl⟩
  generalize w0 ++ (r.bytes ++ 114 :: (ws ++ name)) ++ [] ++ [10] = buffer at hat hsl
  obtain ⟨b', e', h⟩ := exec_range1 _ r hs _ hat
    ([.pegText (w0.length + r.bytes.length + 1 + ws.length) (w0.length + r.bytes.length + 1 + ws.length + name.length), .act 4] ++
      [.act 1, .act 0])
  simp only [List.append_assoc] at h ⊢
  rw [h]
  simp only [List.cons_append, List.nil_append, execute, Exec.step, hsl]
  rfl

example : parseCommands b!"$r notes\n" = some [{ typ := .read, start := ⟨.last, b!"$", 0⟩, text := b!"notes" }] :=
  C67_read [] blanks_nil (.one .dollar []) ⟨trivial, blanks_nil⟩ trivial b!" " b!"notes" (by simp [Blanks]) (by decide)
    ⟨by decide, by decide, by decide, by intro c cs h; cases h; decide⟩

/-- **C67** `!text`: the shell command with all of the rest of the line. -/
theorem C67_shell (w0 : Bytes) (hw0 : Blanks w0) (text : Bytes) (hne : text ≠ []) (ha : ∀ c ∈ text, c < 0x80) (hn : 10 ∉ text) :
    parseCommands (w0 ++ (33 :: text) ++ [] ++ [10]) = some [{ typ := .shell, text := text }] := by
  have hnl : 10 ∉ rn text := by
    intro hc
    obtain ⟨d, hd, e⟩ := List.mem_map.1 hc
    have : d = 10 := UInt8.toNat_inj.1 e
    exact hn (this ▸ hd)
  have hc := cmd_shell text hne hnl [] w0.length
  have hat : At (w0 ++ (33 :: text) ++ [] ++ [10]) (w0.length + 1) text := ⟨w0 ++ [33], [10], by simp, by simp⟩
  have hsl := hat.slice
  rw [parse_simple (body := 33 :: text) (w9 := []) (t := [.pegText (w0.length + 1) (w0.length + 1 + text.length), .act 7]) hw0 blanks_nil (by
    intro c hc
    rcases List.mem_cons.1 hc with rfl | hc
    · decide
    · exact ha c hc) (Stops.cons (by decide))
    (by simpa [Nat.add_assoc, Nat.add_comm, Nat.add_left_comm] using hc)]
  simp only [List.cons_append, List.nil_append, execute, Exec.step, hsl]
  rfl

example : parseCommands b!"!ls -l\n" = some [{ typ := .shell, text := b!"ls -l" }] :=
  C67_shell [] blanks_nil b!"ls -l" (by decide) (by decide) (by decide)

/-- **C67** `e`, `E` and `f` without a name. -/
theorem C67_noName (w0 : Bytes) (hw0 : Blanks w0) (letter : UInt8) (typ : CmdType) (hl : (letter, typ) ∈ nameCommands) :
    parseCommands (w0 ++ [letter] ++ [] ++ [10]) = some [{ typ := typ }] := by
  have key : ∀ (n : Nat), (letter.toNat, n, typ) ∈ paramLetter → isBlank letter.toNat = false → letter < 0x80 →
      parseCommands (w0 ++ [letter] ++ [] ++ [10]) = some (execute (w0 ++ [letter] ++ [] ++ [10]) {} [.act n, .act 1, .act 0]) := by
    intro n hx hb ha
    have hc := cmd_noName _ hx [] w0.length
    exact parse_simple (body := [letter]) (w9 := []) (t := [.act n]) hw0 blanks_nil (by simpa using ha) (Stops.cons hb) (by simpa using hc)
  simp only [nameCommands, List.mem_cons, Prod.mk.injEq, List.not_mem_nil, or_false] at hl
  rcases hl with ⟨rfl, rfl⟩ | ⟨rfl, rfl⟩ | ⟨rfl, rfl⟩
  · exact key 33 (by decide) (by decide) (by decide)
  · exact key 34 (by decide) (by decide) (by decide)
  · exact key 35 (by decide) (by decide) (by decide)

example : parseCommands b!"f\n" = some [{ typ := .filename }] := C67_noName [] blanks_nil 102 .filename (by decide)

/-- Marks, backward searches and offsets in an address part. -/
example : parseCommands b!"'a,?x?+2p\n" = some [{ typ := .print, start := ⟨.mark, b!"'a", 0⟩, end_ := ⟨.regexReverse, b!"?x?+2", 0⟩ }] :=
  C67_range_commands [] [] blanks_nil blanks_nil (.both false (.mark 97) [] [] (.off (.back b!"x") false b!"2") [])
    ⟨⟨by decide, by decide⟩, ⟨.plain (by decide) (by decide), trivial, by decide⟩, blanks_nil, blanks_nil, blanks_nil⟩ 112 .print (by decide)

end Ed
