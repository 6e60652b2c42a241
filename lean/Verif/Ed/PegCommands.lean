import Verif.Ed.PegLemmas

/-! # The generated parser on whole commands -/

namespace Ed
open Go

/-! ## Ranges as written -/

/-- The separator of a range: `,` or `;`. -/
def sepByte (semi : Bool) : UInt8 := if semi then 59 else 44

/-- Address parts of a command as written: nothing, `A`, `A,B`, `A,`, `,B`, `,` (and the same with `;`),
with blanks (`w…`) around the addresses. -/
inductive RangeSyn where
  | none
  | one (a : AddrSyn) (w : Bytes)
  | both (semi : Bool) (a : AddrSyn) (w1 w2 : Bytes) (b : AddrSyn) (w3 : Bytes)
  | startOnly (semi : Bool) (a : AddrSyn) (w : Bytes)
  | endOnly (semi : Bool) (w1 : Bytes) (b : AddrSyn) (w2 : Bytes)
  | all (semi : Bool)
  deriving DecidableEq, Repr

/-- The text. -/
def RangeSyn.bytes : RangeSyn → Bytes
  | .none => []
  | .one a w => a.bytes ++ w
  | .both s a w1 w2 b w3 => a.bytes ++ (w1 ++ (sepByte s :: (w2 ++ (b.bytes ++ w3))))
  | .startOnly s a w => a.bytes ++ (w ++ [sepByte s])
  | .endOnly s w1 b w2 => sepByte s :: (w1 ++ (b.bytes ++ w2))
  | .all s => [sepByte s]

/-- Well-formed. -/
def RangeSyn.OK : RangeSyn → Prop
  | .none => True
  | .one a w => a.OK ∧ Blanks w
  | .both _ a w1 w2 b w3 => a.OK ∧ b.OK ∧ Blanks w1 ∧ Blanks w2 ∧ Blanks w3
  | .startOnly _ a w => a.OK ∧ Blanks w
  | .endOnly _ w1 b w2 => b.OK ∧ Blanks w1 ∧ Blanks w2
  | .all _ => True

/-- The start address meant. (The null address is filled in later, depending on the command.) -/
def RangeSyn.start : RangeSyn → Address
  | .none => {}
  | .one a _ | .both _ a _ _ _ _ | .startOnly _ a _ => a.address
  | .endOnly semi _ _ _ | .all semi => if semi then aCur else aFirst

/-- The end address meant. -/
def RangeSyn.end_ : RangeSyn → Address
  | .none => {}
  | .one a _ | .startOnly _ a _ => a.address
  | .both _ _ _ _ b _ | .endOnly _ _ b _ => b.address
  | .all _ => aLast

/-- The tokens of `range?` at a position. -/
def RangeSyn.toks (pos : Nat) : RangeSyn → List Tok
  | .none => []
  | .one a _ => a.toks pos ++ [.act 17, .act 13]
  | .both _ a w1 w2 b _ => a.toks pos ++ .act 17 :: (b.toks (pos + a.bytes.length + w1.length + 1 + w2.length) ++ [.act 18])
  | .startOnly s a _ => a.toks pos ++ [.act 17, .act (if s then 11 else 9)]
  | .endOnly s w1 b _ => b.toks (pos + 1 + w1.length) ++ [.act 18, .act (if s then 12 else 10)]
  | .all s => [.act (if s then 15 else 14)]

/-- What follows the address part: a rune that is no digit, sign, blank, separator or start of an address. -/
def Follow (c : Nat) : Prop :=
  isDig c = false ∧ isBlank c = false ∧ c ≠ 43 ∧ c ≠ 45 ∧ c ≠ 44 ∧ c ≠ 59 ∧ c ≠ 39 ∧ c ≠ 47 ∧ c ≠ 63 ∧ c ≠ 46 ∧ c ≠ 36

instance (c : Nat) : Decidable (Follow c) := inferInstanceAs (Decidable (_ ∧ _))

theorem Follow.notAddr {c : Nat} (h : Follow c) (r : List Nat) : NotAddr (c :: r) := by
  obtain ⟨h1, h2, h3, h4, h5, h6, h7, h8, h9, h10, h11⟩ := h
  exact Stops.cons (by simp [h1, h7, h8, h9, h10, h11])

theorem Follow.afterBlanks {c : Nat} (h : Follow c) (r : List Nat) : AfterBlanks (c :: r) := by
  obtain ⟨h1, h2, h3, h4, h5, h6, h7, h8, h9, h10, h11⟩ := h
  exact Stops.cons (by simp [h1, h2, h3, h4])

theorem Follow.blank {c : Nat} (h : Follow c) (r : List Nat) : Stops isBlank (c :: r) := Stops.cons h.2.1

theorem sep_afterBlanks (s : Bool) (r : List Nat) : AfterBlanks ((sepByte s).toNat :: r) := by
  cases s <;> exact Stops.cons (by decide)

theorem sep_notAddr (s : Bool) (r : List Nat) : NotAddr ((sepByte s).toNat :: r) := by
  cases s <;> exact Stops.cons (by decide)

theorem startAddr_fail0 {rest : List Nat} (pos : Nat) (hb : Stops isBlank rest) (hn : NotAddr rest) : startAddr pos rest = none := by
  simpa using startAddr_fail [] (by simp [Blanks]) rest pos hb hn

theorem blanks_nil : Blanks [] := by simp [Blanks]

theorem startAddr0 (a : AddrSyn) (ha : a.OK) (w : Bytes) (hw : Blanks w) (rest : List Nat) (pos : Nat) (hr : AfterBlanks rest) :
    startAddr pos (rn a.bytes ++ (rn w ++ rest)) =
      some (pos + a.bytes.length + w.length, rest, a.toks pos ++ [.act 17]) := by
  have := startAddr_some a ha [] w blanks_nil hw rest pos hr
  simpa using this

theorem sep_chr (s : Bool) (pos : Nat) (r : List Nat) : chr (if s then 59 else 44) pos ((sepByte s).toNat :: r) = some (pos + 1, r, []) := by
  cases s <;> exact chr_some

/-- The address part of a command is recognised in full. -/
theorem optRange (r : RangeSyn) (hr : r.OK) (c : Nat) (hc : Follow c) (rest : List Nat) (pos : Nat) :
    opt range pos (rn r.bytes ++ c :: rest) = some (pos + r.bytes.length, c :: rest, r.toks pos) := by
  have hcomma : ∀ p, chr 44 p (c :: rest) = none := fun p => chr_fail_cons hc.2.2.2.2.1
  have hsemi : ∀ p, chr 59 p (c :: rest) = none := fun p => chr_fail_cons hc.2.2.2.2.2.1
  have hst : ∀ p, startAddr p (c :: rest) = none := fun p => startAddr_fail0 p (hc.blank rest) (hc.notAddr rest)
  have hen : ∀ p, endAddr p (c :: rest) = none := fun p => by
    simpa using endAddr_fail [] blanks_nil (c :: rest) p (hc.blank rest) (hc.notAddr rest)
  cases r with
  | none =>
    simp only [RangeSyn.bytes, RangeSyn.toks, rn, List.map_nil, List.nil_append, List.length_nil, Nat.add_zero]
    refine opt_none ?_
    exact alt_fail (seq_fail1 (hst _)) (alt_fail (seq_fail1 (hst _)) (alt_fail (seq_fail1 (hcomma _))
      (alt_fail (seq_fail1 (hst _)) (alt_fail (seq_fail1 (hst _)) (alt_fail (seq_fail1 (hsemi _))
      (alt_fail (seq_fail1 (hst _)) (alt_fail (seq_fail1 (hcomma _)) (seq_fail1 (hsemi _)))))))))
  | one a w =>
    obtain ⟨ha, hw⟩ := hr
    have h1 := startAddr0 a ha w hw (c :: rest) pos (hc.afterBlanks rest)
    have e : rn (RangeSyn.one a w).bytes ++ c :: rest = rn a.bytes ++ (rn w ++ c :: rest) := by simp [RangeSyn.bytes]
    have el : pos + (RangeSyn.one a w).bytes.length = pos + a.bytes.length + w.length := by simp [RangeSyn.bytes]; omega
    rw [e, el]
    obtain ⟨d, r', eh, hd⟩ := addr_head a ha (rn w ++ c :: rest)
    have hno : ∀ x, x = 44 ∨ x = 59 → chr x pos (rn a.bytes ++ (rn w ++ c :: rest)) = none := by
      intro x hx
      rw [eh]
      refine chr_fail_cons ?_
      rintro rfl
      rcases hx with rfl | rfl <;> exact absurd hd (by decide)
    refine opt_some ?_
    refine alt_skip (seq_fail2 h1 (seq_fail1 (hcomma _))) (alt_skip (seq_fail2 h1 (seq_fail1 (hcomma _)))
      (alt_skip (seq_fail1 (hno 44 (Or.inl rfl))) (alt_skip (seq_fail2 h1 (seq_fail1 (hsemi _)))
      (alt_skip (seq_fail2 h1 (seq_fail1 (hsemi _))) (alt_skip (seq_fail1 (hno 59 (Or.inr rfl))) (alt_left ?_))))))
    have := seq_some h1 (act_some 13)
    simpa [RangeSyn.toks] using this
  | both s a w1 w2 b w3 =>
    obtain ⟨ha, hb, hw1, hw2, hw3⟩ := hr
    have e : rn (RangeSyn.both s a w1 w2 b w3).bytes ++ c :: rest =
        rn a.bytes ++ (rn w1 ++ ((sepByte s).toNat :: (rn w2 ++ (rn b.bytes ++ (rn w3 ++ c :: rest))))) := by simp [RangeSyn.bytes]
    have h1 := startAddr0 a ha w1 hw1 ((sepByte s).toNat :: (rn w2 ++ (rn b.bytes ++ (rn w3 ++ c :: rest)))) pos (sep_afterBlanks s _)
    have h2 := sep_chr s (pos + a.bytes.length + w1.length) (rn w2 ++ (rn b.bytes ++ (rn w3 ++ c :: rest)))
    have h3 := endAddr_some b hb w2 w3 hw2 hw3 (c :: rest) (pos + a.bytes.length + w1.length + 1) (hc.afterBlanks rest)
    have key := seq_some h1 (seq_some h2 h3)
    have el : pos + (RangeSyn.both s a w1 w2 b w3).bytes.length =
        pos + a.bytes.length + w1.length + 1 + w2.length + b.bytes.length + w3.length := by simp [RangeSyn.bytes]; omega
    have et : (a.toks pos ++ [Tok.act 17]) ++ ([] ++ (b.toks (pos + a.bytes.length + w1.length + 1 + w2.length) ++ [.act 18])) =
        (RangeSyn.both s a w1 w2 b w3).toks pos := by simp [RangeSyn.toks]
    rw [et] at key
    rw [e, el]
    refine opt_some ?_
    cases s with
    | false => exact alt_left key
    | true =>
      have n44 : ∀ p r, chr 44 p ((sepByte true).toNat :: r) = none := fun p r => chr_fail_cons (by decide)
      obtain ⟨d, r', eh, hd⟩ := addr_head a ha (rn w1 ++ ((sepByte true).toNat :: (rn w2 ++ (rn b.bytes ++ (rn w3 ++ c :: rest)))))
      have hno : chr 44 pos (rn a.bytes ++ (rn w1 ++ ((sepByte true).toNat :: (rn w2 ++ (rn b.bytes ++ (rn w3 ++ c :: rest)))))) = none := by
        rw [eh]
        refine chr_fail_cons ?_
        rintro rfl
        exact absurd hd (by decide)
      exact alt_skip (seq_fail2 h1 (seq_fail1 (n44 _ _))) (alt_skip (seq_fail2 h1 (seq_fail1 (n44 _ _)))
        (alt_skip (seq_fail1 hno) (alt_left key)))
  | startOnly s a w =>
    obtain ⟨ha, hw⟩ := hr
    have e : rn (RangeSyn.startOnly s a w).bytes ++ c :: rest = rn a.bytes ++ (rn w ++ ((sepByte s).toNat :: c :: rest)) := by
      simp [RangeSyn.bytes]
    have h1 := startAddr0 a ha w hw ((sepByte s).toNat :: c :: rest) pos (sep_afterBlanks s _)
    have h2 := sep_chr s (pos + a.bytes.length + w.length) (c :: rest)
    have el : pos + (RangeSyn.startOnly s a w).bytes.length = pos + a.bytes.length + w.length + 1 := by simp [RangeSyn.bytes]; omega
    have key := seq_some h1 (seq_some h2 (act_some (if s then 11 else 9)))
    have et : (a.toks pos ++ [Tok.act 17]) ++ ([] ++ [.act (if s then 11 else 9)]) = (RangeSyn.startOnly s a w).toks pos := by
      simp [RangeSyn.toks]
    rw [et] at key
    rw [e, el]
    refine opt_some ?_
    cases s with
    | false => exact alt_skip (seq_fail2 h1 (seq_fail2 h2 (hen _))) (alt_left key)
    | true =>
      have n44 : ∀ p r, chr 44 p ((sepByte true).toNat :: r) = none := fun p r => chr_fail_cons (by decide)
      obtain ⟨d, r', eh, hd⟩ := addr_head a ha (rn w ++ ((sepByte true).toNat :: c :: rest))
      have hno : chr 44 pos (rn a.bytes ++ (rn w ++ ((sepByte true).toNat :: c :: rest))) = none := by
        rw [eh]
        refine chr_fail_cons ?_
        rintro rfl
        exact absurd hd (by decide)
      exact alt_skip (seq_fail2 h1 (seq_fail1 (n44 _ _))) (alt_skip (seq_fail2 h1 (seq_fail1 (n44 _ _)))
        (alt_skip (seq_fail1 hno) (alt_skip (seq_fail2 h1 (seq_fail2 h2 (hen _))) (alt_left key))))
  | endOnly s w1 b w2 =>
    obtain ⟨hb, hw1, hw2⟩ := hr
    have e : rn (RangeSyn.endOnly s w1 b w2).bytes ++ c :: rest = (sepByte s).toNat :: (rn w1 ++ (rn b.bytes ++ (rn w2 ++ c :: rest))) := by
      simp [RangeSyn.bytes]
    have h0 : ∀ p, startAddr p ((sepByte s).toNat :: (rn w1 ++ (rn b.bytes ++ (rn w2 ++ c :: rest)))) = none := fun p =>
      startAddr_fail0 p (sep_afterBlanks s _).blank (sep_notAddr s _)
    have h2 := sep_chr s pos (rn w1 ++ (rn b.bytes ++ (rn w2 ++ c :: rest)))
    have h3 := endAddr_some b hb w1 w2 hw1 hw2 (c :: rest) (pos + 1) (hc.afterBlanks rest)
    have el : pos + (RangeSyn.endOnly s w1 b w2).bytes.length = pos + 1 + w1.length + b.bytes.length + w2.length := by
      simp [RangeSyn.bytes]; omega
    have key := seq_some h2 (seq_some h3 (act_some (if s then 12 else 10)))
    have et : ([] : List Tok) ++ ((b.toks (pos + 1 + w1.length) ++ [.act 18]) ++ [.act (if s then 12 else 10)]) =
        (RangeSyn.endOnly s w1 b w2).toks pos := by simp [RangeSyn.toks]
    rw [et] at key
    rw [e, el]
    refine opt_some ?_
    cases s with
    | false => exact alt_skip (seq_fail1 (h0 _)) (alt_skip (seq_fail1 (h0 _)) (alt_left key))
    | true =>
      have n44 : ∀ p r, chr 44 p ((sepByte true).toNat :: r) = none := fun p r => chr_fail_cons (by decide)
      exact alt_skip (seq_fail1 (h0 _)) (alt_skip (seq_fail1 (h0 _)) (alt_skip (seq_fail1 (n44 _ _))
        (alt_skip (seq_fail1 (h0 _)) (alt_skip (seq_fail1 (h0 _)) (alt_left key)))))
  | all s =>
    have e : rn (RangeSyn.all s).bytes ++ c :: rest = (sepByte s).toNat :: c :: rest := by simp [RangeSyn.bytes]
    have h0 : ∀ p, startAddr p ((sepByte s).toNat :: c :: rest) = none := fun p =>
      startAddr_fail0 p (sep_afterBlanks s _).blank (sep_notAddr s _)
    have h2 := sep_chr s pos (c :: rest)
    have key := seq_some h2 (act_some (if s then 15 else 14))
    rw [e]
    refine opt_some ?_
    cases s with
    | false =>
      have n59 : ∀ p r, chr 59 p ((sepByte false).toNat :: r) = none := fun p r => chr_fail_cons (by decide)
      exact alt_skip (seq_fail1 (h0 _)) (alt_skip (seq_fail1 (h0 _)) (alt_skip (seq_fail2 h2 (seq_fail1 (hen _)))
        (alt_skip (seq_fail1 (h0 _)) (alt_skip (seq_fail1 (h0 _)) (alt_skip (seq_fail1 (n59 _ _))
        (alt_skip (seq_fail1 (h0 _)) (alt_left key)))))))
    | true =>
      have n44 : ∀ p r, chr 44 p ((sepByte true).toNat :: r) = none := fun p r => chr_fail_cons (by decide)
      exact alt_skip (seq_fail1 (h0 _)) (alt_skip (seq_fail1 (h0 _)) (alt_skip (seq_fail1 (n44 _ _))
        (alt_skip (seq_fail1 (h0 _)) (alt_skip (seq_fail1 (h0 _)) (alt_skip (seq_fail2 h2 (seq_fail1 (hen _)))
        (alt_skip (seq_fail1 (h0 _)) (alt_skip (seq_fail1 (n44 _ _)) key)))))))

/-! ## Simple address parts: nothing or one address -/

/-- Nothing or one address. -/
def RangeSyn.Simple : RangeSyn → Prop
  | .none => True
  | .one _ _ => True
  | _ => False

/-- The tokens of `startAddr?`. -/
def RangeSyn.toks1 (pos : Nat) : RangeSyn → List Tok
  | .one a _ => a.toks pos ++ [.act 17]
  | _ => []

theorem optStart (r : RangeSyn) (hr : r.OK) (hs : r.Simple) (c : Nat) (hc : Follow c) (rest : List Nat) (pos : Nat) :
    opt startAddr pos (rn r.bytes ++ c :: rest) = some (pos + r.bytes.length, c :: rest, r.toks1 pos) := by
  cases r with
  | none =>
    simp only [RangeSyn.bytes, RangeSyn.toks1, rn, List.map_nil, List.nil_append, List.length_nil, Nat.add_zero]
    exact opt_none (startAddr_fail0 pos (hc.blank rest) (hc.notAddr rest))
  | one a w =>
    have h1 := startAddr0 a hr.1 w hr.2 (c :: rest) pos (hc.afterBlanks rest)
    have e : rn (RangeSyn.one a w).bytes ++ c :: rest = rn a.bytes ++ (rn w ++ c :: rest) := by simp [RangeSyn.bytes]
    have el : pos + (RangeSyn.one a w).bytes.length = pos + a.bytes.length + w.length := by simp [RangeSyn.bytes]; omega
    rw [e, el]
    exact opt_some h1
  | both => exact hs.elim
  | startOnly => exact hs.elim
  | endOnly => exact hs.elim
  | all => exact hs.elim

/-- With more than one address, or a separator, `startAddr?` leaves something that is no command letter. -/
theorem optStart_any (r : RangeSyn) (hr : r.OK) (c : Nat) (hc : Follow c) (rest : List Nat) (pos : Nat) :
    ∃ pos' d r' t, opt startAddr pos (rn r.bytes ++ c :: rest) = some (pos', d :: r', t) ∧ (d = c ∨ d = 44 ∨ d = 59) := by
  have sepd : ∀ s, (sepByte s).toNat = 44 ∨ (sepByte s).toNat = 59 := by intro s; cases s <;> decide
  cases r with
  | none => exact ⟨_, _, _, _, optStart .none hr trivial c hc rest pos, Or.inl rfl⟩
  | one a w => exact ⟨_, _, _, _, optStart (.one a w) hr trivial c hc rest pos, Or.inl rfl⟩
  | both s a w1 w2 b w3 =>
    have h1 := startAddr0 a hr.1 w1 hr.2.2.1 ((sepByte s).toNat :: (rn w2 ++ (rn b.bytes ++ (rn w3 ++ c :: rest)))) pos (sep_afterBlanks s _)
    have e : rn (RangeSyn.both s a w1 w2 b w3).bytes ++ c :: rest =
        rn a.bytes ++ (rn w1 ++ ((sepByte s).toNat :: (rn w2 ++ (rn b.bytes ++ (rn w3 ++ c :: rest))))) := by simp [RangeSyn.bytes]
    rw [e]
    exact ⟨_, _, _, _, opt_some h1, Or.inr (sepd s)⟩
  | startOnly s a w =>
    have h1 := startAddr0 a hr.1 w hr.2 ((sepByte s).toNat :: c :: rest) pos (sep_afterBlanks s _)
    have e : rn (RangeSyn.startOnly s a w).bytes ++ c :: rest = rn a.bytes ++ (rn w ++ ((sepByte s).toNat :: c :: rest)) := by
      simp [RangeSyn.bytes]
    rw [e]
    exact ⟨_, _, _, _, opt_some h1, Or.inr (sepd s)⟩
  | endOnly s w1 b w2 =>
    have e : rn (RangeSyn.endOnly s w1 b w2).bytes ++ c :: rest = (sepByte s).toNat :: (rn w1 ++ (rn b.bytes ++ (rn w2 ++ c :: rest))) := by
      simp [RangeSyn.bytes]
    rw [e]
    exact ⟨_, _, _, _, opt_none (startAddr_fail0 pos (sep_afterBlanks s _).blank (sep_notAddr s _)), Or.inr (sepd s)⟩
  | all s =>
    have e : rn (RangeSyn.all s).bytes ++ c :: rest = (sepByte s).toNat :: c :: rest := by simp [RangeSyn.bytes]
    rw [e]
    exact ⟨_, _, _, _, opt_none (startAddr_fail0 pos (sep_afterBlanks s _).blank (sep_notAddr s _)), Or.inr (sepd s)⟩

/-- The first rune of an address part with what follows. -/
theorem range_head (r : RangeSyn) (hr : r.OK) (c : Nat) (rest : List Nat) : ∃ d r', rn r.bytes ++ c :: rest = d :: r' ∧
    (d = c ∨ (isDig d || d == 47 || d == 46 || d == 36 || d == 44 || d == 59 || d == 39 || d == 63) = true) := by
  have sepd : ∀ s, (isDig (sepByte s).toNat || (sepByte s).toNat == 47 || (sepByte s).toNat == 46 || (sepByte s).toNat == 36 ||
      (sepByte s).toNat == 44 || (sepByte s).toNat == 59 ||
      (sepByte s).toNat == 39 || (sepByte s).toNat == 63) = true := by decide
  have key : ∀ (a : AddrSyn) (x : Bytes), a.OK → ∃ d r', rn (a.bytes ++ x) ++ c :: rest = d :: r' ∧
      (d = c ∨ (isDig d || d == 47 || d == 46 || d == 36 || d == 44 || d == 59 || d == 39 || d == 63) = true) := by
    intro a x ha
    obtain ⟨d, r', e, hd⟩ := addr_head a ha (rn x ++ c :: rest)
    refine ⟨d, r', by rw [← e]; simp, Or.inr ?_⟩
    simp only [Bool.or_eq_true] at hd ⊢
    grind
  cases r with
  | none => exact ⟨c, rest, rfl, Or.inl rfl⟩
  | one a w => exact key a w hr.1
  | both s a w1 w2 b w3 => exact key a _ hr.1
  | startOnly s a w => exact key a _ hr.1
  | endOnly s w1 b w2 => exact ⟨_, _, rfl, Or.inr (sepd s)⟩
  | all s => exact ⟨_, _, rfl, Or.inr (sepd s)⟩

theorem bareCmd_fail {rs : List Nat} (pos : Nat)
    (h : Stops (fun c => c == 104 || c == 72 || c == 80 || c == 113 || c == 81 || c == 117) rs) : bareCmd pos rs = none := by
  have hs : ∀ x, (x = 104 ∨ x = 72 ∨ x = 80 ∨ x = 113 ∨ x = 81 ∨ x = 117) → chr x pos rs = none := by
    intro x hx
    refine chr_fail fun d r e => ?_
    have := h d r e
    rintro rfl
    rcases hx with rfl | rfl | rfl | rfl | rfl | rfl <;> exact absurd this (by decide)
  exact alt_fail (seq_fail1 (hs 104 (by simp))) (alt_fail (seq_fail1 (hs 72 (by simp))) (alt_fail (seq_fail1 (hs 80 (by simp)))
    (alt_fail (seq_fail1 (hs 113 (by simp))) (alt_fail (seq_fail1 (hs 81 (by simp))) (seq_fail1 (hs 117 (by simp)))))))

theorem paramC_fail {rs : List Nat} (pos : Nat) (h : Stops (fun c => c == 101 || c == 69 || c == 102) rs) : paramC pos rs = none := by
  have hs : ∀ x, (x = 101 ∨ x = 69 ∨ x = 102) → chr x pos rs = none := by
    intro x hx
    refine chr_fail fun d r e => ?_
    have := h d r e
    rintro rfl
    rcases hx with rfl | rfl | rfl <;> exact absurd this (by decide)
  exact alt_fail (seq_fail1 (hs 101 (by simp))) (alt_fail (seq_fail1 (hs 69 (by simp))) (seq_fail1 (hs 102 (by simp))))

theorem paramCmd_fail {rs : List Nat} (pos : Nat) (h : Stops (fun c => c == 101 || c == 69 || c == 102) rs) : paramCmd pos rs = none :=
  alt_fail (seq_fail1 (paramC_fail pos h)) (paramC_fail pos h)

/-- The letters that follow an address part (with those of `g`, `G`, `s`, `v`, `V`, which the parser does not know). -/
def isLetter (c : Nat) : Bool :=
  c == 100 || c == 106 || c == 108 || c == 110 || c == 112 || c == 61 || c == 99 || c == 97 || c == 105 || c == 107 || c == 109 ||
  c == 116 || c == 114 || c == 119 || c == 10 || c == 103 || c == 71 || c == 115 || c == 118 || c == 86

theorem isLetter_cases {c : Nat} (h : isLetter c = true) : c = 100 ∨ c = 106 ∨ c = 108 ∨ c = 110 ∨ c = 112 ∨ c = 61 ∨ c = 99 ∨ c = 97 ∨
    c = 105 ∨ c = 107 ∨ c = 109 ∨ c = 116 ∨ c = 114 ∨ c = 119 ∨ c = 10 ∨ c = 103 ∨ c = 71 ∨ c = 115 ∨ c = 118 ∨ c = 86 := by
  simp only [isLetter, Bool.or_eq_true, beq_iff_eq] at h
  grind

theorem isLetter_follow {c : Nat} (h : isLetter c = true) : Follow c := by
  rcases isLetter_cases h with rfl | rfl | rfl | rfl | rfl | rfl | rfl | rfl | rfl | rfl | rfl | rfl | rfl | rfl | rfl | rfl | rfl | rfl | rfl | rfl <;> decide

/-- The first two alternatives of `cmd` fail when the command starts with an address part or one of those
letters. -/
theorem bare_param_fail (r : RangeSyn) (hr : r.OK) (c : Nat) (hc : isLetter c = true) (rest : List Nat) (pos : Nat) :
    bareCmd pos (rn r.bytes ++ c :: rest) = none ∧ paramCmd pos (rn r.bytes ++ c :: rest) = none := by
  obtain ⟨d, r', e, hd⟩ := range_head r hr c rest
  rw [e]
  have : (d == 104 || d == 72 || d == 80 || d == 113 || d == 81 || d == 117) = false ∧ (d == 101 || d == 69 || d == 102) = false := by
    rcases hd with rfl | hd
    · rcases isLetter_cases hc with rfl | rfl | rfl | rfl | rfl | rfl | rfl | rfl | rfl | rfl | rfl | rfl | rfl | rfl | rfl | rfl | rfl | rfl | rfl | rfl <;> decide
    · simp [isDig] at hd ⊢
      omega
  exact ⟨bareCmd_fail _ (Stops.cons this.1), paramCmd_fail _ (Stops.cons this.2)⟩

/-- The letters of `rangeC`. -/
def isRangeC (c : Nat) : Bool := c == 100 || c == 106 || c == 108 || c == 110 || c == 112

theorem rangeC_fail {c : Nat} (h : isRangeC c = false) (rest : List Nat) (pos : Nat) : rangeC pos (c :: rest) = none := by
  simp only [isRangeC, Bool.or_eq_false_iff, beq_eq_false_iff_ne] at h
  obtain ⟨⟨⟨⟨h1, h2⟩, h3⟩, h4⟩, h5⟩ := h
  exact alt_fail (seq_fail1 (chr_fail_cons h1)) (alt_fail (seq_fail1 (chr_fail_cons h2)) (alt_fail (seq_fail1 (chr_fail_cons h3))
    (alt_fail (seq_fail1 (chr_fail_cons h4)) (seq_fail1 (chr_fail_cons h5)))))

theorem rangeCmd_fail (r : RangeSyn) (hr : r.OK) (c : Nat) (hc : isLetter c = true) (hn : isRangeC c = false) (rest : List Nat) (pos : Nat) :
    rangeCmd pos (rn r.bytes ++ c :: rest) = none :=
  seq_fail2 (optRange r hr c (isLetter_follow hc) rest pos)
    (seq_fail2 (star_sp_none _ _ ((isLetter_follow hc).blank rest)) (rangeC_fail hn rest _))

theorem startAddr_any (r : RangeSyn) (hr : r.OK) (c : Nat) (hc : Follow c) (rest : List Nat) (pos : Nat) :
    startAddr pos (rn r.bytes ++ c :: rest) = none ∨
      ∃ pos' d r' t, startAddr pos (rn r.bytes ++ c :: rest) = some (pos', d :: r', t) ∧ (d = c ∨ d = 44 ∨ d = 59) := by
  obtain ⟨pos', d, r', t, h, hd⟩ := optStart_any r hr c hc rest pos
  cases hs : startAddr pos (rn r.bytes ++ c :: rest) with
  | none => exact Or.inl rfl
  | some x =>
    rw [opt_some hs] at h
    cases h
    exact Or.inr ⟨_, _, _, _, rfl, hd⟩

theorem addrCmd_fail (r : RangeSyn) (hr : r.OK) (c : Nat) (hc : isLetter c = true) (hn : c ≠ 61) (rest : List Nat) (pos : Nat) :
    addrCmd pos (rn r.bytes ++ c :: rest) = none := by
  refine alt_fail ?_ ?_
  · rcases startAddr_any r hr c (isLetter_follow hc) rest pos with h | ⟨pos', d, r', t, h, hd⟩
    · exact seq_fail1 (capture_fail h)
    · refine seq_fail2 (capture_some h) (seq_fail1 (seq_fail1 (chr_fail_cons ?_)))
      rcases hd with rfl | rfl | rfl
      · exact hn
      · decide
      · decide
  · obtain ⟨d, r', e, hd⟩ := range_head r hr c rest
    rw [e]
    refine seq_fail1 (chr_fail_cons ?_)
    rcases hd with rfl | hd
    · exact hn
    · rintro rfl; exact absurd hd (by decide)

theorem changeTextCmd_fail (r : RangeSyn) (hr : r.OK) (c : Nat) (hc : isLetter c = true) (hn : c ≠ 99) (rest : List Nat) (pos : Nat) :
    changeTextCmd pos (rn r.bytes ++ c :: rest) = none :=
  seq_fail2 (optRange r hr c (isLetter_follow hc) rest pos) (seq_fail1 (seq_fail1 (chr_fail_cons hn)))

/-- A rule that starts with `startAddr?` and a letter other than the one present fails. -/
theorem optStart_letter_fail (r : RangeSyn) (hr : r.OK) (c : Nat) (hc : isLetter c = true) (p : P)
    (hp : ∀ d r' pos', (d = c ∨ d = 44 ∨ d = 59) → p pos' (d :: r') = none) (rest : List Nat) (pos : Nat) :
    (opt startAddr ⬝ p) pos (rn r.bytes ++ c :: rest) = none := by
  obtain ⟨pos', d, r', t, h, hd⟩ := optStart_any r hr c (isLetter_follow hc) rest pos
  exact seq_fail2 h (hp d r' pos' hd)

theorem addTextCmd_fail (r : RangeSyn) (hr : r.OK) (c : Nat) (hc : isLetter c = true) (hn : c ≠ 97 ∧ c ≠ 105) (rest : List Nat) (pos : Nat) :
    addTextCmd pos (rn r.bytes ++ c :: rest) = none := by
  refine optStart_letter_fail r hr c hc _ (fun d r' pos' hd => ?_) rest pos
  refine seq_fail1 (alt_fail (seq_fail1 (chr_fail_cons ?_)) (seq_fail1 (chr_fail_cons ?_))) <;>
    (rintro rfl; rcases hd with rfl | hd | hd <;> simp_all)

theorem markCmd_fail (r : RangeSyn) (hr : r.OK) (c : Nat) (hc : isLetter c = true) (hn : c ≠ 107) (rest : List Nat) (pos : Nat) :
    markCmd pos (rn r.bytes ++ c :: rest) = none := by
  refine optStart_letter_fail r hr c hc _ (fun d r' pos' hd => ?_) rest pos
  refine seq_fail1 (chr_fail_cons ?_)
  rintro rfl; rcases hd with rfl | hd | hd <;> simp_all

theorem destCmd_fail (r : RangeSyn) (hr : r.OK) (c : Nat) (hc : isLetter c = true) (hn : c ≠ 109 ∧ c ≠ 116) (rest : List Nat) (pos : Nat) :
    destCmd pos (rn r.bytes ++ c :: rest) = none :=
  seq_fail2 (optRange r hr c (isLetter_follow hc) rest pos)
    (seq_fail1 (alt_fail (seq_fail1 (chr_fail_cons hn.1)) (seq_fail1 (chr_fail_cons hn.2))))

theorem readCmd_fail (r : RangeSyn) (hr : r.OK) (c : Nat) (hc : isLetter c = true) (hn : c ≠ 114) (rest : List Nat) (pos : Nat) :
    readCmd pos (rn r.bytes ++ c :: rest) = none := by
  refine optStart_letter_fail r hr c hc _ (fun d r' pos' hd => ?_) rest pos
  refine seq_fail1 (chr_fail_cons ?_)
  rintro rfl; rcases hd with rfl | hd | hd <;> simp_all

theorem writeCmd_fail (r : RangeSyn) (hr : r.OK) (c : Nat) (hc : isLetter c = true) (hn : c ≠ 119) (rest : List Nat) (pos : Nat) :
    writeCmd pos (rn r.bytes ++ c :: rest) = none :=
  alt_fail (seq_fail2 (optRange r hr c (isLetter_follow hc) rest pos) (seq_fail1 (chr_fail_cons hn)))
    (seq_fail2 (optRange r hr c (isLetter_follow hc) rest pos) (seq_fail1 (chr_fail_cons hn)))

theorem shellCmd_fail (r : RangeSyn) (hr : r.OK) (c : Nat) (hc : isLetter c = true) (rest : List Nat) (pos : Nat) :
    shellCmd pos (rn r.bytes ++ c :: rest) = none := by
  obtain ⟨d, r', e, hd⟩ := range_head r hr c rest
  rw [e]
  refine seq_fail1 (chr_fail_cons ?_)
  rcases hd with rfl | hd
  · rintro rfl; exact absurd hc (by decide)
  · rintro rfl; exact absurd hd (by decide)

/-! ## cmd on the commands -/

/-- The action of a letter of `rangeC` and its command type. -/
def rangeLetter : List (Nat × Nat × CmdType) :=
  [(100, 40, .delete), (106, 41, .join), (108, 42, .list), (110, 43, .number), (112, 44, .print)]

theorem cmd_range (r : RangeSyn) (hr : r.OK) (x : Nat × Nat × CmdType) (hx : x ∈ rangeLetter) (rest : List Nat) (pos : Nat) :
    cmd pos (rn r.bytes ++ x.1 :: rest) = some (pos + r.bytes.length + 1, rest, r.toks pos ++ [.act x.2.1]) := by
  have hl : isLetter x.1 = true := by simp only [rangeLetter, List.mem_cons, List.not_mem_nil, or_false] at hx; rcases hx with rfl | rfl | rfl | rfl | rfl <;> decide
  obtain ⟨h1, h2⟩ := bare_param_fail r hr x.1 hl rest pos
  refine alt_skip h1 (alt_skip h2 (alt_left ?_))
  have hlet : rangeC (pos + r.bytes.length) (x.1 :: rest) = some (pos + r.bytes.length + 1, rest, [.act x.2.1]) := by
    simp only [rangeLetter, List.mem_cons, List.not_mem_nil, or_false] at hx
    rcases hx with rfl | rfl | rfl | rfl | rfl <;> rfl
  have := seq_some (optRange r hr x.1 (isLetter_follow hl) rest pos)
    (seq_some (star_sp_none _ _ ((isLetter_follow hl).blank rest)) hlet)
  simpa [rangeCmd] using this

/-- `(!textTerm .)*` stops at the first newline followed by a dot. -/
theorem text_some (t : List Nat) (rest : List Nat) (pos : Nat) (h : ¬ [10, 46] <:+: t ++ [10]) :
    text pos (t ++ 10 :: 46 :: rest) = some (pos + t.length + 2, rest, [.pegText pos (pos + t.length), .act 8]) := by
  have tt : ∀ pos (rs : List Nat), (∃ r, rs = 10 :: 46 :: r) ∨ textTerm pos rs = none := by
    intro pos rs
    by_cases h : ∃ r, rs = 10 :: 46 :: r
    · exact Or.inl h
    · right
      match rs with
      | [] => rfl
      | [c] =>
        by_cases hc : c = 10
        · subst hc; rfl
        · exact seq_fail1 (chr_fail_cons hc)
      | c :: d :: r =>
        by_cases hc : c = 10
        · subst hc
          exact seq_fail2 chr_some (chr_fail_cons (fun hd => h ⟨r, by rw [hd]⟩))
        · exact seq_fail1 (chr_fail_cons hc)
  have loop : ∀ (t : List Nat) (fuel pos : Nat), ¬ [10, 46] <:+: t ++ [10] → t.length < fuel →
      starAux (notP textTerm ⬝ dot) fuel pos (t ++ 10 :: 46 :: rest) = (pos + t.length, 10 :: 46 :: rest, []) := by
    intro t
    induction t with
    | nil =>
      intro fuel pos _ hf
      obtain ⟨n, rfl⟩ : ∃ n, fuel = n + 1 := ⟨fuel - 1, by simp at hf; omega⟩
      simp only [List.nil_append, starAux]
      have : (notP textTerm ⬝ dot) pos (10 :: 46 :: rest) = none := rfl
      simp only [this]; rfl
    | cons c t ih =>
      intro fuel pos hn hf
      obtain ⟨n, rfl⟩ : ∃ n, fuel = n + 1 := ⟨fuel - 1, by simp at hf; omega⟩
      have hno : textTerm pos (c :: t ++ 10 :: 46 :: rest) = none := by
        rcases tt pos (c :: t ++ 10 :: 46 :: rest) with ⟨r, hr⟩ | h
        · exfalso
          apply hn
          cases t with
          | nil => simp at hr
          | cons d t =>
            simp only [List.cons_append, List.cons.injEq] at hr
            obtain ⟨rfl, rfl, _⟩ := hr
            exact ⟨[], t ++ [10], rfl⟩
        · exact h
      have one : (notP textTerm ⬝ dot) pos (c :: (t ++ 10 :: 46 :: rest)) = some (pos + 1, t ++ 10 :: 46 :: rest, []) := by
        refine seq_some (t1 := []) (t2 := []) (pos1 := pos) (rs1 := c :: (t ++ 10 :: 46 :: rest)) ?_ (cls_some rfl)
        have hno' : textTerm pos (c :: (t ++ 10 :: 46 :: rest)) = none := hno
        simp [notP, hno']
      have := ih n (pos + 1) (fun ⟨a, b, hab⟩ => hn ⟨c :: a, b, by simp at hab ⊢; exact hab⟩) (by simp at hf; omega)
      simp only [List.cons_append, starAux, one, this]
      simp; omega
  have h1 : star (notP textTerm ⬝ dot) pos (t ++ 10 :: 46 :: rest) = some (pos + t.length, 10 :: 46 :: rest, []) := by
    simp only [star]
    rw [loop t _ pos h (by simp; omega)]
  have := seq_some (capture_some h1) (seq_some (p := textTerm) (q := act 8) (seq_some chr_some chr_some) (act_some 8))
  simpa [text] using this

theorem cmd_change (r : RangeSyn) (hr : r.OK) (t : List Nat) (h : ¬ [10, 46] <:+: t ++ [10]) (rest : List Nat) (pos : Nat) :
    cmd pos (rn r.bytes ++ 99 :: 10 :: (t ++ 10 :: 46 :: rest)) =
      some (pos + r.bytes.length + 2 + t.length + 2, rest, r.toks pos ++ [.act 37,
        .pegText (pos + r.bytes.length + 2) (pos + r.bytes.length + 2 + t.length), .act 8]) := by
  obtain ⟨h1, h2⟩ := bare_param_fail r hr 99 rfl (10 :: (t ++ 10 :: 46 :: rest)) pos
  refine alt_skip h1 (alt_skip h2 (alt_skip (rangeCmd_fail r hr 99 rfl rfl _ _) (alt_skip (addrCmd_fail r hr 99 rfl (by decide) _ _) (alt_left ?_))))
  have hl : changeTextC (pos + r.bytes.length) (99 :: 10 :: (t ++ 10 :: 46 :: rest)) =
      some (pos + r.bytes.length + 1, 10 :: (t ++ 10 :: 46 :: rest), [.act 37]) := rfl
  have := seq_some (optRange r hr 99 (by decide) (10 :: (t ++ 10 :: 46 :: rest)) pos)
    (seq_some hl (seq_some (p := newLine) chr_some (text_some t rest _ h)))
  simpa [changeTextCmd] using this

theorem cmd_add (r : RangeSyn) (hr : r.OK) (hs : r.Simple) (x : Nat × Nat) (hx : x = (97, 38) ∨ x = (105, 39)) (t : List Nat)
    (h : ¬ [10, 46] <:+: t ++ [10]) (rest : List Nat) (pos : Nat) :
    cmd pos (rn r.bytes ++ x.1 :: 10 :: (t ++ 10 :: 46 :: rest)) =
      some (pos + r.bytes.length + 2 + t.length + 2, rest, r.toks1 pos ++ [.act x.2,
        .pegText (pos + r.bytes.length + 2) (pos + r.bytes.length + 2 + t.length), .act 8]) := by
  have hl : isLetter x.1 = true := by rcases hx with rfl | rfl <;> rfl
  have hn : isRangeC x.1 = false ∧ x.1 ≠ 61 ∧ x.1 ≠ 99 := by rcases hx with rfl | rfl <;> decide
  obtain ⟨h1, h2⟩ := bare_param_fail r hr x.1 hl (10 :: (t ++ 10 :: 46 :: rest)) pos
  refine alt_skip h1 (alt_skip h2 (alt_skip (rangeCmd_fail r hr _ hl hn.1 _ _) (alt_skip (addrCmd_fail r hr _ hl hn.2.1 _ _)
    (alt_skip (changeTextCmd_fail r hr _ hl hn.2.2 _ _) (alt_left ?_)))))
  have hlet : addTextC (pos + r.bytes.length) (x.1 :: 10 :: (t ++ 10 :: 46 :: rest)) =
      some (pos + r.bytes.length + 1, 10 :: (t ++ 10 :: 46 :: rest), [.act x.2]) := by rcases hx with rfl | rfl <;> rfl
  have := seq_some (optStart r hr hs x.1 (isLetter_follow hl) (10 :: (t ++ 10 :: 46 :: rest)) pos)
    (seq_some hlet (seq_some (p := newLine) chr_some (text_some t rest _ h)))
  simpa [addTextCmd] using this

/-- The tokens of `A=`. -/
def RangeSyn.toksEq (pos : Nat) : RangeSyn → List Tok
  | .one a w => a.toks pos ++ [.act 17, .pegText pos (pos + a.bytes.length + w.length), .act 36, .act 16]
  | _ => [.act 36]

theorem cmd_equals (r : RangeSyn) (hr : r.OK) (hs : r.Simple) (rest : List Nat) (pos : Nat) :
    cmd pos (rn r.bytes ++ 61 :: rest) = some (pos + r.bytes.length + 1, rest, r.toksEq pos) := by
  obtain ⟨h1, h2⟩ := bare_param_fail r hr 61 rfl rest pos
  refine alt_skip h1 (alt_skip h2 (alt_skip (rangeCmd_fail r hr 61 rfl rfl _ _) (alt_left ?_)))
  have hl : ∀ p, addrC p (61 :: rest) = some (p + 1, rest, [.act 36]) := fun p => rfl
  cases r with
  | none =>
    refine alt_skip (seq_fail1 (capture_fail ?_)) (hl pos)
    exact startAddr_fail0 pos (Stops.cons (by decide)) (Stops.cons (by decide))
  | one a w =>
    have h1 := startAddr0 a hr.1 w hr.2 (61 :: rest) pos (Stops.cons (by decide))
    have e : rn (RangeSyn.one a w).bytes ++ 61 :: rest = rn a.bytes ++ (rn w ++ 61 :: rest) := by simp [RangeSyn.bytes]
    have el : pos + (RangeSyn.one a w).bytes.length = pos + a.bytes.length + w.length := by simp [RangeSyn.bytes]; omega
    rw [e, el]
    refine alt_left ?_
    have := seq_some (capture_some h1) (seq_some (hl _) (act_some 16))
    simpa [RangeSyn.toksEq] using this
  | both => exact hs.elim
  | startOnly => exact hs.elim
  | endOnly => exact hs.elim
  | all => exact hs.elim

/-- A line with only an address, or nothing. -/
theorem cmd_null (r : RangeSyn) (hr : r.OK) (hs : r.Simple) (rest : List Nat) (pos : Nat) :
    cmd pos (rn r.bytes ++ 10 :: rest) = some (pos + r.bytes.length, 10 :: rest, r.toks1 pos) := by
  obtain ⟨h1, h2⟩ := bare_param_fail r hr 10 rfl rest pos
  refine alt_skip h1 (alt_skip h2 (alt_skip (rangeCmd_fail r hr 10 rfl rfl _ _) (alt_skip (addrCmd_fail r hr 10 rfl (by decide) _ _)
    (alt_skip (changeTextCmd_fail r hr 10 rfl (by decide) _ _) (alt_skip (addTextCmd_fail r hr 10 rfl (by decide) _ _)
    (alt_skip (markCmd_fail r hr 10 rfl (by decide) _ _) (alt_skip (destCmd_fail r hr 10 rfl (by decide) _ _)
    (alt_skip (readCmd_fail r hr 10 rfl (by decide) _ _) (alt_skip (writeCmd_fail r hr 10 rfl (by decide) _ _)
    (alt_skip (shellCmd_fail r hr 10 rfl _ _) (optStart r hr hs 10 (by decide) rest pos)))))))))))

/-- The action of a letter of `bareCmd` and its command type. -/
def bareLetter : List (Nat × Nat × CmdType) :=
  [(104, 26, .help), (72, 27, .helpMode), (80, 28, .prompt), (113, 29, .quit), (81, 30, .quitForce), (117, 31, .undo)]

theorem cmd_bare (x : Nat × Nat × CmdType) (hx : x ∈ bareLetter) (rest : List Nat) (pos : Nat) :
    cmd pos (x.1 :: rest) = some (pos + 1, rest, [.act x.2.1]) := by
  simp only [bareLetter, List.mem_cons, List.not_mem_nil, or_false] at hx
  rcases hx with rfl | rfl | rfl | rfl | rfl | rfl <;> exact alt_left rfl

/-- A parameter: the rest of the line. -/
theorem param_some (xs rest : List Nat) (pos : Nat) (hne : xs ≠ []) (h : 10 ∉ xs) :
    param pos (xs ++ 10 :: rest) = some (pos + xs.length, 10 :: rest, []) := by
  have e : param = plus (cls (fun c => !(c == 10))) := by
    have : (notP (chr 10) ⬝ dot) = cls (fun c => !(c == 10)) := by
      funext pos rs
      cases rs with
      | nil => rfl
      | cons c rs =>
        by_cases hc : c = 10
        · subst hc; rfl
        · simp [seq, notP, chr, cls, dot, hc]
    rw [param, this]
  rw [e]
  exact plus_cls _ xs (10 :: rest) pos hne (fun c hc => by simp; rintro rfl; exact h hc) (Stops.cons (by simp))

/-- The action of a letter of `paramC` and its command type. -/
def paramLetter : List (Nat × Nat × CmdType) := [(101, 33, .edit), (69, 34, .editForce), (102, 35, .filename)]

theorem cmd_param (x : Nat × Nat × CmdType) (hx : x ∈ paramLetter) (ws name : Bytes) (hw : Blanks ws) (hwn : ws ≠ []) (hn : name ≠ [])
    (hnl : 10 ∉ rn name) (hb : Stops isBlank (rn name)) (rest : List Nat) (pos : Nat) :
    cmd pos (x.1 :: (rn ws ++ (rn name ++ 10 :: rest))) = some (pos + 1 + ws.length + name.length, 10 :: rest,
      [.act x.2.1, .pegText (pos + 1 + ws.length) (pos + 1 + ws.length + name.length), .act 32]) := by
  have hbare : bareCmd pos (x.1 :: (rn ws ++ (rn name ++ 10 :: rest))) = none := by
    refine bareCmd_fail _ (Stops.cons ?_)
    simp only [paramLetter, List.mem_cons, List.not_mem_nil, or_false] at hx
    rcases hx with rfl | rfl | rfl <;> rfl
  have hl : paramC pos (x.1 :: (rn ws ++ (rn name ++ 10 :: rest))) = some (pos + 1, rn ws ++ (rn name ++ 10 :: rest), [.act x.2.1]) := by
    simp only [paramLetter, List.mem_cons, List.not_mem_nil, or_false] at hx
    rcases hx with rfl | rfl | rfl <;> rfl
  have hb' : Stops isBlank (rn name ++ 10 :: rest) := by
    cases name with
    | nil => exact absurd rfl hn
    | cons c cs => exact Stops.cons (hb c.toNat (rn cs) rfl)
  have h2 := sp_some (rn ws) (rn name ++ 10 :: rest) (pos + 1) (by simpa using hwn) hw.rn hb'
  have h3 := param_some (rn name) rest (pos + 1 + ws.length) (by simpa using hn) hnl
  simp only [rn, List.length_map] at h2 h3
  refine alt_skip hbare (alt_left (alt_left ?_))
  have := seq_some hl (seq_some h2 (seq_some (capture_some h3) (act_some 32)))
  simpa using this

theorem cmd_write (r : RangeSyn) (hr : r.OK) (rest : List Nat) (pos : Nat) :
    cmd pos (rn r.bytes ++ 119 :: 10 :: rest) = some (pos + r.bytes.length + 1, 10 :: rest, r.toks pos ++ [.act 6]) := by
  obtain ⟨h1, h2⟩ := bare_param_fail r hr 119 rfl (10 :: rest) pos
  refine alt_skip h1 (alt_skip h2 (alt_skip (rangeCmd_fail r hr 119 rfl rfl _ _) (alt_skip (addrCmd_fail r hr 119 rfl (by decide) _ _)
    (alt_skip (changeTextCmd_fail r hr 119 rfl (by decide) _ _) (alt_skip (addTextCmd_fail r hr 119 rfl (by decide) _ _)
    (alt_skip (markCmd_fail r hr 119 rfl (by decide) _ _) (alt_skip (destCmd_fail r hr 119 rfl (by decide) _ _)
    (alt_skip (readCmd_fail r hr 119 rfl (by decide) _ _) (alt_left ?_)))))))))
  have ho := optRange r hr 119 (by decide) (10 :: rest) pos
  refine alt_skip (seq_fail2 ho (seq_fail2 chr_some (seq_fail1 (sp_fail _ _ (Stops.cons (by decide)))))) ?_
  have := seq_some ho (seq_some (p := chr 119) chr_some (act_some 6))
  simpa using this

theorem cmd_writeName (r : RangeSyn) (hr : r.OK) (ws name : Bytes) (hw : Blanks ws) (hwn : ws ≠ []) (hn : name ≠ [])
    (hnl : 10 ∉ rn name) (hb : Stops isBlank (rn name)) (rest : List Nat) (pos : Nat) :
    cmd pos (rn r.bytes ++ 119 :: (rn ws ++ (rn name ++ 10 :: rest))) =
      some (pos + r.bytes.length + 1 + ws.length + name.length, 10 :: rest, r.toks pos ++
        [.pegText (pos + r.bytes.length + 1 + ws.length) (pos + r.bytes.length + 1 + ws.length + name.length), .act 5]) := by
  obtain ⟨h1, h2⟩ := bare_param_fail r hr 119 rfl (rn ws ++ (rn name ++ 10 :: rest)) pos
  refine alt_skip h1 (alt_skip h2 (alt_skip (rangeCmd_fail r hr 119 rfl rfl _ _) (alt_skip (addrCmd_fail r hr 119 rfl (by decide) _ _)
    (alt_skip (changeTextCmd_fail r hr 119 rfl (by decide) _ _) (alt_skip (addTextCmd_fail r hr 119 rfl (by decide) _ _)
    (alt_skip (markCmd_fail r hr 119 rfl (by decide) _ _) (alt_skip (destCmd_fail r hr 119 rfl (by decide) _ _)
    (alt_skip (readCmd_fail r hr 119 rfl (by decide) _ _) (alt_left ?_)))))))))
  have ho := optRange r hr 119 (by decide) (rn ws ++ (rn name ++ 10 :: rest)) pos
  have hb' : Stops isBlank (rn name ++ 10 :: rest) := by
    cases name with
    | nil => exact absurd rfl hn
    | cons c cs => exact Stops.cons (hb c.toNat (rn cs) rfl)
  have h2 := sp_some (rn ws) (rn name ++ 10 :: rest) (pos + r.bytes.length + 1) (by simpa using hwn) hw.rn hb'
  have h3 := param_some (rn name) rest (pos + r.bytes.length + 1 + ws.length) (by simpa using hn) hnl
  simp only [rn, List.length_map] at h2 h3
  refine alt_left ?_
  have := seq_some ho (seq_some (p := chr 119) chr_some (seq_some h2 (seq_some (capture_some h3) (act_some 5))))
  simpa using this

end Ed
