import Verif.Ed.Peg
import Verif.Go.Strconv

/-! # The generated parser: evaluation lemmas -/

namespace Ed
open Go

section shapes
variable {p q : P} {pos pos1 pos2 : Nat} {rs rs1 rs2 : List Nat} {t1 t2 : List Tok}

theorem seq_some (h1 : p pos rs = some (pos1, rs1, t1)) (h2 : q pos1 rs1 = some (pos2, rs2, t2)) :
    (p ⬝ q) pos rs = some (pos2, rs2, t1 ++ t2) := by simp [seq, h1, h2]

theorem seq_fail1 (h1 : p pos rs = none) : (p ⬝ q) pos rs = none := by simp [seq, h1]

theorem seq_fail2 (h1 : p pos rs = some (pos1, rs1, t1)) (h2 : q pos1 rs1 = none) : (p ⬝ q) pos rs = none := by
  simp [seq, h1, h2]

theorem alt_left {r} (h : p pos rs = some r) : (p / q) pos rs = some r := by simp [alt, h]

theorem alt_right (h : p pos rs = none) : (p / q) pos rs = q pos rs := by simp [alt, h]

theorem alt_skip {r} (h : p pos rs = none) (h2 : q pos rs = r) : (p / q) pos rs = r := by simp [alt, h, h2]

theorem alt_fail (h : p pos rs = none) (h2 : q pos rs = none) : (p / q) pos rs = none := by simp [alt, h, h2]

theorem opt_some {r} (h : p pos rs = some r) : opt p pos rs = some r := by simp [opt, h]

theorem opt_none (h : p pos rs = none) : opt p pos rs = some (pos, rs, []) := by simp [opt, h]

theorem capture_some (h : p pos rs = some (pos1, rs1, t1)) :
    capture p pos rs = some (pos1, rs1, t1 ++ [.pegText pos pos1]) := by simp [capture, h]

theorem capture_fail (h : p pos rs = none) : capture p pos rs = none := by simp [capture, h]

theorem act_some (n : Nat) : act n pos rs = some (pos, rs, [.act n]) := rfl

theorem cls_some {f : Nat → Bool} {c : Nat} (h : f c = true) : cls f pos (c :: rs) = some (pos + 1, rs, []) := by
  simp [cls, h]

theorem chr_some {c : Nat} : chr c pos (c :: rs) = some (pos + 1, rs, []) := cls_some (by simp)

end shapes

/-- The next rune, if any, is not in the set. -/
def Stops (f : Nat → Bool) (rs : List Nat) : Prop := ∀ c r, rs = c :: r → f c = false

theorem Stops.nil (f : Nat → Bool) : Stops f [] := by intro c r h; cases h

theorem Stops.cons {f : Nat → Bool} {c : Nat} {r : List Nat} (h : f c = false) : Stops f (c :: r) := by
  intro c' r' e; cases e; exact h

theorem cls_fail {f : Nat → Bool} {pos : Nat} {rs : List Nat} (h : Stops f rs) : cls f pos rs = none := by
  cases rs with
  | nil => rfl
  | cons c r => simp [cls, h c r rfl]

theorem chr_fail {c : Nat} {pos : Nat} {rs : List Nat} (h : ∀ d r, rs = d :: r → d ≠ c) : chr c pos rs = none :=
  cls_fail (fun d r e => by simp [h d r e])

theorem chr_fail_cons {c d : Nat} {pos : Nat} {rs : List Nat} (h : d ≠ c) : chr c pos (d :: rs) = none :=
  chr_fail (fun _ _ e => by cases e; exact h)

/-! ## Stars -/

theorem starAux_cls (f : Nat → Bool) : ∀ (xs : List Nat) (rest : List Nat) (fuel pos : Nat), (∀ c ∈ xs, f c = true) →
    Stops f rest → xs.length < fuel → starAux (cls f) fuel pos (xs ++ rest) = (pos + xs.length, rest, []) := by
  intro xs
  induction xs with
  | nil =>
    intro rest fuel pos _ hs hf
    obtain ⟨n, rfl⟩ : ∃ n, fuel = n + 1 := ⟨fuel - 1, by simp at hf; omega⟩
    simp [starAux, cls_fail hs]
  | cons x xs ih =>
    intro rest fuel pos hx hs hf
    obtain ⟨n, rfl⟩ : ∃ n, fuel = n + 1 := ⟨fuel - 1, by simp at hf; omega⟩
    simp only [starAux, List.cons_append, cls_some (hx x (by simp)),
      ih rest n (pos + 1) (fun c hc => hx c (by simp [hc])) hs (by simp at hf; omega)]
    simp; omega

theorem star_cls (f : Nat → Bool) (xs rest : List Nat) (pos : Nat) (h : ∀ c ∈ xs, f c = true) (hs : Stops f rest) :
    star (cls f) pos (xs ++ rest) = some (pos + xs.length, rest, []) := by
  simp only [star]
  rw [starAux_cls f xs rest _ pos h hs (by simp; omega)]

theorem plus_cls (f : Nat → Bool) (xs rest : List Nat) (pos : Nat) (hne : xs ≠ []) (h : ∀ c ∈ xs, f c = true)
    (hs : Stops f rest) : plus (cls f) pos (xs ++ rest) = some (pos + xs.length, rest, []) := by
  cases xs with
  | nil => exact absurd rfl hne
  | cons x xs =>
    have := seq_some (p := cls f) (q := star (cls f)) (cls_some (f := f) (pos := pos) (rs := xs ++ rest) (h x (by simp)))
      (star_cls f xs rest (pos + 1) (fun c hc => h c (by simp [hc])) hs)
    simp only [plus, List.cons_append, this]
    simp; omega

theorem plus_cls_fail (f : Nat → Bool) (rest : List Nat) (pos : Nat) (hs : Stops f rest) : plus (cls f) pos rest = none :=
  seq_fail1 (cls_fail hs)

/-- A blank. -/
def isBlank (c : Nat) : Bool := c == 32 || c == 9

theorem sp_some (ws rest : List Nat) (pos : Nat) (hne : ws ≠ []) (h : ∀ c ∈ ws, isBlank c = true) (hs : Stops isBlank rest) :
    sp pos (ws ++ rest) = some (pos + ws.length, rest, []) := plus_cls isBlank ws rest pos hne h hs

theorem sp_fail (rest : List Nat) (pos : Nat) (hs : Stops isBlank rest) : sp pos rest = none :=
  plus_cls_fail isBlank rest pos hs

/-- Blanks are skipped. -/
theorem star_sp (ws rest : List Nat) (pos : Nat) (h : ∀ c ∈ ws, isBlank c = true) (hs : Stops isBlank rest) :
    star sp pos (ws ++ rest) = some (pos + ws.length, rest, []) := by
  simp only [star]
  by_cases hne : ws = []
  · subst hne
    simp [starAux, sp_fail rest pos hs]
  · obtain ⟨n, hn⟩ : ∃ n, (ws ++ rest).length + 1 = n + 1 + 1 := by
      cases ws with
      | nil => exact absurd rfl hne
      | cons w ws => exact ⟨(ws ++ rest).length, by simp⟩
    rw [hn]
    simp [starAux, sp_some ws rest pos hne h hs, sp_fail rest _ hs]

theorem star_sp_none (rest : List Nat) (pos : Nat) (hs : Stops isBlank rest) :
    star sp pos rest = some (pos, rest, []) := by
  have := star_sp [] rest pos (by simp) hs
  simpa using this

/-! ## Addresses -/

/-- The runes of an ASCII string. -/
abbrev rn (s : Bytes) : List Nat := s.map UInt8.toNat

/-- Addresses as written: a number, `.`, `$`, `/re/`, a mark `'x`, `?re?`, or one of these with an offset
`+n` or `-n` (`n` may be missing). -/
inductive AddrSyn where
  | lit (ds : Bytes)
  | dot
  | dollar
  | re (body : Bytes)
  | mark (c : UInt8)
  | back (body : Bytes)
  | off (a : AddrSyn) (minus : Bool) (ds : Bytes)
  deriving DecidableEq, Repr

/-- The sign of an offset. -/
def signByte (minus : Bool) : UInt8 := if minus then 45 else 43

/-- The text of an address. -/
def AddrSyn.bytes : AddrSyn → Bytes
  | .lit ds => ds
  | .dot => b!"."
  | .dollar => b!"$"
  | .re body => b!"/" ++ body ++ b!"/"
  | .mark c => [39, c]
  | .back body => b!"?" ++ body ++ b!"?"
  | .off a m ds => a.bytes ++ signByte m :: ds

/-- Without an offset. -/
def AddrSyn.Plain : AddrSyn → Prop
  | .off .. => False
  | _ => True

/-- A pattern between delimiters `d`, as typed: not empty, ASCII, no newline, every delimiter in it right after a
backslash, and no backslash at its end. -/
structure PatternOK (d : UInt8) (body : Bytes) : Prop where
  ne : body ≠ []
  ascii : ∀ c ∈ body, c < 0x80
  noNl : 10 ∉ body
  esc : ∀ x y, body = x ++ d :: y → x.getLast? = some 92
  last : body.getLast? ≠ some 92

/-- Patterns without delimiters and backslashes. -/
theorem PatternOK.plain {d : UInt8} {body : Bytes} (hne : body ≠ []) (h : ∀ c ∈ body, c ≠ 10 ∧ c ≠ d ∧ c ≠ 92 ∧ c < 0x80) : PatternOK d body :=
  ⟨hne, fun c hc => (h c hc).2.2.2, fun hc => (h _ hc).1 rfl, fun x y e => absurd rfl (h d (by rw [e]; simp)).2.1,
    fun e => (h 92 (List.mem_of_getLast? e)).2.2.1 rfl⟩

/-- Well-formed: digits, at least one; a pattern as above; a mark is a lower-case letter; there is at most one
offset. -/
def AddrSyn.OK : AddrSyn → Prop
  | .lit ds => ds ≠ [] ∧ ∀ c ∈ ds, isDigit c = true
  | .re body => PatternOK 47 body
  | .mark c => 97 ≤ c ∧ c ≤ 122
  | .back body => PatternOK 63 body
  | .off a _ ds => a.OK ∧ a.Plain ∧ ∀ c ∈ ds, isDigit c = true
  | _ => True

/-- The type the address is to get. -/
@[simp] def AddrSyn.typ : AddrSyn → AddrType
  | .lit _ => .num
  | .dot => .current
  | .dollar => .last
  | .re _ => .regex
  | .mark _ => .mark
  | .back _ => .regexReverse
  | .off a _ _ => a.typ

/-- What the address is to become. (The offset is never set, see `C76_offsets_lost`.) -/
def AddrSyn.address (a : AddrSyn) : Address := { typ := a.typ, text := a.bytes, offset := 0 }

/-- The tokens of `addr` on an address at a position. -/
def AddrSyn.toks0 (pos : Nat) : AddrSyn → List Tok
  | .lit ds => [.pegText pos (pos + ds.length), .act 22]
  | .dot => [.act 20]
  | .dollar => [.act 21]
  | .re _ => [.act 24]
  | .mark _ => [.act 23]
  | .back _ => [.act 25]
  | .off a _ _ => a.toks0 pos

/-- The tokens of `addrO` on an address at a position. -/
def AddrSyn.toks (a : AddrSyn) (pos : Nat) : List Tok :=
  a.toks0 pos ++ [.pegText pos (pos + a.bytes.length), .act 19]

theorem isDig_toNat {c : UInt8} (h : isDigit c = true) : isDig c.toNat = true := by
  rw [isDigit_iff] at h
  simp [isDig, h.1, h.2]

/-- Runes no address starts with. -/
def NotAddr (rs : List Nat) : Prop :=
  Stops (fun c => isDig c || c == 39 || c == 47 || c == 63 || c == 46 || c == 36) rs

theorem NotAddr.sub {rs : List Nat} (h : NotAddr rs) {f : Nat → Bool}
    (hf : ∀ c, f c = true → (isDig c || c == 39 || c == 47 || c == 63 || c == 46 || c == 36) = true) : Stops f rs := by
  intro c r e
  have := h c r e
  cases hfc : f c with
  | false => rfl
  | true => exact absurd (hf c hfc) (by simpa using this)

theorem addr_fail {rs : List Nat} (pos : Nat) (h : NotAddr rs) : addr pos rs = none := by
  have hs : ∀ c, (c = 39 ∨ c = 47 ∨ c = 63 ∨ c = 46 ∨ c = 36) → chr c pos rs = none := by
    intro c hc
    refine cls_fail (h.sub fun d hd => ?_)
    simp at hd; subst hd
    rcases hc with rfl | rfl | rfl | rfl | rfl <;> simp
  refine alt_fail (seq_fail1 (capture_fail (plus_cls_fail _ _ _ (h.sub fun d hd => by simp [hd])))) ?_
  refine alt_fail (seq_fail1 (hs 39 (by simp))) (alt_fail (seq_fail1 (hs 47 (by simp))) ?_)
  exact alt_fail (seq_fail1 (hs 63 (by simp))) (alt_fail (seq_fail1 (hs 46 (by simp))) (seq_fail1 (hs 36 (by simp))))

theorem addrO_fail {rs : List Nat} (pos : Nat) (h : NotAddr rs) : addrO pos rs = none :=
  seq_fail1 (capture_fail (seq_fail1 (addr_fail pos h)))

/-- One item of a pattern: an escaped delimiter or any other character. -/
def patItem (d : Nat) : P := (chr 92 ⬝ chr d) / (notP (chr 10 / chr d) ⬝ dot)

theorem patItem_stop (d : Nat) (hd : d ≠ 92) (r : List Nat) (pos : Nat) : patItem d pos (d :: r) = none := by
  refine alt_fail (seq_fail1 (chr_fail_cons hd)) (seq_fail1 ?_)
  have : (chr 10 / chr d) pos (d :: r) ≠ none := by
    by_cases h : d = 10
    · subst h; rw [alt_left chr_some]; simp
    · rw [alt_right (chr_fail_cons h), chr_some]; simp
  cases h : (chr 10 / chr d) pos (d :: r) with
  | none => exact absurd h this
  | some x => simp [notP, h]

theorem patItem_esc (d : Nat) (r : List Nat) (pos : Nat) : patItem d pos (92 :: d :: r) = some (pos + 2, r, []) :=
  alt_left (seq_some chr_some chr_some)

theorem patItem_one (d c : Nat) (r : List Nat) (pos : Nat) (h1 : c ≠ 10) (h2 : c ≠ d) (h3 : c = 92 → ∀ r', r ≠ d :: r') :
    patItem d pos (c :: r) = some (pos + 1, r, []) := by
  have hf : (chr 92 ⬝ chr d) pos (c :: r) = none := by
    by_cases hc : c = 92
    · subst hc
      exact seq_fail2 chr_some (chr_fail fun x r' e => fun hx => h3 rfl r' (by rw [e, hx]))
    · exact seq_fail1 (chr_fail_cons hc)
  rw [patItem, alt_right hf]
  refine seq_some (t1 := []) (t2 := []) (pos1 := pos) (rs1 := c :: r) ?_ (cls_some rfl)
  have : (chr 10 / chr d) pos (c :: r) = none := alt_fail (chr_fail_cons h1) (chr_fail_cons h2)
  simp [notP, this]

theorem patItem_len {d pos pos1 : Nat} {rs rs1 : List Nat} {t : List Tok} (h : patItem d pos rs = some (pos1, rs1, t)) :
    rs.length ≤ rs1.length + 2 := by
  match rs with
  | [] => simp
  | [c] => simp
  | c :: c2 :: rs =>
    simp only [patItem, alt, seq, chr, cls, notP, dot] at h
    grind

theorem byte_ne {c n : UInt8} (h : c ≠ n) : c.toNat ≠ n.toNat := fun he => h (UInt8.toNat_inj.1 he)

/-- The items of a pattern are taken up to the closing delimiter. -/
theorem patItems (d : UInt8) (hd : d ≠ 92) (rest : List Nat) : ∀ (n : Nat) (body : Bytes), body.length ≤ n → ∀ (fuel pos : Nat),
    10 ∉ body → (∀ x y, body = x ++ d :: y → x.getLast? = some 92) → body.getLast? ≠ some 92 → body.length < fuel →
    starAux (patItem d.toNat) fuel pos (rn body ++ d.toNat :: rest) = (pos + body.length, d.toNat :: rest, []) := by
  have hd' : d.toNat ≠ 92 := byte_ne hd
  intro n
  induction n with
  | zero =>
    intro body hb fuel pos _ _ _ hf
    obtain rfl : body = [] := List.length_eq_zero_iff.1 (by omega)
    obtain ⟨k, rfl⟩ : ∃ k, fuel = k + 1 := ⟨fuel - 1, by simp at hf; omega⟩
    simp [starAux, patItem_stop _ hd']
  | succ n ih =>
    intro body hb fuel pos hnl hesc hlast hf
    obtain ⟨k, rfl⟩ : ∃ k, fuel = k + 1 := ⟨fuel - 1, by omega⟩
    match body, hb, hnl, hesc, hlast, hf with
    | [], _, _, _, _, _ => simp [starAux, patItem_stop _ hd']
    | [c], hb, hnl, hesc, hlast, hf =>
      have h1 : c ≠ 10 := fun h => hnl (by simp [h])
      have h2 : c ≠ d := fun h => by have := hesc [] [] (by simp [h]); simp at this
      have h3 : c ≠ 92 := fun h => hlast (by simp [h])
      have one := patItem_one d.toNat c.toNat (d.toNat :: rest) pos (byte_ne h1) (byte_ne h2) (fun h => absurd h (byte_ne h3))
      have ih' := ih [] (by simp) k (pos + 1) (by simp) (by simp) (by simp) (by simp at hf ⊢; omega)
      simp only [rn, List.map_cons, List.map_nil, List.cons_append, List.nil_append, starAux, one] at ih' ⊢
      rw [ih']
      rfl
    | c :: c2 :: body, hb, hnl, hesc, hlast, hf =>
      have h1 : c ≠ 10 := fun h => hnl (by simp [h])
      have h2 : c ≠ d := fun h => by have := hesc [] (c2 :: body) (by simp [h]); simp at this
      have hlast2 : (c2 :: body).getLast? ≠ some 92 := by simpa [List.getLast?_cons_cons] using hlast
      by_cases he : c = 92 ∧ c2 = d
      · obtain ⟨rfl, rfl⟩ := he
        have ih' := ih body (by simp at hb; omega) k (pos + 2) (fun h => hnl (by simp [h]))
          (fun x y hxy => by
            have := hesc (92 :: c2 :: x) y (by simp [hxy])
            cases x with
            | nil => simp at this; exact absurd this hd
            | cons a x => simpa [List.getLast?_cons_cons] using this)
          (fun h => by
            cases body with
            | nil => simp at h
            | cons a body => exact hlast2 (by simpa [List.getLast?_cons_cons] using h)) (by simp at hf ⊢; omega)
        have one := patItem_esc c2.toNat (rn body ++ c2.toNat :: rest) pos
        have e : rn (92 :: c2 :: body) ++ c2.toNat :: rest = 92 :: c2.toNat :: (rn body ++ c2.toNat :: rest) := rfl
        rw [e, starAux, one]
        simp only [ih']
        simp; omega
      · have one := patItem_one d.toNat c.toNat (rn (c2 :: body) ++ d.toNat :: rest) pos (byte_ne h1) (byte_ne h2)
          (fun h r' hr' => he ⟨UInt8.toNat_inj.1 h, by
            simp only [rn, List.map_cons, List.cons_append, List.cons.injEq] at hr'
            exact UInt8.toNat_inj.1 hr'.1⟩)
        have ih' := ih (c2 :: body) (by simp at hb ⊢; omega) k (pos + 1) (fun h => hnl (by simp at h ⊢; grind))
          (fun x y hxy => by
            have := hesc (c :: x) y (by simp [hxy])
            cases x with
            | nil =>
              simp at this
              simp at hxy
              exact absurd ⟨this, hxy.1⟩ he
            | cons a x => simpa [List.getLast?_cons_cons] using this) hlast2 (by simp at hf ⊢; omega)
        have e : rn (c :: c2 :: body) ++ d.toNat :: rest = c.toNat :: (rn (c2 :: body) ++ d.toNat :: rest) := rfl
        rw [e, starAux, one]
        simp only [ih']
        simp; omega

theorem plus_star {p : P} {pos pos1 pos2 : Nat} {rs rs1 rs2 : List Nat} {t1 : List Tok} {fuel : Nat} (h : p pos rs = some (pos1, rs1, t1))
    (hf : starAux p fuel pos rs = (pos2, rs2, [])) (hl : fuel = rs1.length + 2) : plus p pos rs = some (pos2, rs2, []) := by
  subst hl
  simp only [starAux, h] at hf
  simp only [Prod.mk.injEq, List.append_eq_nil_iff] at hf
  obtain ⟨a, b, c, d⟩ := hf
  have := seq_some (p := p) (q := star p) h (show star p pos1 rs1 = some (starAux p (rs1.length + 1) pos1 rs1) from rfl)
  rw [plus, this, c, a, b, d]; rfl

theorem pattern_some (d : UInt8) (hd : d ≠ 92) (body : Bytes) (h : PatternOK d body) (rest : List Nat) (pos : Nat) :
    plus (patItem d.toNat) pos (rn body ++ d.toNat :: rest) = some (pos + body.length, d.toNat :: rest, []) := by
  have hl : 0 < body.length := List.length_pos_iff.2 h.ne
  have key := fun fuel hf => patItems d hd rest body.length body (Nat.le_refl _) fuel pos h.noNl h.esc h.last hf
  cases hi : patItem d.toNat pos (rn body ++ d.toNat :: rest) with
  | none =>
    have := key (body.length + 1) (by omega)
    simp only [starAux, hi, Prod.mk.injEq] at this
    omega
  | some x =>
    obtain ⟨pos1, rs1, t1⟩ := x
    have := patItem_len hi
    simp only [rn, List.length_append, List.length_map, List.length_cons] at this
    exact plus_star hi (key _ (by omega)) rfl

/-- The body of a regular expression up to the closing slash. -/
theorem basicRegex_some (body : Bytes) (rest : List Nat) (pos : Nat) (h : PatternOK 47 body) :
    basicRegex pos (rn body ++ 47 :: rest) = some (pos + body.length, 47 :: rest, []) :=
  pattern_some 47 (by decide) body h rest pos

/-- The body of a regular expression up to the closing question mark. -/
theorem backRegex_some (body : Bytes) (rest : List Nat) (pos : Nat) (h : PatternOK 63 body) :
    backRegex pos (rn body ++ 63 :: rest) = some (pos + body.length, 63 :: rest, []) :=
  pattern_some 63 (by decide) body h rest pos

/-- What may follow an address: not a digit, not a sign. -/
def AfterAddr (rs : List Nat) : Prop := Stops (fun c => isDig c || c == 43 || c == 45) rs

theorem AfterAddr.dig {rs : List Nat} (h : AfterAddr rs) : Stops isDig rs := by
  intro c r e
  have := h c r e
  simp at this; exact this.1.1

theorem AfterAddr.sign {rs : List Nat} (h : AfterAddr rs) : Stops (fun c => c == 43 || c == 45) rs := by
  intro c r e
  have := h c r e
  simp at this ⊢; exact ⟨this.1.2, this.2⟩

theorem addr_some (a : AddrSyn) (ha : a.OK) (hp : a.Plain) (rest : List Nat) (pos : Nat) (hr : Stops isDig rest) :
    addr pos (rn a.bytes ++ rest) = some (pos + a.bytes.length, rest, a.toks0 pos) := by
  cases a with
  | lit ds =>
    obtain ⟨h1, h2⟩ := ha
    refine alt_left ?_
    have := capture_some (plus_cls isDig (rn ds) rest pos (by simpa using h1)
      (by intro c hc; obtain ⟨d, hd, rfl⟩ := List.mem_map.1 hc; exact isDig_toNat (h2 d hd)) hr)
    simp only [rn, List.length_map] at this
    exact seq_some this (act_some 22)
  | dot =>
    simp only [AddrSyn.bytes, rn, List.map_cons, List.map_nil, List.cons_append, List.nil_append]
    refine alt_skip rfl (alt_skip rfl (alt_skip rfl (alt_skip rfl ?_)))
    exact alt_left (seq_some chr_some (act_some 20))
  | dollar =>
    simp only [AddrSyn.bytes, rn, List.map_cons, List.map_nil, List.cons_append, List.nil_append]
    refine alt_skip rfl (alt_skip rfl (alt_skip rfl (alt_skip rfl (alt_skip rfl ?_))))
    exact seq_some chr_some (act_some 21)
  | re body =>
    have e : rn (AddrSyn.re body).bytes ++ rest = 47 :: (rn body ++ 47 :: rest) := by simp [AddrSyn.bytes]
    have el : pos + (AddrSyn.re body).bytes.length = pos + 1 + body.length + 1 := by simp [AddrSyn.bytes]; omega
    rw [e, el]
    refine alt_skip rfl (alt_skip rfl ?_)
    refine alt_left ?_
    exact seq_some chr_some (seq_some (basicRegex_some body rest (pos + 1) ha) (seq_some chr_some (act_some 24)))
  | mark c =>
    have hl : isLower c.toNat = true := by
      have h1 := UInt8.le_iff_toNat_le.1 ha.1
      have h2 := UInt8.le_iff_toNat_le.1 ha.2
      have e1 : (97 : UInt8).toNat = 97 := rfl
      have e2 : (122 : UInt8).toNat = 122 := rfl
      simp only [isLower, Bool.and_eq_true, decide_eq_true_eq]
      omega
    simp only [AddrSyn.bytes, rn, List.map_cons, List.map_nil, List.cons_append, List.nil_append]
    refine alt_skip rfl (alt_left ?_)
    exact seq_some (p := chr 39) chr_some (seq_some (cls_some hl) (act_some 23))
  | back body =>
    have e : rn (AddrSyn.back body).bytes ++ rest = 63 :: (rn body ++ 63 :: rest) := by simp [AddrSyn.bytes]
    have el : pos + (AddrSyn.back body).bytes.length = pos + 1 + body.length + 1 := by simp [AddrSyn.bytes]; omega
    rw [e, el]
    refine alt_skip rfl (alt_skip rfl (alt_skip rfl ?_))
    refine alt_left ?_
    exact seq_some chr_some (seq_some (backRegex_some body rest (pos + 1) ha) (seq_some chr_some (act_some 25)))
  | off => exact hp.elim

theorem sign_cls (m : Bool) : ((signByte m).toNat == 43 || (signByte m).toNat == 45) = true := by cases m <;> rfl

theorem addrO_some (a : AddrSyn) (ha : a.OK) (rest : List Nat) (pos : Nat) (hr : AfterAddr rest) :
    addrO pos (rn a.bytes ++ rest) = some (pos + a.bytes.length, rest, a.toks pos) := by
  have plain : ∀ a : AddrSyn, a.OK → a.Plain → addrO pos (rn a.bytes ++ rest) = some (pos + a.bytes.length, rest, a.toks pos) := by
    intro a ha hp
    have h1 := addr_some a ha hp rest pos hr.dig
    have h3 : opt offsetR (pos + a.bytes.length) rest = some (pos + a.bytes.length, rest, []) :=
      opt_none (seq_fail1 (cls_fail hr.sign))
    have := seq_some (capture_some (seq_some h1 h3)) (act_some 19)
    simp only [List.append_nil, List.append_assoc] at this
    simp only [addrO]
    rw [this]
    rfl
  cases a with
  | off a m ds =>
    obtain ⟨ha, hp, hds⟩ := ha
    have e : rn (AddrSyn.off a m ds).bytes ++ rest = rn a.bytes ++ ((signByte m).toNat :: (rn ds ++ rest)) := by simp [AddrSyn.bytes]
    have el : pos + (AddrSyn.off a m ds).bytes.length = pos + a.bytes.length + 1 + ds.length := by simp [AddrSyn.bytes]; omega
    have h1 := addr_some a ha hp ((signByte m).toNat :: (rn ds ++ rest)) pos (Stops.cons (by cases m <;> rfl))
    have h2 := star_cls isDig (rn ds) rest (pos + a.bytes.length + 1)
      (by intro c hc; obtain ⟨d, hd, rfl⟩ := List.mem_map.1 hc; exact isDig_toNat (hds d hd)) hr.dig
    have h3 : opt offsetR (pos + a.bytes.length) ((signByte m).toNat :: (rn ds ++ rest)) =
        some (pos + a.bytes.length + 1 + ds.length, rest, []) := by
      refine opt_some ?_
      have := seq_some (p := cls (fun c => c == 43 || c == 45)) (cls_some (pos := pos + a.bytes.length) (sign_cls m)) h2
      simpa [offsetR] using this
    have := seq_some (capture_some (seq_some h1 h3)) (act_some 19)
    simp only [List.append_nil, List.append_assoc] at this
    rw [e, el]
    simp only [addrO]
    rw [this]
    simp [AddrSyn.toks, AddrSyn.toks0, AddrSyn.bytes, Nat.add_assoc, Nat.add_comm, Nat.add_left_comm]
  | lit ds => exact plain _ ha trivial
  | dot => exact plain _ ha trivial
  | dollar => exact plain _ ha trivial
  | re body => exact plain _ ha trivial
  | mark c => exact plain _ ha trivial
  | back body => exact plain _ ha trivial

/-- Blanks. -/
def Blanks (ws : Bytes) : Prop := ∀ c ∈ ws, c = 32 ∨ c = 9

theorem Blanks.rn {ws : Bytes} (h : Blanks ws) : ∀ c ∈ rn ws, isBlank c = true := by
  intro c hc
  obtain ⟨d, hd, rfl⟩ := List.mem_map.1 hc
  rcases h d hd with rfl | rfl <;> rfl

theorem addr_head (a : AddrSyn) (ha : a.OK) (rest : List Nat) : ∃ c r, rn a.bytes ++ rest = c :: r ∧
    (isDig c || c == 47 || c == 46 || c == 36 || c == 39 || c == 63) = true := by
  induction a generalizing rest with
  | lit ds =>
    obtain ⟨h1, h2⟩ := ha
    cases ds with
    | nil => exact absurd rfl h1
    | cons d ds => exact ⟨d.toNat, _, rfl, by simp [isDig_toNat (h2 d (by simp))]⟩
  | dot => exact ⟨46, _, rfl, rfl⟩
  | dollar => exact ⟨36, _, rfl, rfl⟩
  | re body => exact ⟨47, _, rfl, rfl⟩
  | mark c => exact ⟨39, _, rfl, rfl⟩
  | back body => exact ⟨63, _, rfl, rfl⟩
  | off a m ds ih =>
    obtain ⟨c, r, e, hc⟩ := ih ha.1 ((signByte m).toNat :: (rn ds ++ rest))
    exact ⟨c, r, by rw [← e]; simp [AddrSyn.bytes], hc⟩

theorem addr_not_blank (a : AddrSyn) (ha : a.OK) (rest : List Nat) : Stops isBlank (rn a.bytes ++ rest) := by
  obtain ⟨c, r, e, hc⟩ := addr_head a ha rest
  rw [e]
  refine Stops.cons ?_
  simp [isDig, isBlank] at hc ⊢
  omega

/-- What may follow an address and its blanks: not a digit, sign or blank. -/
def AfterBlanks (rs : List Nat) : Prop := Stops (fun c => isDig c || c == 43 || c == 45 || isBlank c) rs

theorem AfterBlanks.blank {rs : List Nat} (h : AfterBlanks rs) : Stops isBlank rs := by
  intro c r e
  have := h c r e
  simp at this; exact this.2

theorem AfterBlanks.after {rs : List Nat} (h : AfterBlanks rs) {ws : Bytes} (hw : Blanks ws) : AfterAddr (rn ws ++ rs) := by
  cases ws with
  | nil =>
    intro c r e
    have := h c r e
    simp at this ⊢; exact this.1
  | cons w ws =>
    refine Stops.cons ?_
    rcases hw w (by simp) with rfl | rfl <;> rfl

theorem startAddr_some (a : AddrSyn) (ha : a.OK) (w1 w2 : Bytes) (hw1 : Blanks w1) (hw2 : Blanks w2) (rest : List Nat) (pos : Nat)
    (hr : AfterBlanks rest) : startAddr pos (rn w1 ++ (rn a.bytes ++ (rn w2 ++ rest))) =
      some (pos + w1.length + a.bytes.length + w2.length, rest, a.toks (pos + w1.length) ++ [.act 17]) := by
  have h1 := star_sp (rn w1) (rn a.bytes ++ (rn w2 ++ rest)) pos hw1.rn (addr_not_blank a ha _)
  have h2 := addrO_some a ha (rn w2 ++ rest) (pos + w1.length) (hr.after hw2)
  have h3 := star_sp (rn w2) rest (pos + w1.length + a.bytes.length) hw2.rn hr.blank
  simp only [rn, List.length_map] at h1 h3
  have := seq_some h1 (seq_some h2 (seq_some h3 (act_some 17)))
  simpa [startAddr] using this

theorem endAddr_some (a : AddrSyn) (ha : a.OK) (w1 w2 : Bytes) (hw1 : Blanks w1) (hw2 : Blanks w2) (rest : List Nat) (pos : Nat)
    (hr : AfterBlanks rest) : endAddr pos (rn w1 ++ (rn a.bytes ++ (rn w2 ++ rest))) =
      some (pos + w1.length + a.bytes.length + w2.length, rest, a.toks (pos + w1.length) ++ [.act 18]) := by
  have h1 := star_sp (rn w1) (rn a.bytes ++ (rn w2 ++ rest)) pos hw1.rn (addr_not_blank a ha _)
  have h2 := addrO_some a ha (rn w2 ++ rest) (pos + w1.length) (hr.after hw2)
  have h3 := star_sp (rn w2) rest (pos + w1.length + a.bytes.length) hw2.rn hr.blank
  simp only [rn, List.length_map] at h1 h3
  have := seq_some h1 (seq_some h2 (seq_some h3 (act_some 18)))
  simpa [endAddr] using this

theorem startAddr_fail (ws : Bytes) (hw : Blanks ws) (rest : List Nat) (pos : Nat) (hb : Stops isBlank rest) (hn : NotAddr rest) :
    startAddr pos (rn ws ++ rest) = none :=
  seq_fail2 (star_sp (rn ws) rest pos hw.rn hb) (seq_fail1 (addrO_fail _ hn))

theorem endAddr_fail (ws : Bytes) (hw : Blanks ws) (rest : List Nat) (pos : Nat) (hb : Stops isBlank rest) (hn : NotAddr rest) :
    endAddr pos (rn ws ++ rest) = none :=
  seq_fail2 (star_sp (rn ws) rest pos hw.rn hb) (seq_fail1 (addrO_fail _ hn))

end Ed
