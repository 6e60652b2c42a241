import Verif.Ed.LineForms

/-! # What the generated parser accepts has one of the forms (C105) -/

namespace Ed
open Go

/-- What the rule takes from an ASCII text is of the form `F`, given what it leaves. -/
def Snd (p : P) (F : Bytes → Bytes → Prop) : Prop :=
  ∀ (pos : Nat) (s : Bytes) (pos2 : Nat) (rs2 : List Nat) (t : List Tok), (∀ c ∈ s, c < 0x80) → p pos (rn s) = some (pos2, rs2, t) →
    ∃ x s2, s = x ++ s2 ∧ rs2 = rn s2 ∧ F x s2

namespace Snd
variable {p q : P} {F G : Bytes → Bytes → Prop}

theorem mono (h : Snd p F) (i : ∀ x r, (∀ c ∈ x, c < 0x80) → F x r → G x r) : Snd p G := by
  intro pos s pos2 rs2 t ha hp
  obtain ⟨x, s2, e1, e2, hF⟩ := h pos s pos2 rs2 t ha hp
  exact ⟨x, s2, e1, e2, i x s2 (fun c hc => ha c (by simp [e1, hc])) hF⟩

theorem seq (hp : Snd p F) (hq : Snd q G) : Snd (p ⬝ q) (fun z r => ∃ x y, z = x ++ y ∧ F x (y ++ r) ∧ G y r) := by
  intro pos s pos2 rs2 t ha h
  simp only [Ed.seq] at h
  split at h
  · cases h
  rename_i pos1 rs1 t1 h1
  split at h
  · cases h
  rename_i pos3 rs3 t3 h3
  simp only [Option.some.injEq, Prod.mk.injEq] at h
  obtain ⟨rfl, rfl, rfl⟩ := h
  obtain ⟨x, s1, rfl, rfl, hF⟩ := hp _ _ _ _ _ ha h1
  obtain ⟨y, s2, rfl, rfl, hG⟩ := hq _ _ _ _ _ (fun c hc => ha c (by simp [hc])) h3
  exact ⟨x ++ y, s2, by simp, rfl, x, y, rfl, hF, hG⟩

theorem alt (hp : Snd p F) (hq : Snd q G) : Snd (p / q) (fun z r => F z r ∨ G z r) := by
  intro pos s pos2 rs2 t ha h
  simp only [Ed.alt] at h
  split at h
  · rename_i h1
    cases h
    obtain ⟨x, s1, e1, e2, hF⟩ := hp _ _ _ _ _ ha h1
    exact ⟨x, s1, e1, e2, Or.inl hF⟩
  · obtain ⟨x, s1, e1, e2, hF⟩ := hq _ _ _ _ _ ha h
    exact ⟨x, s1, e1, e2, Or.inr hF⟩

theorem opt (hp : Snd p F) : Snd (opt p) (fun z r => F z r ∨ z = []) := by
  intro pos s pos2 rs2 t ha h
  simp only [Ed.opt] at h
  split at h
  · rename_i h1
    cases h
    obtain ⟨x, s1, e1, e2, hF⟩ := hp _ _ _ _ _ ha h1
    exact ⟨x, s1, e1, e2, Or.inl hF⟩
  · cases h
    exact ⟨[], s, rfl, rfl, Or.inr rfl⟩

theorem capture (hp : Snd p F) : Snd (capture p) F := by
  intro pos s pos2 rs2 t ha h
  simp only [Ed.capture] at h
  split at h
  · cases h
  rename_i h1
  cases h
  exact hp _ _ _ _ _ ha h1

theorem act (n : Nat) : Snd (act n) (fun z _ => z = []) := by
  intro pos s pos2 rs2 t ha h
  cases h
  exact ⟨[], s, rfl, rfl, rfl⟩

theorem cls (f : Nat → Bool) : Snd (cls f) (fun z _ => ∃ c, z = [c] ∧ f c.toNat = true) := by
  intro pos s pos2 rs2 t ha h
  cases s with
  | nil => cases h
  | cons c s =>
    simp only [rn, List.map_cons, Ed.cls] at h
    split at h
    · rename_i hf
      cases h
      exact ⟨[c], s, rfl, rfl, c, rfl, hf⟩
    · cases h

theorem chr (c : UInt8) (n : Nat) (hn : c.toNat = n) : Snd (chr n) (fun z _ => z = [c]) :=
  (cls _).mono (by
    rintro x r _ ⟨d, rfl, hd⟩
    simp only [beq_iff_eq] at hd
    rw [UInt8.toNat_inj.1 (hd.trans hn.symm)])

/-- A star takes everything it can. -/
theorem starAux_cls (f : Nat → Bool) : ∀ (fuel pos : Nat) (s : Bytes), s.length < fuel → ∃ x s2, s = x ++ s2 ∧
    (starAux (Ed.cls f) fuel pos (rn s)).2.1 = rn s2 ∧ (∀ c ∈ x, f c.toNat = true) ∧ (∀ c r, s2 = c :: r → f c.toNat = false) := by
  intro fuel
  induction fuel with
  | zero => intro pos s h; omega
  | succ fuel ih =>
    intro pos s hf
    cases s with
    | nil => exact ⟨[], [], rfl, rfl, by simp, by simp⟩
    | cons c s =>
      by_cases hc : f c.toNat = true
      · obtain ⟨x, s2, rfl, e, h1, h2⟩ := ih (pos + 1) s (by simp at hf; omega)
        refine ⟨c :: x, s2, rfl, ?_, ?_, h2⟩
        · simp only [rn, List.map_cons, starAux, cls_some hc]
          exact e
        · intro d hd
          rcases List.mem_cons.1 hd with rfl | hd
          · exact hc
          · exact h1 d hd
      · have hc' : f c.toNat = false := by simpa using hc
        refine ⟨[], c :: s, rfl, ?_, by simp, ?_⟩
        · simp only [rn, List.map_cons, starAux, Ed.cls_fail (Stops.cons hc')]
        · intro d r e; cases e; exact hc'

theorem star_cls (f : Nat → Bool) : Snd (star (Ed.cls f)) (fun z r => (∀ c ∈ z, f c.toNat = true) ∧ ∀ c r', r = c :: r' → f c.toNat = false) := by
  intro pos s pos2 rs2 t ha h
  simp only [star, Option.some.injEq] at h
  obtain ⟨x, s2, e1, e2, h1, h2⟩ := starAux_cls f ((rn s).length + 1) pos s (by simp)
  rw [h] at e2
  exact ⟨x, s2, e1, e2, h1, h2⟩

theorem plus_cls (f : Nat → Bool) : Snd (plus (Ed.cls f))
    (fun z r => z ≠ [] ∧ (∀ c ∈ z, f c.toNat = true) ∧ ∀ c r', r = c :: r' → f c.toNat = false) :=
  ((cls f).seq (star_cls f)).mono (by
    rintro x r _ ⟨a, b, rfl, ⟨c, rfl, hc⟩, h1, h2⟩
    refine ⟨by simp, ?_, h2⟩
    intro d hd
    rcases List.mem_cons.1 hd with rfl | hd
    · exact hc
    · exact h1 d hd)

end Snd

/-- Not starting with a blank. -/
def NoBlank (s : Bytes) : Prop := ∀ c r, s = c :: r → c ≠ 32 ∧ c ≠ 9

theorem isBlank_byte {c : UInt8} : isBlank c.toNat = true ↔ c = 32 ∨ c = 9 := by
  simp only [isBlank, Bool.or_eq_true, beq_iff_eq]
  constructor
  · rintro (h | h)
    · exact Or.inl (UInt8.toNat_inj.1 h)
    · exact Or.inr (UInt8.toNat_inj.1 h)
  · rintro (rfl | rfl) <;> simp

theorem isBlank_byte_false {c : UInt8} (h : isBlank c.toNat = false) : c ≠ 32 ∧ c ≠ 9 := by
  constructor <;> (rintro rfl; exact absurd h (by decide))

theorem snd_sp : Snd sp (fun z r => z ≠ [] ∧ Blanks z ∧ NoBlank r) :=
  (Snd.plus_cls isBlank).mono (by
    rintro x r _ ⟨h1, h2, h3⟩
    exact ⟨h1, fun c hc => isBlank_byte.1 (h2 c hc), fun c r' e => isBlank_byte_false (h3 c r' e)⟩)

theorem snd_starSp : Snd (star sp) (fun z r => Blanks z ∧ NoBlank r) := by
  intro pos s pos2 rs2 t ha h
  obtain ⟨x, s2, rfl, -, h1, h2⟩ := Snd.starAux_cls isBlank (s.length + 1) pos s (by simp)
  have hb : Blanks x := fun c hc => isBlank_byte.1 (h1 c hc)
  have hs : Stops isBlank (rn s2) := by
    intro c r e
    cases s2 with
    | nil => cases e
    | cons d s2 => simp only [rn, List.map_cons, List.cons.injEq] at e; rw [← e.1]; exact h2 d s2 rfl
  have := star_sp (rn x) (rn s2) pos hb.rn hs
  rw [show rn (x ++ s2) = rn x ++ rn s2 by simp, this] at h
  cases h
  exact ⟨x, s2, rfl, rfl, hb, fun c r e => isBlank_byte_false (h2 c r e)⟩

theorem snd_param : Snd param (fun z r => z ≠ [] ∧ 10 ∉ z ∧ ∀ c r', r = c :: r' → c = 10) := by
  have e : param = plus (cls (fun c => !(c == 10))) := by
    have : (notP (chr 10) ⬝ dot) = cls (fun c => !(c == 10)) := by
      funext pos rs
      cases rs with
      | nil => rfl
      | cons c rs =>
        by_cases hc : c = 10
        · subst hc; rfl
        · simp [seq, notP, chr, cls, dot, hc]
    rw [param, this]
  rw [e]
  refine (Snd.plus_cls _).mono ?_
  rintro x r _ ⟨h1, h2, h3⟩
  refine ⟨h1, fun hm => ?_, fun c r' e => ?_⟩
  · have := h2 10 hm
    simp at this
  · have := h3 c r' e
    simp at this
    exact UInt8.toNat_inj.1 this

theorem isDig_byte {c : UInt8} (h : isDig c.toNat = true) : isDigit c = true := by
  rw [isDigit_iff]
  simpa [isDig] using h

/-! ## Addresses -/

/-- The items of a pattern, and where they stop. -/
theorem patItems_inv (d : UInt8) (hd : d ≠ 92) (hd10 : d ≠ 10) : ∀ (n : Nat) (s : Bytes), s.length ≤ n → ∀ (fuel pos : Nat), s.length ≤ fuel →
    ∃ x s2, s = x ++ s2 ∧ (starAux (patItem d.toNat) fuel pos (rn s)).2.1 = rn s2 ∧ 10 ∉ x ∧
      (∀ a b, x = a ++ d :: b → a.getLast? = some 92) ∧ (∀ c r, s2 = c :: r → c = 10 ∨ c = d) ∧
      (∀ r, s2 = d :: r → x.getLast? ≠ some 92) := by
  intro n
  induction n with
  | zero =>
    intro s hs fuel pos hf
    obtain rfl : s = [] := List.length_eq_zero_iff.1 (by omega)
    exact ⟨[], [], rfl, by cases fuel <;> rfl, by simp, by simp, by simp, by simp⟩
  | succ n ih =>
    intro s hs fuel pos hf
    cases s with
    | nil => exact ⟨[], [], rfl, by cases fuel <;> rfl, by simp, by simp, by simp, by simp⟩
    | cons c s =>
      obtain ⟨k, rfl⟩ : ∃ k, fuel = k + 1 := ⟨fuel - 1, by simp at hf; omega⟩
      by_cases he : c = 92 ∧ ∃ r, s = d :: r
      · obtain ⟨rfl, r, rfl⟩ := he
        obtain ⟨x, s2, rfl, e, h1, h2, h3, h4⟩ := ih r (by simp at hs; omega) k (pos + 2) (by simp at hf; omega)
        have one := patItem_esc d.toNat (rn (x ++ s2)) pos
        refine ⟨92 :: d :: x, s2, rfl, ?_, ?_, ?_, h3, ?_⟩
        · have e' : rn (92 :: d :: (x ++ s2)) = 92 :: d.toNat :: rn (x ++ s2) := rfl
          rw [e', starAux, one]
          exact e
        · intro hm
          simp only [List.mem_cons] at hm
          rcases hm with h | h | h
          · exact absurd h (by decide)
          · exact hd10 h.symm
          · exact h1 h
        · intro a b hab
          match a, hab with
          | [], hab => simp at hab; exact absurd hab.1.symm hd
          | [y], hab => simp at hab; simp [hab.1]
          | y :: z :: a, hab =>
            simp only [List.cons_append, List.cons.injEq] at hab
            obtain ⟨rfl, rfl, hab⟩ := hab
            have := h2 a b hab
            cases a with
            | nil => simp at this
            | cons w a => simpa [List.getLast?_cons_cons] using this
        · intro r hr
          have := h4 r hr
          cases x with
          | nil => simp; exact hd
          | cons w a => simpa [List.getLast?_cons_cons] using this
      · by_cases h10 : c = 10 ∨ c = d
        · refine ⟨[], c :: s, rfl, ?_, by simp, by simp, ?_, by simp⟩
          · have : patItem d.toNat pos (rn (c :: s)) = none := by
              by_cases hcd : c = d
              · subst hcd; exact patItem_stop _ (byte_ne hd) _ _
              · obtain rfl : c = 10 := by rcases h10 with h | h; exact h; exact absurd h hcd
                exact alt_fail (seq_fail1 (chr_fail_cons (by decide))) (seq_fail1 rfl)
            simp only [starAux, this]
          · intro c' r e; cases e; exact h10
        · have one := patItem_one d.toNat c.toNat (rn s) pos (byte_ne (fun h => h10 (Or.inl h))) (byte_ne (fun h => h10 (Or.inr h)))
            (fun h r' hr' => he ⟨UInt8.toNat_inj.1 h, by
              cases s with
              | nil => cases hr'
              | cons y s =>
                simp only [rn, List.map_cons, List.cons.injEq] at hr'
                exact ⟨s, by rw [UInt8.toNat_inj.1 hr'.1]⟩⟩)
          obtain ⟨x, s2, rfl, e, h1, h2, h3, h4⟩ := ih s (by simp at hs; omega) k (pos + 1) (by simp at hf; omega)
          refine ⟨c :: x, s2, rfl, ?_, ?_, ?_, h3, ?_⟩
          · have e' : rn (c :: (x ++ s2)) = c.toNat :: rn (x ++ s2) := rfl
            rw [e', starAux, one]
            exact e
          · intro hm
            rcases List.mem_cons.1 hm with h | h
            · exact h10 (Or.inl h.symm)
            · exact h1 h
          · intro a b hab
            match a, hab with
            | [], hab => simp at hab; exact absurd (Or.inr hab.1) h10
            | [y], hab =>
              simp at hab
              obtain ⟨rfl, rfl⟩ := hab
              have := h2 [] b rfl
              simp at this
            | y :: z :: a, hab =>
              simp only [List.cons_append, List.cons.injEq] at hab
              obtain ⟨rfl, hab⟩ := hab
              simpa [List.getLast?_cons_cons] using h2 (z :: a) b hab
          · intro r hr hl
            cases x with
            | nil =>
              simp at hl
              exact he ⟨hl, r, by simp [hr]⟩
            | cons w a => exact h4 r hr (by simpa [List.getLast?_cons_cons] using hl)

theorem snd_pattern (d : UInt8) (hd : d ≠ 92) (hd10 : d ≠ 10) :
    Snd (plus (patItem d.toNat)) (fun z r => (∃ r', r = d :: r') → PatternOK d z) := by
  intro pos s pos2 rs2 t ha h
  have hs := fun fuel hf => patItems_inv d hd hd10 s.length s (Nat.le_refl _) fuel pos hf
  simp only [plus, seq] at h
  split at h
  · cases h
  rename_i pos1 rs1 t1 h1
  have hl := patItem_len h1
  simp only [rn, List.length_map] at hl
  obtain ⟨x, s2, e1, e2, a1, a2, a3, a4⟩ := hs (rs1.length + 2) hl
  simp only [starAux, h1] at e2
  simp only [star, Option.some.injEq, Prod.mk.injEq] at h
  obtain ⟨-, rfl, -⟩ := h
  refine ⟨x, s2, e1, e2, ?_⟩
  rintro ⟨r', rfl⟩
  refine ⟨?_, fun c hc => ha c (by simp [e1, hc]), a1, a2, a4 r' rfl⟩
  rintro rfl
  rw [e1] at h1
  have := patItem_stop d.toNat (byte_ne hd) (rn r') pos
  rw [show rn ([] ++ d :: r') = d.toNat :: rn r' from rfl, this] at h1
  cases h1

theorem snd_addr : Snd addr (fun z _ => ∃ a : AddrSyn, a.OK ∧ a.Plain ∧ z = a.bytes) := by
  have lit : Snd literalAddr (fun z _ => ∃ a : AddrSyn, a.OK ∧ a.Plain ∧ z = a.bytes) :=
    ((Snd.plus_cls isDig).capture.seq (Snd.act 22)).mono (by
      rintro x r _ ⟨a, b, rfl, ⟨h1, h2, h3⟩, rfl⟩
      exact ⟨.lit a, ⟨h1, fun c hc => isDig_byte (h2 c hc)⟩, trivial, by simp [AddrSyn.bytes]⟩)
  have mrk : Snd markAddr (fun z _ => ∃ a : AddrSyn, a.OK ∧ a.Plain ∧ z = a.bytes) :=
    ((Snd.chr 39 39 rfl).seq ((Snd.cls isLower).seq (Snd.act 23))).mono (by
      rintro x r _ ⟨a, b, rfl, rfl, c, d, rfl, ⟨m, rfl, hm⟩, rfl⟩
      refine ⟨.mark m, ?_, trivial, by simp [AddrSyn.bytes]⟩
      simp only [isLower, Bool.and_eq_true, decide_eq_true_eq] at hm
      exact ⟨UInt8.le_iff_toNat_le.2 hm.1, UInt8.le_iff_toNat_le.2 hm.2⟩)
  have re : Snd regexAddr (fun z _ => ∃ a : AddrSyn, a.OK ∧ a.Plain ∧ z = a.bytes) :=
    ((Snd.chr 47 47 rfl).seq ((snd_pattern 47 (by decide) (by decide)).seq ((Snd.chr 47 47 rfl).seq (Snd.act 24)))).mono (by
      rintro x r _ ⟨a, b, rfl, rfl, c, d, rfl, hp, f, g, rfl, rfl, rfl⟩
      exact ⟨.re c, hp ⟨r, by simp⟩, trivial, by simp [AddrSyn.bytes]⟩)
  have bk : Snd regexReverseAddr (fun z _ => ∃ a : AddrSyn, a.OK ∧ a.Plain ∧ z = a.bytes) :=
    ((Snd.chr 63 63 rfl).seq ((snd_pattern 63 (by decide) (by decide)).seq ((Snd.chr 63 63 rfl).seq (Snd.act 25)))).mono (by
      rintro x r _ ⟨a, b, rfl, rfl, c, d, rfl, hp, f, g, rfl, rfl, rfl⟩
      exact ⟨.back c, hp ⟨r, by simp⟩, trivial, by simp [AddrSyn.bytes]⟩)
  have dt : Snd (chr 46 ⬝ act 20) (fun z _ => ∃ a : AddrSyn, a.OK ∧ a.Plain ∧ z = a.bytes) :=
    ((Snd.chr 46 46 rfl).seq (Snd.act 20)).mono (by
      rintro x r _ ⟨a, b, rfl, rfl, rfl⟩
      exact ⟨.dot, trivial, trivial, by simp [AddrSyn.bytes]⟩)
  have dl : Snd (chr 36 ⬝ act 21) (fun z _ => ∃ a : AddrSyn, a.OK ∧ a.Plain ∧ z = a.bytes) :=
    ((Snd.chr 36 36 rfl).seq (Snd.act 21)).mono (by
      rintro x r _ ⟨a, b, rfl, rfl, rfl⟩
      exact ⟨.dollar, trivial, trivial, by simp [AddrSyn.bytes]⟩)
  exact (lit.alt (mrk.alt (re.alt (bk.alt (dt.alt dl))))).mono (by
    rintro x r _ (h | h | h | h | h | h) <;> exact h)

theorem snd_addrO : Snd addrO (fun z _ => ∃ a : AddrSyn, a.OK ∧ z = a.bytes) := by
  have off : Snd offsetR (fun z _ => ∃ m ds, (∀ c ∈ ds, isDigit c = true) ∧ z = signByte m :: ds) :=
    ((Snd.cls _).seq (Snd.star_cls isDig)).mono (by
      rintro x r _ ⟨a, b, rfl, ⟨c, rfl, hc⟩, h1, h2⟩
      simp only [Bool.or_eq_true, beq_iff_eq] at hc
      rcases hc with hc | hc
      · exact ⟨false, b, fun c hc => isDig_byte (h1 c hc), by rw [show c = 43 from UInt8.toNat_inj.1 hc]; rfl⟩
      · exact ⟨true, b, fun c hc => isDig_byte (h1 c hc), by rw [show c = 45 from UInt8.toNat_inj.1 hc]; rfl⟩)
  exact ((snd_addr.seq off.opt).capture.seq (Snd.act 19)).mono (by
    rintro x r _ ⟨z, b, rfl, ⟨c, d, rfl, ⟨a, ha, hp, rfl⟩, h⟩, rfl⟩
    rcases h with ⟨m, ds, hds, rfl⟩ | rfl
    · exact ⟨.off a m ds, ⟨ha, hp, hds⟩, by simp [AddrSyn.bytes]⟩
    · exact ⟨a, ha, by simp⟩)

/-- An address with blanks around it. -/
def AddrForm (z _r : Bytes) : Prop := ∃ (w1 : Bytes) (a : AddrSyn) (w2 : Bytes), Blanks w1 ∧ a.OK ∧ Blanks w2 ∧ z = w1 ++ (a.bytes ++ w2)

theorem snd_addrSp (n : Nat) : Snd (star sp ⬝ addrO ⬝ star sp ⬝ act n) AddrForm :=
  (snd_starSp.seq (snd_addrO.seq (snd_starSp.seq (Snd.act n)))).mono (by
    rintro x r _ ⟨w1, b, rfl, ⟨h1, _⟩, c, d, rfl, ⟨a, ha, rfl⟩, w2, g, rfl, ⟨h2, _⟩, rfl⟩
    exact ⟨w1, a, w2, h1, ha, h2, by simp⟩)

theorem snd_startAddr : Snd startAddr AddrForm := snd_addrSp 17
theorem snd_endAddr : Snd endAddr AddrForm := snd_addrSp 18

/-- An address part with blanks before it. -/
def RangeForm (z _r : Bytes) : Prop := ∃ (w1 : Bytes) (r : RangeSyn), Blanks w1 ∧ r.OK ∧ z = w1 ++ r.bytes

theorem snd_optRange : Snd (opt range) RangeForm := by
  have both : ∀ (s : Bool) (n : Nat), (sepByte s).toNat = n → Snd (startAddr ⬝ chr n ⬝ endAddr) RangeForm := fun s n hn =>
    (snd_startAddr.seq ((Snd.chr (sepByte s) n hn).seq snd_endAddr)).mono (by
      rintro x r _ ⟨z, b, rfl, ⟨w1, a, w2, h1, h2, h3, rfl⟩, c, d, rfl, rfl, ⟨w3, a', w4, h4, h5, h6, rfl⟩⟩
      exact ⟨w1, .both s a w2 w3 a' w4, h1, ⟨h2, h5, h3, h4, h6⟩, by simp [RangeSyn.bytes]⟩)
  have so : ∀ (s : Bool) (n k : Nat), (sepByte s).toNat = n → Snd (startAddr ⬝ chr n ⬝ act k) RangeForm := fun s n k hn =>
    (snd_startAddr.seq ((Snd.chr (sepByte s) n hn).seq (Snd.act k))).mono (by
      rintro x r _ ⟨z, b, rfl, ⟨w1, a, w2, h1, h2, h3, rfl⟩, c, d, rfl, rfl, rfl⟩
      exact ⟨w1, .startOnly s a w2, h1, ⟨h2, h3⟩, by simp [RangeSyn.bytes]⟩)
  have eo : ∀ (s : Bool) (n k : Nat), (sepByte s).toNat = n → Snd (chr n ⬝ endAddr ⬝ act k) RangeForm := fun s n k hn =>
    ((Snd.chr (sepByte s) n hn).seq (snd_endAddr.seq (Snd.act k))).mono (by
      rintro x r _ ⟨z, b, rfl, rfl, c, d, rfl, ⟨w1, a, w2, h1, h2, h3, rfl⟩, rfl⟩
      exact ⟨[], .endOnly s w1 a w2, blanks_nil, ⟨h2, h1, h3⟩, by simp [RangeSyn.bytes]⟩)
  have al : ∀ (s : Bool) (n k : Nat), (sepByte s).toNat = n → Snd (chr n ⬝ act k) RangeForm := fun s n k hn =>
    ((Snd.chr (sepByte s) n hn).seq (Snd.act k)).mono (by
      rintro x r _ ⟨z, b, rfl, rfl, rfl⟩
      exact ⟨[], .all s, blanks_nil, trivial, by simp [RangeSyn.bytes]⟩)
  have one : Snd (startAddr ⬝ act 13) RangeForm := (snd_startAddr.seq (Snd.act 13)).mono (by
      rintro x r _ ⟨z, b, rfl, ⟨w1, a, w2, h1, h2, h3, rfl⟩, rfl⟩
      exact ⟨w1, .one a w2, h1, ⟨h2, h3⟩, by simp [RangeSyn.bytes]⟩)
  have rng : Snd range RangeForm := ((both false 44 rfl).alt ((so false 44 9 rfl).alt ((eo false 44 10 rfl).alt
    ((both true 59 rfl).alt ((so true 59 11 rfl).alt ((eo true 59 12 rfl).alt (one.alt ((al false 44 14 rfl).alt (al true 59 15 rfl))))))))).mono (by
      rintro x r _ (h | h | h | h | h | h | h | h | h) <;> exact h)
  refine rng.opt.mono ?_
  rintro x r _ (h | rfl)
  · exact h
  · exact ⟨[], .none, blanks_nil, trivial, rfl⟩

theorem snd_optStart : Snd (opt startAddr) (fun z _ => ∃ (w1 : Bytes) (r : RangeSyn), Blanks w1 ∧ r.OK ∧ r.Simple ∧ z = w1 ++ r.bytes) := by
  refine snd_startAddr.opt.mono ?_
  rintro x r _ (⟨w1, a, w2, h1, h2, h3, rfl⟩ | rfl)
  · exact ⟨w1, .one a w2, h1, ⟨h2, h3⟩, trivial, by simp [RangeSyn.bytes]⟩
  · exact ⟨[], .none, blanks_nil, trivial, trivial, rfl⟩

end Ed
