import Verif.Locale.ItemChecks
import Verif.Locale.ParserProps

/-!
# The generated parser accepts every derivation of the unambiguous grammar
-/

namespace Locale
open Go

/-! ## Derivations with the symbols of the tables -/

/-- Like `Derives`, for `grammar2`. -/
inductive Derives2 : List Int → List Tok → Def → List Bytes → Def → Prop
  | nil (d : Def) : Derives2 [] [] d [] d
  | tm (x : Tm) (v : Bytes) (ss : List Int) (ts : List Tok) (d d' : Def) (vs : List Bytes)
    (h : Derives2 ss ts d vs d') : Derives2 ((Sym.t x).num :: ss) (⟨x.code, v⟩ :: ts) d (v :: vs) d'
  | nt (k : Nat) (l : Int) (r : List Int) (i : Nat) (hk : grammar2[k]? = some (l, r, i)) (ts ts' : List Tok)
    (d d1 d2 d3 : Def) (ws : List Bytes) (v : Bytes) (ss : List Int) (vs : List Bytes) (h : Derives2 r ts d ws d1)
    (hm : Means (actionOf i) ws d1 v d2) (h' : Derives2 ss ts' d2 vs d3) : Derives2 (l :: ss) (ts ++ ts') d (v :: vs) d3

theorem Derives2.append {ss ts d vs d'} (h : Derives2 ss ts d vs d') {ss' ts' vs' d''} (h' : Derives2 ss' ts' d' vs' d'') :
    Derives2 (ss ++ ss') (ts ++ ts') d (vs ++ vs') d'' := by
  induction h with
  | nil d => simpa using h'
  | tm x v ss ts d d' vs _ ih => exact Derives2.tm x v _ _ _ _ _ (ih h')
  | nt k l r i hk ts ts1 d d1 d2 d3 ws v ss vs h hm _ _ ih =>
    rw [List.append_assoc]
    exact Derives2.nt k l r i hk ts _ d d1 d2 _ ws v _ _ h hm (ih h')

/-! ## Tokens -/

/-- The number of the next token. -/
def tokOf : List Tok → Int
  | [] => 1
  | t :: _ => match yylex1 t.code with
    | .ok n => n
    | .error _ => 0

theorem code_ok : (Tm.list.all fun x => decide (yylex1 x.code = .ok (Sym.t x).num) && decide (0 < x.code)) = true := by
  decide +kernel

theorem yylex1_code (x : Tm) : yylex1 x.code = .ok (Sym.t x).num ∧ 0 < x.code := by
  have := List.all_eq_true.mp code_ok x (List.mem_of_getElem? (Tm.list_get x))
  simpa using this

theorem tm_bound (x : Tm) : x.ctorIdx < 95 := by
  have := Tm.list_get x
  exact (List.getElem?_eq_some_iff.mp this).1

theorem tokOf_tm (x : Tm) (v : Bytes) (ts : List Tok) : tokOf (⟨x.code, v⟩ :: ts) = (Sym.t x).num := by
  simp only [tokOf, (yylex1_code x).1]

/-- What is left to read. -/
structure Pend (c : Conf) (ts : List Tok) : Prop where
  eq : c.look ++ c.input = ts
  token : ¬(c.char < 0) → yylex1 c.char = .ok c.token
  errflag : c.errflag = 0
  pos : ∀ t ∈ ts, 0 < t.code

theorem lex_pend {c : Conf} {ts : List Tok} (h : Pend c ts) :
    ∃ c', lex c = .ok c' ∧ Pend c' ts ∧ c'.stack = c.stack ∧ c'.d = c.d ∧ c'.above = c.above ∧ c'.token = tokOf ts ∧
      (∀ t ts', ts = t :: ts' → c'.lval = t.val ∧ c'.input = ts' ∧ ¬(c'.char < 0)) := by
  obtain ⟨h1, h2, h3, h4⟩ := h
  by_cases hc : c.char < 0
  · simp only [Conf.look, hc, if_true, List.nil_append] at h1
    subst h1
    cases hi : c.input with
    | nil =>
      refine ⟨{ c with char := -1, token := 1 }, ?_, ⟨?_, ?_, h3, ?_⟩, rfl, rfl, rfl, rfl, ?_⟩
      · simp only [lex, if_pos hc, hi, yylex1_neg (show (-1 : Int) ≤ 0 by omega)]
        simp only [bind, Except.bind, hi]
      · simp [Conf.look, hi]
      · simp
      · simp
      · intro t ts' h; cases h
    | cons t rest =>
      rw [hi] at h4
      have hpos := h4 t (by simp)
      obtain ⟨k, hk, -⟩ := yylex1_spec t.code
      refine ⟨{ c with char := t.code, token := k, lval := t.val, input := rest }, ?_, ⟨?_, ?_, h3, h4⟩, rfl, rfl, rfl, ?_, ?_⟩
      · simp only [lex, if_pos hc, hi, hk]
        simp only [bind, Except.bind]
      · simp [Conf.look, show ¬(t.code < 0) by omega]
      · intro _; exact hk
      · simp [tokOf, hk]
      · intro t' ts' h
        cases h
        exact ⟨rfl, rfl, by simp; omega⟩
  · have heq : ts = ⟨c.char, c.lval⟩ :: c.input := by rw [← h1]; simp [Conf.look, hc]
    refine ⟨c, by simp [lex, hc], ⟨h1, h2, h3, h4⟩, rfl, rfl, rfl, ?_, ?_⟩
    · rw [heq]; simp [tokOf, h2 hc]
    · intro t ts' h
      rw [heq] at h
      cases h
      exact ⟨rfl, rfl, hc⟩

/-! ## Single rounds -/

/-- The parser gets from one configuration to the other. -/
def Reach (handler : Bool) (c c' : Conf) : Prop := ∃ n, ∀ fuel, run handler (fuel + n) c = run handler fuel c'

theorem Reach.refl {handler : Bool} (c : Conf) : Reach handler c c := ⟨0, fun _ => rfl⟩

theorem Reach.trans {handler : Bool} {a b c : Conf} (h : Reach handler a b) (h' : Reach handler b c) :
    Reach handler a c := by
  obtain ⟨n, h⟩ := h
  obtain ⟨m, h'⟩ := h'
  refine ⟨m + n, fun fuel => ?_⟩
  rw [← Nat.add_assoc, h, h']

theorem Reach.step {handler : Bool} {c c' : Conf} (h : step handler c = .ok (.next c')) : Reach handler c c' :=
  ⟨1, fun fuel => by simp only [run, h]⟩

theorem shift_step {handler : Bool} {c : Conf} {x : Tm} {v : Bytes} {ts : List Tok} (hp : Pend c (⟨x.code, v⟩ :: ts))
    {e : Entry} {below : List Entry} (hst : c.stack = e :: below) {s : Nat} (hs : e.state = s) (hs3 : s < 316) {s' : Nat}
    (hsh : shiftP s (Sym.t x).num = some s') :
    s' < 316 ∧ ∃ c', Reach handler c c' ∧ c'.stack = ⟨s', v⟩ :: c.stack ∧ c'.d = c.d ∧ Pend c' ts := by
  simp only [shiftP] at hsh
  split at hsh
  · cases hsh
  rename_i hf
  split at hsh
  · cases hsh
  rename_i hb
  simp only [Bool.or_eq_true, decide_eq_true_eq, not_or] at hb
  split at hsh
  · rename_i hk
    simp only [beq_iff_eq] at hk
    obtain ⟨y, hy, hy', hy3⟩ := act_bound (n := pactP s + (Sym.t x).num) (by omega) (by omega)
    rw [hy'] at hsh hk
    simp only [Int.toNat_natCast, Option.some.injEq] at hsh hk
    subst hsh
    refine ⟨hy3, ?_⟩
    obtain ⟨c1, hl, hp1, l1, l2, l3, l4, l5⟩ := lex_pend hp
    rw [tokOf_tm] at l4
    obtain ⟨l6, l7, l8⟩ := l5 _ _ rfl
    refine ⟨push { c1 with char := -1, token := -1, yyval := c1.lval, errflag := c1.errflag - 1 } y, Reach.step ?_, ?_, ?_, ?_⟩
    · simp only [Locale.step, hst, hs, at_pact hs3, bind, Except.bind, yyFlag, if_neg hf, hl, l4, yyLast]
      rw [if_neg (by omega)]
      simp only [hy, at_chk hy3, hk, if_true]
    · simp [push, l1, l6]
    · simp [push, l2]
    · refine ⟨?_, by simp [push], by simp [push, hp1.errflag], fun t ht => hp.pos t (by simp [ht])⟩
      simp [push, Conf.look, l7]
  · cases hsh

theorem dflt_of_noshift {handler : Bool} {c : Conf} {ts : List Tok} (hp : Pend c ts) {e : Entry} {below : List Entry}
    (hst : c.stack = e :: below) {s : Nat} (hs : e.state = s) (hs3 : s < 316) (hsh : shiftP s (tokOf ts) = none) :
    ∃ c', step handler c = dflt handler c' s ∧ Pend c' ts ∧ c'.stack = c.stack ∧ c'.d = c.d ∧ c'.above = c.above := by
  simp only [shiftP] at hsh
  simp only [step, hst, hs, at_pact hs3, bind, Except.bind, yyFlag]
  by_cases hf : pactP s ≤ -1000
  · rw [if_pos hf]
    exact ⟨c, rfl, hp, hst, rfl, rfl⟩
  · rw [if_neg hf] at hsh ⊢
    obtain ⟨c1, hl, hp1, l1, l2, l3, l4, l5⟩ := lex_pend hp
    simp only [hl, l4, yyLast]
    by_cases hb : pactP s + tokOf ts < 0 ∨ pactP s + tokOf ts ≥ 468
    · rw [if_pos hb]
      exact ⟨c1, rfl, hp1, l1.trans hst, l2, l3⟩
    · rw [if_neg (by simpa using hb)] at hsh
      rw [if_neg hb]
      obtain ⟨y, hy, hy', hy3⟩ := act_bound (n := pactP s + tokOf ts) (by omega) (by omega)
      rw [hy'] at hsh
      simp only [Int.toNat_natCast] at hsh
      simp only [hy, at_chk hy3]
      by_cases hk : chkP y = tokOf ts
      · simp [hk] at hsh
      · rw [if_neg hk]
        exact ⟨c1, rfl, hp1, l1.trans hst, l2, l3⟩

theorem reduce_step {handler : Bool} {c : Conf} {ts : List Tok} (hp : Pend c ts) {sts rest : List Entry} {e : Entry}
    (hst : c.stack = sts ++ e :: rest) {s q : Nat} (hq : e.state = q)
    {top : Entry} {below : List Entry} (htop : sts ++ e :: rest = top :: below) (hs : top.state = s) (hs3 : s < 316)
    (hsh : shiftP s (tokOf ts) = none) {i : Nat} (hi1 : 1 ≤ i) (hi2 : i < 191) (hdef : defP s = i)
    (hlen : r2P i = sts.length) {a : Nat} (hr1 : r1P i = a) (ha : a < 74) {v : Bytes} {d' : Def}
    (hact : action i sts.reverse ((sts.reverse.map Entry.val ++ c.above).headD []) c.d = .ok (v, d')) :
    ∃ c', Reach handler c c' ∧ c'.stack = ⟨gotoP a q, v⟩ :: e :: rest ∧ c'.d = d' ∧ Pend c' ts := by
  obtain ⟨c1, hst1, hp1, l1, l2, l3⟩ := dflt_of_noshift (handler := handler) hp (hst.trans htop) hs hs3 hsh
  refine ⟨push { c1 with stack := e :: rest, above := sts.reverse.map Entry.val ++ c.above, yyval := v, d := d' } (gotoP a q),
    Reach.step ?_, ?_, ?_, ?_⟩
  · rw [hst1]
    simp only [dflt, at_def hs3, hdef, bind, Except.bind, act]
    rw [if_neg (by omega), if_neg (by omega)]
    simp only [reduce, at_r2 hi2, hlen, bind, Except.bind, Int.toNat_natCast, l1, hst]
    rw [List.drop_left' rfl]
    simp only [at_r1 hi2, hr1, hq, goto_spec ha, List.take_left' rfl, l3, l2, hact]
  · simp [push]
  · simp [push]
  · refine ⟨?_, hp1.token, hp1.errflag, hp1.pos⟩
    exact hp1.eq

/-! ## What the actions do -/

/-- The texts agree except where they are left open. -/
def ValRel : List Int → List Bytes → List Bytes → Prop
  | [], [], [] => True
  | x :: xs, v :: vs, u :: us => (loose x = false → v = u) ∧ ValRel xs vs us
  | _, _, _ => False

theorem ValRel.eq {xs : List Int} {vs us : List Bytes} (h : ValRel xs vs us) (hx : ∀ x ∈ xs, loose x = false) : vs = us := by
  induction xs generalizing vs us with
  | nil => cases vs <;> cases us <;> simp_all [ValRel]
  | cons x xs ih =>
    cases vs with
    | nil => cases us <;> simp [ValRel] at h
    | cons v vs => cases us with
      | nil => simp [ValRel] at h
      | cons u us =>
        simp only [ValRel] at h
        rw [h.1 (hx x (by simp)), ih h.2 (fun y hy => hx y (by simp [hy]))]

theorem ValRel.length {xs : List Int} {vs us : List Bytes} (h : ValRel xs vs us) : xs.length = us.length := by
  induction xs generalizing vs us with
  | nil => cases vs <;> cases us <;> simp_all [ValRel]
  | cons x xs ih =>
    cases vs with
    | nil => cases us <;> simp [ValRel] at h
    | cons v vs => cases us with
      | nil => simp [ValRel] at h
      | cons u us =>
        simp only [ValRel] at h
        simp [ih h.2]

theorem map_val2 {rhs : List Entry} {a b : Bytes} (h : rhs.map Entry.val = [a, b]) :
    ∃ x y : Entry, rhs = [x, y] ∧ x.val = a ∧ y.val = b := by
  match rhs, h with
  | [x, y], h => simp at h; exact ⟨x, y, rfl, h.1, h.2⟩

theorem map_val3 {rhs : List Entry} {a b c : Bytes} (h : rhs.map Entry.val = [a, b, c]) :
    ∃ x y z : Entry, rhs = [x, y, z] ∧ x.val = a ∧ y.val = b ∧ z.val = c := by
  match rhs, h with
  | [x, y, z], h => simp at h; exact ⟨x, y, z, rfl, h.1, h.2.1, h.2.2⟩

theorem atoiAll_of_map {l : List Bytes} {is : List Int} (h : l.map atoi? = is.map some) : atoiAll l = .ok is := by
  induction l generalizing is with
  | nil => cases is <;> simp_all [atoiAll]
  | cons v l ih =>
    cases is with
    | nil => simp at h
    | cons i is =>
      simp only [List.map_cons, List.cons.injEq] at h
      simp only [atoiAll, h.1, ih h.2]
      rfl

theorem action_first {i : Nat} (hi : actionOf i = .first) (rhs : List Entry) (v : Bytes) (d : Def) :
    action i rhs v d = .ok (v, d) := by
  simp only [actionOf] at hi
  simp only [action]
  by_cases h1 : i = 15; · subst h1; simp at hi
  by_cases h2 : i = 120; · subst h2; simp at hi
  by_cases h3 : i = 121; · subst h3; simp at hi
  by_cases h4 : i = 122; · subst h4; simp at hi
  by_cases h5 : i = 123; · subst h5; simp at hi
  by_cases h6 : i = 130; · subst h6; simp at hi
  by_cases h7 : i = 148; · subst h7; simp at hi
  rw [if_neg (by omega), if_neg (by omega), if_neg (by omega), if_neg (by omega), if_neg (by omega),
      if_neg (by omega), if_neg (by omega)]

theorem action_other {i : Nat} (hi : actionOf i ≠ .first) {rhs : List Entry} {ws : List Bytes} (hw : rhs.map Entry.val = ws)
    (hs : ∀ e ∈ rhs, e.state < 316) {d : Def} {v : Bytes} {d' : Def} (hm : Means (actionOf i) ws d v d') (above : List Bytes) :
    action i rhs ((rhs.map Entry.val ++ above).headD []) d = .ok (v, d') := by
  by_cases h1 : i = 15
  · subst h1
    rw [show actionOf 15 = .concat from rfl] at hm
    cases hm
    obtain ⟨x, y, rfl, rfl, rfl⟩ := map_val2 hw
    simp [action]
  by_cases h2 : i = 120
  · subst h2
    rw [show actionOf 120 = .storeString from rfl] at hm
    cases hm with
    | currency s e d =>
      obtain ⟨x, y, z, rfl, hx, rfl, rfl⟩ := map_val3 hw
      simp [action, assignMonetaryString, hx]
    | otherString k s e d hk =>
      obtain ⟨x, y, z, rfl, rfl, rfl, rfl⟩ := map_val3 hw
      simp [action, assignMonetaryString, hk]
  by_cases h3 : i = 121
  · subst h3
    rw [show actionOf 121 = .checkNumber from rfl] at hm
    cases hm with
    | number k s e d n hn =>
      obtain ⟨x, y, z, rfl, rfl, rfl, rfl⟩ := map_val3 hw
      have hst : x.state ≠ intFracDigitsStr := by
        have := hs x (by simp)
        simp only [intFracDigitsStr]; omega
      simp [action, assignMonetaryNumber, hn, hst]; rfl
  by_cases h4 : i = 122
  · subst h4
    rw [show actionOf 122 = .minusOne from rfl] at hm
    cases hm
    obtain ⟨x, y, z, rfl, rfl, rfl, rfl⟩ := map_val3 hw
    have hst : x.state ≠ intFracDigitsStr := by
      have := hs x (by simp)
      simp only [intFracDigitsStr]; omega
    simp only [action, assignMonetaryNumber, atoi_minus_one, if_neg hst]
    rfl
  by_cases h5 : i = 123
  · subst h5
    rw [show actionOf 123 = .storeGrouping from rfl] at hm
    cases hm with
    | grouping k s e d is his =>
      obtain ⟨x, y, z, rfl, rfl, rfl, rfl⟩ := map_val3 hw
      simp only [action, assignMonetaryGrouping, atoiAll_of_map his]
      rfl
  by_cases h6 : i = 130
  · subst h6
    rw [show actionOf 130 = .unquote from rfl] at hm
    cases hm
    obtain ⟨x, y, z, rfl, rfl, rfl, rfl⟩ := map_val3 hw
    simp [action]
  by_cases h7 : i = 148
  · subst h7
    rw [show actionOf 148 = .semicolon from rfl] at hm
    cases hm
    obtain ⟨x, y, z, rfl, rfl, rfl, rfl⟩ := map_val3 hw
    simp [action]
  exact absurd (by simp [actionOf, *]) hi

/-- The action of a production of `grammar2`. -/
theorem action_prod {k : Nat} {l : Int} {r : List Int} {i : Nat} (hk : grammar2[k]? = some (l, r, i)) {rhs : List Entry}
    {ws : List Bytes} (hw : ValRel r ws (rhs.map Entry.val)) (hs : ∀ e ∈ rhs, e.state < 316) {d : Def} {v : Bytes} {d' : Def}
    (hm : Means (actionOf i) ws d v d') (above : List Bytes) :
    ∃ v', action i rhs ((rhs.map Entry.val ++ above).headD []) d = .ok (v', d') ∧ (loose l = false → v = v') := by
  have hl := List.all_eq_true.mp loose_ok _ (List.mem_of_getElem? hk)
  simp only at hl
  by_cases ha : actionOf i = .first
  · rw [if_pos ha] at hl
    rw [ha] at hm
    refine ⟨(rhs.map Entry.val ++ above).headD [], ?_, ?_⟩
    · rw [action_first ha]
      cases hm <;> rfl
    · intro hll
      rw [hll, Bool.false_or] at hl
      cases r with
      | nil => cases hl
      | cons x xs =>
        simp only [Bool.not_eq_eq_eq_not, Bool.not_true] at hl
        cases hm with
        | first v ws d =>
          cases hrv : rhs.map Entry.val with
          | nil => rw [hrv] at hw; simp [ValRel] at hw
          | cons u us =>
            rw [hrv] at hw
            simp only [ValRel] at hw
            simp [hw.1 hl]
        | empty v d => cases hrv : rhs.map Entry.val <;> rw [hrv] at hw <;> simp [ValRel] at hw
  · rw [if_neg ha] at hl
    have heq := hw.eq (fun x hx => by
      have := List.all_eq_true.mp hl x hx
      simpa using this)
    exact ⟨v, action_other ha heq.symm hs hm above, fun _ => rfl⟩

/-! ## First tokens -/

theorem testBit_of_and_eq {m m' : Nat} (h : m &&& m' = m) {t : Nat} (ht : m.testBit t = true) : m'.testBit t = true := by
  rw [← h, Nat.testBit_and, Bool.and_eq_true] at ht
  exact ht.2

theorem firstMask_mono {ss : List Int} {m : Nat} {t : Nat} (h : (firstMask ss m).testBit t = true) :
    (firstMask ss 0).testBit t = true ∨ (ss.all nullable = true ∧ m.testBit t = true) := by
  induction ss with
  | nil => exact .inr ⟨rfl, h⟩
  | cons x xs ih =>
    simp only [firstMask] at h ⊢
    by_cases hx : x > 0
    · simp only [if_pos hx] at h ⊢
      exact .inl h
    · simp only [if_neg hx] at h ⊢
      by_cases hn : nullable x = true
      · simp only [if_pos hn, Nat.testBit_or, Bool.or_eq_true] at h ⊢
        rcases h with h | h
        · exact .inl (.inl h)
        · rcases ih h with h | ⟨h1, h2⟩
          · exact .inl (.inr h)
          · exact .inr ⟨by simp [hn]; simpa using h1, h2⟩
      · simp only [if_neg hn] at h ⊢
        exact .inl h

theorem tokOf_tm_toNat (x : Tm) : (Sym.t x).num > 0 ∧ (1 <<< (Sym.t x).num.toNat).testBit (Sym.t x).num.toNat = true := by
  refine ⟨by simp only [Sym.num]; omega, ?_⟩
  rw [Nat.one_shiftLeft, Nat.testBit_two_pow_self]

theorem first_sound {ss ts d vs d'} (h : Derives2 ss ts d vs d') (rest : List Tok) (m : Nat)
    (hm : m.testBit (tokOf rest).toNat = true) : (firstMask ss m).testBit (tokOf (ts ++ rest)).toNat = true := by
  induction h generalizing rest m with
  | nil d => exact hm
  | tm x v ss ts d d' vs _ ih =>
    obtain ⟨h1, h2⟩ := tokOf_tm_toNat x
    simp only [List.cons_append, tokOf_tm, firstMask, if_pos h1, h2]
  | nt k l r i hk ts ts1 d d1 d2 d3 ws v ss vs h hmm h' ih1 ih2 =>
    have hf := List.all_eq_true.mp first_ok _ (List.mem_of_getElem? hk)
    simp only [Bool.and_eq_true, decide_eq_true_eq, beq_iff_eq, Bool.or_eq_true] at hf
    obtain ⟨⟨⟨⟨hl, hl2⟩, hf1⟩, hf2⟩, -⟩ := hf
    rw [List.append_assoc]
    have i1 := ih1 (ts1 ++ rest) (1 <<< (tokOf (ts1 ++ rest)).toNat) (by rw [Nat.one_shiftLeft, Nat.testBit_two_pow_self])
    have i2 := ih2 rest m hm
    simp only [firstMask, if_neg (show ¬(l > 0) by omega)]
    rcases firstMask_mono i1 with hA | ⟨hn, hB⟩
    · have := testBit_of_and_eq hf1 hA
      split
      · rw [Nat.testBit_or, this, Bool.true_or]
      · exact this
    · have hnl : nullable l = true := by
        rcases hf2 with hf2 | hf2
        · rw [hn] at hf2; cases hf2
        · exact hf2
      rw [if_pos hnl, Nat.testBit_or]
      rw [Nat.one_shiftLeft, Nat.testBit_two_pow] at hB
      simp only [decide_eq_true_eq] at hB
      rw [← hB, i2, Bool.or_true]

/-! ## Items -/

/-- Production `k` at position `dot` with next token `t` is an item of state `s`. -/
def HasItem (s k dot : Nat) (t : Int) : Prop := ∃ it ∈ items s, it.1 = k ∧ it.2.1 = dot ∧ it.2.2.testBit t.toNat = true

theorem subsetIn_spec {s k dot m : Nat} (h : subsetIn s k dot m = true) {t : Int} (ht : m.testBit t.toNat = true) :
    HasItem s k dot t := by
  simp only [subsetIn, List.any_eq_true, Bool.and_eq_true, beq_iff_eq] at h
  obtain ⟨it, h1, ⟨h2, h3⟩, h4⟩ := h
  exact ⟨it, h1, h2, h3, testBit_of_and_eq h4 ht⟩

theorem HasItem.ok {s k dot : Nat} {t : Int} (h : HasItem s k dot t) (hs : s < 316) :
    ∃ m, m.testBit t.toNat = true ∧ itemOK s (k, dot, m) = true := by
  obtain ⟨⟨k', dot', m⟩, h1, h2, h3, h4⟩ := h
  simp only at h2 h3 h4
  subst h2; subst h3
  have := List.all_eq_true.mp items_ok s (by simp; omega)
  exact ⟨m, h4, List.all_eq_true.mp this _ h1⟩

theorem tokOf_range (ts : List Tok) : 1 ≤ tokOf ts ∧ tokOf ts ≤ 98 := by
  cases ts with
  | nil => exact ⟨by decide, by decide⟩
  | cons t ts =>
    obtain ⟨k, hk, h1, h2, -⟩ := yylex1_spec t.code
    simp only [tokOf, hk]
    exact ⟨h1, h2⟩

theorem item_end {s k : Nat} {t : Int} {l r i} (hk : grammar2[k]? = some (l, r, i)) (h : HasItem s k r.length t)
    (hs : s < 316) (h0 : 0 ≤ t) (ht : t ≤ 98) : defP s = i ∧ shiftP s t = none := by
  obtain ⟨m, h1, h2⟩ := h.ok hs
  simp only [itemOK, hk, List.getElem?_eq_none (Nat.le_refl r.length), Bool.and_eq_true, beq_iff_eq] at h2
  refine ⟨h2.1.2, ?_⟩
  have := List.all_eq_true.mp h2.2 t.toNat (by simp; omega)
  rw [h1] at this
  simpa [show ((t.toNat : Nat) : Int) = t by omega] using this

theorem item_tm {s k dot : Nat} {t : Int} {l r i} (hk : grammar2[k]? = some (l, r, i)) (h : HasItem s k dot t) (hs : s < 316)
    {x : Tm} {ss : List Int} (hr : r.drop dot = (Sym.t x).num :: ss) :
    ∃ s', shiftP s (Sym.t x).num = some s' ∧ HasItem s' k (dot + 1) t := by
  obtain ⟨m, h1, h2⟩ := h.ok hs
  have hx : r[dot]? = some (Sym.t x).num := by
    have := List.getElem?_drop (xs := r) (i := dot) (j := 0)
    rw [hr] at this
    simpa using this.symm
  simp only [itemOK, hk, hx, if_pos (tokOf_tm_toNat x).1] at h2
  split at h2
  · cases h2
  · rename_i s' hs'
    exact ⟨s', hs', subsetIn_spec h2 h1⟩

theorem item_nt {s k dot : Nat} {t : Int} {l r i} (hk : grammar2[k]? = some (l, r, i)) (h : HasItem s k dot t) (hs : s < 316)
    {x : Int} {ss : List Int} (hx0 : x < 0) (hr : r.drop dot = x :: ss) :
    ∃ s' : Nat, gotoP (-(phi x)).toNat s = s' ∧ s' < 316 ∧ HasItem s' k (dot + 1) t ∧
      ∃ m, m.testBit t.toNat = true ∧ ∀ t' : Int, (firstMask ss m).testBit t'.toNat = true →
        ∀ q r' i', grammar2[q]? = some (x, r', i') → HasItem s q 0 t' := by
  obtain ⟨m, h1, h2⟩ := h.ok hs
  have hx : r[dot]? = some x := by
    have := List.getElem?_drop (xs := r) (i := dot) (j := 0)
    rw [hr] at this
    simpa using this.symm
  have hss : r.drop (dot + 1) = ss := by
    have := congrArg List.tail hr
    simpa using this
  simp only [itemOK, hk, hx, if_neg (show ¬(x > 0) by omega), hss, Bool.and_eq_true, decide_eq_true_eq] at h2
  obtain ⟨⟨⟨a1, a2⟩, a3⟩, a4⟩ := h2
  refine ⟨(gotoP (-(phi x)).toNat s).toNat, by omega, by omega, subsetIn_spec a3 h1, m, h1, ?_⟩
  intro t' ht' q r' i' hq
  have hq190 : q < 190 := by
    have := (List.getElem?_eq_some_iff.mp hq).1
    rw [grammar2_length] at this
    exact this
  have := List.all_eq_true.mp a4 q (by simp; omega)
  rw [hq] at this
  simp only [bne_self_eq_false, Bool.false_or] at this
  exact subsetIn_spec this ht'

/-! ## The main induction -/

theorem complete {handler : Bool} {ss ts d vs d'} (h : Derives2 ss ts d vs d') {c : Conf} {e : Entry} {below : List Entry}
    (hst : c.stack = e :: below) {s : Nat} (hs : e.state = s) (hs3 : s < 316) {rest : List Tok} (hp : Pend c (ts ++ rest))
    (hd : c.d = d) {k dot : Nat} {l r i} (hk : grammar2[k]? = some (l, r, i)) (hi : HasItem s k dot (tokOf rest))
    (hr : r.drop dot = ss) :
    ∃ c' sts, Reach handler c c' ∧ c'.stack = sts ++ e :: below ∧ ValRel ss vs (sts.reverse.map Entry.val) ∧
      (∀ e' ∈ sts, e'.state < 316) ∧ Pend c' rest ∧ c'.d = d' ∧
      ∃ top below' s', sts ++ e :: below = top :: below' ∧ top.state = (s' : Nat) ∧ s' < 316 ∧
        HasItem s' k (dot + ss.length) (tokOf rest) := by
  induction h generalizing c e below s rest k dot l r i with
  | nil d =>
    exact ⟨c, [], .refl c, by simpa using hst, trivial, by simp, by simpa using hp, hd, e, below, s, rfl, hs, hs3, by simpa using hi⟩
  | tm x v ss ts d d' vs h ih =>
    obtain ⟨s', h1, h2⟩ := item_tm hk hi hs3 hr
    obtain ⟨hs'3, c1, r1, r2, r3, r4⟩ := shift_step (handler := handler) hp hst hs hs3 h1
    obtain ⟨c2, sts, q1, q2, q3, q4, q5, q6, top, below', s2, q7, q8, q9, q10⟩ :=
      ih (c := c1) (e := ⟨s', v⟩) (below := c.stack) r2 (s := s') rfl hs'3 r4 (r3.trans hd) hk h2 (by
        have := congrArg List.tail hr
        simpa using this)
    refine ⟨c2, sts ++ [⟨s', v⟩], r1.trans q1, ?_, ?_, ?_, q5, q6, top, below', s2, ?_, q8, q9, ?_⟩
    · rw [q2, hst]; simp
    · simp only [List.reverse_append, List.reverse_cons, List.reverse_nil, List.nil_append, List.singleton_append,
        List.map_cons, ValRel]
      exact ⟨fun _ => trivial, q3⟩
    · intro e' he'
      rcases List.mem_append.mp he' with he' | he'
      · exact q4 e' he'
      · simp only [List.mem_singleton] at he'
        subst he'
        simp only; omega
    · rw [← q7, hst]; simp
    · rw [show dot + ((Sym.t x).num :: ss).length = dot + 1 + ss.length by simp; omega]
      exact q10
  | nt q l' r' i' hq ts ts1 d d1 d2 d3 ws v ss vs h hm h' ih1 ih2 =>
    have hf := List.all_eq_true.mp first_ok _ (List.mem_of_getElem? hq)
    simp only [Bool.and_eq_true, decide_eq_true_eq, beq_iff_eq, Bool.or_eq_true] at hf
    obtain ⟨⟨⟨⟨hl, hl2⟩, hf1⟩, hf2⟩, -⟩ := hf
    have hg := List.all_eq_true.mp grammar2_ok _ (List.mem_of_getElem? hq)
    simp only [Bool.and_eq_true, decide_eq_true_eq, beq_iff_eq] at hg
    obtain ⟨⟨⟨g1, g2⟩, g3⟩, g4⟩ := hg
    obtain ⟨s', n1, n2, n3, m, n4, n5⟩ := item_nt hk hi hs3 hl hr
    have hfirst := first_sound h' rest m n4
    have hitem := n5 (tokOf (ts1 ++ rest)) hfirst q r' i' hq
    rw [List.append_assoc] at hp
    obtain ⟨c1, sts, q1, q2, q3, q4, q5, q6, top, below', s1, q7, q8, q9, q10⟩ :=
      ih1 (c := c) hst hs hs3 hp hd hq hitem rfl
    rw [Nat.zero_add] at q10
    obtain ⟨t1, t2⟩ := tokOf_range (ts1 ++ rest)
    obtain ⟨e1, e2⟩ := item_end hq q10 q9 (by omega) t2
    rw [← q6] at hm
    obtain ⟨v', hact, hv'⟩ := action_prod hq q3 (fun e he => q4 e (by simpa using he)) hm c1.above
    have hphi : 0 ≤ -(phi l') ∧ -(phi l') < 74 := by
      simp only [phi]
      split
      · omega
      · split
        · omega
        · omega
    obtain ⟨c2, p1, p2, p3, p4⟩ := reduce_step (handler := handler) q5 q2 (q := s) hs q7 q8 q9 e2 g1 g2 e1
      (by rw [g4, q3.length]; simp) (a := (-(phi l')).toNat) (by rw [g3]; omega) (by omega) hact
    obtain ⟨c3, sts3, o1, o2, o3, o4, o5, o6, top3, below3, s3, o7, o8, o9, o10⟩ :=
      ih2 (c := c2) (e := ⟨s', v'⟩) (below := e :: below) (by rw [p2, n1]) (s := s') rfl n2 p4 p3 hk n3 (by
        have := congrArg List.tail hr
        simpa using this)
    refine ⟨c3, sts3 ++ [⟨s', v'⟩], (q1.trans p1).trans o1, ?_, ?_, ?_, o5, o6, top3, below3, s3, ?_, o8, o9, ?_⟩
    · rw [o2]; simp
    · simp only [List.reverse_append, List.reverse_cons, List.reverse_nil, List.nil_append, List.singleton_append,
        List.map_cons, ValRel]
      exact ⟨hv', o3⟩
    · intro e' he'
      rcases List.mem_append.mp he' with he' | he'
      · exact o4 e' he'
      · simp only [List.mem_singleton] at he'
        subst he'
        simp only; omega
    · rw [← o7]; simp
    · rw [show dot + (l' :: ss).length = dot + 1 + ss.length by simp; omega]
      exact o10

theorem goto_start : gotoP 1 0 = 1 := by decide +kernel
theorem def_one : defP 1 = -2 := by decide +kernel
theorem shift_one : shiftP 1 1 = none := by decide +kernel

/-- Every derivation of `grammar2` is accepted. -/
theorem accepts_derives2 {handler : Bool} {toks : List Tok} (hp : ∀ t ∈ toks, 0 < t.code) {d d' : Def} {v : Bytes}
    (h : Derives2 [-1] toks d [v] d') : ∃ fuel, run handler fuel (start toks d) = some (.ok (0, d')) := by
  generalize hss : [(-1 : Int)] = ss at h
  cases h with
  | tm x v ss ts d d' vs h =>
    simp only [List.cons.injEq, Sym.num] at hss
    omega
  | nt k l r i hk ts ts' d d1 d2 d3 ws v ss vs h hm h' =>
    simp only [List.cons.injEq] at hss
    obtain ⟨rfl, rfl⟩ := hss
    cases h'
    rw [List.append_nil] at hp ⊢
    have hk190 : k < 190 := by
      have := (List.getElem?_eq_some_iff.mp hk).1
      rw [grammar2_length] at this
      exact this
    have hit := List.all_eq_true.mp items_start k (by simp; omega)
    rw [hk] at hit
    simp only [bne_self_eq_false, Bool.false_or] at hit
    have hitem : HasItem 0 k 0 (tokOf []) := subsetIn_spec hit (by decide)
    obtain ⟨c1, sts, q1, q2, q3, q4, q5, q6, top, below', s1, q7, q8, q9, q10⟩ :=
      complete (handler := handler) h (c := start ts d) (e := ⟨0, []⟩) (below := []) rfl (s := 0) rfl (by omega) (rest := [])
        ⟨by simp [start, Conf.look], by simp [start], rfl, by simpa using hp⟩ rfl hk hitem rfl
    rw [Nat.zero_add] at q10
    have hg := List.all_eq_true.mp grammar2_ok _ (List.mem_of_getElem? hk)
    simp only [Bool.and_eq_true, decide_eq_true_eq, beq_iff_eq] at hg
    obtain ⟨⟨⟨g1, g2⟩, g3⟩, g4⟩ := hg
    obtain ⟨e1, e2⟩ := item_end hk q10 q9 (by decide) (by decide)
    rw [← q6] at hm
    obtain ⟨v', hact, hv'⟩ := action_prod hk q3 (fun e he => q4 e (by simpa using he)) hm c1.above
    obtain ⟨c2, p1, p2, p3, p4⟩ := reduce_step (handler := handler) q5 q2 (q := 0) rfl q7 q8 q9 e2 g1 g2 e1
      (by rw [g4, q3.length]; simp) (a := 1) (by rw [g3]; rfl) (by omega) hact
    rw [goto_start] at p2
    obtain ⟨c3, x1, x2, x3, x4, x5⟩ := dflt_of_noshift (handler := handler) p4 p2 (s := 1) rfl (by omega) shift_one
    obtain ⟨c4, y1, y2, y3, y4, y5, y6, y7⟩ := lex_pend x2
    have hfin : step handler c2 = .ok (.ret 0 d') := by
      rw [x1]
      simp only [dflt, at_def (show 1 < 316 by omega), def_one, bind, Except.bind, if_true, y1]
      rw [show ((1 : Nat) : Int) = 1 from rfl, yyExca_eq]
      simp only [findExca, and_self, if_true, y6, tokOf, excaAct, or_true]
      rw [if_pos (by decide), y4, x4, p3]
    obtain ⟨n, hn⟩ := q1.trans p1
    refine ⟨1 + n, ?_⟩
    rw [hn]
    simp only [run, hfin]

end Locale
