import Verif.Locale.ParserChecks

/-!
# The generated parser: the invariant and one round
-/

namespace Locale
open Go

/-! ## Derivations -/

theorem Derives.append {ss ts d vs d'} (h : Derives ss ts d vs d') {ss' ts' vs' d''} (h' : Derives ss' ts' d' vs' d'') :
    Derives (ss ++ ss') (ts ++ ts') d (vs ++ vs') d'' := by
  induction h with
  | nil d => simpa using h'
  | tm x v ss ts d d' vs _ ih => exact Derives.tm x v _ _ _ _ _ (ih h')
  | nt p hp ts ts1 d d1 d2 d3 ws v ss vs h hm _ _ ih =>
    rw [List.append_assoc]
    exact Derives.nt p hp ts _ d d1 d2 _ ws v _ _ h hm (ih h')

theorem Derives.length {ss ts d vs d'} (h : Derives ss ts d vs d') : ss.length = vs.length := by
  induction h with
  | nil d => rfl
  | tm x v ss ts d d' vs _ ih => simp [ih]
  | nt p hp ts ts1 d d1 d2 d3 ws v ss vs h hm _ _ ih => simp [ih]

theorem Derives.split {ss ss' ts d vs vs' d'} (h : Derives (ss ++ ss') ts d (vs ++ vs') d')
    (hl : ss.length = vs.length) :
    ∃ ts1 ts2 d1, ts = ts1 ++ ts2 ∧ Derives ss ts1 d vs d1 ∧ Derives ss' ts2 d1 vs' d' := by
  induction ss generalizing ts d vs with
  | nil =>
    have : vs = [] := by cases vs with
      | nil => rfl
      | cons _ _ => simp at hl
    subst this
    exact ⟨[], ts, d, rfl, .nil d, h⟩
  | cons s ss ih =>
    cases vs with
    | nil => simp at hl
    | cons v vs =>
      simp only [List.cons_append] at h
      cases h with
      | tm x v ss1 ts1 d1 d2 vs1 h =>
        obtain ⟨t1, t2, d3, rfl, h1, h2⟩ := ih h (by simpa using hl)
        exact ⟨_ :: t1, t2, d3, rfl, .tm x v _ _ _ _ _ h1, h2⟩
      | nt p hp t1 t2 d1 d2 d3 d4 ws v ss1 vs1 h hm h' =>
        obtain ⟨t3, t4, d5, rfl, h1, h2⟩ := ih h' (by simpa using hl)
        exact ⟨t1 ++ t3, t4, d5, by simp, .nt p hp _ _ _ _ _ _ _ _ _ _ h hm h1, h2⟩

/-! ## Tokens -/

/-- What the token number of code `c` says. -/
def tokOK (c : Int) : Bool :=
  match yylex1 c with
  | .ok t => 2 ≤ t && t ≤ 98 && (t < 4 || match Tm.list[(t - 4).toNat]? with
    | some x => x.code == c && (x.ctorIdx : Int) + 4 == t
    | none => false)
  | .error _ => false

theorem toks_low : ((List.range 59).all fun c => tokOK (c + 1)) = true := by decide +kernel

theorem toks_high : ((List.range 92).all fun c => tokOK (c + 57344)) = true := by decide +kernel

theorem yyTok1_length : yyTok1.length = 60 := by decide +kernel
theorem yyTok2_length : yyTok2.length = 92 := by decide +kernel
theorem yyTok3_eq : yyTok3 = [0] := by unfold yyTok3; rfl
theorem yyExca_eq : yyExca = [-1, 1, 1, -1, -2, 0] := by unfold yyExca; rfl
theorem at_yyTok2_1 : at_ yyTok2 1 = .ok 3 := by decide +kernel
theorem at_yyTok1_0 : at_ yyTok1 0 = .ok 1 := by decide +kernel

theorem yylex1_neg {c : Int} (h : c ≤ 0) : yylex1 c = .ok 1 := by
  simp only [yylex1, if_pos h, at_yyTok1_0]
  rfl

theorem tokOK_spec {c : Int} (h : tokOK c = true) :
    ∃ t, yylex1 c = .ok t ∧ 2 ≤ t ∧ t ≤ 98 ∧ (4 ≤ t → ∃ x : Tm, x.code = c ∧ (Sym.t x).num = t) := by
  unfold tokOK at h
  split at h
  · rename_i t ht
    refine ⟨t, ht, ?_⟩
    simp only [Bool.and_eq_true, decide_eq_true_eq, Bool.or_eq_true] at h
    refine ⟨h.1.1, h.1.2, fun h4 => ?_⟩
    have h2 := h.2.resolve_left (by omega)
    split at h2
    · rename_i x hx
      simp only [Bool.and_eq_true, beq_iff_eq] at h2
      exact ⟨x, h2.1, h2.2⟩
    · cases h2
  · cases h

theorem yylex1_pos {c : Int} (h : 0 < c) :
    ∃ t, yylex1 c = .ok t ∧ 2 ≤ t ∧ t ≤ 98 ∧ (4 ≤ t → ∃ x : Tm, x.code = c ∧ (Sym.t x).num = t) := by
  by_cases h1 : c < 60
  · apply tokOK_spec
    have := List.all_eq_true.mp toks_low (c - 1).toNat (by simp; omega)
    rwa [show (((c - 1).toNat : Nat) : Int) + 1 = c by omega] at this
  · by_cases h2 : 57344 ≤ c ∧ c < 57344 + 92
    · apply tokOK_spec
      have := List.all_eq_true.mp toks_high (c - 57344).toNat (by simp; omega)
      rwa [show (((c - 57344).toNat : Nat) : Int) + 57344 = c by omega] at this
    · refine ⟨3, ?_, by omega, by omega, by omega⟩
      simp only [yylex1, yyTok1_length, yyTok2_length]
      rw [if_neg (by omega), if_neg (by simpa using h1), if_neg (by simpa [yyPrivate] using h2), yyTok3_eq]
      simp only [tok3, if_neg (show ¬((0 : Int) = c) by omega)]
      simp only [bind, Except.bind, if_pos, at_yyTok2_1]

theorem yylex1_spec (c : Int) :
    ∃ t, yylex1 c = .ok t ∧ 1 ≤ t ∧ t ≤ 98 ∧ (0 < c → 2 ≤ t) ∧
      (4 ≤ t → ∃ x : Tm, x.code = c ∧ (Sym.t x).num = t) := by
  by_cases h : 0 < c
  · obtain ⟨t, h1, h2, h3, h4⟩ := yylex1_pos h
    exact ⟨t, h1, by omega, h3, fun _ => h2, h4⟩
  · exact ⟨1, yylex1_neg (by omega), by omega, by omega, fun h' => absurd h' h, by omega⟩

/-! ## The stack -/

/-- The states on the stack follow each other as they may, and have the symbols and texts given (top first). -/
inductive StackOK : List Entry → List Sym → List Bytes → Prop
  | bottom (v : Bytes) : StackOK [⟨0, v⟩] [] []
  | cons (s q : Nat) (u v : Bytes) (below : List Entry) (x : Sym) (xs : List Sym) (vs : List Bytes)
    (h : StackOK (⟨q, u⟩ :: below) xs vs) (hs : s < 316) (hq : q ∈ preds s) (hx : chkP s = x.num) :
    StackOK (⟨s, v⟩ :: ⟨q, u⟩ :: below) (x :: xs) (v :: vs)

theorem StackOK.top {e st xs vs} (h : StackOK (e :: st) xs vs) : ∃ s : Nat, e.state = s ∧ s < 316 := by
  cases h with
  | bottom v => exact ⟨0, rfl, by omega⟩
  | cons s q u v below x xs vs h hs hq hx => exact ⟨s, rfl, hs⟩

theorem StackOK.length {st xs vs} (h : StackOK st xs vs) : xs.length = vs.length := by
  induction h with
  | bottom v => rfl
  | cons s q u v below x xs vs h hs hq hx ih => simp [ih]

theorem Sym.num_ne (x : Sym) : x.num ≠ -1000 := by
  cases x with
  | t x => simp only [Sym.num]; omega
  | n x =>
    have : x.ctorIdx < Nt.list.length := by
      have := Nt.list_get x
      exact (List.getElem?_eq_some_iff.mp this).1
    have h2 : Nt.list.length = 73 := rfl
    simp only [Sym.num]; omega

theorem chk_zero : chkP 0 = -1000 := by decide +kernel

theorem chain_pop {fin : Nat → Bool} {rs : List Sym} {st : List Entry} {xs : List Sym} {vs : List Bytes}
    (h : StackOK st xs vs) {s : Nat} {v : Bytes} {below : List Entry} (hst : st = ⟨s, v⟩ :: below)
    (hc : chainOK fin rs s = true) :
    ∃ xs' vs1 vs2 q u below', xs = rs ++ xs' ∧ vs = vs1 ++ vs2 ∧ vs1.length = rs.length ∧
      st.drop rs.length = ⟨(q : Nat), u⟩ :: below' ∧ StackOK (⟨(q : Nat), u⟩ :: below') xs' vs2 ∧ q < 316 ∧
      (st.take rs.length).map Entry.val = vs1 ∧
      (∀ e ∈ st.take rs.length, e.state < 316) ∧ fin q = true := by
  induction rs generalizing st xs vs s v below with
  | nil =>
    refine ⟨xs, [], vs, s, v, below, rfl, rfl, rfl, hst, ?_, ?_, rfl, by simp, hc⟩
    · rw [← hst]; exact h
    · rw [hst] at h
      obtain ⟨s', h1, h2⟩ := h.top
      simp only at h1
      omega
  | cons r rs ih =>
    simp only [chainOK, Bool.and_eq_true, beq_iff_eq] at hc
    subst hst
    cases h with
    | bottom v => exact absurd (hc.1.symm.trans chk_zero) (Sym.num_ne r)
    | cons s' q u v below x xs vs h hs hq hx =>
      have hx' : x = r := Sym.num_inj (hx.symm.trans hc.1)
      subst hx'
      obtain ⟨xs', vs1, vs2, q', u', b', e1, e2, e3, e4, e5, e5', e6, e7, e8⟩ :=
        ih h rfl (List.all_eq_true.mp hc.2 q hq)
      refine ⟨xs', v :: vs1, vs2, q', u', b', by simp [e1], by simp [e2], by simp [e3], ?_, e5, e5', ?_, ?_, e8⟩
      · simpa using e4
      · simpa using e6
      · intro e he
        simp only [List.length_cons, List.take_succ_cons, List.mem_cons] at he
        rcases he with rfl | he
        · simp only; omega
        · exact e7 e he

/-! ## The actions -/

theorem atoiAll_spec (l : List Bytes) :
    (∃ ns, atoiAll l = .ok ns ∧ l.map atoi? = ns.map some) ∨ atoiAll l = .error .explicit := by
  induction l with
  | nil => exact .inl ⟨[], rfl, rfl⟩
  | cons v l ih =>
    simp only [atoiAll]
    cases hv : atoi? v with
    | none => exact .inr rfl
    | some n =>
      rcases ih with ⟨ns, h1, h2⟩ | h
      · left
        exact ⟨n :: ns, by simp only [h1]; rfl, by simp [h2, hv]⟩
      · right
        simp only [h]; rfl

theorem prod_facts {p : Nat} (h1 : 1 ≤ p) (h2 : p < 191) :
    ∃ pr, prodAt p = some pr ∧ pr ∈ grammar ∧ r1P p = -(Sym.n pr.lhs).num ∧ r2P p = pr.rhs.length ∧
      pr.action = actionOf p := by
  have := List.all_eq_true.mp prods_ok (p - 1) (by simp; omega)
  rw [show p - 1 + 1 = p by omega] at this
  unfold prodOK at this
  split at this
  · cases this
  · rename_i pr hpr
    simp only [Bool.and_eq_true, beq_iff_eq] at this
    exact ⟨pr, hpr, List.mem_of_getElem? hpr, this.1.1, this.1.2, this.2⟩

theorem len2 {α : Type} {l : List α} (h : l.length = 2) : ∃ a b, l = [a, b] := by
  match l, h with
  | [a, b], _ => exact ⟨a, b, rfl⟩

theorem len3 {α : Type} {l : List α} (h : l.length = 3) : ∃ a b c, l = [a, b, c] := by
  match l, h with
  | [a, b, c], _ => exact ⟨a, b, c, rfl⟩

theorem r2_special : r2P 15 = 2 ∧ r2P 120 = 3 ∧ r2P 121 = 3 ∧ r2P 122 = 3 ∧ r2P 123 = 3 ∧ r2P 130 = 3 ∧ r2P 148 = 3 := by
  decide +kernel

theorem atoi_minus_one : atoi? b!"-1" = some (-1) := by decide +kernel

theorem action_spec {p : Nat} {pr : Prod} (ha : pr.action = actionOf p) (hr : r2P p = pr.rhs.length)
    {rhs : List Entry} (hl : rhs.length = pr.rhs.length) (hs : ∀ e ∈ rhs, e.state < 316) (above : List Bytes) (d : Def) :
    (∃ v d', action p rhs ((rhs.map Entry.val ++ above).headD []) d = .ok (v, d') ∧
      Means pr.action (rhs.map Entry.val) d v d') ∨
    action p rhs ((rhs.map Entry.val ++ above).headD []) d = .error .explicit := by
  obtain ⟨s1, s2, s3, s4, s5, s6, s7⟩ := r2_special
  rw [ha]
  by_cases h15 : p = 15
  · subst h15
    obtain ⟨a, b, rfl⟩ := len2 (l := rhs) (by omega)
    left
    exact ⟨_, _, by simp [action], .concat _ _ _⟩
  by_cases h120 : p = 120
  · subst h120
    obtain ⟨a, b, e, rfl⟩ := len3 (l := rhs) (by omega)
    left
    by_cases hk : a.val = b!"int_curr_symbol"
    · refine ⟨b!"int_curr_symbol", { d with intCurrSymbol := b.val }, ?_, ?_⟩
      · simp [action, assignMonetaryString, hk]
      · have := Means.currency b.val e.val d
        simp only [List.map_cons, List.map_nil, hk]
        exact this
    · refine ⟨a.val, d, ?_, Means.otherString _ _ _ _ hk⟩
      simp [action, assignMonetaryString, hk]
  by_cases h121 : p = 121
  · subst h121
    obtain ⟨a, b, e, rfl⟩ := len3 (l := rhs) (by omega)
    have hst : a.state ≠ intFracDigitsStr := by
      have := hs a (by simp)
      simp only [intFracDigitsStr]; omega
    cases hn : atoi? b.val with
    | none => right; simp [action, assignMonetaryNumber, hn]; rfl
    | some i =>
      left
      refine ⟨a.val, d, ?_, Means.number _ _ _ _ i hn⟩
      simp [action, assignMonetaryNumber, hn, hst]; rfl
  by_cases h122 : p = 122
  · subst h122
    obtain ⟨a, b, e, rfl⟩ := len3 (l := rhs) (by omega)
    have hst : a.state ≠ intFracDigitsStr := by
      have := hs a (by simp)
      simp only [intFracDigitsStr]; omega
    left
    refine ⟨a.val, d, ?_, Means.minusOne _ _ _ _⟩
    simp only [action, assignMonetaryNumber, atoi_minus_one, if_neg hst]
    rfl
  by_cases h123 : p = 123
  · subst h123
    obtain ⟨a, b, e, rfl⟩ := len3 (l := rhs) (by omega)
    rcases atoiAll_spec (split b.val b!";") with ⟨ns, h1, h2⟩ | h
    · left
      refine ⟨a.val, { d with monGrouping := ns }, ?_, Means.grouping _ _ _ _ ns h2⟩
      simp only [action, assignMonetaryGrouping, h1]
      rfl
    · right
      simp only [action, assignMonetaryGrouping, h]
      rfl
  by_cases h130 : p = 130
  · subst h130
    obtain ⟨a, b, e, rfl⟩ := len3 (l := rhs) (by omega)
    left
    exact ⟨b.val, d, by simp [action], .unquote _ _ _ _⟩
  by_cases h148 : p = 148
  · subst h148
    obtain ⟨a, b, e, rfl⟩ := len3 (l := rhs) (by omega)
    left
    exact ⟨a.val ++ b!";" ++ e.val, d, by simp [action], .semicolon _ _ _ _⟩
  left
  have hf : actionOf p = .first := by simp [actionOf, *]
  rw [hf]
  refine ⟨(rhs.map Entry.val ++ above).headD [], d, ?_, ?_⟩
  · simp only [action]
    rw [if_neg (by omega), if_neg (by omega), if_neg (by omega), if_neg (by omega), if_neg (by omega),
      if_neg (by omega), if_neg (by omega)]
  · cases rhs with
    | nil => exact .empty _ _
    | cons e r => exact .first _ _ _

/-! ## The invariant -/

/-- The token read but not consumed. -/
def Conf.look (c : Conf) : List Tok := if c.char < 0 then [] else [⟨c.char, c.lval⟩]

/-- The invariant at `yynewstate`. -/
structure Good (toks : List Tok) (d0 : Def) (c : Conf) : Prop where
  stack : ∃ xs vs done, StackOK c.stack xs vs ∧ Derives xs.reverse done d0 vs.reverse c.d ∧
    ((∀ t ∈ toks, 0 < t.code) → toks = done ++ c.look ++ c.input)
  token : ¬(c.char < 0) → yylex1 c.char = .ok c.token
  errflag : c.errflag = 0

/-- The state on top of the stack. -/
def Conf.topState (c : Conf) : Nat :=
  match c.stack with
  | [] => 0
  | e :: _ => e.state.toNat

/-- Decreases with every round. -/
def Conf.measure (c : Conf) : Nat :=
  45 * (2 * c.input.length + c.look.length) + w * c.stack.length + rankP c.topState

theorem start_good (toks : List Tok) (d : Def) : Good toks d (start toks d) where
  stack := ⟨[], [], [], .bottom _, .nil _, fun _ => by simp [start, Conf.look]⟩
  token := by simp [start]
  errflag := rfl

theorem lex_spec {toks : List Tok} {d0 : Def} {c : Conf} (h : Good toks d0 c) :
    ∃ c', lex c = .ok c' ∧ Good toks d0 c' ∧ c'.stack = c.stack ∧ c'.d = c.d ∧ 1 ≤ c'.token ∧ c'.token ≤ 98 ∧
      yylex1 c'.char = .ok c'.token ∧ c'.measure ≤ c.measure ∧
      ((∀ t ∈ toks, 0 < t.code) → c'.char < 0 → c'.input = []) := by
  by_cases hc : c.char < 0
  · cases hi : c.input with
    | nil =>
      refine ⟨{ c with char := -1, token := 1 }, ?_, ?_, rfl, rfl, by simp, by simp, yylex1_neg (by simp), ?_, ?_⟩
      · simp only [lex, if_pos hc, hi, yylex1_neg (show (-1 : Int) ≤ 0 by omega)]
        simp only [bind, Except.bind, hi]
      · obtain ⟨⟨xs, vs, done, h1, h2, h3⟩, h4, h5⟩ := h
        refine ⟨⟨xs, vs, done, h1, h2, fun hp => ?_⟩, by simp, h5⟩
        have := h3 hp
        simpa [Conf.look, hc] using this
      · simp [Conf.measure, Conf.look, hc, Conf.topState]
      · intro _ _; exact hi
    | cons t rest =>
      obtain ⟨k, hk, k1, k2, k3, k4⟩ := yylex1_spec t.code
      refine ⟨{ c with char := t.code, token := k, lval := t.val, input := rest }, ?_, ?_, rfl, rfl, by simpa using k1,
        by simpa using k2, by simpa using hk, ?_, ?_⟩
      · simp only [lex, if_pos hc, hi, hk]
        simp only [bind, Except.bind]
      · obtain ⟨⟨xs, vs, done, h1, h2, h3⟩, h4, h5⟩ := h
        refine ⟨⟨xs, vs, done, h1, h2, fun hp => ?_⟩, fun _ => by simpa using hk, h5⟩
        have := h3 hp
        have hpos : 0 < t.code := hp t (by rw [this, hi]; simp)
        simp only [Conf.look, hc, hi, if_pos, List.append_nil] at this
        simp [Conf.look, this, show ¬(t.code < 0) by omega]
      · simp only [Conf.measure, Conf.look, hc, if_pos, hi, Conf.topState]
        split <;> simp <;> omega
      · intro hp hneg
        simp only at hneg
        obtain ⟨_, _, _, _, _, h3⟩ := h.stack
        have := h3 hp
        have hpos : 0 < t.code := hp t (by rw [this, hi]; simp)
        omega
  · have ht := h.token hc
    obtain ⟨k, hk, k1, k2, k3, k4⟩ := yylex1_spec c.char
    rw [ht] at hk
    cases hk
    refine ⟨c, by simp [lex, hc], h, rfl, rfl, k1, k2, ht, Nat.le_refl _, fun _ hneg => absurd hneg hc⟩

/-! ## One round -/

/-- What one round does. -/
def RoundOK (handler : Bool) (toks : List Tok) (d0 : Def) (m : Nat) (r : M Step) : Prop :=
  (∃ c', r = .ok (.next c') ∧ Good toks d0 c' ∧ c'.measure < m) ∨
  (∃ d, r = .ok (.ret 0 d) ∧ ((∀ t ∈ toks, 0 < t.code) → LocaleDefinition toks d0 d)) ∨
  (∃ d, r = .ok (.ret 1 d) ∧ handler = true) ∨
  (r = .error .explicit)

theorem act_bound {n : Int} (h0 : 0 ≤ n) (h : n < 468) : ∃ x : Nat, at_ yyAct n = .ok x ∧ actP n.toNat = x ∧ x < 316 := by
  have h1 := at_act (s := n.toNat) (by omega)
  have h2 := List.all_eq_true.mp act_ok n.toNat (by simp; omega)
  simp only [Bool.and_eq_true, decide_eq_true_eq] at h2
  rw [show ((n.toNat : Nat) : Int) = n by omega] at h1
  refine ⟨(actP n.toNat).toNat, ?_, by omega, by omega⟩
  rw [h1]
  congr 1
  omega

theorem goto_spec {a s : Nat} (ha : a < 74) : goto_ a s = .ok (gotoP a s) := by
  have h1 := at_pgo ha
  have h2 := List.all_eq_true.mp pgo_ok a (by simp; omega)
  simp only [Bool.and_eq_true, decide_eq_true_eq] at h2
  simp only [goto_, gotoP, h1]
  obtain ⟨x, hx, hx', hx3⟩ := act_bound h2.1 h2.2
  by_cases hj : pgoP a + s + 1 ≥ 468
  · simp only [bind, Except.bind, yyLast, if_pos hj, hx, hx']
  · obtain ⟨y, hy, hy', hy3⟩ := act_bound (n := pgoP a + s + 1) (by omega) (by omega)
    simp only [bind, Except.bind, yyLast, if_neg hj, hy, at_chk hy3, hx, hx', hy', Int.toNat_natCast]
    split <;> rfl

theorem reduce_spec {handler : Bool} {toks : List Tok} {d0 : Def} {c : Conf} (h : Good toks d0 c) {e : Entry}
    {below : List Entry} (hst : c.stack = e :: below) {s : Nat} (hs : e.state = s) {n : Nat} (hn : defP s = n)
    (hpos : 0 < n) : RoundOK handler toks d0 c.measure (reduce c n) := by
  obtain ⟨⟨xs, vs, done, h1, h2, h3⟩, h4, h5⟩ := h
  have hs3 : s < 316 := by
    rw [hst] at h1
    obtain ⟨s', e1, e2⟩ := h1.top
    omega
  have hred := List.all_eq_true.mp reds_ok s (by simp; omega)
  unfold redOK at hred
  rw [hn, if_pos (by omega)] at hred
  simp only [Bool.and_eq_true, decide_eq_true_eq, Int.toNat_natCast] at hred
  have hn1 : n < 191 := by omega
  obtain ⟨pr, hp1, hp2, hp3, hp4, hp5⟩ := prod_facts (p := n) (by omega) hn1
  rw [hp1] at hred
  simp only at hred
  have hst' : c.stack = ⟨(s : Int), e.val⟩ :: below := by rw [hst, ← hs]
  obtain ⟨xs', vs1, vs2, q, u, below', e1, e2, e3, e4, e5, e5', e6, e7, e8⟩ := chain_pop h1 hst' hred.2
  simp only [finOK, Bool.and_eq_true, decide_eq_true_eq, beq_iff_eq, List.contains_iff_mem] at e8
  obtain ⟨⟨⟨⟨g1, g2⟩, g3⟩, g4⟩, g5⟩ := e8
  have hlhs : pr.lhs.ctorIdx < 73 := by
    have := Nt.list_get pr.lhs
    have := (List.getElem?_eq_some_iff.mp this).1
    exact this
  have hr1 : r1P n = ((pr.lhs.ctorIdx + 1 : Nat) : Int) := by
    rw [hp3]; simp only [Sym.num]; omega
  rw [hr1] at g1 g2 g3 g4 g5
  simp only [Int.toNat_natCast] at g1 g2 g3 g4 g5
  generalize hx : gotoP (pr.lhs.ctorIdx + 1) q = x at *
  have hlen : (pr.rhs.reverse).length = pr.rhs.length := List.length_reverse
  rw [hlen] at e3 e4 e6 e7
  rw [hp4] at g5
  simp only [Int.toNat_natCast] at g5
  have hkst : pr.rhs.length < c.stack.length := by
    have : (c.stack.drop pr.rhs.length).length = (⟨(q : Int), u⟩ :: below' : List Entry).length := by rw [e4]
    simp only [List.length_drop, List.length_cons] at this
    omega
  have hrl : ((c.stack.take pr.rhs.length).reverse).length = pr.rhs.length := by
    simp only [List.length_reverse, List.length_take]
    omega
  have hval : ((c.stack.take pr.rhs.length).reverse).map Entry.val = vs1.reverse := by
    rw [List.map_reverse, e6]
  have hact := action_spec hp5 hp4 hrl (fun e he => e7 e (by simpa using he)) c.above c.d
  rw [hval] at hact
  have hred2 : reduce c n = (match action n (c.stack.take pr.rhs.length).reverse ((vs1.reverse ++ c.above).headD []) c.d with
      | .error er => .error er
      | .ok r => .ok (.next (push { c with stack := ⟨(q : Int), u⟩ :: below', above := vs1.reverse ++ c.above, yyval := r.1, d := r.2 } x))) := by
    simp only [reduce, at_r2 hn1, hp4]
    simp only [bind, Except.bind, Int.toNat_natCast, e4, at_r1 hn1, hr1, goto_spec (show pr.lhs.ctorIdx + 1 < 74 by omega), hx, hval]
    cases action n (c.stack.take pr.rhs.length).reverse ((vs1.reverse ++ c.above).headD []) c.d <;> rfl
  rw [hred2]
  rcases hact with ⟨v, d', hac, hme⟩ | hac
  · left
    rw [hac]
    refine ⟨_, rfl, ⟨⟨.n pr.lhs :: xs', v :: vs2, done, ?_, ?_, ?_⟩, ?_, ?_⟩, ?_⟩
    · have hxx : x = ((x.toNat : Nat) : Int) := by omega
      simp only [push]
      rw [hxx]
      exact .cons x.toNat q u v below' (.n pr.lhs) xs' vs2 e5 (by omega) g4 (by rw [g3]; simp [Sym.num])
    · simp only [push]
      rw [e1, e2, List.reverse_append, List.reverse_append, List.reverse_reverse] at h2
      obtain ⟨t1, t2, d1, ht, hd1, hd2⟩ := h2.split (by simp; rw [e5.length])
      rw [ht]
      simp only [List.reverse_cons]
      refine hd1.append ?_
      have := Derives.nt pr hp2 t2 [] d1 c.d d' d' vs1.reverse v [] [] hd2 hme (.nil _)
      simpa using this
    · exact h3
    · intro hc
      exact h4 hc
    · exact h5
    · have hl1 : c.stack.length = pr.rhs.length + (below'.length + 1) := by
        have : (c.stack.drop pr.rhs.length).length = (⟨(q : Int), u⟩ :: below' : List Entry).length := by rw [e4]
        simp only [List.length_drop, List.length_cons] at this
        omega
      show 45 * (2 * c.input.length + c.look.length) + w * (below'.length + 1 + 1) + rankP x.toNat < c.measure
      have htop : c.topState = s := by simp [Conf.topState, hst, hs]
      simp only [Conf.measure, htop, hl1]
      simp only [w] at g5 ⊢
      omega
  · right; right; right
    rw [hac]

theorem recover_one {c : Conf} {e : Entry} {s : Nat} (he : e.state = s) (hs : s < 316) (rest : List Entry)
    (above : List Bytes) : recover c (e :: rest) above = recover c rest (e.val :: above) := by
  have h := List.all_eq_true.mp errs_ok s (by simp; omega)
  simp only [errOK] at h
  rw [recover]
  simp only [he, at_pact hs, bind, Except.bind]
  by_cases hb : 0 ≤ pactP s + 2 ∧ pactP s + 2 < 468
  · obtain ⟨x, hx, hx', hx3⟩ := act_bound hb.1 hb.2
    simp only [hb, Bool.and_eq_true, decide_true, and_self, if_true, hx', Int.toNat_natCast, bne_iff_ne] at h
    simp only [yyErrCode, yyLast, hb, and_self, if_true, hx, at_chk hx3, if_neg h.2]
  · simp only [yyErrCode, yyLast, if_neg hb]

theorem recover_spec {c : Conf} {st : List Entry} {xs vs} (h : StackOK st xs vs) (above : List Bytes) :
    recover c st above = .ok (.ret 1 c.d) := by
  induction h generalizing above with
  | bottom v => rw [recover_one (s := 0) rfl (by omega)]; rfl
  | cons s q u v below x xs vs h hs hq hx ih => rw [recover_one (s := s) rfl hs]; exact ih _

theorem onError_spec {handler : Bool} {toks : List Tok} {d0 : Def} {c : Conf} (h : Good toks d0 c) (m : Nat) :
    RoundOK handler toks d0 m (onError handler c) := by
  obtain ⟨⟨xs, vs, done, h1, h2, h3⟩, h4, h5⟩ := h
  simp only [onError, h5, if_true]
  cases handler with
  | false => right; right; right; rfl
  | true =>
    right; right; left
    exact ⟨c.d, by simp [recover_spec h1], rfl⟩

theorem RoundOK.mono {handler toks d0 m m' r} (h : RoundOK handler toks d0 m r) (hm : m ≤ m') :
    RoundOK handler toks d0 m' r := by
  rcases h with ⟨c', h1, h2, h3⟩ | h
  · exact .inl ⟨c', h1, h2, by omega⟩
  · exact .inr h

theorem dflt_spec {handler : Bool} {toks : List Tok} {d0 : Def} {c : Conf} (h : Good toks d0 c) {e : Entry}
    {below : List Entry} (hst : c.stack = e :: below) {s : Nat} (hs : e.state = s) (hs3 : s < 316) :
    RoundOK handler toks d0 c.measure (dflt handler c s) := by
  have hred := List.all_eq_true.mp reds_ok s (by simp; omega)
  simp only [dflt, at_def hs3, bind, Except.bind]
  unfold redOK at hred
  by_cases hp : defP s > 0
  · rw [if_neg (by omega)]
    simp only [act]
    rw [if_neg (by omega)]
    have hn : defP s = ((defP s).toNat : Nat) := by omega
    rw [hn]
    exact reduce_spec h hst hs hn (by omega)
  · rw [if_neg hp] at hred
    simp only [Bool.or_eq_true, Bool.and_eq_true, beq_iff_eq] at hred
    rcases hred with h0 | ⟨h2, h1⟩
    · rw [if_neg (by omega)]
      simp only [act, h0, if_true]
      exact onError_spec h _
    · rw [if_pos h2]
      subst h1
      obtain ⟨c', hl, hg, l1, l2, l3, l4, l5, l6, l7⟩ := lex_spec h
      simp only [hl]
      rw [show ((1 : Nat) : Int) = 1 from rfl, yyExca_eq]
      simp only [findExca, and_self, if_true]
      by_cases ht : c'.token = 1
      · simp only [excaAct, ht, or_true, if_true]
        right; left
        refine ⟨c'.d, by simp, fun hp => ?_⟩
        obtain ⟨⟨xs, vs, done, g1, g2, g3⟩, g4, g5⟩ := hg
        have hch : c'.char < 0 := by
          apply Decidable.byContradiction
          intro hnn
          have hlook : c'.look = [⟨c'.char, c'.lval⟩] := by simp [Conf.look, hnn]
          have hmem : (⟨c'.char, c'.lval⟩ : Tok) ∈ toks := by rw [g3 hp, hlook]; simp
          have hpos : 0 < c'.char := hp _ hmem
          obtain ⟨k, hk, k1, k2, k3, k4⟩ := yylex1_spec c'.char
          rw [l5] at hk
          cases hk
          have := k3 hpos
          omega
        have hin := l7 hp hch
        have heq := g3 hp
        simp only [Conf.look, hch, if_true, hin, List.append_nil] at heq
        rw [l1, hst] at g1
        cases g1 with
        | bottom v => simp at hs
        | cons s' q u v below x xs vs hh hs' hq hx =>
          simp only at hs
          have : s' = 1 := by omega
          subst this
          rw [preds_one] at hq
          simp only [List.mem_singleton] at hq
          subst hq
          have hx1 : x = .n .locale_definition := by
            apply Sym.num_inj
            rw [← hx, chk_one]
            rfl
          subst hx1
          have hb : xs = [] ∧ vs = [] := by
            cases hh with
            | bottom v => exact ⟨rfl, rfl⟩
            | cons s'' q u v below x xs vs hh hs'' hq hx =>
              rename_i heq0
              rw [preds_zero] at hq
              cases hq
          obtain ⟨rfl, rfl⟩ := hb
          rw [heq]
          exact ⟨v, by simpa using g2⟩
      · simp only [excaAct]
        rw [if_neg (by simp only [not_or]; exact ⟨by omega, fun h => ht h.symm⟩)]
        simp only [show ((-2 : Int) < 0) from by omega, true_or, if_true]
        simp only [show ¬((0 : Int) < 0) from by omega, if_false, act, if_true]
        exact onError_spec hg _

theorem step_spec {handler : Bool} {toks : List Tok} {d0 : Def} {c : Conf} (h : Good toks d0 c) :
    RoundOK handler toks d0 c.measure (step handler c) := by
  obtain ⟨xs, vs, done, h1, h2, h3⟩ := h.stack
  cases hst : c.stack with
  | nil => rw [hst] at h1; cases h1
  | cons e below =>
    rw [hst] at h1
    obtain ⟨s, hs, hs3⟩ := h1.top
    simp only [step, hst, hs, at_pact hs3, bind, Except.bind]
    by_cases hf : pactP s ≤ yyFlag
    · rw [if_pos hf]
      exact dflt_spec h hst hs hs3
    · rw [if_neg hf]
      obtain ⟨c', hl, hg, l1, l2, l3, l4, l5, l6, l7⟩ := lex_spec h
      simp only [hl]
      by_cases hb : pactP s + c'.token < 0 ∨ pactP s + c'.token ≥ yyLast
      · rw [if_pos hb]
        exact (dflt_spec hg (l1.trans hst) hs hs3).mono l6
      · rw [if_neg hb]
        simp only [yyLast, not_or] at hb
        obtain ⟨x, hx, hx', hx3⟩ := act_bound (n := pactP s + c'.token) (by omega) (by omega)
        simp only [hx, at_chk hx3]
        by_cases hk : chkP x = c'.token
        · rw [if_pos hk]
          have hsh := List.all_eq_true.mp shifts_ok s (by simp; omega)
          simp only [shiftOK, yyFlag] at hsh hf
          rw [if_neg hf] at hsh
          have hsh := List.all_eq_true.mp hsh c'.token.toNat (by simp; omega)
          have htn : ((c'.token.toNat : Nat) : Int) = c'.token := by omega
          simp only [htn] at hsh
          rw [if_neg (by simp; omega)] at hsh
          simp only [hx', Int.toNat_natCast, hk, beq_self_eq_true, if_true, Bool.and_eq_true, decide_eq_true_eq,
            List.contains_iff_mem] at hsh
          have ht4 : 4 ≤ c'.token := by omega
          obtain ⟨k, hk', k1, k2, k3, k4⟩ := yylex1_spec c'.char
          rw [l5] at hk'
          cases hk'
          obtain ⟨y, hy, hy'⟩ := k4 ht4
          have hch : ¬(c'.char < 0) := by
            intro hneg
            rw [yylex1_neg (by omega)] at l5
            have := Except.ok.inj l5
            omega
          have hlook : c'.look = [⟨c'.char, c'.lval⟩] := by simp [Conf.look, hch]
          left
          obtain ⟨⟨xs, vs, done, g1, g2, g3⟩, g4, g5⟩ := hg
          have hst2 : c'.stack = ⟨(s : Int), e.val⟩ :: below := by rw [l1, hst, ← hs]
          refine ⟨_, rfl, ⟨⟨.t y :: xs, c'.lval :: vs, done ++ [⟨c'.char, c'.lval⟩], ?_, ?_, ?_⟩, by simp [push], ?_⟩, ?_⟩
          · simp only [push]
            rw [hst2] at g1 ⊢
            exact .cons x s e.val c'.lval below (.t y) xs vs g1 hx3 hsh.2.2 (by rw [hk, hy'])
          · simp only [push, List.reverse_cons]
            refine g2.append ?_
            rw [← hy]
            exact .tm y _ _ _ _ _ _ (.nil _)
          · intro hp
            have := g3 hp
            rw [hlook] at this
            simpa [push, Conf.look] using this
          · simp [push, g5]
          · have hr := List.all_eq_true.mp rank_le x (by simp; omega)
            simp only [decide_eq_true_eq] at hr
            refine Nat.lt_of_lt_of_le ?_ l6
            simp only [Conf.measure, hlook, push, Conf.topState, hst2, Int.toNat_natCast]
            simp only [Conf.look, w, List.length_cons, List.length_nil]
            simp only [show ((-1 : Int) < 0) from by omega, if_true, List.length_nil]
            omega
        · rw [if_neg hk]
          exact (dflt_spec hg (l1.trans hst) hs hs3).mono l6

end Locale
