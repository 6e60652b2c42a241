import Verif.Locale.ParserExact

/-!
# Whatever is on the stack of the generated parser can be completed to a locale definition
-/

namespace Locale
open Go

/-! ## The grammar without meanings -/

/-- The symbols derive the terminals (localedef.y:156-548, the productions only). -/
inductive Generates : List Sym → List Tm → Prop
  | nil : Generates [] []
  | tm (x : Tm) {ss : List Sym} {ts : List Tm} (h : Generates ss ts) : Generates (.t x :: ss) (x :: ts)
  | nt {p : Prod} (hp : p ∈ grammar) {ts ts' : List Tm} {ss : List Sym} (h : Generates p.rhs ts) (h' : Generates ss ts') :
    Generates (.n p.lhs :: ss) (ts ++ ts')

/-- A sequence of terminals that is a locale definition. -/
def Grammatical (ts : List Tm) : Prop := Generates [.n .locale_definition] ts

theorem Generates.append {ss ss' : List Sym} {ts ts' : List Tm} (h : Generates ss ts) (h' : Generates ss' ts') :
    Generates (ss ++ ss') (ts ++ ts') := by
  induction h with
  | nil => exact h'
  | tm x h ih => exact .tm x ih
  | nt hp h h1 _ ih =>
    rw [List.append_assoc]
    exact .nt hp h ih

theorem Generates.split {ss ss' : List Sym} {ts : List Tm} (h : Generates (ss ++ ss') ts) :
    ∃ ts1 ts2, ts = ts1 ++ ts2 ∧ Generates ss ts1 ∧ Generates ss' ts2 := by
  induction ss generalizing ts with
  | nil => exact ⟨[], ts, rfl, .nil, h⟩
  | cons s ss ih =>
    simp only [List.cons_append] at h
    cases h with
    | tm x h =>
      obtain ⟨t1, t2, rfl, h1, h2⟩ := ih h
      exact ⟨x :: t1, t2, rfl, .tm x h1, h2⟩
    | nt hp h h' =>
      obtain ⟨t1, t2, rfl, h1, h2⟩ := ih h'
      exact ⟨_ ++ t1, t2, by rw [List.append_assoc], .nt hp h h1, h2⟩

theorem Generates.one {p : Prod} (hp : p ∈ grammar) {ts : List Tm} (h : Generates p.rhs ts) : Generates [.n p.lhs] ts := by
  have := Generates.nt hp h .nil
  simpa using this

/-- A derivation with meanings is one without. -/
theorem Derives.generates {ss : List Sym} {toks : List Tok} {d d' : Def} {vs : List Bytes} (h : Derives ss toks d vs d') :
    ∃ ts : List Tm, toks.map Tok.code = ts.map Tm.code ∧ Generates ss ts := by
  induction h with
  | nil d => exact ⟨[], rfl, .nil⟩
  | tm x v ss ts d d' vs h ih =>
    obtain ⟨u, e, g⟩ := ih
    exact ⟨x :: u, by simp [e], .tm x g⟩
  | nt p hp ts ts' d d1 d2 d3 ws v ss vs h hm h' ih ih' =>
    obtain ⟨u, e, g⟩ := ih
    obtain ⟨u', e', g'⟩ := ih'
    exact ⟨u ++ u', by simp [e, e'], .nt hp g g'⟩

/-! ## Every nonterminal derives something -/

/-- One production for each nonterminal, those it needs before it. -/
def shortL : List Nat :=
  [5, 17, 25, 29, 30, 34, 41, 42, 57, 58, 62, 63, 66, 73, 74, 77, 83, 88, 91, 98, 105, 106, 109, 112, 114, 117, 124,
   131, 132, 146, 147, 149, 152, 157, 160, 161, 162, 164, 167, 173, 178, 182, 190, 4, 16, 33, 37, 61, 65, 71, 82, 87,
   97, 108, 111, 116, 120, 151, 155, 166, 189, 9, 36, 76, 80, 119, 154, 171, 188, 8, 67, 169, 1]

/-- Every nonterminal on the right of a production is on the left of an earlier one. -/
def shortOK : List Nt → List Nat → Bool
  | _, [] => true
  | seen, p :: ps =>
    match prodAt p with
    | none => false
    | some pr => (pr.rhs.all fun x => match x with
        | .t _ => true
        | .n a => seen.contains a) && shortOK (pr.lhs :: seen) ps

/-- The left hand sides. -/
def lhsOf (ps : List Nat) : List Nt := ps.filterMap fun p => (prodAt p).map Prod.lhs

theorem short_ok : shortOK [] shortL = true := by decide +kernel

theorem short_all : (Nt.list.all fun a => (lhsOf shortL).contains a) = true := by decide +kernel

theorem generates_rhs {seen : List Nt} (h : ∀ a ∈ seen, ∃ ts, Generates [.n a] ts) {ss : List Sym}
    (hs : (ss.all fun x => match x with
        | .t _ => true
        | .n a => seen.contains a) = true) : ∃ ts, Generates ss ts := by
  induction ss with
  | nil => exact ⟨[], .nil⟩
  | cons s ss ih =>
    simp only [List.all_cons, Bool.and_eq_true] at hs
    obtain ⟨ts, g⟩ := ih hs.2
    cases s with
    | t x => exact ⟨x :: ts, .tm x g⟩
    | n a =>
      obtain ⟨u, g'⟩ := h a (by simpa using hs.1)
      exact ⟨u ++ ts, g'.append g⟩

theorem generates_list (ps : List Nat) (seen : List Nt) (h : ∀ a ∈ seen, ∃ ts, Generates [.n a] ts)
    (hp : shortOK seen ps = true) : ∀ a ∈ lhsOf ps, ∃ ts, Generates [.n a] ts := by
  induction ps generalizing seen with
  | nil => intro a ha; simp [lhsOf] at ha
  | cons p ps ih =>
    simp only [shortOK] at hp
    split at hp
    · cases hp
    rename_i pr hpr
    simp only [Bool.and_eq_true] at hp
    obtain ⟨ts, g⟩ := generates_rhs h hp.1
    have g1 : Generates [.n pr.lhs] ts := .one (List.mem_of_getElem? hpr) g
    intro a ha
    simp only [lhsOf, List.filterMap_cons, hpr, Option.map_some, List.mem_cons] at ha
    rcases ha with rfl | ha
    · exact ⟨ts, g1⟩
    · refine ih (pr.lhs :: seen) ?_ hp.2 a ha
      intro b hb
      simp only [List.mem_cons] at hb
      rcases hb with rfl | hb
      · exact ⟨ts, g1⟩
      · exact h b hb

theorem generates_nt (a : Nt) : ∃ ts, Generates [.n a] ts := by
  have := List.all_eq_true.mp short_all a (List.mem_of_getElem? (Nt.list_get a))
  exact generates_list shortL [] (by simp) short_ok a (by simpa using this)

theorem generates_some (ss : List Sym) : ∃ ts, Generates ss ts := by
  induction ss with
  | nil => exact ⟨[], .nil⟩
  | cons s ss ih =>
    obtain ⟨ts, g⟩ := ih
    cases s with
    | t x => exact ⟨x :: ts, .tm x g⟩
    | n a =>
      obtain ⟨u, g'⟩ := generates_nt a
      exact ⟨u ++ ts, g'.append g⟩

/-! ## Every stack can be completed -/

/-- For each state a production and how much of its right hand side is on the stack when this state is on top. -/
def itemL : List (Nat × Nat) :=
  [(0, 0), (0, 0), (1, 1), (2, 1), (4, 1), (8, 1), (5, 1), (6, 1), (9, 1), (10, 1), (11, 1), (12, 1), (13, 1), (14, 1),
   (32, 1), (64, 1), (107, 1), (115, 1), (150, 1), (165, 1), (34, 1), (66, 1), (109, 1), (117, 1), (152, 1), (167, 1),
   (1, 2), (3, 2), (7, 2), (5, 2), (6, 2), (32, 2), (33, 2), (36, 1), (37, 1), (38, 1), (39, 1), (42, 1), (43, 1),
   (44, 1), (45, 1), (46, 1), (47, 1), (48, 1), (49, 1), (50, 1), (51, 1), (52, 1), (53, 1), (54, 1), (58, 1), (59, 1),
   (64, 2), (65, 2), (67, 1), (68, 1), (76, 1), (71, 1), (72, 1), (77, 1), (73, 1), (74, 1), (75, 1), (107, 2),
   (108, 2), (111, 1), (112, 1), (113, 1), (115, 2), (116, 2), (119, 1), (120, 1), (121, 1), (123, 1), (124, 1),
   (125, 1), (126, 1), (127, 1), (128, 1), (129, 1), (132, 1), (133, 1), (134, 1), (135, 1), (136, 1), (137, 1),
   (138, 1), (139, 1), (140, 1), (141, 1), (142, 1), (143, 1), (144, 1), (145, 1), (146, 1), (150, 2), (151, 2),
   (154, 1), (155, 1), (156, 1), (157, 1), (158, 1), (161, 1), (165, 2), (166, 2), (169, 1), (170, 1), (171, 1),
   (172, 1), (173, 1), (174, 1), (175, 1), (176, 1), (177, 1), (178, 1), (179, 1), (180, 1), (181, 1), (182, 1),
   (183, 1), (184, 1), (185, 1), (186, 1), (34, 2), (66, 2), (109, 2), (117, 2), (152, 2), (167, 2), (5, 3), (6, 3),
   (32, 3), (35, 2), (63, 1), (33, 3), (30, 1), (31, 1), (37, 2), (57, 1), (17, 1), (18, 1), (19, 1), (20, 1), (21, 1),
   (38, 2), (61, 1), (62, 1), (39, 2), (41, 1), (64, 3), (106, 1), (65, 3), (68, 2), (69, 2), (70, 2), (76, 2), (87, 1),
   (88, 1), (89, 1), (91, 1), (92, 1), (93, 1), (94, 1), (77, 2), (78, 2), (80, 1), (82, 1), (83, 1), (84, 1), (85, 1),
   (73, 2), (74, 2), (75, 2), (107, 3), (110, 2), (114, 1), (108, 3), (112, 2), (113, 2), (115, 3), (118, 2), (149, 1),
   (116, 3), (120, 2), (130, 1), (131, 1), (121, 2), (122, 2), (123, 2), (147, 1), (150, 3), (153, 2), (164, 1),
   (151, 3), (155, 2), (159, 1), (160, 1), (156, 2), (162, 1), (165, 3), (168, 2), (190, 1), (166, 3), (170, 2),
   (188, 1), (189, 1), (171, 2), (172, 2), (63, 2), (33, 4), (31, 2), (37, 3), (55, 2), (38, 3), (60, 2), (62, 2),
   (39, 3), (40, 2), (106, 2), (65, 4), (76, 3), (86, 2), (105, 1), (88, 2), (89, 2), (90, 2), (97, 1), (99, 1),
   (100, 1), (101, 1), (103, 1), (104, 1), (78, 3), (79, 2), (81, 2), (73, 3), (75, 3), (25, 1), (26, 1), (27, 1),
   (114, 2), (108, 4), (112, 3), (113, 3), (149, 2), (116, 4), (120, 3), (130, 2), (16, 1), (121, 3), (122, 3),
   (123, 3), (148, 2), (164, 2), (151, 4), (155, 3), (159, 2), (156, 3), (163, 2), (190, 2), (166, 4), (170, 3),
   (187, 2), (189, 2), (171, 3), (172, 3), (63, 3), (33, 5), (31, 3), (55, 3), (56, 3), (60, 3), (62, 3), (40, 3),
   (106, 3), (65, 5), (105, 2), (89, 3), (96, 2), (101, 2), (0, 0), (26, 1), (79, 3), (81, 3), (22, 2), (23, 2),
   (24, 2), (75, 4), (114, 3), (108, 5), (112, 4), (113, 4), (149, 3), (116, 5), (15, 2), (130, 3), (148, 3), (164, 3),
   (151, 5), (159, 3), (163, 3), (190, 3), (166, 5), (187, 3), (189, 3), (56, 4), (62, 4), (95, 3), (101, 3), (28, 2),
   (102, 3), (75, 5), (112, 5), (113, 5), (56, 5), (62, 5)]

/-- The states of rank more than 0. -/
def rankL : List (Nat × Nat) :=
  [(2, 1), (3, 1), (4, 2), (5, 2), (6, 3), (7, 3), (8, 3), (9, 3), (10, 3), (11, 3), (12, 3), (13, 3), (14, 4), (15, 4),
   (16, 4), (17, 4), (18, 4), (19, 4), (20, 5), (21, 5), (22, 5), (23, 5), (24, 5), (25, 5), (33, 1), (34, 2), (35, 2),
   (36, 2), (37, 3), (38, 3), (39, 3), (40, 3), (41, 3), (42, 3), (43, 3), (44, 3), (45, 3), (46, 3), (47, 3), (48, 3),
   (49, 3), (50, 3), (51, 3), (54, 1), (55, 1), (56, 2), (57, 2), (58, 2), (59, 3), (60, 3), (61, 3), (62, 3), (65, 1),
   (66, 2), (67, 2), (70, 1), (71, 2), (72, 2), (73, 2), (74, 3), (75, 3), (76, 3), (77, 3), (78, 3), (79, 3), (80, 3),
   (81, 3), (82, 3), (83, 3), (84, 3), (85, 3), (86, 3), (87, 3), (88, 3), (89, 3), (90, 3), (91, 3), (92, 3), (93, 3),
   (94, 3), (97, 1), (98, 2), (99, 2), (100, 3), (101, 3), (102, 3), (105, 1), (106, 2), (107, 2), (108, 2), (109, 3),
   (110, 3), (111, 3), (112, 3), (113, 3), (114, 3), (115, 3), (116, 3), (117, 3), (118, 3), (119, 3), (120, 3),
   (121, 3), (122, 3), (133, 1), (135, 1), (136, 1), (138, 1), (139, 4), (140, 4), (141, 4), (142, 4), (143, 4),
   (145, 1), (146, 2), (148, 1), (150, 1), (156, 1), (157, 2), (158, 2), (159, 3), (160, 3), (161, 3), (162, 3),
   (165, 1), (166, 2), (167, 3), (168, 3), (169, 3), (175, 1), (181, 1), (184, 1), (185, 1), (189, 1), (192, 1),
   (195, 1), (196, 1), (198, 1), (201, 1), (204, 1), (205, 2), (222, 1), (226, 1), (227, 2), (228, 2), (229, 2),
   (230, 2), (231, 2), (237, 1), (238, 1), (239, 1), (248, 1), (281, 1)]

/-- The rank of a state. -/
def rank2 (s : Nat) : Nat := (rankL.lookup s).getD 0

/-- After completing production `p`, of which `k` symbols were on the stack with `s` on top, with `q` uncovered. -/
def finOK2 (s p k : Nat) (q : Nat) : Bool :=
  let x := gotoP (r1P p).toNat q
  0 ≤ x && x < 316 && chkP x.toNat == -(r1P p) && (preds x.toNat).contains q &&
    (w + rank2 x.toNat < w * k + rank2 s : Bool)

/-- The production for state `s` can be completed. -/
def viableOK (s : Nat) : Bool :=
  s < 2 || preds s == [] ||
  match itemL[s]? with
  | none => false
  | some (p, k) => 1 ≤ p && p < 191 &&
    match prodAt p with
    | none => false
    | some pr => k ≤ pr.rhs.length && chainOK (finOK2 s p k) (pr.rhs.take k).reverse s

theorem viables_ok : ((List.range 316).all viableOK) = true := by decide +kernel

/-- Whatever is on the stack can be completed to a locale definition. -/
theorem viable {st : List Entry} {xs : List Sym} {vs : List Bytes} (h : StackOK st xs vs) :
    ∃ ws : List Tm, ∀ ts, Generates xs.reverse ts → Grammatical (ts ++ ws) := by
  have key : ∀ (m : Nat) (st : List Entry) (xs : List Sym) (vs : List Bytes), StackOK st xs vs →
      (∀ e rest, st = e :: rest → w * st.length + rank2 e.state.toNat < m) →
      ∃ ws : List Tm, ∀ ts, Generates xs.reverse ts → Grammatical (ts ++ ws) := by
    intro m
    induction m with
    | zero =>
      intro st xs vs h hm
      cases h with
      | bottom v => exact absurd (hm _ _ rfl) (Nat.not_lt_zero _)
      | cons s q u v below x xs vs h hs hq hx => exact absurd (hm _ _ rfl) (Nat.not_lt_zero _)
    | succ m ih =>
      intro st xs vs h hm
      cases h with
      | bottom v =>
        obtain ⟨ws, g⟩ := generates_nt .locale_definition
        refine ⟨ws, fun ts ht => ?_⟩
        cases ht
        exact g
      | cons s q u v below x xs vs h hs hq hx =>
        have hv := List.all_eq_true.mp viables_ok s (by simp; omega)
        simp only [viableOK, Bool.or_eq_true, decide_eq_true_eq, beq_iff_eq] at hv
        rcases hv with (h2 | h0) | hv
        · have hs1 : s = 1 := by
            rcases Nat.lt_or_ge s 1 with h1 | h1
            · have : s = 0 := by omega
              subst this
              rw [preds_zero] at hq
              cases hq
            · omega
          subst hs1
          rw [preds_one] at hq
          simp only [List.mem_singleton] at hq
          subst hq
          have hx1 : x = .n .locale_definition := by
            apply Sym.num_inj
            rw [← hx, chk_one]
            rfl
          subst hx1
          have hb : xs = [] := by
            generalize hz : ((0 : Nat) : Int) = z at h
            cases h with
            | bottom v => rfl
            | cons s'' q u v below x xs vs hh hs'' hq hx =>
              have : s'' = 0 := by omega
              subst this
              rw [preds_zero] at hq
              cases hq
          subst hb
          exact ⟨[], fun ts ht => by simpa [Grammatical] using ht⟩
        · rw [h0] at hq
          cases hq
        · split at hv
          · cases hv
          rename_i p k hpk
          simp only [Bool.and_eq_true, decide_eq_true_eq] at hv
          obtain ⟨⟨hp1, hp2⟩, hv⟩ := hv
          obtain ⟨pr, e1, e2, e3, e4, e5⟩ := prod_facts hp1 hp2
          rw [e1] at hv
          simp only [Bool.and_eq_true, decide_eq_true_eq] at hv
          obtain ⟨hk, hch⟩ := hv
          obtain ⟨xs', vs1, vs2, q', u', below', f1, f2, f3, f4, f5, f6, f7, f8, f9⟩ :=
            chain_pop (StackOK.cons s q u v below x xs vs h hs hq hx) rfl hch
          simp only [finOK2, Bool.and_eq_true, decide_eq_true_eq, beq_iff_eq, List.contains_iff_mem] at f9
          obtain ⟨⟨⟨⟨g1, g2⟩, g3⟩, g4⟩, g5⟩ := f9
          generalize hy : gotoP (r1P p).toNat q' = y at g1 g2 g3 g4 g5
          have hyy : y = ((y.toNat : Nat) : Int) := by omega
          have hlen : ((pr.rhs.take k).reverse).length = k := by simp; omega
          rw [hlen] at f4
          have hnew : StackOK (⟨y, []⟩ :: ⟨(q' : Int), u'⟩ :: below') (.n pr.lhs :: xs') ([] :: vs2) := by
            rw [hyy]
            exact .cons y.toNat q' u' [] below' (.n pr.lhs) xs' vs2 f5 (by omega) g4 (by rw [g3, e3]; simp [Sym.num])
          have hl : (⟨(s : Int), v⟩ :: ⟨(q : Int), u⟩ :: below : List Entry).length = k + (below'.length + 1) := by
            have := congrArg List.length f4
            have hst := hm _ _ rfl
            have hkl : k ≤ (⟨(s : Int), v⟩ :: ⟨(q : Int), u⟩ :: below : List Entry).length := by
              rcases Nat.lt_or_ge (⟨(s : Int), v⟩ :: ⟨(q : Int), u⟩ :: below : List Entry).length k with hlt | hge
              · rw [List.drop_eq_nil_of_le (by omega)] at f4
                cases f4
              · exact hge
            rw [List.length_drop] at this
            simp only [List.length_cons] at this hkl ⊢
            omega
          obtain ⟨ws, hws⟩ := ih _ _ _ hnew (by
            intro e rest he
            cases he
            have hst := hm _ _ rfl
            rw [hl] at hst
            simp only [Int.toNat_natCast] at hst
            simp only [List.length_cons]
            simp only [w] at g5 hst ⊢
            omega)
          obtain ⟨us, gus⟩ := generates_some (pr.rhs.drop k)
          refine ⟨us ++ ws, fun ts ht => ?_⟩
          rw [f1, List.reverse_append, List.reverse_reverse] at ht
          obtain ⟨t1, t2, rfl, a1, a2⟩ := ht.split
          have a3 : Generates pr.rhs (t2 ++ us) := by
            have := a2.append gus
            rwa [List.take_append_drop] at this
          have a4 := hws (t1 ++ (t2 ++ us)) (by
            rw [List.reverse_cons]
            exact a1.append (.one e2 a3))
          simpa using a4
  cases hst : st with
  | nil => rw [hst] at h; cases h
  | cons e rest =>
    refine key (w * st.length + rank2 e.state.toNat + 1) st xs vs h ?_
    intro e' rest' he
    rw [hst] at he
    cases he
    omega

end Locale
