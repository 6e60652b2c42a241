import Verif.TSort.Rewritten

/-! # C152: only the constraints that do not follow from others matter, and the order in which each item's successors were first mentioned -/

namespace TSort
open Go

section
variable {α : Type} [DecidableEq α]

/-! ## Specification -/

/-- That `a` comes before `c` already follows from constraints through a third item. -/
def Implied (hist : List (List α)) (a c : α) : Prop := ∃ b, Relation.TransGen (Constrains hist) a b ∧ Relation.TransGen (Constrains hist) b c

open Classical in
/-- The successors of `a` that are not implied, in the order in which they were first mentioned. -/
noncomputable def needed (hist : List (List α)) (a : α) : List α := (successors hist a).filter (fun c => ¬ Implied hist a c)

/-! ## Proofs -/

omit [DecidableEq α] in
theorem gen_last {R : α → α → Prop} {a b : α} (h : Relation.TransGen R a b) : ∃ d, R d b ∧ (d = a ∨ Relation.TransGen R a d) := by
  cases h with
  | single h => exact ⟨a, h, .inl rfl⟩
  | tail g h => exact ⟨_, h, .inr g⟩

omit [DecidableEq α] in
theorem gen_first {R : α → α → Prop} {a b : α} (h : Relation.TransGen R a b) : ∃ c, R a c := by
  induction h with
  | single h => exact ⟨_, h⟩
  | tail _ _ ih => exact ih

theorem mem_successors (hist : List (List α)) (a b : α) : b ∈ successors hist a ↔ Constrains hist a b := by
  rw [← get_addAll]
  exact (addAll_spec hist).2.1 a b

theorem source_gen (hist : List (List α)) (x : α) : Source hist x ↔ Known hist x ∧ ∀ a, ¬ Relation.TransGen (Constrains hist) a x := by
  unfold Source
  refine and_congr_right fun _ => ⟨fun h a g => ?_, fun h a g => h a (.single g)⟩
  obtain ⟨b, hb, -⟩ := gen_last g
  exact h b hb

omit [DecidableEq α] in
theorem known_left {hist : List (List α)} {a b : α} (h : Constrains hist a b) : Known hist a := by
  obtain ⟨pre, items, post, rfl, ha, -⟩ := h
  exact .inr (.inl ⟨items, by simp, b, ha⟩)

omit [DecidableEq α] in
theorem known_gen {hist : List (List α)} {a b : α} (h : Relation.TransGen (Constrains hist) a b) : Known hist a ∧ Known hist b := by
  obtain ⟨c, hc⟩ := gen_first h
  obtain ⟨d, hd, -⟩ := gen_last h
  exact ⟨known_left hc, .inr (.inr ⟨d, hd⟩)⟩

omit [DecidableEq α] in
/-- In a list without repetitions what precedes a member of a prefix is in the prefix. -/
theorem precedes_prefix {x y : List α} (hn : (x ++ y).Nodup) {a b : α} (h : Precedes (x ++ y) a b) (hb : b ∈ x) : a ∈ x := by
  obtain ⟨p, q, r, e⟩ := h
  obtain ⟨u, v, rfl⟩ := List.append_of_mem hb
  have e' : u ++ b :: (v ++ y) = (p ++ a :: q) ++ b :: r := by simpa using e
  have hn' : (u ++ b :: (v ++ y)).Nodup := by simpa using hn
  have : u = p ++ a :: q := by
    have hu : b ∉ u := by
      intro hb
      rw [List.nodup_append] at hn'
      exact hn'.2.2 b hb b (by simp) rfl
    have hp : b ∉ p ++ a :: q := by
      intro hb
      rw [e', List.nodup_append] at hn'
      exact hn'.2.2 b hb b (by simp) rfl
    rcases List.append_eq_append_iff.1 e' with ⟨t, e1, e2⟩ | ⟨t, e1, e2⟩
    · cases t with
      | nil => simpa using e1.symm
      | cons z t =>
        simp only [List.cons_append, List.cons.injEq] at e2
        obtain ⟨rfl, -⟩ := e2
        exact absurd (by rw [e1]; simp) hp
    · cases t with
      | nil => simpa using e1
      | cons z t =>
        simp only [List.cons_append, List.cons.injEq] at e2
        obtain ⟨rfl, -⟩ := e2
        exact absurd (by rw [e1]; simp) hu
  rw [this]
  simp

omit [DecidableEq α] in
theorem not_precedes_self {l : List α} (hn : l.Nodup) {a : α} : ¬ Precedes l a a := by
  rintro ⟨p, q, r, rfl⟩
  rw [List.nodup_append] at hn
  exact (List.nodup_cons.1 hn.2.1).1 (by simp)

open Classical in
/-- What an item sets free, said with the constraints that are not implied and the order only. -/
theorem freed_eq (hist : List (List α)) (out done rest : List α) (h : α) (he : out = done ++ h :: rest) (hn : out.Nodup) (hk : ∀ x, x ∈ out ↔ Known hist x)
    (hp : ∀ a b, Constrains hist a b → Precedes out a b) :
    (successors hist h).filter (fun u => out.all (fun p => !(successors hist p).contains u || (done ++ [h]).contains p)) =
      (needed hist h).filter (fun u => ∀ p, Relation.TransGen (Constrains hist) p u → p ∈ done ++ [h]) := by
  have hp' : ∀ a b, Relation.TransGen (Constrains hist) a b → Precedes out a b := fun a b => precedes_gen hn hp
  have he' : out = (done ++ [h]) ++ rest := by simp [he]
  rw [needed, List.filter_filter]
  refine List.filter_congr fun u hu => ?_
  rw [mem_successors] at hu
  rw [Bool.eq_iff_iff]
  simp only [List.all_eq_true, Bool.or_eq_true, Bool.not_eq_true', List.contains_eq_mem, decide_eq_false_iff_not, decide_eq_true_eq, Bool.and_eq_true, mem_successors]
  constructor
  · intro g
    have g' : ∀ p, Relation.TransGen (Constrains hist) p u → p ∈ done ++ [h] := by
      intro p hpu
      obtain ⟨d, hd, hpd⟩ := gen_last hpu
      have hd' : d ∈ done ++ [h] := (g d ((hk d).2 (known_left hd))).resolve_left (fun k => k hd)
      rcases hpd with e | t
      · exact e ▸ hd'
      · exact precedes_prefix (by rw [← he']; exact hn) (by rw [← he']; exact hp' _ _ t) hd'
    refine ⟨g', ?_⟩
    rintro ⟨b, h1, h2⟩
    have hb := g' b h2
    rcases List.mem_append.1 hb with hb | hb
    · have := precedes_prefix (x := done) (y := h :: rest) (by rw [← he]; exact hn) (by rw [← he]; exact hp' _ _ h1) hb
      rw [he, List.nodup_append] at hn
      exact hn.2.2 h this h (by simp) rfl
    · rw [List.mem_singleton] at hb
      subst hb
      exact not_precedes_self hn (hp' _ _ h1)
  · rintro ⟨g, -⟩ p -
    by_cases hc : Constrains hist p u
    · exact .inr (g p (.single hc))
    · exact .inl hc

/-- The items set free are the same for two histories with the same meaning and the same needed successors. -/
theorem releases_same (hist hist' : List (List α)) (hm : SameMeaning hist hist') (hs : ∀ a, needed hist a = needed hist' a) (out : List α) (hn : out.Nodup)
    (hk : ∀ x, x ∈ out ↔ Known hist x) (hp : ∀ a b, Relation.TransGen (Constrains hist) a b → Precedes out a b) : ∀ (rest done : List α), out = done ++ rest →
    releases (successors hist) out done rest = releases (successors hist') out done rest := by
  intro rest
  induction rest with
  | nil => intro done _; rfl
  | cons h rest ih =>
    intro done he
    rw [releases, releases, ih (done ++ [h]) (by simp [he])]
    congr 1
    rw [freed_eq hist out done rest h he hn hk (fun a b c => hp a b (.single c)),
      freed_eq hist' out done rest h he hn (fun x => by rw [hk, hm.items]) (fun a b c => hp a b ((hm.before a b).2 (.single c))), hs]
    refine List.filter_congr fun u _ => ?_
    rw [decide_eq_decide]
    exact ⟨fun g p k => g p ((hm.before p u).2 k), fun g p k => g p ((hm.before p u).1 k)⟩

theorem releases_append (succ : α → List α) (all : List α) : ∀ (x done y : List α), releases succ all done (x ++ y) = releases succ all done x ++ releases succ all (done ++ x) y := by
  intro x
  induction x with
  | nil => intro done y; simp [releases]
  | cons a x ih => intro done y; simp [releases, ih, List.append_assoc]

theorem releases_mem (succ : α → List α) (all : List α) : ∀ (x done : List α) (u : α), u ∈ releases succ all done x → ∃ h ∈ x, u ∈ succ h := by
  intro x
  induction x with
  | nil => intro done u h; simp [releases] at h
  | cons a x ih =>
    intro done u h
    rw [releases, List.mem_append] at h
    rcases h with h | h
    · exact ⟨a, by simp, (List.mem_filter.1 h).1⟩
    · obtain ⟨k, h1, h2⟩ := ih _ u h
      exact ⟨k, by simp [h1], h2⟩

/-- The equation of C110 has one solution. -/
theorem releases_unique (hist : List (List α)) (hs out out' : List α) (hn : out.Nodup) (hn' : out'.Nodup) (hm : ∀ x, x ∈ out ↔ x ∈ out')
    (hp : ∀ a b, Constrains hist a b → Precedes out a b) (h : out = hs ++ releases (successors hist) out [] out)
    (h' : out' = hs ++ releases (successors hist) out' [] out') : out = out' := by
  have hlen : out.length = out'.length := ((List.perm_ext_iff_of_nodup hn hn').2 hm).length_eq
  rw [releases_congr (successors hist) out' out (fun p u _ => (hm p).symm)] at h'
  have key : ∀ k, k ≤ out.length → out.take k = out'.take k := by
    intro k
    induction k with
    | zero => intro _; simp
    | succ k ih =>
      intro hk
      have e := ih (by omega)
      generalize hP : hs ++ releases (successors hist) out [] (out.take k) = P
      have e1 : out = P ++ releases (successors hist) out (out.take k) (out.drop k) := by
        rw [← hP, List.append_assoc]
        have := releases_append (successors hist) out (out.take k) [] (out.drop k)
        rw [List.take_append_drop, List.nil_append] at this
        rw [← this]
        exact h
      have e2 : out' = P ++ releases (successors hist) out (out'.take k) (out'.drop k) := by
        rw [← hP, List.append_assoc, e]
        have := releases_append (successors hist) out (out'.take k) [] (out'.drop k)
        rw [List.take_append_drop, List.nil_append] at this
        rw [← this]
        exact h'
      have hlt : k < P.length := by
        apply Nat.lt_of_not_le
        intro hle
        have hkl : k < out.length := by omega
        have hmem : out[k] ∈ releases (successors hist) out (out.take k) (out.drop k) := by
          have : out[k]? = (releases (successors hist) out (out.take k) (out.drop k))[k - P.length]? := by
            refine Eq.trans (congrArg (·[k]?) e1) ?_
            exact List.getElem?_append_right hle
          rw [List.getElem?_eq_getElem hkl] at this
          exact List.mem_of_getElem? this.symm
        obtain ⟨d, hd, hc⟩ := releases_mem _ _ _ _ _ hmem
        rw [mem_successors] at hc
        have hpre := hp _ _ hc
        have hsplit : out = out.take (k + 1) ++ out.drop (k + 1) := (List.take_append_drop _ _).symm
        have hin : d ∈ out.take (k + 1) := by
          refine precedes_prefix (y := out.drop (k + 1)) (by rw [← hsplit]; exact hn) (by rw [← hsplit]; exact hpre) ?_
          exact List.mem_take_iff_getElem.2 ⟨k, by omega, rfl⟩
        rw [List.take_succ_eq_append_getElem hkl, List.mem_append, List.mem_singleton] at hin
        rcases hin with hin | hin
        · have hn2 := hn
          rw [← List.take_append_drop k out, List.nodup_append] at hn2
          exact hn2.2.2 d hin d hd rfl
        · subst hin
          exact not_precedes_self hn hpre
      rw [e1, e2, List.take_append_of_le_length hlt, List.take_append_of_le_length hlt]
  have := key out.length (Nat.le_refl _)
  rw [List.take_length] at this
  rw [hlen, List.take_length] at this
  exact this

omit [DecidableEq α] in
theorem SameMeaning.flip {hist hist' : List (List α)} (h : SameMeaning hist hist') : SameMeaning hist' hist :=
  ⟨fun x => (h.items x).symm, fun a b => (h.before a b).symm⟩

theorem order_same_one (hist hist' : List (List α)) (hm : SameMeaning hist hist') (hs : ∀ a, needed hist a = needed hist' a) (r : Option (List α)) (m : Orderings α)
    (ho : Order (addAll [] hist) r m) : ∃ m', Order (addAll [] hist') r m' := by
  have hcyc : Cyclic (Constrains hist) ↔ Cyclic (Constrains hist') := by simp only [Cyclic, hm.before]
  cases r with
  | none =>
    have hc := ((C20_fails_iff_cycle hist).2 _ _ ho).1 rfl
    obtain ⟨⟨r', m', h'⟩, g⟩ := C20_fails_iff_cycle hist'
    have := (g _ _ h').2 (hcyc.1 hc)
    subst this
    exact ⟨m', h'⟩
  | some out =>
    have hc : ¬ Cyclic (Constrains hist) := fun hc => by simpa using ((C20_fails_iff_cycle hist).2 _ _ ho).2 hc
    obtain ⟨H, hH, hS, he⟩ := C110_order hist out m ho
    obtain ⟨hn, hk⟩ := C19_permutation hist out m ho
    have hp := C18_respects_constraints hist out m ho
    have hS' : ∀ x, x ∈ H ↔ Source hist' x := by
      intro x
      rw [hS, source_gen, source_gen, hm.items]
      simp only [hm.before]
    obtain ⟨rest, ho', -⟩ := C110_any_order hist' (fun c => hc (hcyc.2 c)) H hH hS'
    obtain ⟨H', hH', hS2, he'⟩ := C110_order hist' _ _ ho'
    obtain ⟨hn', hk'⟩ := C19_permutation hist' _ _ ho'
    have hp' := C18_respects_constraints hist' _ _ ho'
    have hl : H.length = H'.length := ((List.perm_ext_iff_of_nodup hH hH').2 (fun x => by rw [hS', hS2])).length_eq
    obtain ⟨e1, e2⟩ := List.append_inj he' hl
    subst e1
    rw [releases_same hist hist' hm hs out hn hk (fun a b => precedes_gen hn hp) out [] rfl] at he
    have := releases_unique hist' H out (H ++ rest) hn hn' (fun x => by rw [hk, hk', hm.items])
      (fun a b c => precedes_gen hn hp ((hm.before a b).2 (.single c))) he he'
    exact ⟨[], by rw [this]; exact ho'⟩

/-- **C152** Two sequences of `Add` calls with the same items and the same meaning: if after each item the successors that are not implied were first mentioned
in the same order, then exactly the same results are possible. -/
theorem C152_same_orders (hist hist' : List (List α)) (hm : SameMeaning hist hist') (hs : ∀ a, needed hist a = needed hist' a) (r : Option (List α)) :
    (∃ m, Order (addAll [] hist) r m) ↔ ∃ m, Order (addAll [] hist') r m :=
  ⟨fun ⟨m, h⟩ => order_same_one hist hist' hm hs r m h, fun ⟨m, h⟩ => order_same_one hist' hist hm.flip (fun a => (hs a).symm) r m h⟩

omit [DecidableEq α] in
theorem constrains_pair (pre post : List (List α)) (a c x y : α) :
    Constrains (pre ++ [a, c] :: post) x y ↔ Constrains (pre ++ post) x y ∨ (x = a ∧ y = c ∧ [a] ∉ post) := by
  constructor
  · rintro ⟨p, it, q, e, ha, hn⟩
    rcases List.append_eq_append_iff.1 e with ⟨t, e1, e2⟩ | ⟨t, e1, e2⟩
    · cases t with
      | nil =>
        simp only [List.nil_append, List.cons.injEq] at e2
        obtain ⟨rfl, rfl⟩ := e2
        obtain ⟨u, v, e⟩ := ha
        match u, e with
        | [], e =>
          simp only [List.nil_append, List.cons.injEq] at e
          obtain ⟨rfl, rfl, -⟩ := e
          exact .inr ⟨rfl, rfl, hn⟩
        | [_], e => simp at e
        | _ :: _ :: u, e => have := congrArg List.length e; simp at this
      | cons z t =>
        simp only [List.cons_append, List.cons.injEq] at e2
        obtain ⟨rfl, rfl⟩ := e2
        subst e1
        exact .inl ⟨pre ++ t, it, q, by simp, ha, hn⟩
    · cases t with
      | nil =>
        simp only [List.nil_append, List.cons.injEq] at e2
        obtain ⟨rfl, rfl⟩ := e2
        obtain ⟨u, v, e⟩ := ha
        match u, e with
        | [], e =>
          simp only [List.nil_append, List.cons.injEq] at e
          obtain ⟨rfl, rfl, -⟩ := e
          exact .inr ⟨rfl, rfl, hn⟩
        | [_], e => simp at e
        | _ :: _ :: u, e => have := congrArg List.length e; simp at this
      | cons z t =>
        simp only [List.cons_append, List.cons.injEq] at e2
        obtain ⟨rfl, rfl⟩ := e2
        subst e1
        exact .inl ⟨p, it, t ++ post, by simp, ha, fun h => hn (by
          simp only [List.mem_append, List.mem_cons] at h ⊢
          rcases h with h | h
          · exact .inl h
          · exact .inr (.inr h))⟩
  · rintro (⟨p, it, q, e, ha, hn⟩ | ⟨rfl, rfl, hn⟩)
    · rcases List.append_eq_append_iff.1 e with ⟨t, e1, e2⟩ | ⟨t, e1, e2⟩
      · exact ⟨pre ++ [a, c] :: t, it, q, by simp [e2], ha, hn⟩
      · cases t with
        | nil =>
          simp only [List.nil_append] at e2
          exact ⟨pre ++ [[a, c]], it, q, by simp [← e2], ha, hn⟩
        | cons z t =>
          simp only [List.cons_append, List.cons.injEq] at e2
          obtain ⟨rfl, rfl⟩ := e2
          refine ⟨p, it, t ++ [a, c] :: post, by simp [e1], ha, ?_⟩
          simp only [List.mem_append, List.mem_cons, not_or] at hn ⊢
          exact ⟨hn.1, by simp, hn.2⟩
    · exact ⟨pre, [x, y], post, rfl, ⟨[], [], rfl⟩, hn⟩

theorem firsts_filter (p : α → Bool) : ∀ l : List α, (firsts l).filter p = firsts (l.filter p) := by
  intro l
  induction l with
  | nil => rfl
  | cons x l ih =>
    rw [firsts, List.filter_cons, List.filter_cons]
    by_cases hx : p x
    · rw [if_pos hx, if_pos hx, firsts, ← ih]
      simp only [List.filter_filter, Bool.and_comm]
    · rw [if_neg hx, if_neg hx, ← ih, List.filter_filter]
      refine List.filter_congr fun u _ => ?_
      by_cases hu : u = x
      · subst hu; simp [hx]
      · simp [hu]

theorem takeWhile_insert (x : α) (z : List α) (hz : z ≠ [x]) (post pre : List (List α)) :
    ((pre ++ z :: post).reverse.takeWhile (· ≠ [x])).reverse.flatMap (mentioned x) = ((pre ++ post).reverse.takeWhile (· ≠ [x])).reverse.flatMap (mentioned x) ∨
    ∃ A B, ((pre ++ z :: post).reverse.takeWhile (· ≠ [x])).reverse.flatMap (mentioned x) = A ++ mentioned x z ++ B ∧
      ((pre ++ post).reverse.takeWhile (· ≠ [x])).reverse.flatMap (mentioned x) = A ++ B := by
  simp only [List.reverse_append, List.reverse_cons, List.append_assoc, List.takeWhile_append]
  split
  · right
    refine ⟨(List.takeWhile (· ≠ [x]) pre.reverse).reverse.flatMap (mentioned x), post.flatMap (mentioned x), ?_, ?_⟩
    · simp [hz]
    · simp
  · exact .inl rfl

open Classical in
/-- A constraint that is implied by the others, wherever it is said, changes neither the meaning nor what is needed. -/
theorem implied_same (pre post : List (List α)) (a c : α) (h : Implied (pre ++ post) a c) :
    SameMeaning (pre ++ [a, c] :: post) (pre ++ post) ∧ ∀ x, needed (pre ++ [a, c] :: post) x = needed (pre ++ post) x := by
  obtain ⟨b, hab, hbc⟩ := h
  have hac : Relation.TransGen (Constrains (pre ++ post)) a c := hab.trans hbc
  have hgen : ∀ x y, Relation.TransGen (Constrains (pre ++ [a, c] :: post)) x y ↔ Relation.TransGen (Constrains (pre ++ post)) x y := by
    intro x y
    constructor
    · intro g
      induction g with
      | single g =>
        rcases (constrains_pair ..).1 g with g | ⟨rfl, rfl, -⟩
        · exact .single g
        · exact hac
      | tail _ g ih =>
        rcases (constrains_pair ..).1 g with g | ⟨rfl, rfl, -⟩
        · exact ih.tail g
        · exact ih.trans hac
    · intro g
      induction g with
      | single g => exact .single ((constrains_pair ..).2 (.inl g))
      | tail _ g ih => exact ih.tail ((constrains_pair ..).2 (.inl g))
  have hm : SameMeaning (pre ++ [a, c] :: post) (pre ++ post) := by
    refine ⟨fun x => ?_, hgen⟩
    constructor
    · rintro (g | ⟨it, g, y, k⟩ | ⟨y, g⟩)
      · refine .inl ?_
        simp only [List.mem_append, List.mem_cons] at g ⊢
        rcases g with g | g | g
        · exact .inl g
        · simp at g
        · exact .inr g
      · simp only [List.mem_append, List.mem_cons] at g
        rcases g with g | rfl | g
        · exact .inr (.inl ⟨it, by simp [g], y, k⟩)
        · obtain ⟨u, v, e⟩ := k
          match u, e with
          | [], e =>
            simp only [List.nil_append, List.cons.injEq] at e
            rw [← e.1]
            exact (known_gen hac).1
          | [_], e => simp at e
          | _ :: _ :: u, e => have := congrArg List.length e; simp at this
        · exact .inr (.inl ⟨it, by simp [g], y, k⟩)
      · exact (known_gen ((hgen _ _).1 (.single g))).2
    · rintro (g | ⟨it, g, y, k⟩ | ⟨y, g⟩)
      · refine .inl ?_
        simp only [List.mem_append, List.mem_cons] at g ⊢
        rcases g with g | g
        · exact .inl g
        · exact .inr (.inr g)
      · refine .inr (.inl ⟨it, ?_, y, k⟩)
        simp only [List.mem_append, List.mem_cons] at g ⊢
        rcases g with g | g
        · exact .inl g
        · exact .inr (.inr g)
      · exact .inr (.inr ⟨y, (constrains_pair ..).2 (.inl g)⟩)
  refine ⟨hm, fun x => ?_⟩
  have hi : Implied (pre ++ [a, c] :: post) = Implied (pre ++ post) := by
    funext u v
    simp only [Implied, hgen]
  rw [needed, needed, hi, successors, successors, firsts_filter, firsts_filter]
  rcases takeWhile_insert x [a, c] (by simp) post pre with e | ⟨A, B, e1, e2⟩
  · rw [e]
  · rw [e1, e2, List.filter_append, List.filter_append, List.filter_append]
    have : (mentioned x [a, c]).filter (fun v => decide (¬ Implied (pre ++ post) x v)) = [] := by
      by_cases hx : a = x
      · subst hx
        have : Implied (pre ++ post) a c := ⟨b, hab, hbc⟩
        simp [mentioned, this]
      · simp [mentioned, hx]
    rw [this, List.append_nil]

/-- **C152** A constraint that follows from the others through a third item, wherever it is said: exactly the same results are possible. -/
theorem C152_implied (pre post : List (List α)) (a c : α) (h : Implied (pre ++ post) a c) (r : Option (List α)) :
    (∃ m, Order (addAll [] (pre ++ [a, c] :: post)) r m) ↔ ∃ m, Order (addAll [] (pre ++ post)) r m :=
  C152_same_orders _ _ (implied_same pre post a c h).1 (implied_same pre post a c h).2 r

end

/-! ## The command -/

theorem run_of_orders (input input' : Bytes) (ps ps' : List (Bytes × Bytes)) (hw : Words input (pairWords ps)) (hw' : Words input' (pairWords ps'))
    (hs : ∀ w ∈ pairWords ps, w.length < 65534) (hs' : ∀ w ∈ pairWords ps', w.length < 65534)
    (h : ∀ r, (∃ m, Order (addAll [] (pairHist ps)) r m) ↔ ∃ m, Order (addAll [] (pairHist ps')) r m) (out : Out) : Run input out ↔ Run input' out := by
  rw [run_iff input ps hw hs, run_iff input' ps' hw' hs']
  constructor
  · rintro ⟨r, m, ho, e⟩
    obtain ⟨m', ho'⟩ := (h r).1 ⟨m, ho⟩
    exact ⟨r, m', ho', e⟩
  · rintro ⟨r, m, ho, e⟩
    obtain ⟨m', ho'⟩ := (h r).2 ⟨m, ho⟩
    exact ⟨r, m', ho', e⟩

/-- **C152** A pair that follows from the others through a third word may stand in the input or not, and anywhere: exactly the same can be printed. -/
theorem C152_command_implied (input input' : Bytes) (ps qs : List (Bytes × Bytes)) (a c : Bytes) (hac : a ≠ c) (h : Implied (pairHist (ps ++ qs)) a c)
    (hw : Words input (pairWords (ps ++ (a, c) :: qs))) (hw' : Words input' (pairWords (ps ++ qs)))
    (hs : ∀ w ∈ pairWords (ps ++ (a, c) :: qs), w.length < 65534) (out : Out) : Run input out ↔ Run input' out := by
  have hs' : ∀ w ∈ pairWords (ps ++ qs), w.length < 65534 := by
    intro w hm
    refine hs w ?_
    simp only [pairWords, List.flatMap_append, List.flatMap_cons, List.mem_append] at hm ⊢
    rcases hm with h | h
    · exact .inl h
    · exact .inr (.inr h)
  refine run_of_orders input input' _ _ hw hw' hs hs' (fun r => ?_) out
  have e1 : pairHist (ps ++ (a, c) :: qs) = pairHist ps ++ [a, c] :: pairHist qs := by simp [pairHist, hac]
  have e2 : pairHist (ps ++ qs) = pairHist ps ++ pairHist qs := by simp [pairHist]
  rw [e2] at h
  rw [e1, e2]
  exact C152_implied _ _ a c h r

theorem mentioned_pair (x : Bytes) (p : Bytes × Bytes) (hp : p.1 ≠ x) : mentioned x (if p.1 = p.2 then [p.1] else [p.1, p.2]) = [] := by
  split <;> simp [mentioned, hp]

/-- The successors of a word depend on the pairs that begin with it only. -/
theorem successors_pairs (ps : List (Bytes × Bytes)) (a : Bytes) : successors (pairHist ps) a = successors (pairHist (ps.filter (·.1 = a))) a := by
  unfold successors
  congr 1
  have key : ∀ qs : List (Bytes × Bytes), ((pairHist qs).takeWhile (· ≠ [a])).reverse.flatMap (mentioned a) =
      ((pairHist (qs.filter (·.1 = a))).takeWhile (· ≠ [a])).reverse.flatMap (mentioned a) := by
    intro qs
    induction qs with
    | nil => rfl
    | cons p qs ih =>
      have e : pairHist (p :: qs) = (if p.1 = p.2 then [p.1] else [p.1, p.2]) :: pairHist qs := by simp [pairHist]
      by_cases hp : p.1 = a
      · have e' : pairHist ((p :: qs).filter (·.1 = a)) = (if p.1 = p.2 then [p.1] else [p.1, p.2]) :: pairHist (qs.filter (·.1 = a)) := by
          simp [pairHist, hp]
        rw [e, e']
        generalize (if p.1 = p.2 then [p.1] else [p.1, p.2]) = z
        rw [List.takeWhile_cons, List.takeWhile_cons]
        split
        · simp only [List.reverse_cons, List.flatMap_append]
          rw [ih]
        · rfl
      · have e' : (p :: qs).filter (·.1 = a) = qs.filter (·.1 = a) := by simp [hp]
        have hne : (if p.1 = p.2 then [p.1] else [p.1, p.2]) ≠ [a] := by
          split <;> simp [hp]
        rw [e, e', List.takeWhile_cons, if_pos (by simp [hne]), List.reverse_cons, List.flatMap_append, ih]
        simp [mentioned_pair a p hp]
  have er : ∀ qs : List (Bytes × Bytes), (pairHist qs).reverse = pairHist qs.reverse := by
    intro qs
    simp [pairHist]
  rw [er, er, key, ← List.filter_reverse]

/-- **C152** The pairs may be rearranged as long as those with the same first word stay in order: exactly the same can be printed. -/
theorem C152_rearranged (input input' : Bytes) (ps ps' : List (Bytes × Bytes)) (hw : Words input (pairWords ps)) (hw' : Words input' (pairWords ps'))
    (hs : ∀ w ∈ pairWords ps, w.length < 65534) (h : ∀ a, ps.filter (·.1 = a) = ps'.filter (·.1 = a)) (out : Out) : Run input out ↔ Run input' out := by
  have hmem : ∀ p, p ∈ ps ↔ p ∈ ps' := by
    intro p
    have := congrArg (p ∈ ·) (h p.1)
    simpa using this
  have hs' : ∀ w ∈ pairWords ps', w.length < 65534 := by
    intro w hm
    refine hs w ?_
    simp only [pairWords, List.mem_flatMap] at hm ⊢
    obtain ⟨p, hp, k⟩ := hm
    exact ⟨p, (hmem p).2 hp, k⟩
  have hsucc : ∀ a, successors (pairHist ps) a = successors (pairHist ps') a := by
    intro a
    rw [successors_pairs, successors_pairs ps', h]
  have hcon : Constrains (pairHist ps) = Constrains (pairHist ps') := by
    funext a b
    exact propext (by rw [← mem_successors, ← mem_successors, hsucc])
  have hh : ∀ it, it ∈ pairHist ps ↔ it ∈ pairHist ps' := by
    intro it
    simp only [pairHist, List.mem_map, hmem]
  refine run_of_orders input input' ps ps' hw hw' hs hs' (C152_same_orders _ _ ⟨fun x => ?_, fun a b => by rw [hcon]⟩ fun a => ?_) out
  · unfold Known
    simp only [hh, hcon]
  · unfold needed Implied
    rw [hsucc, hcon]

/-! ## Instances -/

/-- `a b`, `b c`, and `a c` said first. -/
example : Implied (pairHist ([] ++ [(b!"a", b!"b"), (b!"b", b!"c")])) b!"a" b!"c" :=
  ⟨b!"b", .single ⟨[], [b!"a", b!"b"], [[b!"b", b!"c"]], by decide, ⟨[], [], rfl⟩, by decide⟩,
    .single ⟨[[b!"a", b!"b"]], [b!"b", b!"c"], [], by decide, ⟨[], [], rfl⟩, by decide⟩⟩

example (out : Out) : Run b!"a c a b b c" out ↔ Run b!"a b b c" out :=
  C152_command_implied _ _ [] [(b!"a", b!"b"), (b!"b", b!"c")] b!"a" b!"c" (by decide)
    ⟨b!"b", .single ⟨[], [b!"a", b!"b"], [[b!"b", b!"c"]], by decide, ⟨[], [], rfl⟩, by decide⟩,
      .single ⟨[[b!"a", b!"b"]], [b!"b", b!"c"], [], by decide, ⟨[], [], rfl⟩, by decide⟩⟩
    ((fields_iff _ _).mp (by decide)) ((fields_iff _ _).mp (by decide)) (by decide) out

example (out : Out) : Run b!"a x b y a z" out ↔ Run b!"b y a x a z" out := by
  refine C152_rearranged _ _ [(b!"a", b!"x"), (b!"b", b!"y"), (b!"a", b!"z")] [(b!"b", b!"y"), (b!"a", b!"x"), (b!"a", b!"z")]
    ((fields_iff _ _).mp (by decide)) ((fields_iff _ _).mp (by decide)) (by decide) (fun a => ?_) out
  by_cases h1 : b!"a" = a
  · subst h1; decide
  · by_cases h2 : b!"b" = a
    · subst h2; decide
    · simp only [List.filter_cons, h1, h2]
      simp

/-- **C152** Pairs with the same first word may not be exchanged: `a b a c` prints a, b, c and `a c a b` prints a, c, b. -/
theorem C152_order_matters : (∀ out, Run b!"a b a c" out → out.stdout = b!"a\nb\nc\n") ∧ ∀ out, Run b!"a c a b" out → out.stdout = b!"a\nc\nb\n" := by
  have one : ∀ (m : Orderings Bytes) (l : List Bytes) (hist : List (List Bytes)), addAll [] hist = m → heads m = [b!"a"] → Order m (some l) [] →
      ∀ r m', Order m r m' → r = some l := by
    rintro m l hist rfl hh ho r m' hr
    refine (C110_same_iff hist).2 (.inr fun x y hx hy => ?_) r (some l) m' [] hr ho
    rw [← heads_source, hh, List.mem_singleton] at hx hy
    rw [hx, hy]
  constructor
  · intro out ho
    obtain ⟨r, m', hr, he⟩ := (run_iff _ [(b!"a", b!"b"), (b!"a", b!"c")] ((fields_iff _ _).mp (by decide)) (by decide) out).1 ho
    have := one _ [b!"a", b!"b", b!"c"] (pairHist [(b!"a", b!"b"), (b!"a", b!"c")]) rfl (by decide) ⟨[b!"a"], 5, List.Perm.refl _, by decide⟩ r m' hr
    subst this
    dsimp only at he
    subst he
    decide
  · intro out ho
    obtain ⟨r, m', hr, he⟩ := (run_iff _ [(b!"a", b!"c"), (b!"a", b!"b")] ((fields_iff _ _).mp (by decide)) (by decide) out).1 ho
    have := one _ [b!"a", b!"c", b!"b"] (pairHist [(b!"a", b!"c"), (b!"a", b!"b")]) rfl (by decide) ⟨[b!"a"], 5, List.Perm.refl _, by decide⟩ r m' hr
    subst this
    dsimp only at he
    subst he
    decide

end TSort
