import Verif.TSort.Props

/-! # Which order tsort prints, and when it is always the same (C110) -/

namespace TSort
open Go

/-! ## Specification -/

section
variable {α : Type} [DecidableEq α]

/-- What follows `a` in one `Add` call, in order. -/
def mentioned (a : α) : List α → List α
  | x :: y :: rest => (if x = a then [y] else []) ++ mentioned a (y :: rest)
  | _ => []

/-- The first occurrence of every element. -/
def firsts : List α → List α
  | [] => []
  | x :: xs => x :: (firsts xs).filter (· ≠ x)

/-- The successors of `a` in the order they were first mentioned since the last call with `a` alone. -/
def successors (hist : List (List α)) (a : α) : List α :=
  firsts ((hist.reverse.takeWhile (· ≠ [a])).reverse.flatMap (mentioned a))

/-- No constraint in force has `x` on its right. -/
def Source (hist : List (List α)) (x : α) : Prop := Known hist x ∧ ∀ a, ¬ Constrains hist a x

/-- Go through the items `t` after `done`; each sets free, in order, those of its successors all of whose predecessors (among `all`) are then done. -/
def releases (succ : α → List α) (all done : List α) : List α → List α
  | [] => []
  | h :: t => (succ h).filter (fun u => all.all (fun p => !(succ p).contains u || (done ++ [h]).contains p)) ++ releases succ all (done ++ [h]) t

/-! ## Proofs -/

theorem mem_firsts (l : List α) (x : α) : x ∈ firsts l ↔ x ∈ l := by
  induction l with
  | nil => simp [firsts]
  | cons y l ih =>
    simp only [firsts, List.mem_cons, List.mem_filter, decide_eq_true_eq, ih]
    by_cases h : x = y <;> simp [h]

theorem firsts_snoc (l : List α) (b : α) : firsts (l ++ [b]) = if b ∈ l then firsts l else firsts l ++ [b] := by
  induction l with
  | nil => simp [firsts]
  | cons x l ih =>
    rw [List.cons_append, firsts, ih, firsts]
    by_cases hb : b ∈ l
    · rw [if_pos hb, if_pos (by simp [hb])]
    · rw [if_neg hb]
      by_cases hx : b = x
      · subst hx; rw [if_pos (by simp), List.filter_append]; simp
      · rw [if_neg (by simp [hb, hx]), List.filter_append]; simp [hx]

theorem get_addPair_firsts (m : Orderings α) (x y a : α) (l : List α) (h : get m a = firsts l) :
    get (addPair m x y) a = firsts (l ++ (if x = a then [y] else [])) := by
  unfold addPair
  by_cases hx : x = a
  · subst hx
    rw [if_pos rfl, firsts_snoc]
    by_cases hy : y ∈ l
    · have : inSlice (get m x) y = true := by rw [inSlice_iff, h, mem_firsts]; exact hy
      rw [if_pos hy, this]; simp [h]
    · have : inSlice (get m x) y = false := by
        rw [Bool.eq_false_iff]; intro hc; rw [inSlice_iff, h, mem_firsts] at hc; exact hy hc
      rw [if_neg hy, this]; simp [get_set, h]
  · rw [if_neg hx, List.append_nil]
    split
    · rw [get_set, if_neg (fun e => hx e.symm), h]
    · exact h

theorem get_addPairs_firsts (items : List α) : ∀ (m : Orderings α) (a : α) (l : List α), get m a = firsts l →
    get (addPairs m items) a = firsts (l ++ mentioned a items) := by
  induction items with
  | nil => intro m a l h; simpa [addPairs, mentioned] using h
  | cons x items ih =>
    intro m a l h
    cases items with
    | nil => simpa [addPairs, mentioned] using h
    | cons y rest =>
      rw [addPairs, mentioned, ← List.append_assoc]
      exact ih _ a _ (get_addPair_firsts m x y a l h)

theorem get_add_firsts (m : Orderings α) (items : List α) (a : α) (l : List α) (h : get m a = firsts l) :
    get (add m items) a = firsts (if items = [a] then [] else l ++ mentioned a items) := by
  match items with
  | [] => simpa [add, mentioned] using h
  | [x] =>
    simp only [add]
    rw [get_set]
    by_cases hx : a = x
    · subst hx; simp [firsts]
    · rw [if_neg hx, if_neg (by simpa using fun e => hx e.symm)]; simpa [mentioned] using h
  | x :: y :: rest =>
    rw [if_neg (by simp)]
    exact get_addPairs_firsts _ m a l h

theorem takeWhile_snoc_flat (hist : List (List α)) (items : List α) (a : α) :
    ((hist ++ [items]).reverse.takeWhile (· ≠ [a])).reverse.flatMap (mentioned a) =
    if items = [a] then [] else (hist.reverse.takeWhile (· ≠ [a])).reverse.flatMap (mentioned a) ++ mentioned a items := by
  rw [List.reverse_append, List.reverse_singleton, List.singleton_append, List.takeWhile_cons]
  by_cases h : items = [a]
  · simp [h]
  · simp [h]

/-- The successors stored for an item. -/
theorem get_addAll (hist : List (List α)) (a : α) : get (addAll [] hist) a = successors hist a := by
  have : ∀ n (hist : List (List α)), hist.length = n → get (addAll [] hist) a = successors hist a := by
    intro n
    induction n with
    | zero => intro hist h; have := List.length_eq_zero_iff.1 h; subst this; simp [addAll, get, successors, firsts]
    | succ n ih =>
      intro hist h
      rcases List.eq_nil_or_concat hist with rfl | ⟨pre, items, rfl⟩
      · simp at h
      · rw [List.concat_eq_append] at h ⊢
        have hl : pre.length = n := by simpa using h
        rw [addAll_append, successors, takeWhile_snoc_flat]
        exact get_add_firsts _ items a _ (ih pre hl)
  exact this _ hist rfl

theorem releases_snoc (succ : α → List α) (all : List α) (c : α) : ∀ (xs done : List α), releases succ all done (xs ++ [c]) = releases succ all done xs ++
    (succ c).filter (fun u => all.all (fun p => !(succ p).contains u || (done ++ xs ++ [c]).contains p)) := by
  intro xs
  induction xs with
  | nil => intro done; simp [releases]
  | cons x xs ih =>
    intro done
    rw [List.cons_append, releases, releases, ih (done ++ [x]), List.append_assoc]
    simp only [List.append_assoc, List.singleton_append, List.cons_append, List.nil_append]

theorem releases_congr (succ : α → List α) (all all' : List α) (h : ∀ p u, u ∈ succ p → (p ∈ all ↔ p ∈ all')) : ∀ (xs done : List α),
    releases succ all done xs = releases succ all' done xs := by
  intro xs
  induction xs with
  | nil => intro done; rfl
  | cons x xs ih =>
    intro done
    rw [releases, releases, ih]
    congr 1
    apply List.filter_congr
    intro u _
    rw [Bool.eq_iff_iff, List.all_eq_true, List.all_eq_true]
    constructor
    · intro g p hp
      by_cases hu : u ∈ succ p
      · exact g p ((h p u hu).2 hp)
      · simp [hu]
    · intro g p hp
      by_cases hu : u ∈ succ p
      · exact g p ((h p u hu).1 hp)
      · simp [hu]

/-- The queue of the loop. -/
theorem loop_releases {m0 : Orderings α} (hs : List α) (fuel : Nat) : ∀ (cs : List α) (m : Orderings α) (out out' : List α)
    (m' : Orderings α), Inv m0 cs m out → out ++ cs = hs ++ releases (get m0) (keys m0) [] out → orderLoop fuel cs m out = some (out', m') →
    out' = hs ++ releases (get m0) (keys m0) [] out' := by
  induction fuel with
  | zero =>
    intro cs m out out' m' _ h hr
    cases cs with
    | nil => simp only [orderLoop, Option.some.injEq, Prod.mk.injEq] at hr; obtain ⟨rfl, rfl⟩ := hr; simpa using h
    | cons c cs => simp [orderLoop] at hr
  | succ fuel ih =>
    intro cs m out out' m' hi h hr
    cases cs with
    | nil => simp only [orderLoop, Option.some.injEq, Prod.mk.injEq] at hr; obtain ⟨rfl, rfl⟩ := hr; simpa using h
    | cons c cs =>
      rw [orderLoop] at hr
      refine ih _ _ _ _ _ (inv_step hi) ?_ hr
      rw [releases_snoc, ← List.append_assoc hs, ← h]
      simp only [List.append_assoc, List.singleton_append, List.nil_append, List.cons_append]
      congr 3
      have hc : c ∉ out := by
        have := hi.nodup
        rw [List.nodup_append] at this
        intro hc
        exact this.2.2 c hc c (by simp) rfl
      have hg : get m c = get m0 c := by rw [hi.got, if_neg hc]
      rw [hg]
      apply List.filter_congr
      intro u _
      rw [Bool.eq_iff_iff, Bool.not_eq_true', ← Bool.not_eq_true, isBlocked_iff (hi.wf.delete c).nodup, List.all_eq_true]
      constructor
      · intro g p _
        by_cases hu : u ∈ get m0 p
        · have : p ∈ out ++ [c] := by
            apply Classical.byContradiction
            intro hp
            simp only [List.mem_append, List.mem_singleton, not_or] at hp
            refine g ⟨p, ?_⟩
            rw [get_delete, if_neg hp.2, hi.got, if_neg hp.1]
            exact hu
          rw [List.contains_iff_mem.2 this, Bool.or_true]
        · simp [hu]
      · rintro g ⟨p, hp⟩
        rw [get_delete] at hp
        split at hp
        · simp at hp
        · next hpc =>
          rw [hi.got] at hp
          split at hp
          · simp at hp
          · next hpo =>
            have := g p (mem_keys_of_get hp)
            simp [hp, hpc, hpo] at this

theorem order_releases {m : Orderings α} (h : WF m) {hs : List α} (hh : IsHeads m hs) {fuel : Nat} {out : List α} {m' : Orderings α}
    (ho : orderFuel fuel hs m = some (some out, m')) : out = hs ++ releases (get m) (keys m) [] out := by
  unfold orderFuel at ho
  cases hl : orderLoop fuel hs m [] with
  | none => simp [hl] at ho
  | some p =>
    obtain ⟨out', m1⟩ := p
    simp only [hl, Option.some.injEq, Prod.mk.injEq] at ho
    obtain ⟨h1, rfl⟩ := ho
    split at h1
    · cases h1
    · cases h1
      exact loop_releases hs fuel hs m [] _ _ (inv_init h hh) (by simp [releases]) hl

theorem heads_source (hist : List (List α)) (x : α) : x ∈ heads (addAll [] hist) ↔ Source hist x := by
  obtain ⟨h1, h2, h3⟩ := addAll_spec hist
  rw [mem_heads_iff h1.nodup, Source, ← isItem_iff_known, IsItem]
  simp only [h2]
  constructor
  · rintro ⟨a, b⟩
    exact ⟨Or.inl a, fun k hk => b ⟨k, hk⟩⟩
  · rintro ⟨a | ⟨k, hk⟩, b⟩
    · exact ⟨a, fun ⟨k, hk⟩ => b k hk⟩
    · exact absurd hk (b k)

/-- **C110** What a successful `Order` returns: first the items without a predecessor, in some order, then for each item in turn the successors it is the last
predecessor of, in the order in which they were first mentioned. -/
theorem C110_order (hist : List (List α)) (out : List α) (m' : Orderings α) (ho : Order (addAll [] hist) (some out) m') :
    ∃ hs, hs.Nodup ∧ (∀ x, x ∈ hs ↔ Source hist x) ∧ out = hs ++ releases (successors hist) out [] out := by
  obtain ⟨h1, h2, h3⟩ := addAll_spec hist
  have hok := order_success h1 ho
  obtain ⟨hs, fuel, hh, hf⟩ := ho
  refine ⟨hs, hh.nodup_iff.2 (h1.nodup.filter _), fun x => by rw [hh.mem_iff, heads_source], ?_⟩
  have e := order_releases h1 hh hf
  have hg : get (addAll [] hist) = successors hist := funext (get_addAll hist)
  rw [hg] at e
  rw [releases_congr (successors hist) out (keys (addAll [] hist))]
  · exact e
  · intro p u hu
    rw [← hg] at hu
    exact ⟨fun _ => mem_keys_of_get hu, fun hk => (hok.2.2.1 p).2 (Or.inl hk)⟩

/-- **C110** Every order of the items without a predecessor can come out, and it determines the rest. -/
theorem C110_any_order (hist : List (List α)) (hc : ¬ Cyclic (Constrains hist)) (hs : List α) (hn : hs.Nodup) (hm : ∀ x, x ∈ hs ↔ Source hist x) :
    ∃ rest, Order (addAll [] hist) (some (hs ++ rest)) [] ∧ ∀ rest' m', Order (addAll [] hist) (some (hs ++ rest')) m' → rest' = rest := by
  obtain ⟨h1, h2, h3⟩ := addAll_spec hist
  have hh : IsHeads (addAll [] hist) hs := by
    have hnd : (heads (addAll [] hist)).Nodup := h1.nodup.filter _
    rw [IsHeads, List.perm_ext_iff_of_nodup hn hnd]
    intro x
    rw [hm, ← heads_source]
  obtain ⟨r, m', hr⟩ := C20_terminates (addAll [] hist) hs
  have hr0 := hr _ (Nat.le_refl _)
  have ho : Order (addAll [] hist) r m' := ⟨hs, _, hh, hr0⟩
  cases r with
  | none => exact absurd ((C20_fails_iff_cycle hist).2 _ _ ho |>.1 rfl) hc
  | some out =>
    have hm0 := (order_success h1 ho).1
    subst hm0
    have e := order_releases h1 hh hr0
    refine ⟨releases (get (addAll [] hist)) (keys (addAll [] hist)) [] out, by rw [← e]; exact ho, ?_⟩
    rintro rest' m'' ⟨hs', fuel, hh', hf'⟩
    have e' := order_releases h1 hh' hf'
    have hlen : hs.length = hs'.length := (hh.trans hh'.symm).length_eq
    obtain ⟨e1, -⟩ := List.append_inj e' hlen
    subst e1
    have hr1 := hr (max fuel (hs.length + weight (addAll [] hist))) (by omega)
    unfold orderFuel at hf' hr0
    cases hl : orderLoop fuel hs (addAll [] hist) [] with
    | none => simp [hl] at hf'
    | some p =>
      cases hl0 : orderLoop (hs.length + weight (addAll [] hist)) hs (addAll [] hist) [] with
      | none => simp [hl0] at hr0
      | some q =>
        have := orderLoop_det hl hl0
        subst this
        rw [hl] at hf'
        rw [hl0] at hr0
        rw [hf'] at hr0
        simp only [Option.some.injEq, Prod.mk.injEq] at hr0
        rw [e] at hr0
        exact List.append_cancel_left hr0.1

/-- **C110** The result is the same every time exactly if there is one item without a predecessor at most (or the constraints have a cycle, and it always
fails). -/
theorem C110_same_iff (hist : List (List α)) : (∀ r r' m' m'', Order (addAll [] hist) r m' → Order (addAll [] hist) r' m'' → r = r') ↔
    Cyclic (Constrains hist) ∨ ∀ x y, Source hist x → Source hist y → x = y := by
  obtain ⟨h1, -, -⟩ := addAll_spec hist
  have hnd : (heads (addAll [] hist)).Nodup := h1.nodup.filter _
  constructor
  · intro h
    by_cases hc : Cyclic (Constrains hist)
    · exact Or.inl hc
    · refine Or.inr (fun x y hx hy => ?_)
      apply Classical.byContradiction
      intro hxy
      rw [← heads_source] at hx hy
      have first : ∀ z, z ∈ heads (addAll [] hist) → ∃ hs, hs.Nodup ∧ (∀ w, w ∈ z :: hs ↔ Source hist w) ∧ z ∉ hs := by
        intro z hz
        refine ⟨(heads (addAll [] hist)).erase z, hnd.erase z, fun w => ?_, fun hc' => ?_⟩
        · rw [← heads_source]
          exact (List.perm_cons_erase hz).mem_iff.symm
        · exact ((List.Nodup.mem_erase_iff hnd).1 hc').1 rfl
      obtain ⟨p, p1, p2, p3⟩ := first x hx
      obtain ⟨q, q1, q2, q3⟩ := first y hy
      obtain ⟨r1, o1, -⟩ := C110_any_order hist hc (x :: p) (List.nodup_cons.2 ⟨p3, p1⟩) p2
      obtain ⟨r2, o2, -⟩ := C110_any_order hist hc (y :: q) (List.nodup_cons.2 ⟨q3, q1⟩) q2
      have := h _ _ _ _ o1 o2
      simp only [List.cons_append, Option.some.injEq, List.cons.injEq] at this
      exact hxy this.1
  · intro h r r' m' m'' ho ho'
    by_cases hc : Cyclic (Constrains hist)
    · rw [((C20_fails_iff_cycle hist).2 r m' ho).2 hc, ((C20_fails_iff_cycle hist).2 r' m'' ho').2 hc]
    · have hs := h.resolve_left hc
      cases r with
      | none => exact absurd (((C20_fails_iff_cycle hist).2 _ _ ho).1 rfl) hc
      | some out =>
        cases r' with
        | none => exact absurd (((C20_fails_iff_cycle hist).2 _ _ ho').1 rfl) hc
        | some out' =>
          obtain ⟨p, p1, p2, p3⟩ := C110_order hist out m' ho
          obtain ⟨q, q1, q2, q3⟩ := C110_order hist out' m'' ho'
          have hpq : p = q := by
            match p, q, p1, p2, q1, q2 with
            | [], [], _, _, _, _ => rfl
            | [], y :: q, _, p2, _, q2 => exact absurd ((p2 y).2 ((q2 y).1 (by simp))) (by simp)
            | x :: p, [], _, p2, _, q2 => exact absurd ((q2 x).2 ((p2 x).1 (by simp))) (by simp)
            | x :: x2 :: p, _, p1, p2, _, _ =>
              have := hs x x2 ((p2 x).1 (by simp)) ((p2 x2).1 (by simp))
              subst this
              simp at p1
            | _, y :: y2 :: q, _, _, q1, q2 =>
              have := hs y y2 ((q2 y).1 (by simp)) ((q2 y2).1 (by simp))
              subst this
              simp at q1
            | [x], [y], _, p2, _, q2 => rw [hs x y ((p2 x).1 (by simp)) ((q2 y).1 (by simp))]
          subst hpq
          obtain ⟨rest, -, hu⟩ := C110_any_order hist hc p p1 p2
          rw [p3] at ho
          rw [q3] at ho'
          rw [p3, q3, hu _ _ ho, hu _ _ ho']

end

/-- Items 1 and 3 have no predecessor; 2 waits for both; 4 and 5 follow 2 in the order mentioned. -/
example : releases (successors [[1, 2], [3, 2, 5], [2, 4], [2, 5]]) [3, 1, 2, 5, 4] [] [3, 1, 2, 5, 4] = [2, 5, 4] := by decide

/-- A chain has one result, two unrelated items have two. -/
example : Source [[1, 2], [3, 4]] 1 ∧ Source [[1, 2], [3, 4]] 3 ∧ Order (addAll [] [[1, 2], [3, 4]]) (some [1, 3, 2, 4]) [] ∧
    Order (addAll [] [[1, 2], [3, 4]]) (some [3, 1, 4, 2]) [] := by
  refine ⟨(heads_source _ _).1 (by decide), (heads_source _ _).1 (by decide), ⟨[1, 3], 5, List.Perm.refl _, by decide⟩, ⟨[3, 1], 5, List.Perm.swap _ _ _, by decide⟩⟩

/-- **C110** What the command prints is such an order. -/
theorem C110_command (input : Bytes) (ps : List (Bytes × Bytes)) (hwords : Words input (pairWords ps)) (hshort : ∀ w ∈ pairWords ps, w.length < 65534)
    (out : Out) (ho : Run input out) (h0 : out.exit = 0) :
    ∃ hs l, out.stdout = unlines l ∧ hs.Nodup ∧ (∀ x, x ∈ hs ↔ Source (pairHist ps) x) ∧ l = hs ++ releases (successors (pairHist ps)) l [] l := by
  have hw := scanWords_words hwords hshort
  simp only [Run, hw, feed_pairs] at ho
  rw [if_neg (by simp)] at ho
  obtain ⟨r, m', hor, hout⟩ := ho
  cases r with
  | none =>
    simp only at hout
    subst hout
    simp [die] at h0
  | some l =>
    simp only at hout
    subst hout
    obtain ⟨hs, h1, h2, h3⟩ := C110_order _ _ _ hor
    exact ⟨hs, l, rfl, h1, h2, h3⟩

/-- **C110** The expected statement is false: given `a b c d` the command may print `a c b d` and may print `c a d b`. -/
theorem C110_counterexample : Run b!"a b c d" { stdout := b!"a\nc\nb\nd\n", stderr := [], exit := 0 } ∧
    Run b!"a b c d" { stdout := b!"c\na\nd\nb\n", stderr := [], exit := 0 } := by
  have hw : scanWords b!"a b c d" = ([b!"a", b!"b", b!"c", b!"d"], false) := by decide
  have hfeed : feed [] [b!"a", b!"b", b!"c", b!"d"] = .ok [(b!"a", [b!"b"]), (b!"c", [b!"d"])] := by decide
  simp only [Run, hw, hfeed]
  rw [if_neg (by simp), if_neg (by simp)]
  exact ⟨⟨some [b!"a", b!"c", b!"b", b!"d"], [], ⟨[b!"a", b!"c"], 5, List.Perm.refl _, by decide⟩, by decide⟩,
    ⟨some [b!"c", b!"a", b!"d", b!"b"], [], ⟨[b!"c", b!"a"], 5, List.Perm.swap _ _ _, by decide⟩, by decide⟩⟩

/-- `a b b c a c` has one order. -/
example : ∀ r r' m' m'', Order (addAll [] [[b!"a", b!"b"], [b!"b", b!"c"], [b!"a", b!"c"]]) r m' → Order (addAll [] [[b!"a", b!"b"], [b!"b", b!"c"], [b!"a", b!"c"]]) r' m'' → r = r' := by
  refine (C110_same_iff _).2 (Or.inr ?_)
  intro x y hx hy
  rw [← heads_source] at hx hy
  have : heads (addAll [] [[b!"a", b!"b"], [b!"b", b!"c"], [b!"a", b!"c"]]) = [b!"a"] := by decide
  rw [this, List.mem_singleton] at hx hy
  rw [hx, hy]

end TSort
