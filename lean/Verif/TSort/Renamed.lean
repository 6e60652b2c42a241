import Verif.TSort.Rewritten

/-!
# Only which items are equal matters to a sorter (C145)
-/

namespace TSort
open Go

section
variable {α β : Type} [DecidableEq α] [DecidableEq β]

/-- A map with its keys and values replaced. -/
def renameMap (f : α → β) (m : Orderings α) : Orderings β := m.map (fun e => (f e.1, e.2.map f))

theorem get_rename {f : α → β} (hf : ∀ x y, f x = f y → x = y) (m : Orderings α) (k : α) : get (renameMap f m) (f k) = (get m k).map f := by
  induction m with
  | nil => rfl
  | cons e m ih =>
    obtain ⟨a, b⟩ := e
    simp only [get, renameMap, List.map_cons, List.lookup_cons] at ih ⊢
    by_cases h : k = a
    · subst h; simp
    · have h1 : (k == a) = false := by simpa using h
      have h2 : (f k == f a) = false := by simpa using fun e => h (hf _ _ e)
      rw [h1, h2]
      exact ih

theorem set_rename {f : α → β} (hf : ∀ x y, f x = f y → x = y) (m : Orderings α) (k : α) (v : List α) : set (renameMap f m) (f k) (v.map f) = renameMap f (set m k v) := by
  induction m with
  | nil => rfl
  | cons e m ih =>
    obtain ⟨a, b⟩ := e
    by_cases h : a = k
    · subst h; simp [set, renameMap]
    · have h2 : f a ≠ f k := fun e => h (hf _ _ e)
      simp only [renameMap, List.map_cons, set, if_neg h, if_neg h2] at ih ⊢
      rw [ih]

theorem delete_rename {f : α → β} (hf : ∀ x y, f x = f y → x = y) (m : Orderings α) (k : α) : delete (renameMap f m) (f k) = renameMap f (delete m k) := by
  induction m with
  | nil => rfl
  | cons e m ih =>
    obtain ⟨a, b⟩ := e
    simp only [delete, renameMap, List.map_cons, List.filter_cons] at ih ⊢
    by_cases h : a = k
    · subst h; simpa using ih
    · have h2 : f a ≠ f k := fun e => h (hf _ _ e)
      simp only [ne_eq, h, h2, not_false_eq_true, decide_true, if_true, List.map_cons] at ih ⊢
      rw [ih]

theorem mem_rename {f : α → β} (hf : ∀ x y, f x = f y → x = y) (l : List α) (k : α) : f k ∈ l.map f ↔ k ∈ l := by
  simp only [List.mem_map]
  constructor
  · rintro ⟨x, hx, e⟩; exact hf _ _ e ▸ hx
  · intro h; exact ⟨k, h, rfl⟩

theorem inSlice_rename {f : α → β} (hf : ∀ x y, f x = f y → x = y) (l : List α) (k : α) : inSlice (l.map f) (f k) = inSlice l k := by
  rw [Bool.eq_iff_iff, inSlice_iff, inSlice_iff, mem_rename hf]

theorem isBlocked_rename {f : α → β} (hf : ∀ x y, f x = f y → x = y) (m : Orderings α) (k : α) : isBlocked (renameMap f m) (f k) = isBlocked m k := by
  rw [Bool.eq_iff_iff]
  simp only [isBlocked, renameMap, List.any_eq_true, List.mem_map, decide_eq_true_eq]
  constructor
  · rintro ⟨e, ⟨e', he', rfl⟩, i, hi, rfl⟩
    exact ⟨e', he', k, (mem_rename hf _ _).1 hi, rfl⟩
  · rintro ⟨e, he, i, hi, rfl⟩
    exact ⟨_, ⟨e, he, rfl⟩, f i, List.mem_map.2 ⟨i, hi, rfl⟩, rfl⟩

theorem addPairs_rename {f : α → β} (hf : ∀ x y, f x = f y → x = y) (items : List α) : ∀ m : Orderings α,
    addPairs (renameMap f m) (items.map f) = renameMap f (addPairs m items) := by
  induction items with
  | nil => intro m; rfl
  | cons a items ih =>
    intro m
    cases items with
    | nil => rfl
    | cons b items =>
      simp only [List.map_cons, addPairs] at ih ⊢
      rw [get_rename hf, inSlice_rename hf]
      have e : (get m a).map f ++ [f b] = (get m a ++ [b]).map f := by simp
      rw [e, set_rename hf]
      split
      · exact ih _
      · exact ih _

theorem add_rename {f : α → β} (hf : ∀ x y, f x = f y → x = y) (m : Orderings α) (items : List α) : add (renameMap f m) (items.map f) = renameMap f (add m items) := by
  match items with
  | [] => rfl
  | [x] => exact set_rename hf m x []
  | x :: y :: items => exact addPairs_rename hf (x :: y :: items) m

theorem addAll_rename {f : α → β} (hf : ∀ x y, f x = f y → x = y) (hist : List (List α)) : ∀ m : Orderings α,
    addAll (renameMap f m) (hist.map (List.map f)) = renameMap f (addAll m hist) := by
  induction hist with
  | nil => intro m; rfl
  | cons items hist ih =>
    intro m
    simp only [addAll, List.map_cons, List.foldl_cons] at ih ⊢
    rw [add_rename hf]
    exact ih _

theorem heads_rename {f : α → β} (hf : ∀ x y, f x = f y → x = y) (m : Orderings α) : heads (renameMap f m) = (heads m).map f := by
  have hk : keys (renameMap f m) = (keys m).map f := by simp [keys, renameMap, Function.comp_def]
  rw [heads, hk, heads, List.filter_map]
  congr 1
  refine List.filter_congr (fun k _ => ?_)
  simp only [Function.comp]
  congr 1
  rw [Bool.eq_iff_iff]
  simp only [renameMap, List.any_eq_true, List.mem_map, List.contains_iff_mem]
  constructor
  · rintro ⟨e, ⟨e', he', rfl⟩, hi⟩
    exact ⟨e', he', (mem_rename hf _ _).1 hi⟩
  · rintro ⟨e, he, hi⟩
    exact ⟨_, ⟨e, he, rfl⟩, List.mem_map.2 ⟨k, hi, rfl⟩⟩

theorem orderLoop_rename {f : α → β} (hf : ∀ x y, f x = f y → x = y) (fuel : Nat) : ∀ (cs : List α) (m : Orderings α) (out : List α),
    orderLoop fuel (cs.map f) (renameMap f m) (out.map f) = (orderLoop fuel cs m out).map (fun r => (r.1.map f, renameMap f r.2)) := by
  induction fuel with
  | zero => intro cs m out; cases cs <;> rfl
  | succ fuel ih =>
    intro cs m out
    cases cs with
    | nil => rfl
    | cons c cs =>
      simp only [List.map_cons, orderLoop]
      rw [get_rename hf, delete_rename hf]
      have e1 : ((get m c).map f).filter (fun u => !isBlocked (renameMap f (delete m c)) u) = ((get m c).filter (fun u => !isBlocked (delete m c) u)).map f := by
        rw [List.filter_map]
        congr 1
        refine List.filter_congr (fun k _ => ?_)
        simp only [Function.comp, isBlocked_rename hf]
      have e2 : out.map f ++ [f c] = (out ++ [c]).map f := by simp
      rw [e1, e2, ← List.map_append]
      exact ih _ _ _

omit [DecidableEq α] [DecidableEq β] in
theorem perm_of_map (f : α → β) : ∀ {h0 : List α} {hs : List β}, hs.Perm (h0.map f) → ∃ hs0 : List α, hs0.Perm h0 ∧ hs = hs0.map f := by
  intro h0
  induction h0 with
  | nil => intro hs h; exact ⟨[], .nil, by simpa using h⟩
  | cons a h0 ih =>
    intro hs h
    have hm : f a ∈ hs := h.mem_iff.2 (by simp)
    obtain ⟨u, v, rfl⟩ := List.append_of_mem hm
    have h2 : (u ++ v).Perm (h0.map f) := (List.perm_middle.symm.trans h).cons_inv
    obtain ⟨k, hk, e⟩ := ih h2
    obtain ⟨k1, k2, rfl, rfl, rfl⟩ := List.map_eq_append_iff.1 e.symm
    exact ⟨k1 ++ a :: k2, List.perm_middle.trans (hk.cons a), by simp⟩

/-- **C145** A sorter looks at nothing but which items are equal: if items are replaced by others, different ones by different ones, `Order`
may return exactly what it might return before with the items replaced. -/
theorem C145_sorted (f : α → β) (hf : ∀ x y, f x = f y → x = y) (hist : List (List α)) (r' : Option (List β)) (m' : Orderings β) :
    Order (addAll [] (hist.map (List.map f))) r' m' ↔ ∃ r m, Order (addAll [] hist) r m ∧ r' = r.map (List.map f) ∧ m' = renameMap f m := by
  have e : addAll [] (hist.map (List.map f)) = renameMap f (addAll [] hist) := addAll_rename hf hist []
  rw [e]
  generalize addAll [] hist = m0
  have key : ∀ hs fuel, orderFuel fuel (hs.map f) (renameMap f m0) = (orderFuel fuel hs m0).map (fun p => (p.1.map (List.map f), renameMap f p.2)) := by
    intro hs fuel
    have := orderLoop_rename hf fuel hs m0 []
    simp only [List.map_nil] at this
    simp only [orderFuel, this]
    cases orderLoop fuel hs m0 [] with
    | none => rfl
    | some p =>
      obtain ⟨out, m⟩ := p
      simp only [Option.map_some, renameMap, List.length_map]
      split <;> rfl
  constructor
  · rintro ⟨hs, fuel, hh, ho⟩
    unfold IsHeads at hh
    rw [heads_rename hf] at hh
    obtain ⟨hs0, h1, h2⟩ := perm_of_map f hh
    subst h2
    rw [key] at ho
    cases h : orderFuel fuel hs0 m0 with
    | none => rw [h] at ho; simp at ho
    | some p =>
      rw [h] at ho
      simp only [Option.map_some, Option.some.injEq, Prod.mk.injEq] at ho
      exact ⟨p.1, p.2, ⟨hs0, fuel, h1, h⟩, ho.1.symm, ho.2.symm⟩
  · rintro ⟨r, m, ⟨hs, fuel, hh, ho⟩, rfl, rfl⟩
    refine ⟨hs.map f, fuel, ?_, by rw [key, ho]; rfl⟩
    unfold IsHeads
    rw [heads_rename hf]
    exact hh.map f

end

/-- The words of pairs replaced. -/
def renamePairs (f : Bytes → Bytes) (ps : List (Bytes × Bytes)) : List (Bytes × Bytes) := ps.map (fun p => (f p.1, f p.2))

theorem pairHist_rename (f : Bytes → Bytes) (hf : ∀ x y, f x = f y → x = y) (ps : List (Bytes × Bytes)) : pairHist (renamePairs f ps) = (pairHist ps).map (List.map f) := by
  simp only [pairHist, renamePairs, List.map_map]
  refine List.map_congr_left (fun p _ => ?_)
  simp only [Function.comp]
  by_cases h : p.1 = p.2
  · simp [h]
  · rw [if_neg h, if_neg (fun e => h (hf _ _ e))]
    rfl

/-- An output and the same with its words replaced. -/
def RenamedOut (f : Bytes → Bytes) (words : List Bytes) (out out' : Out) : Prop :=
  out'.exit = out.exit ∧ out'.stderr = out.stderr ∧ ∃ l : List Bytes, (∀ w ∈ l, w ∈ words) ∧ out.stdout = unlines l ∧ out'.stdout = unlines (l.map f)

/-- **C145** The command: for an input whose words are replaced by others, different ones by different ones, exactly the outputs are possible
that were possible before, with the words replaced; it fails if it failed before. -/
theorem C145_tsort (f : Bytes → Bytes) (hf : ∀ x y, f x = f y → x = y) (input input' : Bytes) (ps : List (Bytes × Bytes))
    (hw : Words input (pairWords ps)) (hw' : Words input' (pairWords (renamePairs f ps))) (hs : ∀ w ∈ pairWords ps, w.length < 65534)
    (hs' : ∀ w ∈ pairWords (renamePairs f ps), w.length < 65534) :
    (∀ out, Run input out → ∃ out', Run input' out' ∧ RenamedOut f (pairWords ps) out out') ∧ ∀ out', Run input' out' → ∃ out, Run input out ∧ RenamedOut f (pairWords ps) out out' := by
  have hnl : ∀ (l : List Bytes) (m : Orderings Bytes), Order (addAll [] (pairHist ps)) (some l) m → ∀ w ∈ l, w ∈ pairWords ps := by
    intro l m ho w hwl
    have hk := ((C19_permutation _ _ _ ho).2 w).1 hwl
    have hitems : ∀ items ∈ pairHist ps, w ∈ items → w ∈ pairWords ps := by
      intro items hi hx
      obtain ⟨⟨u, v⟩, huv, he⟩ := List.mem_map.1 hi
      refine List.mem_flatMap.2 ⟨(u, v), huv, ?_⟩
      dsimp only at he ⊢
      split at he
      · rw [← he] at hx; simp only [List.mem_singleton] at hx; simp [hx]
      · rw [← he] at hx; exact hx
    rcases hk with h | ⟨items, hi, b, p, q, e⟩ | ⟨a, pre, items, post, e, ⟨p, q, hadj⟩, -⟩
    · exact hitems _ h (by simp)
    · exact hitems items hi (by rw [e]; simp)
    · exact hitems items (by rw [e]; simp) (by rw [hadj]; simp)
  have hiff := run_iff input ps hw hs
  have hiff' := run_iff input' _ hw' hs'
  rw [pairHist_rename f hf] at hiff'
  constructor
  · intro out ho
    obtain ⟨r, m, hr, he⟩ := (hiff out).1 ho
    have hr' := (C145_sorted f hf (pairHist ps) (r.map (List.map f)) (renameMap f m)).2 ⟨r, m, hr, rfl, rfl⟩
    cases r with
    | none => exact ⟨out, (hiff' out).2 ⟨_, _, hr', he⟩, rfl, rfl, [], by simp, by rw [he]; rfl, by rw [he]; rfl⟩
    | some l =>
      refine ⟨_, (hiff' { stdout := unlines (l.map f), stderr := [], exit := 0 }).2 ⟨_, _, hr', rfl⟩, ?_⟩
      dsimp only at he
      subst he
      exact ⟨rfl, rfl, l, hnl l m hr, rfl, rfl⟩
  · intro out' ho
    obtain ⟨r', m', hr', he⟩ := (hiff' out').1 ho
    obtain ⟨r, m, hr, rfl, rfl⟩ := (C145_sorted f hf (pairHist ps) r' m').1 hr'
    cases r with
    | none => exact ⟨out', (hiff out').2 ⟨_, _, hr, he⟩, rfl, rfl, [], by simp, by rw [he]; rfl, by rw [he]; rfl⟩
    | some l =>
      refine ⟨_, (hiff { stdout := unlines l, stderr := [], exit := 0 }).2 ⟨_, _, hr, rfl⟩, ?_⟩
      dsimp only [Option.map] at he
      subst he
      exact ⟨rfl, rfl, l, hnl l m hr, rfl, rfl⟩

/-- A case: every word with `!` after it. -/
example : Words b!"a b b c" (pairWords [(b!"a", b!"b"), (b!"b", b!"c")]) ∧
    Words b!"a! b! b! c!" (pairWords (renamePairs (· ++ b!"!") [(b!"a", b!"b"), (b!"b", b!"c")])) ∧
    ∀ x y : Bytes, x ++ b!"!" = y ++ b!"!" → x = y :=
  ⟨(fields_iff _ _).mp (by decide), (fields_iff _ _).mp (by decide), fun _ _ h => List.append_cancel_right h⟩

end TSort
