import Verif.TSort.Lemmas
import Verif.Go.Words

/-!
# C18–C23: topological sort

Every statement about `Order` holds for every order in which Go may iterate its maps: `Order m r m'`
says that *some* iteration order gives `r`.
-/

namespace TSort
open Go

section
variable {α : Type} [DecidableEq α]

/-- States of a sorter: the zero value, then `Add` and `Order` calls in any order. -/
inductive Reachable : Orderings α → Prop
  | zero : Reachable []
  | add {m} (items : List α) : Reachable m → Reachable (add m items)
  | order {m r m'} : Reachable m → Order m r m' → Reachable m'

theorem reachable_wf {m : Orderings α} (h : Reachable m) : WF m := by
  induction h with
  | zero => exact wf_nil
  | add items _ ih => exact (add_spec items _ ih).1
  | order _ ho ih =>
    obtain ⟨out, hi, _⟩ := order_inv ih ho
    exact hi.wf

omit [DecidableEq α] in
theorem precedes_of_mem {out : List α} {a x : α} {pre post : List α} (h : out = pre ++ x :: post)
    (ha : a ∈ pre) : Precedes out a x := by
  obtain ⟨p, q, rfl⟩ := List.append_of_mem ha
  exact ⟨p, q, post, by rw [h]; simp⟩

theorem order_success {m : Orderings α} (h : WF m) {out m'} (ho : Order m (some out) m') :
    m' = [] ∧ out.Nodup ∧ (∀ x, x ∈ out ↔ IsItem m x) ∧ ∀ a b, b ∈ get m a → Precedes out a b := by
  obtain ⟨out', hi, he⟩ := order_inv h ho
  have hm : m' = [] := by
    split at he
    · cases he
    · exact List.length_eq_zero_iff.1 (by omega)
  have : out' = out := by
    subst hm
    simpa using he.symm
  subst this hm
  have hmem : ∀ x, x ∈ out' ↔ IsItem m x := by
    intro x
    constructor
    · intro hx; exact hi.items x (by simpa using hx)
    · intro hx
      have := hi.complete x hx (by simp [get])
      simpa using this
  refine ⟨rfl, by simpa using hi.nodup, hmem, ?_⟩
  intro a b hab
  obtain ⟨pre, post, hs⟩ := List.append_of_mem ((hmem b).2 (.inr ⟨a, hab⟩))
  exact precedes_of_mem hs (hi.sorted pre b post hs a hab)

/-- C18: whatever the sequence of `Add` calls, a successful `Order` puts `a` before `b` for every
constraint in force. -/
theorem C18_respects_constraints (hist : List (List α)) (out : List α) (m' : Orderings α)
    (ho : Order (addAll [] hist) (some out) m') (a b : α) (h : Constrains hist a b) :
    Precedes out a b := by
  obtain ⟨h1, h2, _⟩ := addAll_spec hist
  exact (order_success h1 ho).2.2.2 a b ((h2 a b).2 h)

/-- C18, for any state a sorter can be in (also after earlier `Order` calls). -/
theorem C18_any_state {m : Orderings α} (h : Reachable m) {out m'} (ho : Order m (some out) m')
    (a b : α) (hab : b ∈ get m a) : Precedes out a b :=
  (order_success (reachable_wf h) ho).2.2.2 a b hab

/-- C19: a successful `Order` lists every known item exactly once and nothing else. -/
theorem C19_permutation (hist : List (List α)) (out : List α) (m' : Orderings α)
    (ho : Order (addAll [] hist) (some out) m') : out.Nodup ∧ ∀ x, x ∈ out ↔ Known hist x := by
  obtain ⟨h1, _, _⟩ := addAll_spec hist
  obtain ⟨_, g1, g2, _⟩ := order_success h1 ho
  exact ⟨g1, fun x => by rw [g2, isItem_iff_known]⟩

example : Order (addAll [] [[1, 2], [3, 2, 4]]) (some [3, 1, 2, 4]) [] :=
  ⟨[3, 1], 5, List.Perm.swap _ _ _, by decide⟩

/-- C20 (termination): for every order of the heads the loop of `Order` ends. -/
theorem C20_terminates (m : Orderings α) (hs : List α) :
    ∃ r m', ∀ fuel, hs.length + weight m ≤ fuel → orderFuel fuel hs m = some (r, m') := by
  obtain ⟨⟨out, m'⟩, h⟩ := orderLoop_total _ hs m [] (Nat.le_refl _)
  refine ⟨if m'.length > 0 then none else some out, m', ?_⟩
  intro fuel hf
  obtain ⟨r, h'⟩ := orderLoop_total fuel hs m [] hf
  have := orderLoop_det h h'
  subst this
  simp [orderFuel, h']

theorem cyclic_iff_fail {m : Orderings α} (h : WF m) {r m'} (ho : Order m r m') :
    r = none ↔ Cyclic (fun a b => b ∈ get m a) := by
  constructor
  · rintro rfl
    obtain ⟨out, hi, he⟩ := order_inv h ho
    have hne : m' ≠ [] := by
      rintro rfl; simp at he
    apply Classical.byContradiction
    intro hc
    have hac : ∀ a, ¬ Relation.TransGen (fun a b => b ∈ get m a) a a := fun a ha => hc ⟨a, ha⟩
    have hk : keys m' ≠ [] := by simpa [keys] using hne
    obtain ⟨x, hx, hmin⟩ := exists_minimal hac (keys m') hk
    obtain ⟨x1, x2⟩ := (hi.ks x).1 hx
    have hb : ∃ k, x ∈ get m' k := by
      apply Classical.byContradiction
      intro hn
      have := hi.complete x (.inl x1) hn
      simp at this
      exact x2 this
    obtain ⟨k, hk⟩ := hb
    have hkk := mem_keys_of_get hk
    rw [hi.got k] at hk
    split at hk
    · simp at hk
    · exact hmin k hkk (.single hk)
  · rintro ⟨a, ha⟩
    cases r with
    | none => rfl
    | some out =>
      exfalso
      obtain ⟨_, hnd, hmem, hp⟩ := order_success h ho
      -- precedence is transitive and irreflexive on a duplicate-free list
      have hidx : ∀ x y, Precedes out x y → out.idxOf x < out.idxOf y := by
        rintro x y ⟨p, q, r, hout⟩
        rw [hout] at hnd ⊢
        have hx : x ∉ p := by
          intro hx
          rw [List.nodup_append] at hnd
          exact hnd.2.2 x hx x (by simp) rfl
        have hy : y ∉ p := by
          intro hy
          rw [List.nodup_append] at hnd
          exact hnd.2.2 y hy y (by simp) rfl
        have hxy : x ≠ y := by
          rintro rfl
          rw [List.nodup_append] at hnd
          have := hnd.2.1
          simp at this
        have e1 : (p ++ x :: (q ++ y :: r)).idxOf x = p.length := by
          rw [List.idxOf_append, if_neg hx]; simp
        have e2 : (p ++ x :: (q ++ y :: r)).idxOf y = (q ++ y :: r).idxOf y + 1 + p.length := by
          rw [List.idxOf_append, if_neg hy, List.idxOf_cons]
          have : (x == y) = false := by simpa using hxy
          simp [this]
        rw [e1, e2]
        omega
      have htr : ∀ x y, Relation.TransGen (fun a b => b ∈ get m a) x y → out.idxOf x < out.idxOf y := by
        intro x y hxy
        induction hxy with
        | single h => exact hidx _ _ (hp _ _ h)
        | tail _ h ih => exact Nat.lt_trans ih (hidx _ _ (hp _ _ h))
      exact Nat.lt_irrefl _ (htr a a ha)

/-- C20: `Order` always has a result, and it is the error exactly if the constraints in force contain
a cycle. -/
theorem C20_fails_iff_cycle (hist : List (List α)) :
    (∃ r m', Order (addAll [] hist) r m') ∧
    ∀ r m', Order (addAll [] hist) r m' → (r = none ↔ Cyclic (Constrains hist)) := by
  obtain ⟨h1, h2, _⟩ := addAll_spec hist
  constructor
  · obtain ⟨r, m', h⟩ := C20_terminates (addAll [] hist) (heads (addAll [] hist))
    exact ⟨r, m', _, _, List.Perm.refl _, h _ (Nat.le_refl _)⟩
  · intro r m' ho
    rw [cyclic_iff_fail h1 ho]
    have : (fun a b => b ∈ get (addAll [] hist) a) = Constrains hist := by
      funext a b; exact propext (h2 a b)
    rw [this]

example : Cyclic (Constrains [[1, 2], [2, 3], [3, 1]]) :=
  ⟨1, ((Relation.TransGen.single ⟨[], [1, 2], [[2, 3], [3, 1]], rfl, ⟨[], [], rfl⟩, by decide⟩).tail
    ⟨[[1, 2]], [2, 3], [[3, 1]], rfl, ⟨[], [], rfl⟩, by decide⟩).tail
    ⟨[[1, 2], [2, 3]], [3, 1], [], rfl, ⟨[], [], rfl⟩, by decide⟩⟩

/-- C21 fails: adding an item alone forgets its constraints, so that `Order` may put it after its
successor or drop the successor altogether. -/
theorem C21_add_forgets :
    ¬ (∀ (hist : List (List Nat)) (out : List Nat) (m' : Orderings Nat),
      Order (addAll [] hist) (some out) m' → ∀ items ∈ hist, ∀ x ∈ items, x ∈ out) ∧
    ¬ (∀ (hist : List (List Nat)) (out : List Nat) (m' : Orderings Nat),
      Order (addAll [] hist) (some out) m' → ∀ items ∈ hist, ∀ a b, Adjacent a b items →
        a ∈ out → b ∈ out → Precedes out a b) := by
  constructor
  · intro h
    have := h [[1, 2], [1]] [1] [] ⟨[1], 2, List.Perm.refl _, by decide⟩ [1, 2] (by simp) 2 (by simp)
    simp at this
  · intro h
    have := h [[1, 2], [2], [1]] [2, 1] [] ⟨[2, 1], 4, List.Perm.swap _ _ _, by decide⟩ [1, 2]
      (by simp) 1 2 ⟨[], [], rfl⟩ (by simp) (by simp)
    obtain ⟨p, q, r, he⟩ := this
    match p, he with
    | [], he => simp at he
    | [x], he => simp at he
    | x :: y :: p, he =>
      have := congrArg List.length he
      simp at this

/-- C21, the part that holds: if no call of the history is a single item that an earlier call gave a
successor, every item and every constraint ever added is respected. -/
theorem C21_nothing_lost_partial (hist : List (List α))
    (hs : ∀ pre x post, hist = pre ++ [x] :: post → ∀ items ∈ pre, ∀ b, ¬ Adjacent x b items)
    (out : List α) (m' : Orderings α) (ho : Order (addAll [] hist) (some out) m') :
    (∀ items ∈ hist, ∀ x ∈ items, x ∈ out) ∧
    ∀ items ∈ hist, ∀ a b, Adjacent a b items → Precedes out a b := by
  have hcons : ∀ items ∈ hist, ∀ a b, Adjacent a b items → Constrains hist a b := by
    intro items hi a b hab
    obtain ⟨pre, post, he⟩ := List.append_of_mem hi
    refine ⟨pre, items, post, he, hab, ?_⟩
    intro hmem
    obtain ⟨p1, p2, hp⟩ := List.append_of_mem hmem
    exact hs (pre ++ items :: p1) a p2 (by rw [he, hp]; simp) items (by simp) b hab
  refine ⟨?_, fun items hi a b hab => C18_respects_constraints hist out m' ho a b (hcons items hi a b hab)⟩
  intro items hi x hx
  rw [(C19_permutation hist out m' ho).2]
  obtain ⟨p, q, rfl⟩ := List.append_of_mem hx
  cases q with
  | cons y q => exact .inr (.inl ⟨_, hi, y, p, q, rfl⟩)
  | nil =>
    rcases List.eq_nil_or_concat p with rfl | ⟨p, y, rfl⟩
    · exact .inl hi
    · exact .inr (.inr ⟨y, hcons _ hi y x ⟨p, [], by simp⟩⟩)

example : ∀ pre x post, ([[5], [1, 2], [3, 2, 4]] : List (List Nat)) = pre ++ [x] :: post →
    ∀ items ∈ pre, ∀ b, ¬ Adjacent x b items := by
  intro pre x post he
  match pre, he with
  | [], _ => simp
  | [_], he => simp at he
  | [_, _], he => simp at he
  | _ :: _ :: _ :: pre, he =>
    have := congrArg List.length he
    simp at this

/-- C22: after a successful `Order` the sorter is empty; the next one returns an empty list. -/
theorem C22_drains {m : Orderings α} (h : Reachable m) {out m'} (ho : Order m (some out) m') :
    m' = [] ∧ ∀ r m'', Order m' r m'' → r = some [] ∧ m'' = [] := by
  obtain ⟨rfl, _⟩ := order_success (reachable_wf h) ho
  refine ⟨rfl, ?_⟩
  rintro r m'' ⟨hs, fuel, hh, hf⟩
  have : hs = [] := by
    have := hh.length_eq
    simp [heads, keys] at this
    exact this
  subst this
  cases fuel <;> simp [orderFuel, orderLoop] at hf <;> exact ⟨hf.1.symm, hf.2⟩

/-- C22, other half: after a failed `Order` every later one fails too and changes nothing. -/
theorem C22_failure_is_final {m : Orderings α} (h : Reachable m) {m'} (ho : Order m none m') :
    ∀ r m'', Order m' r m'' → r = none ∧ m'' = m' := by
  obtain ⟨out, hi, he⟩ := order_inv (reachable_wf h) ho
  have hne : m'.length > 0 := by
    apply Classical.byContradiction
    intro hn
    rw [if_neg hn] at he; cases he
  have hh : heads m' = [] := by
    cases hc : heads m' with
    | nil => rfl
    | cons x xs =>
      exfalso
      obtain ⟨h1, h2⟩ := (mem_heads_iff hi.wf.nodup x).1 (by rw [hc]; simp)
      obtain ⟨g1, g2⟩ := (hi.ks x).1 h1
      have := hi.complete x (.inl g1) h2
      simp at this
      exact g2 this
  rintro r m'' ⟨hs, fuel, hp, hf⟩
  have : hs = [] := by
    unfold IsHeads at hp
    rw [hh] at hp
    exact hp.eq_nil
  subst this
  cases fuel <;> simp [orderFuel, orderLoop, hne] at hf <;> exact ⟨hf.1.symm, hf.2.symm⟩

example : Order (addAll [] [[1, 2], [2, 1], [3, 1]]) none [(1, [2]), (2, [1])] :=
  ⟨[3], 9, List.Perm.refl _, by decide⟩

end

/-! ## The command -/

/-- The `Add` calls a list of word pairs stands for: a word paired with itself only names the item. -/
def pairHist (ps : List (Bytes × Bytes)) : List (List Bytes) :=
  ps.map fun p => if p.1 = p.2 then [p.1] else [p.1, p.2]

/-- The words of a list of pairs. -/
def pairWords (ps : List (Bytes × Bytes)) : List Bytes := ps.flatMap fun p => [p.1, p.2]

theorem feed_pairs (ps : List (Bytes × Bytes)) : ∀ m, feed m (pairWords ps) = .ok (addAll m (pairHist ps)) := by
  induction ps with
  | nil => intro m; rfl
  | cons p ps ih =>
    intro m
    simp only [pairWords, List.flatMap_cons, List.cons_append, List.nil_append, feed]
    rw [show (List.flatMap (fun p => [p.1, p.2]) ps) = pairWords ps from rfl, ih]
    rfl

theorem feed_odd (ps : List (Bytes × Bytes)) (w : Bytes) : ∀ m, feed m (pairWords ps ++ [w]) = .error w := by
  induction ps with
  | nil => intro m; rfl
  | cons p ps ih =>
    intro m
    simp only [pairWords, List.flatMap_cons, List.cons_append, List.nil_append, feed]
    exact ih _

theorem pairWords_length (ps : List (Bytes × Bytes)) : (pairWords ps).length = 2 * ps.length := by
  induction ps with
  | nil => rfl
  | cons p ps ih =>
    rw [show pairWords (p :: ps) = p.1 :: p.2 :: pairWords ps from rfl, List.length_cons, List.length_cons, ih, List.length_cons]
    omega

theorem pairs_or : ∀ ws : List Bytes, (∃ ps, ws = pairWords ps) ∨ ∃ ps v, ws = pairWords ps ++ [v]
  | [] => .inl ⟨[], rfl⟩
  | [v] => .inr ⟨[], v, rfl⟩
  | v :: v' :: ws => by
    rcases pairs_or ws with ⟨ps, rfl⟩ | ⟨ps, u, rfl⟩
    · exact .inl ⟨(v, v') :: ps, rfl⟩
    · exact .inr ⟨(v, v') :: ps, u, rfl⟩

/-- C23: on an even number of words the command always ends; if the pairs have no cycle it exits 0
having printed, one per line, a topological order of the items, and otherwise it exits 1 having
printed nothing on standard output. -/
theorem C23_even (input : Bytes) (ps : List (Bytes × Bytes)) (hwords : Words input (pairWords ps))
    (hshort : ∀ w ∈ pairWords ps, w.length < 65534) :
    (∃ out, Run input out) ∧ ∀ out, Run input out →
      (Cyclic (Constrains (pairHist ps)) ∧ out.exit = 1 ∧ out.stdout = []) ∨
      (¬ Cyclic (Constrains (pairHist ps)) ∧ out.exit = 0 ∧ out.stderr = [] ∧
        ∃ l, out.stdout = unlines l ∧ l.Nodup ∧ (∀ x, x ∈ l ↔ Known (pairHist ps) x) ∧
          ∀ a b, Constrains (pairHist ps) a b → Precedes l a b) := by
  have hw := scanWords_words hwords hshort
  have hrun : ∀ out, Run input out ↔ ∃ r m', Order (addAll [] (pairHist ps)) r m' ∧
      match r with
      | none => out = die b!"sort error!" b!"Hmm. Still items left. Ordering impossible?"
      | some l => out = { stdout := unlines l, stderr := [], exit := 0 } := by
    intro out
    simp only [Run, hw, feed_pairs]
    rw [if_neg (by simp)]
    exact Iff.rfl
  obtain ⟨⟨r0, m0, h0⟩, hiff⟩ := C20_fails_iff_cycle (pairHist ps)
  constructor
  · cases r0 with
    | none => exact ⟨_, (hrun _).2 ⟨none, m0, h0, rfl⟩⟩
    | some l => exact ⟨_, (hrun _).2 ⟨some l, m0, h0, rfl⟩⟩
  · intro out ho
    obtain ⟨r, m', hor, hout⟩ := (hrun out).1 ho
    cases r with
    | none =>
      simp only at hout
      left
      refine ⟨(hiff _ _ hor).1 rfl, ?_⟩
      subst hout
      exact ⟨rfl, rfl⟩
    | some l =>
      simp only at hout
      right
      refine ⟨fun hc => (by have := (hiff _ _ hor).2 hc; simp at this), ?_⟩
      subst hout
      obtain ⟨n1, n2⟩ := C19_permutation _ _ _ hor
      exact ⟨rfl, rfl, l, rfl, n1, n2, fun a b hab => C18_respects_constraints _ _ _ hor a b hab⟩

/-- C23: on an odd number of words the command prints nothing and exits 1. -/
theorem C23_odd (input : Bytes) (ps : List (Bytes × Bytes)) (w : Bytes) (hwords : Words input (pairWords ps ++ [w]))
    (hshort : ∀ v ∈ pairWords ps ++ [w], v.length < 65534) :
    ∀ out, Run input out ↔
      out = { stdout := [], stderr := b!"ahh jeez, unmatched word! [" ++ w ++ b!"]\n", exit := 1 } := by
  intro out
  simp only [Run, scanWords_words hwords hshort, feed_odd]
  simp [die]

/-- What is said of a word that is too long, after other words: an odd one among those is noticed first. -/
def longMessage (pre : List Bytes) : Bytes :=
  if pre.length % 2 = 1 then b!"unmatched word! [" ++ pre.getLast?.getD [] ++ b!"]\n"
  else b!"scan error! [bufio.Scanner: token too long]\n"

/-- C23: with a word of 65536 bytes or more the command prints nothing and exits 1; which message it prints depends on the
number of words before it. -/
theorem C23_long (input : Bytes) (pre post : List Bytes) (w : Bytes) (hwords : Words input (pre ++ w :: post))
    (hshort : ∀ v ∈ pre, v.length < 65534) (hlong : 65536 ≤ w.length) :
    ∀ out, Run input out ↔ out = { stdout := [], stderr := b!"ahh jeez, " ++ longMessage pre, exit := 1 } := by
  intro out
  rcases pairs_or pre with ⟨ps, rfl⟩ | ⟨ps, v, rfl⟩
  · have h2 : (pairWords ps).length % 2 = 0 := by rw [pairWords_length]; omega
    simp only [Run, scanWords_long hwords hshort hlong, feed_pairs, if_true, longMessage, h2, die]
    simp
  · have h2 : (pairWords ps ++ [v]).length % 2 = 1 := by rw [List.length_append, pairWords_length]; simp
    simp only [Run, scanWords_long hwords hshort hlong, feed_odd, longMessage, h2, die, List.getLast?_append,
      List.getLast?_singleton, Option.some_or, if_true]
    simp

/-- C23: every input has exactly one list of words. -/
theorem C23_words (input : Bytes) : ∃ ws, Words input ws ∧ ∀ ws', Words input ws' → ws' = ws :=
  ⟨fields input, (fields_iff _ _).mp rfl, fun _ h => h.fields.symm⟩

/-- C23: for instance, printable words each followed by a blank or newline. -/
theorem C23_printable (ws : List Bytes) (sep : UInt8) (hs : sep = 32 ∨ sep = 10)
    (h : ∀ w ∈ ws, w ≠ [] ∧ ∀ b ∈ w, isGraph b = true) : Words (ws.flatMap (fun w => w ++ [sep])) ws :=
  (fields_iff _ _).mp (fields_words ws sep hs h)

example : Words b!"a b a\n" (pairWords [(b!"a", b!"b")] ++ [b!"a"]) := (fields_iff _ _).mp (by decide)
example : Words b!"a b\tc  b" (pairWords [(b!"a", b!"b"), (b!"c", b!"b")]) := (fields_iff _ _).mp (by decide)
/-- No-break space, and bytes that are not UTF-8. -/
example : Words [0xC2, 0xA0, 0xFF, 0x41, 0xE2, 0x80, 0x20] [[0xFF, 0x41, 0xE2, 0x80]] := (fields_iff _ _).mp (by decide)
example : ∃ input w, Words input ([b!"a"] ++ w :: []) ∧ 65536 ≤ w.length := by
  refine ⟨[b!"a", List.replicate 65536 98].flatMap (fun w => w ++ [32]), List.replicate 65536 98,
    C23_printable [b!"a", _] 32 (.inl rfl) ?_, by rw [List.length_replicate]; decide⟩
  intro w hw
  simp only [List.mem_cons, List.not_mem_nil, or_false] at hw
  rcases hw with rfl | rfl
  · decide
  · refine ⟨fun h => ?_, fun b hb => ?_⟩
    · have := congrArg List.length h
      rw [List.length_replicate] at this
      cases this
    · rw [List.eq_of_mem_replicate hb]; decide

/-- C23: what the command reads: standard input without operands or if the first one is `-`, otherwise the file the first
operand names; further operands are ignored, and a file that cannot be opened ends the command with status 1. -/
theorem C23_operands (fs : FS) (stdin : Bytes) (out : Out) :
    (∀ args, args.head? = none ∨ args.head? = some b!"-" → (Main fs stdin args out ↔ Run stdin out)) ∧
    (∀ f rest s, f ≠ b!"-" → fs f = some s → (Main fs stdin (f :: rest) out ↔ Run s out)) ∧
    (∀ f rest, f ≠ b!"-" → fs f = none →
      (Main fs stdin (f :: rest) out ↔ out = { stdout := [], stderr := b!"ahh jeez, can't open [" ++ f ++ b!"]\n", exit := 1 })) := by
  refine ⟨?_, ?_, ?_⟩
  · intro args h
    cases args with
    | nil => exact Iff.rfl
    | cons f rest =>
      have : f = b!"-" := by simpa using h
      simp only [Main, this, if_true]
  · intro f rest s hf hs
    simp only [Main, if_neg hf, hs]
  · intro f rest hf hs
    simp only [Main, if_neg hf, hs, die, List.cons_append, List.nil_append]

example : ∃ out, Main (fun n => if n = b!"f" then some b!"a b" else none) b!"odd" [b!"f", b!"ignored"] out :=
  let ⟨out, h⟩ := (C23_even b!"a b" [(b!"a", b!"b")] ((fields_iff _ _).mp (by decide)) (by decide)).1
  ⟨out, ((C23_operands _ b!"odd" out).2.1 b!"f" [b!"ignored"] b!"a b" (by decide) rfl).2 h⟩

/-- C21/C23: the loss of information is visible at the command line: `a b a a` prints only `a`. -/
theorem C23_self_pair_forgets : ∀ out, Run b!"a b a a" out → out.stdout = b!"a\n" := by
  intro out ho
  have hw : scanWords b!"a b a a" = ([b!"a", b!"b", b!"a", b!"a"], false) := by decide
  have hfeed : feed [] [b!"a", b!"b", b!"a", b!"a"] = .ok [(b!"a", [])] := by decide
  simp only [Run, hw, hfeed] at ho
  rw [if_neg (by simp)] at ho
  obtain ⟨r, m', ⟨hs, fuel, hh, hf⟩, hout⟩ := ho
  have : hs = [b!"a"] := by
    have : heads ([(b!"a", [])] : Orderings Bytes) = [b!"a"] := by decide
    unfold IsHeads at hh
    rw [this] at hh
    exact hh.eq_singleton
  subst this
  obtain ⟨r1, m1, h1⟩ := C20_terminates ([(b!"a", [])] : Orderings Bytes) [b!"a"]
  have h5 := h1 5 (by decide)
  have h5' : orderFuel 5 [b!"a"] ([(b!"a", [])] : Orderings Bytes) = some (some [b!"a"], []) := by decide
  rw [h5'] at h5
  cases fuel with
  | zero => simp [orderFuel, orderLoop] at hf
  | succ fuel =>
    have := h1 (fuel + 1) (by simp [weight])
    rw [hf, ← h5] at this
    simp only [Option.some.injEq, Prod.mk.injEq] at this
    obtain ⟨rfl, _⟩ := this
    simp only at hout
    subst hout
    rfl

end TSort
