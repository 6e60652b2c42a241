import Verif.Diff.First
import Verif.Diff.Patch
import Verif.Diff.Props

/-!
# C169: files made of sections

Both files contain the same lines `P` (a heading, a licence), which occur only there. Then what is before and what is after them is
compared separately, if lines before them do not occur after them in the other file, and `P` is all that is the same at that place.
-/

namespace Diff
open Go

section
variable {α : Type} [DecidableEq α]

/-! ## Specification -/

/-- The lines `P` divide the old file `A ++ P ++ B` and the new file `C ++ P ++ D`. -/
structure Divides (P A B C D : List α) : Prop where
  lines : P ≠ []
  fresh : ∀ x ∈ P, x ∉ A ∧ x ∉ B ∧ x ∉ C ∧ x ∉ D
  down : ∀ x ∈ A, x ∉ D
  up : ∀ x ∈ B, x ∉ C
  before : ∀ x, A.getLast? = some x → C.getLast? ≠ some x
  after : ∀ x, B.head? = some x → D.head? ≠ some x

/-! ## Lemmas -/

omit [DecidableEq α] in
theorem three_get (A P B : List α) (i : Nat) (x : α) (h : (A ++ P ++ B)[i]? = some x) :
    (i < A.length ∧ A[i]? = some x) ∨ (A.length ≤ i ∧ i < A.length + P.length ∧ P[i - A.length]? = some x) ∨
    (A.length + P.length ≤ i ∧ B[i - (A.length + P.length)]? = some x) := by
  rw [List.append_assoc, List.getElem?_append] at h
  split at h
  · next hi => exact .inl ⟨hi, h⟩
  · next hi =>
    rw [List.getElem?_append] at h
    split at h
    · next hp => exact .inr (.inl ⟨by omega, by omega, h⟩)
    · next hp => exact .inr (.inr ⟨by omega, by rw [← h]; congr 1; omega⟩)

omit [DecidableEq α] in
/-- Equal lines are in the same part of the two files. -/
theorem same_part {P A B C D : List α} (h : Divides P A B C D) {i j : Nat} {x : α} (hi : (A ++ P ++ B)[i]? = some x) (hj : (C ++ P ++ D)[j]? = some x) :
    (i < A.length ∧ j < C.length ∧ A[i]? = some x ∧ C[j]? = some x) ∨
    (A.length ≤ i ∧ i < A.length + P.length ∧ C.length ≤ j ∧ j < C.length + P.length) ∨
    (A.length + P.length ≤ i ∧ C.length + P.length ≤ j ∧ B[i - (A.length + P.length)]? = some x ∧ D[j - (C.length + P.length)]? = some x) := by
  rcases three_get A P B i x hi with ⟨h1, h2⟩ | ⟨h1, h2, h3⟩ | ⟨h1, h2⟩ <;> rcases three_get C P D j x hj with ⟨k1, k2⟩ | ⟨k1, k2, k3⟩ | ⟨k1, k2⟩
  · exact .inl ⟨h1, k1, h2, k2⟩
  · exact absurd (List.mem_of_getElem? h2) (h.fresh x (List.mem_of_getElem? k3)).1
  · exact absurd (List.mem_of_getElem? k2) (h.down x (List.mem_of_getElem? h2))
  · exact absurd (List.mem_of_getElem? k2) (h.fresh x (List.mem_of_getElem? h3)).2.2.1
  · exact .inr (.inl ⟨h1, h2, k1, k2⟩)
  · exact absurd (List.mem_of_getElem? k2) (h.fresh x (List.mem_of_getElem? h3)).2.2.2
  · exact absurd (List.mem_of_getElem? k2) (h.up x (List.mem_of_getElem? h2))
  · exact absurd (List.mem_of_getElem? h2) (h.fresh x (List.mem_of_getElem? k3)).2.1
  · exact .inr (.inr ⟨h1, k1, h2, k2⟩)

omit [DecidableEq α] in
theorem run_get {old new : List α} {a b n k : Nat} (h : CommonRun old new a b n) (hk : k < n) : ∃ x, old[a + k]? = some x ∧ new[b + k]? = some x := by
  rw [commonRun_iff] at h
  have := h.2.2 k hk
  have hl : a + k < old.length := by omega
  rw [List.getElem?_eq_getElem hl] at this
  exact ⟨_, List.getElem?_eq_getElem hl, this.symm⟩

omit [DecidableEq α] in
theorem run_shorter {old new : List α} {a b n m : Nat} (h : CommonRun old new a b n) (hm : m ≤ n) : CommonRun old new a b m := by
  rw [commonRun_iff] at h ⊢
  exact ⟨by omega, by omega, fun k hk => h.2.2 k (by omega)⟩

omit [DecidableEq α] in
/-- A common run is in one part. -/
theorem run_part {P A B C D : List α} (h : Divides P A B C D) {a b : Nat} : ∀ n, 0 < n → CommonRun (A ++ P ++ B) (C ++ P ++ D) a b n →
    (a + n ≤ A.length ∧ b + n ≤ C.length) ∨
    (A.length ≤ a ∧ a + n ≤ A.length + P.length ∧ C.length ≤ b ∧ b + n ≤ C.length + P.length) ∨
    (A.length + P.length ≤ a ∧ C.length + P.length ≤ b) := by
  intro n
  have hp := List.length_pos_iff.2 h.lines
  induction n with
  | zero => intro h; omega
  | succ n ih =>
    intro _ hr
    obtain ⟨x, x1, x2⟩ := run_get hr (show n < n + 1 by omega)
    have hx := same_part h x1 x2
    rcases Nat.eq_zero_or_pos n with rfl | hn
    · simp only [Nat.add_zero] at hx
      omega
    · obtain ⟨y, y1, y2⟩ := run_get hr (show n - 1 < n + 1 by omega)
      have hy := same_part h y1 y2
      rcases ih hn (run_shorter hr (by omega)) with h1 | h1 | h1
      · rcases hx with hx | hx | hx
        · omega
        · rcases hy with hy | hy | hy
          · obtain ⟨-, -, y3, y4⟩ := hy
            have e1 : a + (n - 1) = A.length - 1 := by omega
            have e2 : b + (n - 1) = C.length - 1 := by omega
            rw [e1, ← List.getLast?_eq_getElem?] at y3
            rw [e2, ← List.getLast?_eq_getElem?] at y4
            exact absurd y4 (h.before y y3)
          · omega
          · omega
        · omega
      · rcases hx with hx | hx | hx
        · omega
        · omega
        · obtain ⟨x3, x4, x5, x6⟩ := hx
          have e1 : a + n - (A.length + P.length) = 0 := by omega
          have e2 : b + n - (C.length + P.length) = 0 := by omega
          rw [e1, ← List.head?_eq_getElem?] at x5
          rw [e2, ← List.head?_eq_getElem?] at x6
          exact absurd x6 (h.after x x5)
      · omega

omit [DecidableEq α] in
theorem run_left {P A B C D : List α} {a b n : Nat} (h1 : a + n ≤ A.length) (h2 : b + n ≤ C.length) :
    CommonRun (A ++ P ++ B) (C ++ P ++ D) a b n ↔ CommonRun A C a b n := by
  rw [commonRun_iff, commonRun_iff]
  have e : ∀ k < n, (A ++ P ++ B)[a + k]? = A[a + k]? ∧ (C ++ P ++ D)[b + k]? = C[b + k]? := by
    intro k hk
    rw [List.append_assoc, List.append_assoc]
    exact ⟨List.getElem?_append_left (by omega), List.getElem?_append_left (by omega)⟩
  constructor
  · rintro ⟨-, -, h3⟩
    exact ⟨h1, h2, fun k hk => by rw [← (e k hk).1, ← (e k hk).2]; exact h3 k hk⟩
  · rintro ⟨-, -, h3⟩
    refine ⟨by simp; omega, by simp; omega, fun k hk => by rw [(e k hk).1, (e k hk).2]; exact h3 k hk⟩

omit [DecidableEq α] in
theorem run_right {A B C D : List α} {a b n : Nat} :
    CommonRun (A ++ B) (C ++ D) (A.length + a) (C.length + b) n ↔ CommonRun B D a b n := by
  unfold CommonRun
  rw [List.length_append, List.length_append, List.drop_append, List.drop_append]
  simp only [Nat.add_sub_cancel_left, List.drop_eq_nil_of_le (show A.length ≤ A.length + a by omega),
    List.drop_eq_nil_of_le (show C.length ≤ C.length + b by omega), List.nil_append]
  constructor
  · rintro ⟨h1, h2, h3⟩; exact ⟨by omega, by omega, h3⟩
  · rintro ⟨h1, h2, h3⟩; exact ⟨by omega, by omega, h3⟩

omit [DecidableEq α] in
theorem run_middle (P A B C D : List α) : CommonRun (A ++ P ++ B) (C ++ P ++ D) A.length C.length P.length := by
  refine ⟨by simp, by simp, ?_⟩
  simp [List.append_assoc]

/-- At the first longest run the files are divided. -/
theorem diff_at {old new : List α} {a b n : Nat} (h : FirstLongest old new a b n) :
    diff old new = diff (old.take a) (new.take b) ++ [⟨.equal, (old.drop a).take n⟩] ++ diff (old.drop (a + n)) (new.drop (b + n)) :=
  C107_anchor old new a b n h.1 h.2.1 h.2.2.1 h.2.2.2

omit [DecidableEq α] in
theorem getLast?_drop_some {l : List α} {k : Nat} {x : α} (h : (l.drop k).getLast? = some x) : l.getLast? = some x := by
  rw [List.getLast?_drop] at h
  split at h
  · cases h
  · exact h

omit [DecidableEq α] in
theorem head?_take_some {l : List α} {k : Nat} {x : α} (h : (l.take k).head? = some x) : l.head? = some x := by
  cases l with
  | nil => simp at h
  | cons y l => cases k with
    | zero => simp at h
    | succ k => simpa using h

/-! ## Theorems -/

/-- **C169** What is before and what is after the dividing lines is compared separately. -/
theorem C169_sections {P A B C D : List α} (h : Divides P A B C D) :
    diff (A ++ P ++ B) (C ++ P ++ D) = diff A C ++ [⟨.equal, P⟩] ++ diff B D := by
  generalize hN : A.length + B.length = N
  induction N using Nat.strongRecOn generalizing A B C D with
  | ind N ih =>
  have hp := List.length_pos_iff.2 h.lines
  obtain ⟨y, hy⟩ := List.exists_mem_of_ne_nil _ h.lines
  obtain ⟨a, b, n, hf⟩ := findBest_firstLongest (A ++ P ++ B) (C ++ P ++ D) ⟨y, by simp [hy], by simp [hy]⟩
  have hn := hf.1
  have hmid := hf.2.2.1 _ _ _ (run_middle P A B C D)
  rw [diff_at hf]
  rcases run_part h n hn hf.2.1 with ⟨h1, h2⟩ | ⟨h1, h2, h3, h4⟩ | ⟨h1, h2⟩
  · have hfl : FirstLongest A C a b n := by
      refine ⟨hn, (run_left h1 h2).1 hf.2.1, fun a' b' n' hr => ?_, fun a' b' hr => ?_⟩
      · exact hf.2.2.1 a' b' n' ((run_left hr.1 hr.2.1).2 hr)
      · exact hf.2.2.2 a' b' ((run_left hr.1 hr.2.1).2 hr)
    rw [diff_at hfl]
    have e1 : ∀ (X Y : List α) (k : Nat), k ≤ X.length → (X ++ P ++ Y).take k = X.take k := by
      intro X Y k hk; rw [List.append_assoc, List.take_append_of_le_length hk]
    have e2 : ∀ (X Y : List α) (k : Nat), k ≤ X.length → (X ++ P ++ Y).drop k = X.drop k ++ P ++ Y := by
      intro X Y k hk; rw [List.append_assoc, List.drop_append_of_le_length hk, List.append_assoc]
    rw [e1 A B a (by omega), e1 C D b (by omega), e2 A B a (by omega), e2 A B _ h1, e2 C D _ h2,
      show (A.drop a ++ P ++ B).take n = (A.drop a).take n by rw [e1 (A.drop a) B n (by simp; omega)]]
    have hd : Divides P (A.drop (a + n)) B (C.drop (b + n)) D :=
      ⟨h.lines, fun x hx => ⟨fun hc => (h.fresh x hx).1 (List.mem_of_mem_drop hc), (h.fresh x hx).2.1,
        fun hc => (h.fresh x hx).2.2.1 (List.mem_of_mem_drop hc), (h.fresh x hx).2.2.2⟩,
        fun x hx => h.down x (List.mem_of_mem_drop hx), fun x hx hc => h.up x hx (List.mem_of_mem_drop hc),
        fun x hx hc => h.before x (getLast?_drop_some hx) (getLast?_drop_some hc), h.after⟩
    rw [ih _ (by rw [List.length_drop]; omega) hd rfl]
    simp only [List.append_assoc]
  · have : n = P.length := by omega
    subst this
    have ea : a = A.length := by omega
    have eb : b = C.length := by omega
    subst ea eb
    simp [List.append_assoc]
  · obtain ⟨a, rfl⟩ : ∃ k, a = (A ++ P).length + k := ⟨a - (A.length + P.length), by simp; omega⟩
    obtain ⟨b, rfl⟩ : ∃ k, b = (C ++ P).length + k := ⟨b - (C.length + P.length), by simp; omega⟩
    have hfl : FirstLongest B D a b n := by
      refine ⟨hn, run_right.1 hf.2.1, fun a' b' n' hr => ?_, fun a' b' hr => ?_⟩
      · exact hf.2.2.1 _ _ n' (run_right.2 hr)
      · have := hf.2.2.2 _ _ (run_right.2 hr); omega
    have l1 := hfl.2.1.1
    have l2 := hfl.2.1.2.1
    rw [diff_at hfl]
    have e1 : ∀ (X Y : List α) (k : Nat), (X ++ Y).take (X.length + k) = X ++ Y.take k := by intro X Y k; simp [List.take_append, List.take_of_length_le]
    have e2 : ∀ (X Y : List α) (k : Nat), (X ++ Y).drop (X.length + k) = Y.drop k := by intro X Y k; simp [List.drop_append]
    rw [e1, e1, e2, Nat.add_assoc, Nat.add_assoc, e2, e2]
    have hd : Divides P A (B.take a) C (D.take b) :=
      ⟨h.lines, fun x hx => ⟨(h.fresh x hx).1, fun hc => (h.fresh x hx).2.1 (List.mem_of_mem_take hc), (h.fresh x hx).2.2.1,
        fun hc => (h.fresh x hx).2.2.2 (List.mem_of_mem_take hc)⟩,
        fun x hx hc => h.down x hx (List.mem_of_mem_take hc), fun x hx => h.up x (List.mem_of_mem_take hx), h.before,
        fun x hx hc => h.after x (head?_take_some hx) (head?_take_some hc)⟩
    rw [ih _ (by rw [List.length_take]; omega) hd rfl]
    simp only [List.append_assoc]

/-- **C169** The same new lines in front of both files are kept, and nothing else changes. -/
theorem C169_header_partial (P A B : List α) (hf : ∀ x ∈ P, x ∉ A ∧ x ∉ B) (hp : P ≠ []) (hd : ∀ x, A.head? = some x → B.head? ≠ some x) :
    diff (P ++ A) (P ++ B) = ⟨.equal, P⟩ :: diff A B := by
  have := C169_sections (P := P) (A := []) (B := A) (C := []) (D := B) ⟨hp, fun x hx => ⟨by simp, (hf x hx).1, by simp, (hf x hx).2⟩, by simp, by simp, by simp, hd⟩
  simpa [diff, diffFuel] using this

/-- **C169** The same new lines at the end of both files are kept, and nothing else changes. -/
theorem C169_footer_partial (P A B : List α) (hf : ∀ x ∈ P, x ∉ A ∧ x ∉ B) (hp : P ≠ []) (hd : ∀ x, A.getLast? = some x → B.getLast? ≠ some x) :
    diff (A ++ P) (B ++ P) = diff A B ++ [⟨.equal, P⟩] := by
  have := C169_sections (P := P) (A := A) (B := []) (C := B) (D := []) ⟨hp, fun x hx => ⟨(hf x hx).1, by simp, (hf x hx).2, by simp⟩, by simp, by simp, hd, by simp⟩
  simpa [diff, diffFuel] using this

end

/-! ## What is printed -/

/-- A change command for files with `o` and `n` more lines in front. -/
def Hunk.moved (o n : Nat) (h : Hunk) : Hunk := ⟨h.cmd, h.o1 + o, h.o2 + o, h.n1 + n, h.n2 + n, h.dels, h.adds⟩

theorem hunksOf_moved (cs : List (Block Bytes)) : ∀ o n x y, hunksOf (o + x) (n + y) cs = (hunksOf o n cs).map (Hunk.moved x y) := by
  intro o n
  induction o, n, cs using hunksOf.induct with
  | case1 o n => intro x y; rfl
  | case2 o n vs cs ih => intro x y; rw [hunksOf, hunksOf, ← ih]; congr 1 <;> omega
  | case3 o n vs cs ih =>
    intro x y
    rw [hunksOf, hunksOf, List.map_cons, ← ih, show n + y + vs.length = n + vs.length + y by omega]
    simp only [Hunk.moved]
    congr 2 <;> omega
  | case4 o n vs ws cs ih =>
    intro x y
    rw [hunksOf, hunksOf, List.map_cons, ← ih, show n + y + ws.length = n + ws.length + y by omega, show o + x + vs.length = o + vs.length + x by omega]
    simp only [Hunk.moved]
    congr 2 <;> omega
  | case5 o n vs cs hne ih =>
    intro x y
    rw [hunksOf, hunksOf, List.map_cons, ← ih, show o + x + vs.length = o + vs.length + x by omega]
    · simp only [Hunk.moved]
      congr 2 <;> omega
    · exact hne
    · exact hne

theorem hunksOf_kept (vs : List Bytes) (r : List (Block Bytes)) (l : List (Block Bytes)) : ∀ o n,
    hunksOf o n (l ++ ⟨.equal, vs⟩ :: r) = hunksOf o n l ++ hunksOf (o + (oldSide l).length + vs.length) (n + (newSide l).length + vs.length) r := by
  intro o n
  induction o, n, l using hunksOf.induct with
  | case1 o n => simp [hunksOf, oldSide, newSide]
  | case2 o n us cs ih =>
    rw [List.cons_append, hunksOf, ih, hunksOf]
    simp [oldSide, newSide]
    congr 1 <;> omega
  | case3 o n us cs ih =>
    rw [List.cons_append, hunksOf, ih, hunksOf]
    simp [oldSide, newSide]
    congr 1 <;> omega
  | case4 o n us ws cs ih =>
    rw [List.cons_append, List.cons_append, hunksOf, ih, hunksOf]
    simp [oldSide, newSide]
    congr 1 <;> omega
  | case5 o n us cs hne ih =>
    rw [List.cons_append, hunksOf, ih, hunksOf]
    · simp [oldSide, newSide]
      congr 1 <;> omega
    · exact hne
    · intro ws cs' h
      cases cs with
      | nil => simp at h
      | cons c cs => simp at h; exact hne ws cs (by rw [h.1])

/-- **C169** What is printed for files so divided: the change commands for the first parts, then those for the second parts with their line
numbers moved. -/
theorem C169_printed {P A B C D : List Bytes} (h : Divides P A B C D) (ho : ∀ l ∈ A ++ P ++ B, nl ∉ l) (hn : ∀ l ∈ C ++ P ++ D, nl ∉ l) :
    ∃ hs ks, readPatch (format (diff A C)) = some hs ∧ readPatch (format (diff B D)) = some ks ∧
      readPatch (format (diff (A ++ P ++ B) (C ++ P ++ D))) = some (hs ++ ks.map (Hunk.moved (A.length + P.length) (C.length + P.length))) := by
  have lines : ∀ (old new : List Bytes), (∀ l ∈ old, nl ∉ l) → (∀ l ∈ new, nl ∉ l) → readPatch (format (diff old new)) = some (hunksOf 0 0 (diff old new)) := by
    intro old new h1 h2
    refine readPatch_format _ (C13_normal_form old new).1 fun c hc l hl => ?_
    obtain ⟨e1, e2⟩ := C11_reconstructs old new
    by_cases hk : c.kind = .add
    · refine h2 l (e2 ▸ ?_)
      exact List.mem_flatMap.2 ⟨c, hc, by rw [if_neg (by rw [hk]; decide)]; exact hl⟩
    · refine h1 l (e1 ▸ ?_)
      exact List.mem_flatMap.2 ⟨c, hc, by rw [if_neg hk]; exact hl⟩
  refine ⟨_, _, lines A C (fun l hl => ho l (by simp [hl])) (fun l hl => hn l (by simp [hl])),
    lines B D (fun l hl => ho l (by simp [hl])) (fun l hl => hn l (by simp [hl])), ?_⟩
  rw [lines _ _ ho hn, C169_sections h, List.append_assoc, List.singleton_append, hunksOf_kept, (C11_reconstructs A C).1, (C11_reconstructs A C).2,
    ← hunksOf_moved]
  congr 3 <;> omega

/-- **C169** What is printed if both files get the same new lines in front: the same change commands, the numbers moved. -/
theorem C169_header_printed_partial (P A B : List Bytes) (hf : ∀ x ∈ P, x ∉ A ∧ x ∉ B) (hp : P ≠ []) (hd : ∀ x, A.head? = some x → B.head? ≠ some x)
    (ho : ∀ l ∈ P ++ A, nl ∉ l) (hn : ∀ l ∈ P ++ B, nl ∉ l) :
    ∃ ks, readPatch (format (diff A B)) = some ks ∧ readPatch (format (diff (P ++ A) (P ++ B))) = some (ks.map (Hunk.moved P.length P.length)) := by
  obtain ⟨hs, ks, h1, h2, h3⟩ := C169_printed (P := P) (A := []) (B := A) (C := []) (D := B)
    ⟨hp, fun x hx => ⟨by simp, (hf x hx).1, by simp, (hf x hx).2⟩, by simp, by simp, by simp, hd⟩ ho hn
  refine ⟨ks, h2, ?_⟩
  have : hs = [] := by
    have e : readPatch (format (diff ([] : List Bytes) [])) = some [] := by decide +kernel
    rw [e] at h1
    exact (Option.some.inj h1).symm
  subst this
  simpa using h3

/-- A chapter heading between two chapters. -/
example : Divides [b!"II"] [b!"a", b!"b"] [b!"x", b!"y"] [b!"b", b!"c"] [b!"y", b!"z"] :=
  ⟨by decide, by decide, by decide, by decide, by simp, by simp⟩

example : format (diff [b!"a", b!"b", b!"II", b!"x", b!"y"] [b!"b", b!"c", b!"II", b!"y", b!"z"]) = b!"1d0\n< a\n2a2\n> c\n4d3\n< x\n5a5\n> z" := by
  decide +kernel

/-- **C169** (the expectation fails) The same new lines in front of two files can change what is reported of the rest: without them `c2`
and `u` of lines 2 and 3 are deleted, with them `u` and `c2` of (what were) lines 3 and 4. -/
theorem C169_counterexample :
    diff [b!"c1", b!"c2", b!"u", b!"c2", b!"r", b!"s"] [b!"c1", b!"c2", b!"r", b!"s"] =
      [⟨.equal, [b!"c1"]⟩, ⟨.minus, [b!"c2", b!"u"]⟩, ⟨.equal, [b!"c2", b!"r", b!"s"]⟩] ∧
    diff [b!"p1", b!"p2", b!"c1", b!"c2", b!"u", b!"c2", b!"r", b!"s"] [b!"p1", b!"p2", b!"c1", b!"c2", b!"r", b!"s"] =
      [⟨.equal, [b!"p1", b!"p2", b!"c1", b!"c2"]⟩, ⟨.minus, [b!"u", b!"c2"]⟩, ⟨.equal, [b!"r", b!"s"]⟩] := by
  decide +kernel

end Diff
