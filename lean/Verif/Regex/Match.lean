import Verif.Regex.Model
import Verif.Regex.Spec

/-! # What the matcher computes -/

namespace Regex
open Go

/-- The number of matching runes among the first `max`. -/
def hits (e : Elem) (rs : List Nat) : Nat := ((rs.take e.count.max).filter e.atom.matches).length

theorem countLoop_spec (e : Elem) (rs : List Nat) : ∀ i m,
    countLoop e i m rs =
      if ∀ x ∈ (rs.take (e.count.max - i)).take (e.count.min - m), e.atom.matches x = true then
        some (m + ((rs.take (e.count.max - i)).filter e.atom.matches).length)
      else none := by
  induction rs with
  | nil => intro i m; simp [countLoop]
  | cons r rs ih =>
    intro i m
    simp only [countLoop]
    by_cases hi : i < e.count.max
    · obtain ⟨k, hk⟩ : ∃ k, e.count.max - i = k + 1 := ⟨e.count.max - i - 1, by omega⟩
      have hk' : e.count.max - (i + 1) = k := by omega
      rw [if_pos hi, hk, List.take_succ_cons]
      by_cases hm : e.atom.matches r = true
      · rw [if_pos hm, ih, hk']
        by_cases hmin : m < e.count.min
        · obtain ⟨l, hl⟩ : ∃ l, e.count.min - m = l + 1 := ⟨e.count.min - m - 1, by omega⟩
          have hl' : e.count.min - (m + 1) = l := by omega
          rw [hl, hl', List.take_succ_cons]
          simp only [List.mem_cons, forall_eq_or_imp, hm, true_and, List.filter_cons, if_true, List.length_cons]
          split
          · congr 1; omega
          · rfl
        · have h1 : e.count.min - m = 0 := by omega
          have h2 : e.count.min - (m + 1) = 0 := by omega
          rw [h1, h2]
          simp [hm]
          omega
      · rw [if_neg hm]
        by_cases hmin : m < e.count.min
        · obtain ⟨l, hl⟩ : ∃ l, e.count.min - m = l + 1 := ⟨e.count.min - m - 1, by omega⟩
          rw [if_pos hmin, hl, List.take_succ_cons, if_neg]
          intro h
          exact hm (h r (by simp))
        · have h1 : e.count.min - m = 0 := by omega
          rw [if_neg hmin, ih, hk', h1]
          simp [hm]
    · have hk : e.count.max - i = 0 := by omega
      rw [if_neg hi, hk]
      simp

theorem backtrack_spec (f : List Nat → Bool × Nat) (hf : ∀ rs, (f rs).1 = true → (f rs).2 = rs.length)
    (min : Nat) (rs : List Nat) : ∀ n, n ≤ rs.length →
    ((backtrack f min rs n).1 = true ↔ ∃ i, min ≤ i ∧ i ≤ n ∧ (f (rs.drop i)).1 = true) ∧
    ((backtrack f min rs n).1 = true → (backtrack f min rs n).2 = rs.length) := by
  intro n
  induction n with
  | zero =>
    intro _
    simp only [backtrack]
    split
    · next h => exact ⟨⟨fun _ => ⟨0, by omega, Nat.le_refl _, h.2⟩, fun _ => rfl⟩, fun _ => hf _ h.2⟩
    · next h =>
      refine ⟨⟨fun h' => by simp at h', ?_⟩, fun h' => by simp at h'⟩
      rintro ⟨i, h1, h2, h3⟩
      have : i = 0 := by omega
      subst this
      exact absurd ⟨by omega, h3⟩ h
  | succ n ih =>
    intro hn
    obtain ⟨i1, i2⟩ := ih (by omega)
    simp only [backtrack]
    by_cases hmin : n + 1 < min
    · rw [if_pos hmin]
      refine ⟨⟨fun h' => by simp at h', ?_⟩, fun h' => by simp at h'⟩
      rintro ⟨i, h1, h2, h3⟩
      omega
    · rw [if_neg hmin]
      by_cases hF : (f (rs.drop (n + 1))).1 = true
      · rw [if_pos hF]
        refine ⟨⟨fun _ => ⟨n + 1, by omega, Nat.le_refl _, hF⟩, fun _ => rfl⟩, fun _ => ?_⟩
        simp only [hf _ hF, List.length_drop]
        omega
      · rw [if_neg hF]
        refine ⟨⟨fun h => ?_, ?_⟩, i2⟩
        · obtain ⟨i, h1, h2, h3⟩ := i1.1 h
          exact ⟨i, h1, by omega, h3⟩
        · rintro ⟨i, h1, h2, h3⟩
          apply i1.2
          refine ⟨i, h1, ?_, h3⟩
          by_cases e : i = n + 1
          · subst e; exact absurd h3 hF
          · omega

theorem hits_le (e : Elem) (rs : List Nat) : hits e rs ≤ rs.length := by
  unfold hits
  refine Nat.le_trans (List.length_filter_le _ _) ?_
  simp only [List.length_take]
  omega

/-- What a match of the elements at the start of the text is. -/
def Act : List Elem → List Nat → Prop
  | [], _ => True
  | e :: es, rs => (∀ x ∈ (rs.take e.count.max).take e.count.min, e.atom.matches x = true) ∧
      ∃ i, e.count.min ≤ i ∧ i ≤ hits e rs ∧ Act es (rs.drop i)

theorem elementsMatch_spec (es : List Elem) : ∀ rs,
    ((elementsMatch es rs).1 = true ↔ Act es rs) ∧
    ((elementsMatch es rs).1 = true → (elementsMatch es rs).2 = rs.length) := by
  induction es with
  | nil => intro rs; simp [elementsMatch, Act]
  | cons e es ih =>
    intro rs
    simp only [elementsMatch]
    rw [countLoop_spec]
    simp only [Nat.sub_zero, Nat.zero_add]
    by_cases hc : ∀ x ∈ (rs.take e.count.max).take e.count.min, e.atom.matches x = true
    · rw [if_pos hc]
      have hb := backtrack_spec (elementsMatch es) (fun rs => (ih rs).2) e.count.min rs (hits e rs) (hits_le e rs)
      refine ⟨?_, hb.2⟩
      simp only [Act]
      constructor
      · intro h
        obtain ⟨i, h1, h2, h3⟩ := hb.1.1 h
        exact ⟨hc, i, h1, h2, (ih _).1.1 h3⟩
      · rintro ⟨_, i, h1, h2, h3⟩
        exact hb.1.2 ⟨i, h1, h2, (ih _).1.2 h3⟩
    · rw [if_neg hc]
      simp [Act, hc]

theorem searchLoop_spec (b : Bre) (rs : List Nat) :
    searchLoop b rs = true ↔ ∃ i, i < rs.length ∧ Act b.elements (rs.drop i) := by
  induction rs with
  | nil => simp [searchLoop]
  | cons r rs ih =>
    obtain ⟨h1, h2⟩ := elementsMatch_spec b.elements (r :: rs)
    simp only [searchLoop]
    by_cases h : (elementsMatch b.elements (r :: rs)).1 = true
    · rw [if_pos ⟨h, by simp [h2 h]⟩]
      simp only [true_iff]
      exact ⟨0, by simp, h1.1 h⟩
    · rw [if_neg (by simp [h]), ih]
      constructor
      · rintro ⟨i, hi, ha⟩
        exact ⟨i + 1, by simpa using hi, ha⟩
      · rintro ⟨i, hi, ha⟩
        cases i with
        | zero => exact absurd (h1.2 ha) h
        | succ i => exact ⟨i, by simpa using hi, ha⟩

theorem chunksAux_ne_nil (b : UInt8) (bs : Bytes) : chunks (b :: bs) ≠ [] := by
  simp [chunks, chunksAux]

theorem runes_eq_nil {s : Bytes} : runes s = [] ↔ s = [] := by
  constructor
  · intro h
    cases s with
    | nil => rfl
    | cons b bs => simp [runes, chunksAux_ne_nil] at h
  · rintro rfl; rfl

theorem matches_spec (b : Bre) (s : Bytes) :
    b.matches s = true ↔
      if b.anchorLeft = true ∨ s = [] then Act b.elements (runes s)
      else ∃ i, i < (runes s).length ∧ Act b.elements ((runes s).drop i) := by
  unfold Bre.matches
  simp only [List.length_eq_zero_iff]
  by_cases hc : b.anchorLeft = true ∨ s = []
  · obtain ⟨h1, h2⟩ := elementsMatch_spec b.elements (runes s)
    simp only [if_pos hc]
    by_cases h : (elementsMatch b.elements (runes s)).1 = true
    · simp [h, h2 h, ← h1]
    · simp only [h, ← h1]; simp
  · simp only [if_neg hc]
    exact searchLoop_spec b _

/-! ## Connection with the specification -/

/-- The atom the code uses for a one-character expression. -/
def Sym.toAtom : Sym → Atom
  | .char c => .plain c
  | .any => .wildcard
  | .set cs => .bracket cs

/-- The count the code uses for a repetition. -/
def Rep.toCount : Rep → Count
  | .once => ⟨1, 1⟩
  | .star => ⟨0, maxInt⟩
  | .exactly n => ⟨n, n⟩
  | .atLeast n => ⟨n, maxInt⟩
  | .between m n => ⟨m, n⟩

/-- The element the code uses. -/
def toElem (x : Sym × Rep) : Elem := ⟨x.1.toAtom, x.2.toCount⟩

theorem toAtom_matches (s : Sym) (r : Nat) : s.toAtom.matches r = true ↔ s.accepts r := by
  cases s with
  | char c => simp only [Sym.toAtom, Atom.matches, Sym.accepts, beq_iff_eq]; exact eq_comm
  | any => simp [Sym.toAtom, Atom.matches, Sym.accepts]
  | set cs => simp [Sym.toAtom, Atom.matches, Sym.accepts]

theorem toCount_allows (r : Rep) (k : Nat) (h : k ≤ maxInt) :
    r.allows k ↔ r.toCount.min ≤ k ∧ k ≤ r.toCount.max := by
  cases r <;> simp only [Rep.allows, Rep.toCount, true_iff] <;> omega

/-- The matcher finds every match in the standard sense. -/
theorem act_of_lang {es : List (Sym × Rep)} {mid : List Nat} (h : Lang es mid) : ∀ post : List Nat,
    (mid ++ post).length ≤ maxInt → Act (es.map toElem) (mid ++ post) := by
  induction h with
  | nil => intro post _; trivial
  | @cons s r es xs ys hx hr _ ih =>
    intro post hlen
    rw [List.append_assoc] at hlen ⊢
    have hk : xs.length ≤ maxInt := by simp at hlen; omega
    obtain ⟨h1, h2⟩ := (toCount_allows r _ hk).1 hr
    have hm : ∀ x ∈ xs, s.toAtom.matches x = true := fun x hx' => (toAtom_matches s x).2 (hx x hx')
    rw [List.map_cons]
    refine ⟨?_, xs.length, h1, ?_, ?_⟩
    · intro x hx'
      rw [List.take_take] at hx'
      apply hm
      have : min r.toCount.min r.toCount.max ≤ xs.length := by omega
      simp only [toElem] at hx'
      rw [List.take_append_of_le_length this] at hx'
      exact List.mem_of_mem_take hx'
    · simp only [hits, toElem]
      have : (xs ++ (ys ++ post)).take r.toCount.max = xs ++ (ys ++ post).take (r.toCount.max - xs.length) := by
        rw [List.take_append, List.take_of_length_le h2]
      rw [this, List.filter_append, List.length_append, List.filter_eq_self.2 hm]
      omega
    · rw [List.drop_left]
      exact ih post (by simp at hlen ⊢; omega)

/-- Elements for which the matcher is exact. -/
def Exact : Sym × Rep → Prop
  | (.any, _) => True
  | (_, .once) => True
  | (_, .exactly _) => True
  | (_, .between m n) => n ≤ 1 ∨ m = n
  | (_, .star) => False
  | (_, .atLeast _) => False

theorem exact_cases {x : Sym × Rep} (h : Exact x) :
    (∀ r, x.1.accepts r) ∨ x.2.toCount.max ≤ 1 ∨ x.2.toCount.min = x.2.toCount.max := by
  obtain ⟨s, r⟩ := x
  cases s <;> cases r <;> simp_all [Exact, Rep.toCount, Sym.accepts]

theorem take_of_filter_le_one {α : Type} (p : α → Bool) (rs : List α) (n i : Nat) (hn : n ≤ 1)
    (hi : i ≤ ((rs.take n).filter p).length) : ∀ x ∈ rs.take i, p x = true := by
  cases rs with
  | nil => simp
  | cons r rs =>
    obtain rfl | rfl : n = 0 ∨ n = 1 := by omega
    · simp at hi; subst hi; simp
    · by_cases hp : p r = true
      · simp [hp] at hi
        obtain rfl | rfl : i = 0 ∨ i = 1 := by omega
        · simp
        · simp [hp]
      · simp [hp] at hi
        subst hi
        simp

/-- For exact elements the matcher reports only matches in the standard sense. -/
theorem lang_of_act (es : List (Sym × Rep)) (hex : ∀ x ∈ es, Exact x) : ∀ rs : List Nat,
    rs.length ≤ maxInt → Act (es.map toElem) rs → ∃ mid post, rs = mid ++ post ∧ Lang es mid := by
  induction es with
  | nil => intro rs _ _; exact ⟨[], rs, rfl, .nil⟩
  | cons x es ih =>
    intro rs hlen h
    obtain ⟨s, r⟩ := x
    rw [List.map_cons] at h
    obtain ⟨h0, i, h1, h2, h3⟩ := h
    obtain ⟨mid, post, e, hl⟩ := ih (fun y hy => hex y (by simp [hy])) _ (by simp; omega) h3
    have hi : i ≤ rs.length := Nat.le_trans h2 (hits_le _ _)
    have hi2 : i ≤ r.toCount.max := by
      refine Nat.le_trans h2 ?_
      unfold hits
      refine Nat.le_trans (List.length_filter_le _ _) ?_
      simp [toElem]
      omega
    refine ⟨rs.take i ++ mid, post, ?_, ?_⟩
    · rw [List.append_assoc, ← e, List.take_append_drop]
    · refine .cons _ _ ?_ ?_ hl
      · rcases exact_cases (hex (s, r) (by simp)) with ha | ha | ha
        · intro y _; exact ha y
        · intro y hy
          rw [← toAtom_matches]
          exact take_of_filter_le_one _ rs _ i ha h2 y hy
        · intro y hy
          rw [← toAtom_matches]
          apply h0
          simp only [toElem] at ha h1 ⊢
          rw [List.take_take, ha, Nat.min_self]
          have : i = r.toCount.max := by omega
          rw [← this]
          exact hy
      · rw [List.length_take, Nat.min_eq_left hi, toCount_allows r i (by omega)]
        exact ⟨h1, hi2⟩

end Regex
