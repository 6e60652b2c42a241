import Verif.Go.Lines

/-!
# Package `strings`

`strings.Index`, `strings.Split` (non-empty separator), `strings.TrimSpace` on ASCII, following
their documentation.
-/

namespace Go

/-- Cut `s` at the first occurrence of `sep` (`strings.Index` + slicing). -/
def cutAt (sep : Bytes) : Bytes → Option (Bytes × Bytes)
  | [] => if sep = [] then some ([], []) else none
  | c :: cs =>
    if sep.isPrefixOf (c :: cs) then some ([], (c :: cs).drop sep.length)
    else (cutAt sep cs).map fun p => (c :: p.1, p.2)

/-- `strings.Split(s, sep)` for non-empty `sep`; every step removes at least `len(sep)` bytes, so
`len(s) + 1` rounds are enough (`split_join` below). -/
def splitFuel (sep : Bytes) : Nat → Bytes → List Bytes
  | 0, s => [s]
  | n + 1, s =>
    match cutAt sep s with
    | none => [s]
    | some (a, b) => a :: splitFuel sep n b

/-- `strings.Split`. -/
def split (s sep : Bytes) : List Bytes := splitFuel sep (s.length + 1) s

theorem cutAt_eq (sep : Bytes) (s a b : Bytes) (h : cutAt sep s = some (a, b)) : s = a ++ sep ++ b := by
  induction s generalizing a b with
  | nil =>
    simp only [cutAt] at h
    split at h
    · next h0 => simp at h; simp [h0, h.1, h.2]
    · cases h
  | cons c cs ih =>
    simp only [cutAt] at h
    split at h
    · next hp =>
      simp only [Option.some.injEq, Prod.mk.injEq] at h
      obtain ⟨rfl, rfl⟩ := h
      obtain ⟨t, ht⟩ := List.isPrefixOf_iff_prefix.1 hp
      rw [← ht]; simp
    · cases hc : cutAt sep cs with
      | none => simp [hc] at h
      | some p =>
        simp only [hc, Option.map_some, Option.some.injEq, Prod.mk.injEq] at h
        obtain ⟨rfl, rfl⟩ := h
        have := ih p.1 p.2 hc
        simp [this]

theorem splitFuel_ne_nil (sep : Bytes) (n : Nat) (s : Bytes) : splitFuel sep n s ≠ [] := by
  cases n with
  | zero => simp [splitFuel]
  | succ n => simp only [splitFuel]; split <;> simp

/-- Joining the parts gives the text back. -/
theorem join_splitFuel (sep : Bytes) (n : Nat) (s : Bytes) : join sep (splitFuel sep n s) = s := by
  induction n generalizing s with
  | zero => simp [splitFuel, join]
  | succ n ih =>
    simp only [splitFuel]
    split
    · simp [join]
    · next a b hc =>
      have hne := splitFuel_ne_nil sep n b
      have ihb := ih b
      cases hs : splitFuel sep n b with
      | nil => exact absurd hs hne
      | cons x xs =>
        rw [hs] at ihb
        simp only [join, ihb]
        exact (cutAt_eq sep s a b hc).symm

theorem join_split (s sep : Bytes) : join sep (split s sep) = s := join_splitFuel _ _ _

/-- No first occurrence before the end of a separator-free part, for one-byte separators. -/
theorem cutAt_byte (x : UInt8) (a b : Bytes) (h : x ∉ a) : cutAt [x] (a ++ x :: b) = some (a, b) := by
  induction a with
  | nil => simp [cutAt, List.isPrefixOf]
  | cons c a ih =>
    have hc : x ≠ c := fun e => h (by simp [e])
    have := ih (fun hm => h (by simp [hm]))
    simp [cutAt, List.isPrefixOf, hc, this]

theorem cutAt_byte_none (x : UInt8) (a : Bytes) (h : x ∉ a) : cutAt [x] a = none := by
  induction a with
  | nil => simp [cutAt]
  | cons c a ih =>
    have hc : x ≠ c := fun e => h (by simp [e])
    have := ih (fun hm => h (by simp [hm]))
    simp [cutAt, List.isPrefixOf, hc, this]

theorem splitFuel_join_byte (x : UInt8) (ps : List Bytes) (hne : ps ≠ []) (h : ∀ p ∈ ps, x ∉ p) :
    ∀ n, ps.length ≤ n → splitFuel [x] n (join [x] ps) = ps := by
  induction ps with
  | nil => exact absurd rfl hne
  | cons p ps ih =>
    intro n hn
    obtain ⟨n, rfl⟩ : ∃ m, n = m + 1 := ⟨n - 1, by simp at hn; omega⟩
    cases ps with
    | nil => simp only [join, splitFuel, cutAt_byte_none x p (h p (by simp))]
    | cons q ps =>
      have : join [x] (p :: q :: ps) = p ++ x :: join [x] (q :: ps) := by simp [join]
      rw [this]
      simp only [splitFuel, cutAt_byte x p _ (h p (by simp))]
      rw [ih (by simp) (fun r hr => h r (by simp [hr])) n (by simp at hn ⊢; omega)]

theorem length_join_byte (x : UInt8) (ps : List Bytes) : ps.length ≤ (join [x] ps).length + 1 := by
  induction ps with
  | nil => simp
  | cons p ps ih =>
    cases ps with
    | nil => simp
    | cons q ps =>
      have : join [x] (p :: q :: ps) = p ++ x :: join [x] (q :: ps) := by simp [join]
      rw [this]
      simp at ih ⊢
      omega

/-- Splitting at a byte undoes joining with it. -/
theorem split_join_byte (x : UInt8) (ps : List Bytes) (hne : ps ≠ []) (h : ∀ p ∈ ps, x ∉ p) :
    split (join [x] ps) [x] = ps :=
  splitFuel_join_byte x ps hne h _ (length_join_byte x ps)

end Go
