import Verif.Diff.Props

/-! # Helper lemmas for C15, C16: reading back the printed diff -/

namespace Diff
open Go

theorem itoa_nat (n : Nat) : itoa (n : Int) = natToDec n := by
  unfold itoa; rw [if_neg (by omega)]; simp

theorem takeWhile_digits (ds r : Bytes) (hd : ∀ c ∈ ds, isDigit c = true)
    (hr : ∀ c r', r = c :: r' → isDigit c = false) : (ds ++ r).takeWhile isDigit = ds ∧
      (ds ++ r).dropWhile isDigit = r := by
  induction ds with
  | nil =>
    cases r with
    | nil => simp
    | cons c r => simp [hr c r rfl]
  | cons c ds ih =>
    have := ih (fun d h => hd d (by simp [h]))
    simp [hd c (by simp), this]

theorem readRange_single (n : Nat) (c : UInt8) (r : Bytes) (hc : isDigit c = false) (h44 : c ≠ 44) :
    readRange (natToDec n ++ c :: r) = some (n, n, c :: r) := by
  obtain ⟨h1, h2, h3, _⟩ := natToDec_spec n
  obtain ⟨t1, t2⟩ := takeWhile_digits (natToDec n) (c :: r) h2
    (by intro c' r' h; simp at h; rw [← h.1]; exact hc)
  unfold readRange
  simp only [t1, t2, h1, if_false, h3]
  split
  · next r' h => simp at h; exact absurd h.1 h44
  · rfl

theorem readRange_single_end (n : Nat) : readRange (natToDec n) = some (n, n, []) := by
  obtain ⟨h1, h2, h3, _⟩ := natToDec_spec n
  obtain ⟨t1, t2⟩ := takeWhile_digits (natToDec n) [] h2 (by intro c' r' h; simp at h)
  rw [List.append_nil] at t1 t2
  unfold readRange
  simp only [t1, t2, h1, if_false, h3]

theorem readRange_pair (m n : Nat) (r : Bytes) (hr : ∀ c r', r = c :: r' → isDigit c = false) :
    readRange (natToDec m ++ 44 :: (natToDec n ++ r)) = some (m, n, r) := by
  obtain ⟨h1, h2, h3, _⟩ := natToDec_spec m
  obtain ⟨g1, g2, g3, _⟩ := natToDec_spec n
  obtain ⟨t1, t2⟩ := takeWhile_digits (natToDec m) (44 :: (natToDec n ++ r)) h2
    (by intro c' r' h; simp at h; rw [← h.1]; decide)
  obtain ⟨u1, u2⟩ := takeWhile_digits (natToDec n) r g2 hr
  unfold readRange
  simp only [t1, t2, h1, if_false, h3, u1, u2, g1, g3]

theorem fmtRange_eq (a n : Nat) (hn : 0 < n) : fmtRange a n =
    if n > 1 then natToDec (a + 1) ++ 44 :: natToDec (a + n) else natToDec (a + 1) := by
  have e1 : ((a : Int) + 1) = ((a + 1 : Nat) : Int) := by omega
  have e2 : ((a : Int) + 1) + n - 1 = ((a + n : Nat) : Int) := by omega
  unfold fmtRange
  rw [e2, e1, itoa_nat, itoa_nat]
  simp

theorem readRange_fmt (a n : Nat) (hn : 0 < n) (c : UInt8) (r : Bytes) (hc : isDigit c = false)
    (h44 : c ≠ 44) : readRange (fmtRange a n ++ c :: r) = some (a + 1, a + n, c :: r) := by
  rw [fmtRange_eq a n hn]
  split
  · rw [List.append_assoc, List.cons_append]
    exact readRange_pair _ _ _ (by intro c' r' h; simp at h; rw [← h.1]; exact hc)
  · have : a + n = a + 1 := by omega
    rw [this]; exact readRange_single _ _ _ hc h44

theorem readRange_fmt_end (a n : Nat) (hn : 0 < n) :
    readRange (fmtRange a n) = some (a + 1, a + n, []) := by
  rw [fmtRange_eq a n hn]
  split
  · have := readRange_pair (a + 1) (a + n) [] (by intro c' r' h; simp at h)
    rwa [List.append_nil] at this
  · have : a + n = a + 1 := by omega
    rw [this]; exact readRange_single_end _

theorem readHeader_a (o n k : Nat) (hk : 0 < k) :
    readHeader (itoa o ++ b!"a" ++ fmtRange n k) = some (97, o, o, n + 1, n + k) := by
  rw [itoa_nat]
  have : natToDec o ++ b!"a" ++ fmtRange n k = natToDec o ++ 97 :: fmtRange n k := by simp
  rw [this]
  simp [readHeader, readRange_single o 97 _ (by decide) (by decide), readRange_fmt_end n k hk]

theorem readHeader_d (o n k : Nat) (hk : 0 < k) :
    readHeader (fmtRange o k ++ b!"d" ++ itoa n) = some (100, o + 1, o + k, n, n) := by
  rw [itoa_nat]
  have : fmtRange o k ++ b!"d" ++ natToDec n = fmtRange o k ++ 100 :: natToDec n := by simp
  rw [this]
  simp [readHeader, readRange_fmt o k hk 100 _ (by decide) (by decide), readRange_single_end]

theorem readHeader_c (o n k m : Nat) (hk : 0 < k) (hm : 0 < m) :
    readHeader (fmtRange o k ++ b!"c" ++ fmtRange n m) = some (99, o + 1, o + k, n + 1, n + m) := by
  have : fmtRange o k ++ b!"c" ++ fmtRange n m = fmtRange o k ++ 99 :: fmtRange n m := by simp
  rw [this]
  simp [readHeader, readRange_fmt o k hk 99 _ (by decide) (by decide), readRange_fmt_end n m hm]

/-- The hunks that the printed lines should read as. -/
def hunksOf (o n : Nat) : List (Block Bytes) → List Hunk
  | [] => []
  | ⟨.equal, vs⟩ :: cs => hunksOf (o + vs.length) (n + vs.length) cs
  | ⟨.add, vs⟩ :: cs => ⟨97, o, o, n + 1, n + vs.length, [], vs⟩ :: hunksOf o (n + vs.length) cs
  | ⟨.minus, vs⟩ :: ⟨.add, ws⟩ :: cs =>
    ⟨99, o + 1, o + vs.length, n + 1, n + ws.length, vs, ws⟩ ::
      hunksOf (o + vs.length) (n + ws.length) cs
  | ⟨.minus, vs⟩ :: cs =>
    ⟨100, o + 1, o + vs.length, n, n, vs, []⟩ :: hunksOf (o + vs.length) n cs

/-- First line of some output: a header, beginning with a digit. -/
theorem head_digit_itoa (n : Nat) : ∃ c r, itoa (n : Int) = c :: r ∧ isDigit c = true := by
  rw [itoa_nat]
  obtain ⟨h1, h2, _⟩ := natToDec_spec n
  cases h : natToDec n with
  | nil => exact absurd h h1
  | cons c r => exact ⟨c, r, rfl, h2 c (by simp [h])⟩

theorem head_digit_fmt (a n : Nat) : ∃ c r, fmtRange a n = c :: r ∧ isDigit c = true := by
  obtain ⟨c, r, h1, h2⟩ := head_digit_itoa (a + 1)
  have e1 : ((a : Int) + 1) = ((a + 1 : Nat) : Int) := by omega
  unfold fmtRange
  rw [e1, h1]
  split
  · exact ⟨c, _, by simp; rfl, h2⟩
  · exact ⟨c, _, rfl, h2⟩

/-- What follows a hunk starts with a digit (or is nothing). -/
def HeaderFirst (ls : List Bytes) : Prop :=
  ∀ l ls', ls = l :: ls' → ∃ c r, l = c :: r ∧ isDigit c = true

theorem outputLoop_header (cs : List (Block Bytes)) : ∀ o n, HeaderFirst (outputLoop o n cs) := by
  induction cs with
  | nil => intro o n l ls' h; simp [outputLoop] at h
  | cons c cs ih =>
    intro o n l ls' h
    obtain ⟨k, vs⟩ := c
    cases k with
    | equal => exact ih _ _ l ls' (by simpa [outputLoop] using h)
    | add =>
      obtain ⟨c, r, h1, h2⟩ := head_digit_itoa o
      simp only [outputLoop, List.cons_append, List.cons.injEq] at h
      rw [← h.1, h1]
      exact ⟨c, _, rfl, h2⟩
    | minus =>
      obtain ⟨c, r, h1, h2⟩ := head_digit_fmt o vs.length
      rw [outputLoop.eq_def] at h
      split at h
      · simp_all
      · simp_all
      · simp_all
      · next e =>
        simp only [List.cons.injEq, Block.mk.injEq, true_and] at e
        obtain ⟨rfl, _⟩ := e
        simp only [List.cons_append, List.cons.injEq] at h
        rw [← h.1, h1]
        exact ⟨c, _, rfl, h2⟩
      · next e =>
        simp only [List.cons.injEq, Block.mk.injEq, true_and] at e
        obtain ⟨rfl, _⟩ := e
        simp only [List.cons_append, List.cons.injEq] at h
        rw [← h.1, h1]
        exact ⟨c, _, rfl, h2⟩

theorem not_prefix_of_digit {ls : List Bytes} (h : HeaderFirst ls) (x : UInt8) (hx : isDigit x = false) :
    ∀ l ls', ls = l :: ls' → startsWith [x, 32] l = false := by
  intro l ls' e
  obtain ⟨c, r, rfl, hc⟩ := h l ls' e
  unfold startsWith
  have : x ≠ c := by rintro rfl; rw [hc] at hx; cases hx
  simp [List.isPrefixOf, this]

theorem takeWhile_marked (x : UInt8) (vs : List Bytes) (rest : List Bytes)
    (h : ∀ l ls', rest = l :: ls' → startsWith [x, 32] l = false) :
    ((vs.map ([x, 32] ++ ·) ++ rest).takeWhile (startsWith [x, 32])).map (·.drop 2) = vs ∧
    (vs.map ([x, 32] ++ ·) ++ rest).dropWhile (startsWith [x, 32]) = rest := by
  induction vs with
  | nil =>
    cases rest with
    | nil => simp
    | cons l ls => simp [h l ls rfl]
  | cons v vs ih =>
    have : startsWith [x, 32] ([x, 32] ++ v) = true := by simp [startsWith, List.isPrefixOf]
    simp only [List.map_cons, List.cons_append] at ih ⊢
    have this' : startsWith [x, 32] (x :: 32 :: ([] ++ v)) = true := by simpa using this
    rw [List.takeWhile_cons, List.dropWhile_cons, if_pos this', if_pos this']
    simpa using ih

theorem gt_eq (vs : List Bytes) : gt vs = vs.map ([62, 32] ++ ·) := rfl
theorem lt_eq (vs : List Bytes) : lt vs = vs.map ([60, 32] ++ ·) := rfl

theorem readHunks_output (cs : List (Block Bytes)) (h : ∀ c ∈ cs, c.values ≠ []) : ∀ o n fuel,
    (outputLoop o n cs).length ≤ fuel →
    readHunks fuel (outputLoop o n cs) = some (hunksOf o n cs) := by
  intro o n
  induction o, n, cs using hunksOf.induct with
  | case1 o n => intro fuel _; cases fuel <;> simp [outputLoop, readHunks, hunksOf]
  | case2 o n vs cs ih =>
    intro fuel hf
    simp only [outputLoop, hunksOf] at hf ⊢
    exact ih (fun c hc => h c (by simp [hc])) fuel hf
  | case3 o n vs cs ih =>
    intro fuel hf
    have hv : 0 < vs.length := List.length_pos_iff.2 (h ⟨.add, vs⟩ (by simp))
    simp only [outputLoop, List.cons_append, List.length_cons, List.length_append] at hf
    obtain ⟨fuel, rfl⟩ : ∃ f, fuel = f + 1 := ⟨fuel - 1, by omega⟩
    simp only [outputLoop, hunksOf, List.cons_append, readHunks]
    have hnext := outputLoop_header cs o (n + vs.length)
    obtain ⟨v, vs', rfl⟩ : ∃ v vs', vs = v :: vs' := by
      cases vs with
      | nil => simp at hv
      | cons v vs' => exact ⟨v, vs', rfl⟩
    have hno : ∀ l ls', gt (v :: vs') ++ outputLoop o (n + (v :: vs').length) cs = l :: ls' →
        startsWith [60, 32] l = false := by
      intro l ls' e
      simp only [gt, List.map_cons, List.cons_append, List.cons.injEq] at e
      rw [← e.1]; rfl
    obtain ⟨d1, d2⟩ := takeWhile_marked 60 [] _ hno
    obtain ⟨a1, a2⟩ := takeWhile_marked 62 (v :: vs') _ (not_prefix_of_digit hnext 62 (by decide))
    rw [← gt_eq] at a1 a2
    simp only [List.map_nil, List.nil_append] at d1 d2
    rw [readHeader_a o n _ hv]
    simp only [Option.bind_eq_bind, Option.bind_some, d1, d2, a1, a2, skipSep, show ¬ ((97 : UInt8) = 99) by decide, if_false]
    rw [ih (fun c hc => h c (by simp [hc])) fuel (by omega)]
    simp
  | case4 o n vs ws cs ih =>
    intro fuel hf
    have hv : 0 < vs.length := List.length_pos_iff.2 (h ⟨.minus, vs⟩ (by simp))
    have hw : 0 < ws.length := List.length_pos_iff.2 (h ⟨.add, ws⟩ (by simp))
    simp only [outputLoop, List.cons_append, List.length_cons, List.length_append] at hf
    obtain ⟨fuel, rfl⟩ : ∃ f, fuel = f + 1 := ⟨fuel - 1, by omega⟩
    simp only [outputLoop, hunksOf, List.cons_append, readHunks, List.append_assoc, List.nil_append]
    have hnext := outputLoop_header cs (o + vs.length) (n + ws.length)
    obtain ⟨d1, d2⟩ := takeWhile_marked 60 vs (b!"---" :: (gt ws ++ outputLoop (o + vs.length) (n + ws.length) cs))
      (by intro l ls' e; simp only [List.cons.injEq] at e; rw [← e.1]; rfl)
    obtain ⟨a1, a2⟩ := takeWhile_marked 62 ws _ (not_prefix_of_digit hnext 62 (by decide))
    rw [← gt_eq] at a1 a2
    rw [← lt_eq] at d1 d2
    have hh := readHeader_c o n vs.length ws.length hv hw
    rw [List.append_assoc, List.cons_append, List.nil_append] at hh
    rw [hh]
    simp only [Option.bind_eq_bind, Option.bind_some, d1, d2, a1, a2, skipSep, if_true]
    rw [ih (fun c hc => h c (by simp [hc])) fuel (by omega)]
    simp
  | case5 o n vs cs hna ih =>
    intro fuel hf
    have hv : 0 < vs.length := List.length_pos_iff.2 (h ⟨.minus, vs⟩ (by simp))
    have hout : outputLoop o n (⟨.minus, vs⟩ :: cs) =
        (fmtRange o vs.length ++ b!"d" ++ itoa n) :: lt vs ++ outputLoop (o + vs.length) n cs := by
      rw [outputLoop]
      exact hna
    have hh : hunksOf o n (⟨.minus, vs⟩ :: cs) =
        ⟨100, o + 1, o + vs.length, n, n, vs, []⟩ :: hunksOf (o + vs.length) n cs := by
      rw [hunksOf]
      exact hna
    rw [hout] at hf ⊢
    rw [hh]
    simp only [List.cons_append, List.length_cons, List.length_append] at hf
    obtain ⟨fuel, rfl⟩ : ∃ f, fuel = f + 1 := ⟨fuel - 1, by omega⟩
    simp only [List.cons_append, readHunks]
    have hnext := outputLoop_header cs (o + vs.length) n
    obtain ⟨d1, d2⟩ := takeWhile_marked 60 vs _ (not_prefix_of_digit hnext 60 (by decide))
    obtain ⟨a1, a2⟩ := takeWhile_marked 62 [] _ (not_prefix_of_digit hnext 62 (by decide))
    simp only [List.map_nil, List.nil_append] at a1 a2
    rw [← lt_eq] at d1 d2
    rw [readHeader_d o n _ hv]
    simp only [Option.bind_eq_bind, Option.bind_some, d1, d2, skipSep]
    simp only [show ¬ ((100 : UInt8) = 99) by decide, if_false, Option.bind_some, a1, a2]
    rw [ih (fun c hc => h c (by simp [hc])) fuel (by omega)]
    simp

theorem itoa_no_nl (n : Nat) : nl ∉ itoa (n : Int) := by
  rw [itoa_nat]
  intro h
  have := (natToDec_spec n).2.1 nl h
  simp [isDigit, nl] at this

theorem fmtRange_no_nl (a n : Nat) (h : 0 < n) : nl ∉ fmtRange a n := by
  rw [fmtRange_eq a n h]
  have := itoa_no_nl (a + 1)
  have h2 := itoa_no_nl (a + n)
  rw [itoa_nat] at this h2
  split
  · simp only [List.mem_append, List.mem_cons, not_or]
    exact ⟨this, by decide, h2⟩
  · exact this

theorem mem_marked {x : UInt8} {vs : List Bytes} {l : Bytes} (hx : nl ≠ x) (hv : ∀ v ∈ vs, nl ∉ v)
    (h : l ∈ vs.map ([x, 32] ++ ·)) : nl ∉ l ∧ l ≠ [] := by
  obtain ⟨v, hv', rfl⟩ := List.mem_map.1 h
  have : nl ≠ 32 := by decide
  simp [hv v hv', hx, this]

theorem outputLoop_lines (cs : List (Block Bytes)) (h : ∀ c ∈ cs, c.values ≠ [])
    (hl : ∀ c ∈ cs, ∀ l ∈ c.values, nl ∉ l) : ∀ o n, ∀ l ∈ outputLoop o n cs, nl ∉ l ∧ l ≠ [] := by
  intro o n
  induction o, n, cs using hunksOf.induct with
  | case1 o n => simp [outputLoop]
  | case2 o n vs cs ih =>
    simp only [outputLoop]
    exact ih (fun c hc => h c (by simp [hc])) (fun c hc => hl c (by simp [hc]))
  | case3 o n vs cs ih =>
    have hv : 0 < vs.length := List.length_pos_iff.2 (h ⟨.add, vs⟩ (by simp))
    have ih := ih (fun c hc => h c (by simp [hc])) (fun c hc => hl c (by simp [hc]))
    simp only [outputLoop, List.cons_append, List.mem_cons, List.mem_append]
    rintro l (rfl | h1 | h1)
    · have h1 := itoa_no_nl o
      have h2 := fmtRange_no_nl n vs.length hv
      refine ⟨?_, by simp⟩
      simp only [List.mem_append, not_or]
      exact ⟨⟨h1, by decide⟩, h2⟩
    · exact mem_marked (by decide) (hl ⟨.add, vs⟩ (by simp)) h1
    · exact ih l h1
  | case4 o n vs ws cs ih =>
    have hv : 0 < vs.length := List.length_pos_iff.2 (h ⟨.minus, vs⟩ (by simp))
    have hw : 0 < ws.length := List.length_pos_iff.2 (h ⟨.add, ws⟩ (by simp))
    have ih := ih (fun c hc => h c (by simp [hc])) (fun c hc => hl c (by simp [hc]))
    simp only [outputLoop, List.cons_append, List.mem_cons, List.mem_append]
    rintro l (rfl | ((h1 | h1) | h1) | h1)
    · have h1 := fmtRange_no_nl o vs.length hv
      have h2 := fmtRange_no_nl n ws.length hw
      refine ⟨?_, by simp⟩
      simp only [List.mem_append, not_or]
      exact ⟨⟨h1, by decide⟩, h2⟩
    · exact mem_marked (by decide) (hl ⟨.minus, vs⟩ (by simp)) h1
    · simp at h1; subst h1; decide
    · exact mem_marked (by decide) (hl ⟨.add, ws⟩ (by simp)) h1
    · exact ih l h1
  | case5 o n vs cs hna ih =>
    have hv : 0 < vs.length := List.length_pos_iff.2 (h ⟨.minus, vs⟩ (by simp))
    have ih := ih (fun c hc => h c (by simp [hc])) (fun c hc => hl c (by simp [hc]))
    have hout : outputLoop o n (⟨.minus, vs⟩ :: cs) =
        (fmtRange o vs.length ++ b!"d" ++ itoa n) :: lt vs ++ outputLoop (o + vs.length) n cs := by
      rw [outputLoop]
      exact hna
    rw [hout]
    simp only [List.cons_append, List.mem_cons, List.mem_append]
    rintro l (rfl | h1 | h1)
    · have h1 := fmtRange_no_nl o vs.length hv
      have h2 := itoa_no_nl n
      refine ⟨?_, by simp⟩
      simp only [List.mem_append, not_or]
      exact ⟨⟨h1, by decide⟩, h2⟩
    · exact mem_marked (by decide) (hl ⟨.minus, vs⟩ (by simp)) h1
    · exact ih l h1

theorem rawLines_join (ls : List Bytes) (h : ∀ l ∈ ls, nl ∉ l ∧ l ≠ []) :
    rawLines (join [nl] ls) = ls := by
  induction ls with
  | nil => simp [join, rawLines]
  | cons l ls ih =>
    have h1 := h l (by simp)
    have ih := ih (fun m hm => h m (by simp [hm]))
    cases ls with
    | nil => simp only [join]; exact rawLines_unterminated l h1.1 h1.2
    | cons m ls =>
      have : join [nl] (l :: m :: ls) = l ++ nl :: join [nl] (m :: ls) := by simp [join]
      rw [this, rawLines_cons_line l h1.1, ih]

theorem readPatch_format (cs : List (Block Bytes)) (h : ∀ c ∈ cs, c.values ≠ [])
    (hl : ∀ c ∈ cs, ∀ l ∈ c.values, nl ∉ l) : readPatch (format cs) = some (hunksOf 0 0 cs) := by
  unfold readPatch format
  simp only [rawLines_join _ (outputLoop_lines cs h hl 0 0)]
  exact readHunks_output cs h 0 0 _ (Nat.le_refl _)

theorem applyHunks_hunksOf (cs : List (Block Bytes)) (h : ∀ c ∈ cs, c.values ≠ []) :
    ∀ o n pos (pending : List Bytes), pos + pending.length = o →
      applyHunks pos (pending ++ oldSide cs) (hunksOf o n cs) = some (pending ++ newSide cs) := by
  intro o n
  induction o, n, cs using hunksOf.induct with
  | case1 o n => intro pos pending hp; simp [hunksOf, applyHunks, oldSide, newSide]
  | case2 o n vs cs ih =>
    intro pos pending hp
    have := ih (fun c hc => h c (by simp [hc])) pos (pending ++ vs) (by simp; omega)
    simpa [hunksOf, oldSide, newSide, List.append_assoc] using this
  | case3 o n vs cs ih =>
    intro pos pending hp
    have := ih (fun c hc => h c (by simp [hc])) o [] (by simp)
    have hold : oldSide (⟨.add, vs⟩ :: cs) = oldSide cs := by simp [oldSide]
    have hnew : newSide (⟨.add, vs⟩ :: cs) = vs ++ newSide cs := by simp [newSide]
    rw [hold, hnew, hunksOf, applyHunks]
    have e : o - pos = pending.length := by omega
    simp only [e, if_true]
    rw [if_pos ⟨by omega, by simp, trivial⟩]
    simp only [List.nil_append] at this
    simp [this]
  | case4 o n vs ws cs ih =>
    intro pos pending hp
    have hv : 0 < vs.length := List.length_pos_iff.2 (h ⟨.minus, vs⟩ (by simp))
    have := ih (fun c hc => h c (by simp [hc])) (o + vs.length) [] (by simp)
    have hold : oldSide (⟨.minus, vs⟩ :: ⟨.add, ws⟩ :: cs) = vs ++ oldSide cs := by simp [oldSide]
    have hnew : newSide (⟨.minus, vs⟩ :: ⟨.add, ws⟩ :: cs) = ws ++ newSide cs := by simp [newSide]
    rw [hold, hnew, hunksOf, applyHunks]
    have e1 : o + 1 - 1 - pos = pending.length := by omega
    have e2 : o + vs.length - pos = pending.length + vs.length := by omega
    have e3 : o + vs.length + 1 - (o + 1) = vs.length := by omega
    simp only [e1, e2, e3]
    rw [if_neg (by decide), if_pos ⟨by omega, by omega, by simp, by simp, by simp⟩]
    simp only [List.nil_append] at this
    rw [← List.append_assoc, show pending.length + vs.length = (pending ++ vs).length by simp,
      List.drop_left, this, List.append_assoc, List.take_left]
    simp
  | case5 o n vs cs hna ih =>
    intro pos pending hp
    have hv : 0 < vs.length := List.length_pos_iff.2 (h ⟨.minus, vs⟩ (by simp))
    have := ih (fun c hc => h c (by simp [hc])) (o + vs.length) [] (by simp)
    have hold : oldSide (⟨.minus, vs⟩ :: cs) = vs ++ oldSide cs := by simp [oldSide]
    have hnew : newSide (⟨.minus, vs⟩ :: cs) = newSide cs := by simp [newSide]
    have hh : hunksOf o n (⟨.minus, vs⟩ :: cs) =
        ⟨100, o + 1, o + vs.length, n, n, vs, []⟩ :: hunksOf (o + vs.length) n cs := by
      rw [hunksOf]
      exact hna
    rw [hold, hnew, hh, applyHunks]
    have e1 : o + 1 - 1 - pos = pending.length := by omega
    have e2 : o + vs.length - pos = pending.length + vs.length := by omega
    have e3 : o + vs.length + 1 - (o + 1) = vs.length := by omega
    simp only [e1, e2, e3]
    rw [if_neg (by decide), if_pos ⟨by omega, by omega, by simp, by simp, by simp⟩]
    simp only [List.nil_append] at this
    rw [← List.append_assoc, show pending.length + vs.length = (pending ++ vs).length by simp,
      List.drop_left, this, List.append_assoc, List.take_left]
    simp

theorem lineRange_mid (pre vs post : List Bytes) : 
    lineRange (pre ++ (vs ++ post)) (pre.length + 1) (pre.length + vs.length) = vs := by
  unfold lineRange
  have e1 : pre.length + 1 - 1 = pre.length := by omega
  have e2 : pre.length + vs.length + 1 - (pre.length + 1) = vs.length := by omega
  rw [e1, e2, List.drop_left, List.take_left]

theorem truthful_hunksOf (cs : List (Block Bytes)) (h : ∀ c ∈ cs, c.values ≠ []) : ∀ o n
    (preO preN : List Bytes), preO.length = o → preN.length = n →
    ∀ k ∈ hunksOf o n cs, k.Truthful (preO ++ oldSide cs) (preN ++ newSide cs) := by
  intro o n
  induction o, n, cs using hunksOf.induct with
  | case1 o n => intro preO preN _ _ k hk; simp [hunksOf] at hk
  | case2 o n vs cs ih =>
    intro preO preN ho hn
    have := ih (fun c hc => h c (by simp [hc])) (preO ++ vs) (preN ++ vs) (by simp [ho]) (by simp [hn])
    simpa [hunksOf, oldSide, newSide, List.append_assoc] using this
  | case3 o n vs cs ih =>
    intro preO preN ho hn k hk
    have hv : 0 < vs.length := List.length_pos_iff.2 (h ⟨.add, vs⟩ (by simp))
    have hold : oldSide (⟨.add, vs⟩ :: cs) = oldSide cs := by simp [oldSide]
    have hnew : newSide (⟨.add, vs⟩ :: cs) = vs ++ newSide cs := by simp [newSide]
    rw [hold, hnew]
    simp only [hunksOf, List.mem_cons] at hk
    rcases hk with rfl | hk
    · have := lineRange_mid preN vs (newSide cs)
      subst ho hn
      simp [Hunk.Truthful, this]
      omega
    · have := ih (fun c hc => h c (by simp [hc])) preO (preN ++ vs) ho (by simp [hn]) k hk
      rwa [List.append_assoc] at this
  | case4 o n vs ws cs ih =>
    intro preO preN ho hn k hk
    have hv : 0 < vs.length := List.length_pos_iff.2 (h ⟨.minus, vs⟩ (by simp))
    have hw : 0 < ws.length := List.length_pos_iff.2 (h ⟨.add, ws⟩ (by simp))
    have hold : oldSide (⟨.minus, vs⟩ :: ⟨.add, ws⟩ :: cs) = vs ++ oldSide cs := by simp [oldSide]
    have hnew : newSide (⟨.minus, vs⟩ :: ⟨.add, ws⟩ :: cs) = ws ++ newSide cs := by simp [newSide]
    rw [hold, hnew]
    simp only [hunksOf, List.mem_cons] at hk
    rcases hk with rfl | hk
    · have h1 := lineRange_mid preO vs (oldSide cs)
      have h2 := lineRange_mid preN ws (newSide cs)
      subst ho hn
      simp [Hunk.Truthful, h1, h2]
      omega
    · have := ih (fun c hc => h c (by simp [hc])) (preO ++ vs) (preN ++ ws) (by simp [ho]) (by simp [hn]) k hk
      rwa [List.append_assoc, List.append_assoc] at this
  | case5 o n vs cs hna ih =>
    intro preO preN ho hn k hk
    have hv : 0 < vs.length := List.length_pos_iff.2 (h ⟨.minus, vs⟩ (by simp))
    have hold : oldSide (⟨.minus, vs⟩ :: cs) = vs ++ oldSide cs := by simp [oldSide]
    have hnew : newSide (⟨.minus, vs⟩ :: cs) = newSide cs := by simp [newSide]
    have hh : hunksOf o n (⟨.minus, vs⟩ :: cs) =
        ⟨100, o + 1, o + vs.length, n, n, vs, []⟩ :: hunksOf (o + vs.length) n cs := by
      rw [hunksOf]
      exact hna
    rw [hold, hnew]
    rw [hh] at hk
    simp only [List.mem_cons] at hk
    rcases hk with rfl | hk
    · have := lineRange_mid preO vs (oldSide cs)
      subst ho hn
      simp [Hunk.Truthful, this]
      omega
    · have := ih (fun c hc => h c (by simp [hc])) (preO ++ vs) preN (by simp [ho]) hn k hk
      rwa [List.append_assoc] at this

theorem Normal.tail {α : Type} {c : Block α} {cs : List (Block α)} (h : Normal (c :: cs)) : Normal cs := by
  refine ⟨fun d hd => h.1 d (by simp [hd]), ?_⟩
  intro pre d e post he
  exact h.2 (c :: pre) d e post (by simp [he])

/-- Every hunk starts at or after the current position. -/
theorem hunksOf_ge (cs : List (Block Bytes)) : ∀ o n, ∀ k ∈ hunksOf o n cs, o ≤ k.o1 ∧ n ≤ k.n1 := by
  intro o n
  induction o, n, cs using hunksOf.induct with
  | case1 o n => simp [hunksOf]
  | case2 o n vs cs ih =>
    intro k hk
    simp only [hunksOf] at hk
    have := ih k hk
    omega
  | case3 o n vs cs ih =>
    intro k hk
    simp only [hunksOf, List.mem_cons] at hk
    rcases hk with rfl | hk
    · simp
    · have := ih k hk; omega
  | case4 o n vs ws cs ih =>
    intro k hk
    simp only [hunksOf, List.mem_cons] at hk
    rcases hk with rfl | hk
    · simp
    · have := ih k hk; omega
  | case5 o n vs cs hna ih =>
    intro k hk
    have hh : hunksOf o n (⟨.minus, vs⟩ :: cs) =
        ⟨100, o + 1, o + vs.length, n, n, vs, []⟩ :: hunksOf (o + vs.length) n cs := by
      rw [hunksOf]
      exact hna
    rw [hh] at hk
    simp only [List.mem_cons] at hk
    rcases hk with rfl | hk
    · simp
    · have := ih k hk; omega

theorem ordered_cons {h : Hunk} {hs : List Hunk} (h1 : Ordered hs)
    (h2 : ∀ k ∈ hs, h.o2 < k.o1 ∧ h.n2 < k.n1) : Ordered (h :: hs) := by
  intro pre a b post he
  cases pre with
  | nil =>
    simp only [List.nil_append, List.cons.injEq] at he
    obtain ⟨rfl, rfl⟩ := he
    exact h2 b (by simp)
  | cons x pre =>
    simp only [List.cons_append, List.cons.injEq] at he
    exact h1 pre a b post he.2

/-- If what follows must be a kept block, later hunks are strictly after the position. -/
theorem hunksOf_gt (cs : List (Block Bytes)) (o n : Nat) (hne : ∀ c ∈ cs, c.values ≠ [])
    (h : ∀ c cs', cs = c :: cs' → c.kind = .equal) :
    ∀ k ∈ hunksOf o n cs, o < k.o1 ∧ n < k.n1 := by
  cases cs with
  | nil => simp [hunksOf]
  | cons c cs =>
    obtain ⟨kd, vs⟩ := c
    have := h _ _ rfl
    simp only at this
    subst this
    intro k hk
    have hv : 0 < vs.length := List.length_pos_iff.2 (hne ⟨.equal, vs⟩ (by simp))
    simp only [hunksOf] at hk
    have := hunksOf_ge cs _ _ k hk
    omega

theorem ordered_hunksOf (cs : List (Block Bytes)) (h : Normal cs) : ∀ o n, Ordered (hunksOf o n cs) := by
  intro o n
  induction o, n, cs using hunksOf.induct with
  | case1 o n => intro pre a b post he; simp [hunksOf] at he
  | case2 o n vs cs ih =>
    simp only [hunksOf]
    exact ih h.tail
  | case3 o n vs cs ih =>
    simp only [hunksOf]
    refine ordered_cons (ih h.tail) ?_
    refine hunksOf_gt cs _ _ h.tail.1 ?_
    rintro ⟨k, ws⟩ cs' rfl
    have := h.2 [] _ _ cs' rfl
    cases k <;> simp_all [MayFollow]
  | case4 o n vs ws cs ih =>
    simp only [hunksOf]
    refine ordered_cons (ih h.tail.tail) ?_
    refine hunksOf_gt cs _ _ h.tail.tail.1 ?_
    rintro ⟨k, us⟩ cs' rfl
    have := h.tail.2 [] _ _ cs' rfl
    cases k <;> simp_all [MayFollow]
  | case5 o n vs cs hna ih =>
    have hh : hunksOf o n (⟨.minus, vs⟩ :: cs) =
        ⟨100, o + 1, o + vs.length, n, n, vs, []⟩ :: hunksOf (o + vs.length) n cs := by
      rw [hunksOf]
      exact hna
    rw [hh]
    refine ordered_cons (ih h.tail) ?_
    refine hunksOf_gt cs _ _ h.tail.1 ?_
    rintro ⟨k, us⟩ cs' rfl
    have := h.2 [] _ _ cs' rfl
    cases k with
    | equal => rfl
    | add => exact absurd rfl (hna us cs')
    | minus => simp [MayFollow] at this

end Diff
