import Verif.Test.Props

/-!
# The answers of `test` agree with each other (C148)

Nothing here says what the operators mean; only exit statuses of different calls are compared.
-/

namespace Test
open Go

/-- Specification: two statuses are opposite answers, or both are errors. -/
def Opposite (s t : Nat) : Prop := s = 0 ∧ t = 1 ∨ s = 1 ∧ t = 0 ∨ s = 2 ∧ t = 2

/-- No integer is taken for a flag. -/
theorem denotes_plain {a : Bytes} {m : Int} (h : Denotes a m) : ¬ Special a := by
  have ha := (C72_atoi_iff a m).2 h
  have hk : ∀ c ∈ knownFlags, ∃ v e, atoi [45, c] = (v, some e) := by
    have : ∀ c ∈ knownFlags, (atoi [45, c]).2.isSome = true := by decide +kernel
    intro c hc
    have := this c hc
    obtain ⟨e, he⟩ := Option.isSome_iff_exists.mp this
    exact ⟨(atoi [45, c]).1, e, by rw [← he]⟩
  rintro (rfl | rfl | ⟨c, hc, rfl⟩)
  · have : (atoi []).2 ≠ none := by decide
    rw [ha] at this; exact this rfl
  · have : (atoi b!"!").2 ≠ none := by decide
    rw [ha] at this; exact this rfl
  · obtain ⟨v, e, he⟩ := hk c hc
    rw [ha] at he
    cases he

/-- The status of a comparison of operands that are not taken for flags. -/
theorem status_of (w : World) {op R} (hop : NumOp op R) (a b : Bytes) (h : ¬ Special a) :
    (∃ m n, Denotes a m ∧ Denotes b n ∧ (R m n ∧ exitStatus w [a, op, b] = 0 ∨ ¬ R m n ∧ exitStatus w [a, op, b] = 1)) ∨
      (¬ ((∃ m, Denotes a m) ∧ ∃ n, Denotes b n) ∧ exitStatus w [a, op, b] = 2) := by
  by_cases hd : (∃ m, Denotes a m) ∧ ∃ n, Denotes b n
  · obtain ⟨⟨m, ha⟩, n, hb⟩ := hd
    obtain ⟨t, f⟩ := C48_integers w hop a b m n h ha hb
    refine .inl ⟨m, n, ha, hb, ?_⟩
    by_cases hr : R m n
    · exact .inl ⟨hr, t hr⟩
    · exact .inr ⟨hr, f hr⟩
  · exact .inr ⟨hd, (C48_error_iff w hop a b h).mpr hd⟩

theorem denotes_unique {a : Bytes} {m n : Int} (h : Denotes a m) (h' : Denotes a n) : m = n := by
  have h1 := (C72_atoi_iff a m).2 h
  rw [(C72_atoi_iff a n).2 h'] at h1
  cases h1
  rfl

/-- The status of a comparison of two integers. -/
theorem status_num (w : World) {op R} [DecidableRel R] (hop : NumOp op R) {a b : Bytes} {m n : Int} (ha : Denotes a m) (hb : Denotes b n) :
    exitStatus w [a, op, b] = if R m n then 0 else 1 := by
  obtain ⟨t, f⟩ := C48_integers w hop a b m n (denotes_plain ha) ha hb
  by_cases hr : R m n
  · rw [if_pos hr, t hr]
  · rw [if_neg hr, f hr]

/-- **C148** Operands that are not taken for flags: either none of the six comparisons, in either order, can be made, or exactly one of
`-lt`, `-eq` and `-gt` holds; in every case `-ne`, `-ge` and `-le` answer the opposite of `-eq`, `-lt` and `-gt`, as `!` does, and exchanging the
operands exchanges `-lt` with `-gt` and `-le` with `-ge` and does nothing to `-eq` and `-ne`. -/
theorem C148_comparisons_partial (w : World) (a b : Bytes) (ha : ¬ Special a) (hb : ¬ Special b) :
    ((∀ op ∈ [b!"-eq", b!"-ne", b!"-lt", b!"-le", b!"-gt", b!"-ge"], exitStatus w [a, op, b] = 2 ∧ exitStatus w [b, op, a] = 2) ∨
      (exitStatus w [a, b!"-lt", b], exitStatus w [a, b!"-eq", b], exitStatus w [a, b!"-gt", b]) ∈ [(0, 1, 1), (1, 0, 1), (1, 1, 0)]) ∧
    (∀ p ∈ [(b!"-eq", b!"-ne"), (b!"-lt", b!"-ge"), (b!"-gt", b!"-le")], Opposite (exitStatus w [a, p.1, b]) (exitStatus w [a, p.2, b]) ∧
      exitStatus w [b!"!", a, p.1, b] = exitStatus w [a, p.2, b]) ∧
    ∀ p ∈ [(b!"-lt", b!"-gt"), (b!"-le", b!"-ge"), (b!"-eq", b!"-eq"), (b!"-ne", b!"-ne")], exitStatus w [a, p.1, b] = exitStatus w [b, p.2, a] := by
  have hneg : ∀ op : Bytes, ∀ t, Opposite (exitStatus w [a, op, b]) t → exitStatus w [b!"!", a, op, b] = t := by
    intro op t ht
    obtain ⟨n1, n2, n3⟩ := C49_not w [a, op, b] (by simp)
    rcases ht with ⟨h1, h2⟩ | ⟨h1, h2⟩ | ⟨h1, h2⟩ <;> rw [h2]
    · exact n2.mpr h1
    · exact n1.mpr h1
    · exact n3.mpr h1
  by_cases hd : (∃ m, Denotes a m) ∧ ∃ n, Denotes b n
  · obtain ⟨⟨m, hm⟩, n, hn⟩ := hd
    have opp : ∀ p ∈ [(b!"-eq", b!"-ne"), (b!"-lt", b!"-ge"), (b!"-gt", b!"-le")], Opposite (exitStatus w [a, p.1, b]) (exitStatus w [a, p.2, b]) := by
      intro p hp
      simp only [List.mem_cons, List.not_mem_nil, or_false] at hp
      rcases hp with rfl | rfl | rfl
      · rw [status_num w .eq hm hn, status_num w .ne hm hn]
        by_cases h : m = n <;> simp [h, Opposite]
      · rw [status_num w .lt hm hn, status_num w .ge hm hn]
        by_cases h : m < n
        · have : ¬ m ≥ n := by omega
          simp [h, this, Opposite]
        · have : m ≥ n := by omega
          simp [h, this, Opposite]
      · rw [status_num w .gt hm hn, status_num w .le hm hn]
        by_cases h : m > n
        · have : ¬ m ≤ n := by omega
          simp [h, this, Opposite]
        · have : m ≤ n := by omega
          simp [h, this, Opposite]
    refine ⟨.inr ?_, fun p hp => ⟨opp p hp, hneg _ _ (opp p hp)⟩, ?_⟩
    · rw [status_num w .lt hm hn, status_num w .eq hm hn, status_num w .gt hm hn]
      rcases Int.lt_trichotomy m n with h | h | h
      · have h1 : ¬ m = n := by omega
        have h2 : ¬ m > n := by omega
        simp [h, h1, h2]
      · have h1 : ¬ m < n := by omega
        have h2 : ¬ m > n := by omega
        simp [h]
      · have h1 : ¬ m < n := by omega
        have h2 : ¬ m = n := by omega
        simp [h, h1, h2]
    · intro p hp
      simp only [List.mem_cons, List.not_mem_nil, or_false] at hp
      rcases hp with rfl | rfl | rfl | rfl
      · rw [status_num w .lt hm hn, status_num w .gt hn hm]
      · rw [status_num w .le hm hn, status_num w .ge hn hm]
      · rw [status_num w .eq hm hn, status_num w .eq hn hm]
        by_cases h : m = n
        · simp [h]
        · simp [h, Ne.symm h]
      · rw [status_num w .ne hm hn, status_num w .ne hn hm]
        by_cases h : m = n
        · simp [h]
        · simp [h, Ne.symm h]
  · have hd' : ¬ ((∃ m, Denotes b m) ∧ ∃ n, Denotes a n) := fun h => hd ⟨h.2, h.1⟩
    have e1 : ∀ {op R}, NumOp op R → exitStatus w [a, op, b] = 2 := fun hop => (C48_error_iff w hop a b ha).mpr hd
    have e2 : ∀ {op R}, NumOp op R → exitStatus w [b, op, a] = 2 := fun hop => (C48_error_iff w hop b a hb).mpr hd'
    have opp : ∀ p ∈ [(b!"-eq", b!"-ne"), (b!"-lt", b!"-ge"), (b!"-gt", b!"-le")], Opposite (exitStatus w [a, p.1, b]) (exitStatus w [a, p.2, b]) := by
      intro p hp
      simp only [List.mem_cons, List.not_mem_nil, or_false] at hp
      rcases hp with rfl | rfl | rfl
      · exact .inr (.inr ⟨e1 .eq, e1 .ne⟩)
      · exact .inr (.inr ⟨e1 .lt, e1 .ge⟩)
      · exact .inr (.inr ⟨e1 .gt, e1 .le⟩)
    refine ⟨.inl ?_, fun p hp => ⟨opp p hp, hneg _ _ (opp p hp)⟩, ?_⟩
    · intro op hop
      simp only [List.mem_cons, List.not_mem_nil, or_false] at hop
      rcases hop with rfl | rfl | rfl | rfl | rfl | rfl
      · exact ⟨e1 .eq, e2 .eq⟩
      · exact ⟨e1 .ne, e2 .ne⟩
      · exact ⟨e1 .lt, e2 .lt⟩
      · exact ⟨e1 .le, e2 .le⟩
      · exact ⟨e1 .gt, e2 .gt⟩
      · exact ⟨e1 .ge, e2 .ge⟩
    · intro p hp
      simp only [List.mem_cons, List.not_mem_nil, or_false] at hp
      rcases hp with rfl | rfl | rfl | rfl
      · rw [e1 .lt, e2 .gt]
      · rw [e1 .le, e2 .ge]
      · rw [e1 .eq, e2 .eq]
      · rw [e1 .ne, e2 .ne]

/-- A comparison of such operands that holds is one of integers. -/
theorem holds {w : World} {op R} (hop : NumOp op R) {a b : Bytes} (h : ¬ Special a) (h0 : exitStatus w [a, op, b] = 0) :
    ∃ m n, Denotes a m ∧ Denotes b n ∧ R m n := by
  rcases status_of w hop a b h with ⟨m, n, hm, hn, ⟨hr, _⟩ | ⟨_, h1⟩⟩ | ⟨_, h2⟩
  · exact ⟨m, n, hm, hn, hr⟩
  · rw [h0] at h1; cases h1
  · rw [h0] at h2; cases h2

/-- **C148** The comparisons are orders: what holds between the first and the second and between the second and the third holds between the first and the
third; two operands neither of which is greater are equal; equal operands can be put for each other on either side of any comparison. -/
theorem C148_orders (w : World) (a b c : Bytes) (ha : ¬ Special a) (hb : ¬ Special b) (hc : ¬ Special c) :
    (∀ op ∈ [b!"-eq", b!"-lt", b!"-le", b!"-gt", b!"-ge"], exitStatus w [a, op, b] = 0 → exitStatus w [b, op, c] = 0 → exitStatus w [a, op, c] = 0) ∧
    (exitStatus w [a, b!"-le", b] = 0 → exitStatus w [b, b!"-le", a] = 0 → exitStatus w [a, b!"-eq", b] = 0) ∧
    (exitStatus w [a, b!"-eq", b] = 0 → ∀ op ∈ [b!"-eq", b!"-ne", b!"-lt", b!"-le", b!"-gt", b!"-ge"],
      exitStatus w [a, op, c] = exitStatus w [b, op, c] ∧ exitStatus w [c, op, a] = exitStatus w [c, op, b]) := by
  have trans : ∀ {op : Bytes} {R : Int → Int → Prop}, NumOp op R → (∀ x y z, R x y → R y z → R x z) →
      exitStatus w [a, op, b] = 0 → exitStatus w [b, op, c] = 0 → exitStatus w [a, op, c] = 0 := by
    intro op R hop ht h1 h2
    obtain ⟨m, n, hm, hn, hr⟩ := holds hop ha h1
    obtain ⟨n', k, hn', hk, hr'⟩ := holds hop hb h2
    cases denotes_unique hn hn'
    exact (C48_integers w hop a c m k ha hm hk).1 (ht m n k hr hr')
  refine ⟨?_, ?_, ?_⟩
  · intro op hop
    simp only [List.mem_cons, List.not_mem_nil, or_false] at hop
    rcases hop with rfl | rfl | rfl | rfl | rfl
    · exact trans .eq (by intros; omega)
    · exact trans .lt (by intros; omega)
    · exact trans .le (by intros; omega)
    · exact trans .gt (by intros; omega)
    · exact trans .ge (by intros; omega)
  · intro h1 h2
    obtain ⟨m, n, hm, hn, hr⟩ := holds .le ha h1
    obtain ⟨n', m', hn', hm', hr'⟩ := holds .le hb h2
    cases denotes_unique hn hn'
    cases denotes_unique hm hm'
    exact (C48_integers w .eq a b m n ha hm hn).1 (by omega)
  · intro h
    obtain ⟨m, n, hm, hn, rfl⟩ := holds .eq ha h
    have key : ∀ {op : Bytes} {R : Int → Int → Prop}, NumOp op R →
        exitStatus w [a, op, c] = exitStatus w [b, op, c] ∧ exitStatus w [c, op, a] = exitStatus w [c, op, b] := by
      intro op R hop
      by_cases hk : ∃ k, Denotes c k
      · obtain ⟨k, hk⟩ := hk
        constructor
        · by_cases hr : R m k
          · rw [(C48_integers w hop a c m k ha hm hk).1 hr, (C48_integers w hop b c m k hb hn hk).1 hr]
          · rw [(C48_integers w hop a c m k ha hm hk).2 hr, (C48_integers w hop b c m k hb hn hk).2 hr]
        · by_cases hr : R k m
          · rw [(C48_integers w hop c a k m hc hk hm).1 hr, (C48_integers w hop c b k m hc hk hn).1 hr]
          · rw [(C48_integers w hop c a k m hc hk hm).2 hr, (C48_integers w hop c b k m hc hk hn).2 hr]
      · rw [(C48_error_iff w hop a c ha).mpr (fun h => hk h.2), (C48_error_iff w hop b c hb).mpr (fun h => hk h.2),
          (C48_error_iff w hop c a hc).mpr (fun h => hk h.1), (C48_error_iff w hop c b hc).mpr (fun h => hk h.1)]
        exact ⟨rfl, rfl⟩
    intro op hop
    simp only [List.mem_cons, List.not_mem_nil, or_false] at hop
    rcases hop with rfl | rfl | rfl | rfl | rfl | rfl
    · exact key .eq
    · exact key .ne
    · exact key .lt
    · exact key .le
    · exact key .gt
    · exact key .ge

/-- **C148** Equal texts: if the comparison of integers can be made at all, they are equal as integers. Texts that are not integers are compared
by `=` alone, where `!=` is the opposite. -/
theorem C148_texts (w : World) (a b : Bytes) (ha : ¬ Special a) :
    (exitStatus w [a, b!"=", b] = 0 → exitStatus w [a, b!"-eq", b] ≠ 1) ∧
    Opposite (exitStatus w [a, b!"=", b]) (exitStatus w [a, b!"!=", b]) ∧ exitStatus w [a, b!"=", b] ≠ 2 ∧
    (exitStatus w [a, b!"=", b] = 0 ↔ ∀ op c, exitStatus w [c, op, a] = exitStatus w [c, op, b] ∧ exitStatus w [a, op, c] = exitStatus w [b, op, c]) := by
  obtain ⟨h1, h2⟩ := C48_strings w a b ha
  refine ⟨?_, ?_, ?_, ?_, ?_⟩
  · intro h
    rw [h1] at h
    have e : a = b := by
      by_cases e : a = b
      · exact e
      · rw [if_neg e] at h; cases h
    subst e
    rcases status_of w .eq a a ha with ⟨m, n, hm, hn, ⟨_, hr⟩ | ⟨hr, _⟩⟩ | ⟨_, hr⟩
    · omega
    · exact absurd (denotes_unique hm hn) hr
    · omega
  · rw [h1, h2]
    by_cases e : a = b <;> simp [e, Opposite]
  · rw [h1]
    by_cases e : a = b <;> simp [e]
  · intro h op c
    rw [h1] at h
    have e : a = b := by
      by_cases e : a = b
      · exact e
      · rw [if_neg e] at h; cases h
    subst e
    exact ⟨rfl, rfl⟩
  · intro h
    have := (h b!"=" a).1
    rw [(C48_strings w a a ha).1] at this
    rw [← this]
    simp

/-- **C148** Questions about a file: whatever is true of a file, the file exists; a regular file is not a directory, pipe, socket or device; `-n`
and `-z` are opposite; none of these is ever an error. -/
theorem C148_files (w : World) (name : Bytes) :
    (∀ flag ∈ [b!"-d", b!"-f", b!"-s", b!"-p", b!"-S", b!"-u", b!"-g", b!"-c", b!"-a"],
      (exitStatus w [flag, name] = 0 → exitStatus w [b!"-e", name] = 0) ∧ exitStatus w [flag, name] ≠ 2) ∧
    (exitStatus w [b!"-f", name] = 0 → ∀ flag ∈ [b!"-d", b!"-p", b!"-S", b!"-c", b!"-a"], exitStatus w [flag, name] = 1) ∧
    Opposite (exitStatus w [b!"-n", name]) (exitStatus w [b!"-z", name]) := by
  refine ⟨?_, ?_, ?_⟩
  · have key : ∀ {flag : Bytes} {P : FileInfo → Prop}, FileTest flag P →
        (exitStatus w [flag, name] = 0 → exitStatus w [b!"-e", name] = 0) ∧ exitStatus w [flag, name] ≠ 2 := by
      intro flag P h
      obtain ⟨h0, h1⟩ := C74_file_tests w h name
      refine ⟨fun hz => ?_, fun h2 => ?_⟩
      · obtain ⟨i, hi, _⟩ := h0.mp hz
        exact (C74_file_tests w .exists name).1.mpr ⟨i, hi, trivial⟩
      · by_cases hp : ∃ i, w.stat name = some i ∧ P i
        · rw [h0.mpr hp] at h2; cases h2
        · rw [h1.mpr hp] at h2; cases h2
    intro flag hf
    simp only [List.mem_cons, List.not_mem_nil, or_false] at hf
    rcases hf with rfl | rfl | rfl | rfl | rfl | rfl | rfl | rfl | rfl
    · exact key .dir
    · exact key .regular
    · exact key .nonEmpty
    · exact key .pipe
    · exact key .socket
    · exact key .setuid
    · exact key .setgid
    · exact key .charDevice
    · exact key .device
  · intro h
    obtain ⟨i, hi, hr⟩ := (C74_file_tests w .regular name).1.mp h
    have key : ∀ {flag : Bytes} {P : FileInfo → Prop}, FileTest flag P → ¬ P i → exitStatus w [flag, name] = 1 := by
      intro flag P hf hp
      refine (C74_file_tests w hf name).2.mpr ?_
      rintro ⟨j, hj, hpj⟩
      rw [hi] at hj
      cases hj
      exact hp hpj
    intro flag hf
    simp only [List.mem_cons, List.not_mem_nil, or_false] at hf
    rcases hf with rfl | rfl | rfl | rfl | rfl
    · exact key .dir (fun h => absurd ((hr 31 (by decide)).symm.trans h) (by decide))
    · exact key .pipe (fun h => absurd ((hr 25 (by decide)).symm.trans h) (by decide))
    · exact key .socket (fun h => absurd ((hr 24 (by decide)).symm.trans h) (by decide))
    · exact key .charDevice (fun h => absurd ((hr 21 (by decide)).symm.trans h) (by decide))
    · exact key .device (fun h => absurd ((hr 26 (by decide)).symm.trans h) (by decide))
  · obtain ⟨h1, h2⟩ := C74_strings w name
    rw [h1, h2]
    by_cases e : name = [] <;> simp [e, Opposite]

/-- **C148** The expected statement is false of operands taken for something else: with an empty left operand (a variable that is not set) every comparison
is answered with no, also two opposite ones, and exchanging the operands makes an error of it. -/
theorem C148_counterexample (w : World) (b : Bytes) (hb : ¬ Special b) :
    (∀ op, exitStatus w [[], op, b] = 1) ∧ exitStatus w [b, b!"-lt", []] = 2 := by
  refine ⟨fun op => (C50_special w op b).1, (C48_error_iff w .lt b [] hb).mpr ?_⟩
  rintro ⟨_, n, hn⟩
  exact denotes_plain hn (.inl rfl)

/-- `007` and `7` are different texts and equal integers. -/
example (w : World) : exitStatus w [b!"007", b!"-eq", b!"7"] = 0 ∧ exitStatus w [b!"007", b!"=", b!"7"] = 1 ∧
    exitStatus w [b!"7", b!"-lt", b!"+8"] = 0 ∧ exitStatus w [b!"007", b!"-lt", b!"+8"] = 0 := by
  refine ⟨rfl, rfl, rfl, rfl⟩

end Test
