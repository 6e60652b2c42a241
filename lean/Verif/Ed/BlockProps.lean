import Verif.Ed.CurrentProps
import Verif.Ed.PegProps
import Verif.Go.Utf8Last

/-! # Text typed in a block is data, except after a dot and blanks (C87) -/

namespace Ed
open Go

/-! ## Runes and lines -/

theorem runes_encode (r : Nat) (h : ValidRune r) (rest : Bytes) : runes (encodeRune r ++ rest) = r :: runes rest := by
  simp [runes, chunks_encode r h rest]

/-- The first rune is an invalid byte or was encoded. -/
theorem runes_cases (b : UInt8) (bs : Bytes) :
    (decodeRune b bs = (runeError, 1) ∧ runes (b :: bs) = runeError :: runes bs) ∨
    ∃ r tail, ValidRune r ∧ b :: bs = encodeRune r ++ tail := by
  rcases decode_valid b bs with h | ⟨r, tail, h1, h2, _⟩
  · exact .inl ⟨h, by simp [runes, chunks, chunksAux, h]⟩
  · exact .inr ⟨r, tail, h1, h2⟩

theorem encode_nl {r : Nat} (h : ValidRune r) (hn : nl ∈ encodeRune r) : r = 10 ∧ encodeRune r = [nl] := by
  by_cases hr : r < 0x80
  · simp only [encodeRune, hr, if_true, List.mem_singleton] at hn ⊢
    have := congrArg UInt8.toNat hn
    rw [byte_toNat r (by omega)] at this
    have e : nl.toNat = 10 := rfl
    rw [e] at this
    exact ⟨this.symm, by rw [hn]⟩
  · exfalso
    have hge : ∀ b ∈ encodeRune r, 128 ≤ b.toNat := by
      intro b hb
      have c : ∀ n, 128 ≤ n → n < 256 → 128 ≤ (UInt8.ofNat n).toNat := fun n h1 h2 => by rw [byte_toNat n h2]; exact h1
      unfold ValidRune at h
      unfold encodeRune at hb
      rw [if_neg hr] at hb
      split at hb
      · simp only [List.mem_cons, List.not_mem_nil, or_false] at hb
        rcases hb with rfl | rfl <;> exact c _ (by omega) (by omega)
      · split at hb
        · omega
        · split at hb
          · simp only [List.mem_cons, List.not_mem_nil, or_false] at hb
            rcases hb with rfl | rfl | rfl <;> exact c _ (by omega) (by omega)
          · simp only [List.mem_cons, List.not_mem_nil, or_false] at hb
            rcases hb with rfl | rfl | rfl | rfl <;> exact c _ (by omega) (by omega)
    have := hge nl hn
    exact absurd this (by decide)

/-- A newline byte is a rune of its own wherever it stands. -/
theorem runes_nl (b : Bytes) : ∀ (n : Nat) (a : Bytes), a.length ≤ n → runes (a ++ nl :: b) = runes a ++ 10 :: runes b := by
  have hnl : runes (nl :: b) = 10 :: runes b := by
    have := runes_encode 10 (by decide) b
    exact this
  intro n
  induction n with
  | zero =>
    intro a ha
    have : a = [] := List.length_eq_zero_iff.1 (by omega)
    subst this
    simpa [runes, chunks, chunksAux] using hnl
  | succ n ih =>
    intro a ha
    cases a with
    | nil => simpa [runes, chunks, chunksAux] using hnl
    | cons c a =>
      simp only [List.length_cons] at ha
      rcases runes_cases c (a ++ nl :: b) with ⟨hd, h⟩ | ⟨r, tail, hv, h⟩
      · rcases runes_cases c a with ⟨_, h'⟩ | ⟨r, tail, hv, h'⟩
        · rw [List.cons_append, h, h', ih a (by omega)]; rfl
        · exfalso
          obtain ⟨x, xs, e1, e2⟩ := decode_encode r hv (tail ++ nl :: b)
          rw [e1, List.cons_append, List.cons.injEq] at h'
          obtain ⟨rfl, rfl⟩ := h'
          rw [← List.append_assoc, hd] at e2
          simp only [Prod.mk.injEq] at e2
          obtain ⟨rfl, hx⟩ := e2
          have : xs = [] := List.length_eq_zero_iff.1 (by omega)
          subst this
          have e3 : (encodeRune runeError).length = 3 := by decide
          rw [e1] at e3
          simp at e3
      · have key : ∃ tail', tail = tail' ++ nl :: b ∧ c :: a = encodeRune r ++ tail' := by
          rw [← List.cons_append] at h
          rcases List.append_eq_append_iff.1 h with ⟨m, e1, e2⟩ | ⟨m, e1, e2⟩
          · cases m with
            | nil => exact ⟨[], by simpa using e2.symm, by simpa using e1.symm⟩
            | cons y m =>
              exfalso
              rw [List.cons_append, List.cons.injEq] at e2
              have hm : nl ∈ encodeRune r := by rw [e1, ← e2.1]; simp
              have := (encode_nl hv hm).2
              rw [this] at e1
              have := congrArg List.length e1
              simp at this
          · exact ⟨m, e2, e1⟩
        obtain ⟨tail', rfl, h'⟩ := key
        rw [List.cons_append, h, h', runes_encode r hv, runes_encode r hv, ih tail' ?_]
        · rfl
        · have := congrArg List.length h'
          have hp := List.length_pos_iff.2 (encode_ne_nil r)
          simp at this
          omega

theorem runes_no_nl : ∀ (n : Nat) (a : Bytes), a.length ≤ n → nl ∉ a → 10 ∉ runes a := by
  intro n
  induction n with
  | zero =>
    intro a ha _
    have : a = [] := List.length_eq_zero_iff.1 (by omega)
    subst this
    simp [runes, chunks, chunksAux]
  | succ n ih =>
    intro a ha hn
    cases a with
    | nil => simp [runes, chunks, chunksAux]
    | cons c a =>
      simp only [List.length_cons] at ha
      rcases runes_cases c a with ⟨_, h⟩ | ⟨r, tail, hv, h⟩
      · rw [h]
        simp only [List.mem_cons, not_or]
        exact ⟨by decide, ih a (by omega) (fun x => hn (by simp [x]))⟩
      · rw [h, runes_encode r hv]
        have hl := congrArg List.length h
        have hp := List.length_pos_iff.2 (encode_ne_nil r)
        simp at hl
        simp only [List.mem_cons, not_or]
        refine ⟨fun e => hn ?_, ih tail (by omega) (fun x => hn ?_)⟩
        · rw [h, ← e]
          have : encodeRune 10 = [nl] := by decide
          rw [this]; simp
        · rw [h]; simp [x]

/-- ASCII runes come from the same bytes. -/
theorem runes_ascii : ∀ (w : List Nat) (a : Bytes), (∀ c ∈ w, c < 0x80) → runes a = w → a = w.map UInt8.ofNat := by
  intro w
  induction w with
  | nil =>
    intro a _ h
    cases a with
    | nil => rfl
    | cons c a =>
      exfalso
      rcases runes_cases c a with ⟨_, h'⟩ | ⟨r, tail, hv, h'⟩
      · rw [h'] at h; cases h
      · rw [h', runes_encode r hv] at h; cases h
  | cons x w ih =>
    intro a hw h
    cases a with
    | nil => simp [runes, chunks, chunksAux] at h
    | cons c a =>
      rcases runes_cases c a with ⟨_, h'⟩ | ⟨r, tail, hv, h'⟩
      · rw [h', List.cons.injEq] at h
        have := hw x (by simp)
        rw [← h.1] at this
        exact absurd this (by decide)
      · rw [h', runes_encode r hv, List.cons.injEq] at h
        obtain ⟨rfl, h⟩ := h
        have := hw r (by simp)
        rw [h', ih tail (fun d hd => hw d (by simp [hd])) h]
        simp [encodeRune, this]

/-! ## What the parser can do on the first line of a block -/

/-- The characters a first line may have before its letter. -/
def isX (d : Nat) : Bool := d == 9 || d == 12 || d == 13 || d == 32 || isDig d || d == 46 || d == 36 || d == 44

/-- The letters. -/
def isAIC (c : Nat) : Bool := c == 97 || c == 105 || c == 99

/-- Between the start of the line and its letter. -/
def Upto (c : Nat) (rest rs : List Nat) : Prop := ∃ x, rs = x ++ c :: rest ∧ ∀ d ∈ x, isX d = true

/-- A rule that does not get past the letter. -/
def Before (p : P) : Prop := ∀ c rest, isAIC c = true → ∀ pos rs pos' rs' t, Upto c rest rs → p pos rs = some (pos', rs', t) → Upto c rest rs'

/-- A rule that fails up to the letter. -/
def Dead (p : P) : Prop := ∀ c rest, isAIC c = true → ∀ pos rs, Upto c rest rs → p pos rs = none

theorem Dead.before {p : P} (h : Dead p) : Before p := by
  intro c rest hc pos rs pos' rs' t hu hp
  rw [h c rest hc pos rs hu] at hp; cases hp

theorem Before.cls {f : Nat → Bool} (h : ∀ c, isAIC c = true → f c = false) : Before (Ed.cls f) := by
  rintro c rest hc pos rs pos' rs' t ⟨x, rfl, hx⟩ hp
  cases x with
  | nil => simp [Ed.cls, h c hc] at hp
  | cons d x =>
    simp only [Ed.cls, List.cons_append] at hp
    split at hp
    · cases hp; exact ⟨x, rfl, fun e he => hx e (by simp [he])⟩
    · cases hp

theorem Dead.cls {f : Nat → Bool} (h : ∀ c, isAIC c = true → f c = false) (h2 : ∀ c, isX c = true → f c = false) : Dead (Ed.cls f) := by
  rintro c rest hc pos rs ⟨x, rfl, hx⟩
  cases x with
  | nil => simp [Ed.cls, h c hc]
  | cons d x => simp [Ed.cls, h2 d (hx d (by simp))]

theorem Dead.chr {k : Nat} (h : isAIC k = false) (h2 : isX k = false) : Dead (Ed.chr k) :=
  Dead.cls (fun c hc => by simp only [beq_eq_false_iff_ne]; rintro rfl; rw [h] at hc; cases hc)
    (fun c hc => by simp only [beq_eq_false_iff_ne]; rintro rfl; rw [h2] at hc; cases hc)

theorem Before.chr {k : Nat} (h : isAIC k = false) : Before (Ed.chr k) :=
  Before.cls (fun c hc => by simp only [beq_eq_false_iff_ne]; rintro rfl; rw [h] at hc; cases hc)

theorem Before.act (n : Nat) : Before (Ed.act n) := by
  intro c rest hc pos rs pos' rs' t hu hp
  cases hp; exact hu

theorem Before.seq {p q : P} (hp : Before p) (hq : Before q) : Before (p ⬝ q) := by
  intro c rest hc pos rs pos' rs' t hu h
  simp only [Ed.seq] at h
  cases h1 : p pos rs with
  | none => simp [h1] at h
  | some r1 =>
    obtain ⟨pos1, rs1, t1⟩ := r1
    simp only [h1] at h
    cases h2 : q pos1 rs1 with
    | none => simp [h2] at h
    | some r2 =>
      obtain ⟨pos2, rs2, t2⟩ := r2
      simp only [h2, Option.some.injEq, Prod.mk.injEq] at h
      obtain ⟨rfl, rfl, rfl⟩ := h
      exact hq c rest hc _ _ _ _ _ (hp c rest hc _ _ _ _ _ hu h1) h2

theorem Dead.left {p q : P} (hp : Dead p) : Dead (p ⬝ q) := fun c rest hc pos rs hu => seq_fail1 (hp c rest hc pos rs hu)

theorem Dead.right {p q : P} (hp : Before p) (hq : Dead q) : Dead (p ⬝ q) := by
  intro c rest hc pos rs hu
  cases h1 : p pos rs with
  | none => exact seq_fail1 h1
  | some r => obtain ⟨pos1, rs1, t1⟩ := r; exact seq_fail2 h1 (hq c rest hc _ _ (hp c rest hc _ _ _ _ _ hu h1))

theorem Before.alt {p q : P} (hp : Before p) (hq : Before q) : Before (p / q) := by
  intro c rest hc pos rs pos' rs' t hu h
  simp only [Ed.alt] at h
  cases h1 : p pos rs with
  | none => rw [h1] at h; exact hq c rest hc _ _ _ _ _ hu h
  | some r => rw [h1] at h; cases h; exact hp c rest hc _ _ _ _ _ hu h1

theorem Dead.alt {p q : P} (hp : Dead p) (hq : Dead q) : Dead (p / q) :=
  fun c rest hc pos rs hu => alt_fail (hp c rest hc pos rs hu) (hq c rest hc pos rs hu)

theorem Before.opt {p : P} (hp : Before p) : Before (Ed.opt p) := by
  intro c rest hc pos rs pos' rs' t hu h
  simp only [Ed.opt] at h
  cases h1 : p pos rs with
  | none => rw [h1] at h; cases h; exact hu
  | some r => rw [h1] at h; cases h; exact hp c rest hc _ _ _ _ _ hu h1

theorem Before.capture {p : P} (hp : Before p) : Before (Ed.capture p) := by
  intro c rest hc pos rs pos' rs' t hu h
  simp only [Ed.capture] at h
  cases h1 : p pos rs with
  | none => simp [h1] at h
  | some r => obtain ⟨a, b, d⟩ := r; simp only [h1] at h; cases h; exact hp c rest hc _ _ _ _ _ hu h1

theorem Before.star {p : P} (hp : Before p) : Before (Ed.star p) := by
  intro c rest hc pos rs pos' rs' t hu h
  have aux : ∀ n pos rs, Upto c rest rs → Upto c rest (starAux p n pos rs).2.1 := by
    intro n
    induction n with
    | zero => intro pos rs hu; exact hu
    | succ n ih =>
      intro pos rs hu
      simp only [starAux]
      cases h1 : p pos rs with
      | none => exact hu
      | some r => obtain ⟨a, b, d⟩ := r; exact ih a b (hp c rest hc _ _ _ _ _ hu h1)
  simp only [Ed.star, Option.some.injEq] at h
  have := aux (rs.length + 1) pos rs hu
  rw [h] at this
  exact this

theorem aic_cases {c : Nat} (h : isAIC c = true) : c = 97 ∨ c = 105 ∨ c = 99 := by
  simpa [isAIC, or_assoc] using h

theorem Before.clsDec {f : Nat → Bool} (h : f 97 = false ∧ f 105 = false ∧ f 99 = false) : Before (Ed.cls f) :=
  Before.cls (fun c hc => by rcases aic_cases hc with rfl | rfl | rfl; exact h.1; exact h.2.1; exact h.2.2)

theorem blanks_before : Before (star sp) := by
  have h : Before (cls (fun c => c == 32 || c == 9)) := Before.clsDec (by decide)
  exact Before.star (Before.seq h (Before.star h))

theorem addr_before : Before addr := by
  refine Before.alt ?_ (Before.alt ?_ (Before.alt ?_ (Before.alt ?_ (Before.alt ?_ ?_))))
  · have h : Before (cls isDig) := Before.clsDec (by decide)
    exact Before.seq (Before.capture (Before.seq h (Before.star h))) (Before.act _)
  · exact (Dead.left (Dead.chr (by decide) (by decide))).before
  · exact (Dead.left (Dead.chr (by decide) (by decide))).before
  · exact (Dead.left (Dead.chr (by decide) (by decide))).before
  · exact Before.seq (Before.chr (by decide)) (Before.act _)
  · exact Before.seq (Before.chr (by decide)) (Before.act _)

theorem addrO_before : Before addrO := by
  have h : Before (cls isDig) := Before.clsDec (by decide)
  exact Before.seq (Before.capture (Before.seq addr_before (Before.opt (Before.seq (Before.clsDec (by decide)) (Before.star h))))) (Before.act _)

theorem startAddr_before : Before startAddr := Before.seq blanks_before (Before.seq addrO_before (Before.seq blanks_before (Before.act _)))

theorem endAddr_before : Before endAddr := Before.seq blanks_before (Before.seq addrO_before (Before.seq blanks_before (Before.act _)))

theorem range_before : Before range := by
  have s := startAddr_before
  have n := endAddr_before
  have k : Before (chr 44) := Before.chr (by decide)
  have m : Before (chr 59) := Before.chr (by decide)
  have a := Before.act
  exact .alt (.seq s (.seq k n)) (.alt (.seq s (.seq k (a _))) (.alt (.seq k (.seq n (a _))) (.alt (.seq s (.seq m n))
    (.alt (.seq s (.seq m (a _))) (.alt (.seq m (.seq n (a _))) (.alt (.seq s (a _)) (.alt (.seq k (a _)) (.seq m (a _)))))))))

/-- A rule that stays before the letter or reads a whole block. -/
def BeforeOrBlock (p : P) : Prop := ∀ c rest, isAIC c = true → ∀ pos rs pos' rs' t, Upto c rest rs → p pos rs = some (pos', rs', t) →
  Upto c rest rs' ∨ ∃ pre, rs = pre ++ rs' ∧ BlockShape pre

theorem Before.orBlock {p : P} (h : Before p) : BeforeOrBlock p := fun c rest hc pos rs pos' rs' t hu hp => .inl (h c rest hc _ _ _ _ _ hu hp)

theorem BeforeOrBlock.alt {p q : P} (hp : BeforeOrBlock p) (hq : BeforeOrBlock q) : BeforeOrBlock (p / q) := by
  intro c rest hc pos rs pos' rs' t hu h
  simp only [Ed.alt] at h
  cases h1 : p pos rs with
  | none => rw [h1] at h; exact hq c rest hc _ _ _ _ _ hu h
  | some r => rw [h1] at h; cases h; exact hp c rest hc _ _ _ _ _ hu h1

theorem runs_block {p : P} (h : Runs BlockShape Keeps p) : BeforeOrBlock p := by
  intro c rest hc pos rs pos' rs' t hu hp
  obtain ⟨pre, h1, _, h3, _⟩ := h _ _ _ _ _ hp
  exact .inr ⟨pre, h1, h3⟩

theorem cmd_before : BeforeOrBlock cmd := by
  have dl : ∀ {k n : Nat}, isAIC k = false → isX k = false → Dead (chr k ⬝ act n) := fun h1 h2 => Dead.left (Dead.chr h1 h2)
  have bare : Dead bareCmd := .alt (dl (by decide) (by decide)) (.alt (dl (by decide) (by decide)) (.alt (dl (by decide) (by decide))
    (.alt (dl (by decide) (by decide)) (.alt (dl (by decide) (by decide)) (dl (by decide) (by decide))))))
  have pc : Dead paramC := .alt (dl (by decide) (by decide)) (.alt (dl (by decide) (by decide)) (dl (by decide) (by decide)))
  have param : Dead paramCmd := .alt (.left pc) pc
  have rc : Dead rangeC := .alt (dl (by decide) (by decide)) (.alt (dl (by decide) (by decide)) (.alt (dl (by decide) (by decide))
    (.alt (dl (by decide) (by decide)) (dl (by decide) (by decide)))))
  have rangeD : Dead rangeCmd := .right (.opt range_before) (.right blanks_before rc)
  have ac : Dead addrC := dl (by decide) (by decide)
  have addrD : Dead addrCmd := .alt (.right (.capture startAddr_before) (.left ac)) ac
  have mark : Dead markCmd := .right (.opt startAddr_before) (.left (.chr (by decide) (by decide)))
  have dest : Dead destCmd := .right (.opt range_before) (.left (.alt (dl (by decide) (by decide)) (dl (by decide) (by decide))))
  have read : Dead readCmd := .right (.opt startAddr_before) (.left (.chr (by decide) (by decide)))
  have write : Dead writeCmd := .alt (.right (.opt range_before) (.left (.chr (by decide) (by decide))))
    (.right (.opt range_before) (.left (.chr (by decide) (by decide))))
  have shell : Dead shellCmd := .left (.chr (by decide) (by decide))
  have m := Keeps.mono
  have blk : ∀ {p q : P}, Runs NoNl Keeps p → Runs (fun x => x = [97] ∨ x = [105] ∨ x = [99]) Keeps q →
      Runs BlockShape Keeps (p ⬝ q ⬝ newLine ⬝ text) := by
    intro p q hp hq
    refine Runs.seq hp (Runs.seq hq (Runs.seq (L1 := fun x => x = [10]) (T1 := Keeps) (Runs.cls (fun c hc => by simp at hc; simp [hc]) m.nil) text_runs
      (L := fun x => ∃ t, x = 10 :: (t ++ [10, 46]) ∧ ¬ [10, 46] <:+: t ++ [10]) (fun a b ha ⟨t, hb, ht⟩ => ⟨t, by rw [ha, hb]; rfl, ht⟩) m.app)
      (L := fun x => ∃ c t, x = [c, 10] ++ (t ++ [10, 46]) ∧ (c = 97 ∨ c = 105 ∨ c = 99) ∧ ¬ [10, 46] <:+: t ++ [10])
      (fun a b ha ⟨t, hb, ht⟩ => ?_) m.app) (fun a b ha ⟨c, t, hb, hc, ht⟩ => ⟨a, c, t, by rw [hb]; simp, ha, hc, ht⟩) m.app
    rcases ha with ha | ha | ha
    · exact ⟨97, t, by rw [ha, hb]; rfl, by simp, ht⟩
    · exact ⟨105, t, by rw [ha, hb]; rfl, by simp, ht⟩
    · exact ⟨99, t, by rw [ha, hb]; rfl, by simp, ht⟩
  have letter : ∀ {c k : Nat} {L : List Nat → Prop}, L [c] → ((2 ≤ k ∧ k ≤ 18) ∨ (26 ≤ k ∧ k ≤ 46)) → Runs L Keeps (chr c ⬝ act k) := by
    intro c k L hL hk
    exact Runs.seq (L1 := fun x => x = [c]) (L2 := fun x => x = []) (T1 := Keeps) (T2 := Keeps)
      (Runs.cls (fun d hd => by simp at hd; simp [hd]) m.nil) (Runs.act rfl (Keeps.act hk)) (fun a b ha hb => by rw [ha, hb]; exact hL) m.app
  have change : BeforeOrBlock changeTextCmd := runs_block (blk (optNT m range_runs) (letter (by simp) (by decide)))
  have add : BeforeOrBlock addTextCmd := runs_block (blk (optNT m startAddr_runs)
      (Runs.alt (letter (by simp) (by decide)) (letter (by simp) (by decide))))
  have d : ∀ {p : P}, Dead p → BeforeOrBlock p := fun h => h.before.orBlock
  exact .alt (d bare) (.alt (d param) (.alt (d rangeD) (.alt (d addrD) (.alt change (.alt add (.alt (d mark)
    (.alt (d dest) (.alt (d read) (.alt (d write) (.alt (d shell) (Before.orBlock (.opt startAddr_before))))))))))))

/-- On the first line of a block one round of the top-level loop reads a whole block, if anything. -/
theorem e_block {c : Nat} {rest : List Nat} (hc : isAIC c = true) {pos : Nat} {rs : List Nat} (hu : Upto c rest rs)
    {pos' : Nat} {rs' : List Nat} {t : List Tok} (h : e pos rs = some (pos', rs', t)) :
    ∃ h d t w, rs = h ++ [d, 10] ++ t ++ [10, 46] ++ w ++ [10] ++ rs' ∧ 10 ∉ h ∧ (d = 97 ∨ d = 105 ∨ d = 99) ∧
      (∀ b ∈ w, b = 32 ∨ b = 9) ∧ ¬ [10, 46] <:+: t ++ [10] := by
  have split : ∀ {p q : P} {pos rs pos' rs' t}, (p ⬝ q) pos rs = some (pos', rs', t) →
      ∃ pos1 rs1 t1 t2, p pos rs = some (pos1, rs1, t1) ∧ q pos1 rs1 = some (pos', rs', t2) := by
    intro p q pos rs pos' rs' t h
    simp only [Ed.seq] at h
    cases h1 : p pos rs with
    | none => simp [h1] at h
    | some r1 =>
      obtain ⟨pos1, rs1, t1⟩ := r1
      simp only [h1] at h
      cases h2 : q pos1 rs1 with
      | none => simp [h2] at h
      | some r2 =>
        obtain ⟨pos2, rs2, t2⟩ := r2
        simp only [h2, Option.some.injEq, Prod.mk.injEq] at h
        obtain ⟨rfl, rfl, rfl⟩ := h
        exact ⟨_, _, _, _, rfl, h2⟩
  obtain ⟨p1, rs1, t1, _, a1, h⟩ := split h
  obtain ⟨p2, rs2, t2, _, a2, h⟩ := split h
  obtain ⟨p3, rs3, t3, _, a3, h⟩ := split h
  obtain ⟨p4, rs4, t4, _, a4, h⟩ := split h
  cases h
  obtain ⟨x, hx, _, hxn, _⟩ := (spNT Keeps.mono : Runs NoNl Keeps (star sp)) _ _ _ _ _ a1
  have hu1 := blanks_before c rest hc _ _ _ _ _ hu a1
  rcases cmd_before c rest hc _ _ _ _ _ hu1 a2 with hu2 | ⟨pre, hp, h0, d, t0, rfl, b1, b2, b3⟩
  · exfalso
    have hu3 := blanks_before c rest hc _ _ _ _ _ hu2 a3
    have hd : Dead newLine := Dead.chr (by decide) (by decide)
    rw [hd c rest hc _ _ hu3] at a4
    cases a4
  · obtain ⟨w, hw, _, hwb, _⟩ := blanks_runs _ _ _ _ _ a3
    obtain ⟨n, hn, _, hnn, _⟩ := (Runs.cls (L := fun x => x = [10]) (T := Keeps) (f := (· == 10)) (fun c hc => by simp at hc; simp [hc])
      Keeps.mono.nil) _ _ _ _ _ a4
    refine ⟨x ++ h0, d, t0, w, ?_, NoNl.mono.app x h0 hxn b1, b2, hwb, b3⟩
    rw [hx, hp, hw, hn, hnn]
    simp

/-! ## Lines of runes -/

/-- Lines of runes, each with its newline. -/
def runeLines (ls : List (List Nat)) : List Nat := ls.flatMap (fun l => l ++ [10])

theorem runes_join : ∀ (ls : List Bytes), ls ≠ [] → runes (join [nl] ls ++ [nl]) = runeLines (ls.map runes) := by
  intro ls
  induction ls with
  | nil => intro h; exact absurd rfl h
  | cons l ls ih =>
    intro _
    cases ls with
    | nil =>
      have := runes_nl [] l.length l (Nat.le_refl _)
      simpa [join, runeLines, runes, chunks, chunksAux] using this
    | cons m ls =>
      have e : join [nl] (l :: m :: ls) ++ [nl] = l ++ nl :: (join [nl] (m :: ls) ++ [nl]) := by simp [join]
      rw [e, runes_nl _ l.length l (Nat.le_refl _), ih (by simp)]
      simp [runeLines]

theorem head_line {a b u v : List Nat} (ha : 10 ∉ a) (hb : 10 ∉ b) (h : a ++ 10 :: u = b ++ 10 :: v) : a = b ∧ u = v := by
  induction a generalizing b with
  | nil =>
    cases b with
    | nil => exact ⟨rfl, by simpa using h⟩
    | cons c b =>
      simp only [List.nil_append, List.cons_append, List.cons.injEq] at h
      exact absurd (by simp [h.1] : 10 ∈ c :: b) hb
  | cons c a ih =>
    cases b with
    | nil =>
      simp only [List.nil_append, List.cons_append, List.cons.injEq] at h
      exact absurd (by simp [h.1] : 10 ∈ c :: a) ha
    | cons d b =>
      simp only [List.cons_append, List.cons.injEq] at h
      obtain ⟨e1, e2⟩ := ih (fun x => ha (by simp [x])) (fun x => hb (by simp [x])) h.2
      exact ⟨by rw [h.1, e1], e2⟩

/-- A line found after a newline is one of the lines after the first. -/
theorem later_line : ∀ (L : List (List Nat)) (t x rest : List Nat), (∀ l ∈ L, 10 ∉ l) → 10 ∉ x →
    runeLines L = t ++ 10 :: (x ++ 10 :: rest) → ∃ L1 L2, L = L1 ++ x :: L2 ∧ L1 ≠ [] ∧ rest = runeLines L2 := by
  intro L
  induction L with
  | nil => intro t x rest _ _ h; cases t <;> simp [runeLines] at h
  | cons a L ih =>
    intro t x rest hL hx h
    have hrl : runeLines (a :: L) = a ++ 10 :: runeLines L := by simp [runeLines]
    by_cases ht : 10 ∈ t
    · obtain ⟨t1, t2, rfl, h1⟩ : ∃ t1 t2, t = t1 ++ 10 :: t2 ∧ 10 ∉ t1 := by
        obtain ⟨t1, t2, e, h1⟩ := List.eq_append_cons_of_mem ht
        exact ⟨t1, t2, e, h1⟩
      rw [hrl, List.append_assoc, List.cons_append] at h
      obtain ⟨_, h⟩ := head_line (hL a (by simp)) h1 h
      obtain ⟨L1, L2, e1, _, e3⟩ := ih t2 x rest (fun l hl => hL l (by simp [hl])) hx h
      exact ⟨a :: L1, L2, by rw [e1]; rfl, by simp, e3⟩
    · rw [hrl] at h
      obtain ⟨_, h⟩ := head_line (hL a (by simp)) ht h
      cases L with
      | nil => cases x <;> simp [runeLines] at h
      | cons b L =>
        have hrl2 : runeLines (b :: L) = b ++ 10 :: runeLines L := by simp [runeLines]
        rw [hrl2] at h
        obtain ⟨e1, e2⟩ := head_line (hL b (by simp)) hx h
        exact ⟨[a], L, by rw [e1]; rfl, by simp, e2.symm⟩

/-! ## First lines of blocks -/

/-- What the pattern accepts: characters of addresses, the letter, spaces. -/
def StartShape (l : Bytes) : Prop := ∃ x c w, l = x ++ c :: w ∧ (c = 97 ∨ c = 105 ∨ c = 99) ∧ (∀ d ∈ w, isS d = true) ∧
  ∀ d ∈ x, isS d = true ∨ isA d = true ∨ d = 44

theorem StartShape.cons {l : Bytes} (c : UInt8) (h : StartShape l) (hc : isS c = true ∨ isA c = true ∨ c = 44) : StartShape (c :: l) := by
  obtain ⟨x, d, w, rfl, h2, h3, h4⟩ := h
  refine ⟨c :: x, d, w, rfl, h2, h3, ?_⟩
  intro e he
  rcases List.mem_cons.1 he with rfl | he
  · exact hc
  · exact h4 e he

theorem starK_shape {p : UInt8 → Bool} {k : Bytes → Bool} (hp : ∀ c, p c = true → isS c = true ∨ isA c = true ∨ c = 44)
    (h : ∀ l, k l = true → StartShape l) : ∀ l, starK p k l = true → StartShape l := by
  intro l
  induction l with
  | nil => exact h []
  | cons c cs ih =>
    intro hs
    simp only [starK, Bool.or_eq_true, Bool.and_eq_true] at hs
    rcases hs with hs | ⟨hc, hs⟩
    · exact h _ hs
    · exact (ih hs).cons c (hp c hc)

theorem isStart_shape (l : Bytes) (h : isStart l = true) : StartShape l := by
  have h1 : ∀ l, letterK (starK isS List.isEmpty) l = true → StartShape l := by
    intro l hl
    cases l with
    | nil => cases hl
    | cons c cs =>
      simp only [letterK, Bool.and_eq_true, Bool.or_eq_true, beq_iff_eq] at hl
      exact ⟨[], c, cs, rfl, by rcases hl.1 with (h | h) | h <;> simp [h], starK_spaces cs hl.2, by simp⟩
  have hS : ∀ c, isS c = true → isS c = true ∨ isA c = true ∨ c = 44 := fun c h => .inl h
  have hA : ∀ c, isA c = true → isS c = true ∨ isA c = true ∨ c = 44 := fun c h => .inr (.inl h)
  have h2 := starK_shape hS (starK_shape hA (starK_shape hS h1))
  have h3 : ∀ l, optComma (starK isS (starK isA (starK isS (letterK (starK isS List.isEmpty))))) l = true → StartShape l := by
    intro l hl
    cases l with
    | nil => exact h2 _ hl
    | cons c cs =>
      simp only [optComma, Bool.or_eq_true, Bool.and_eq_true, beq_iff_eq] at hl
      rcases hl with ⟨hc, hl⟩ | hl
      · exact (h2 _ hl).cons c (.inr (.inr hc))
      · exact h2 _ hl
  exact starK_shape hS (starK_shape hA (starK_shape hS h3)) l h

theorem start_upto {l : Bytes} (h : isStart l = true) (hn : nl ∉ l) (rest : List Nat) :
    ∃ c rest', isAIC c = true ∧ Upto c rest' (runes l ++ rest) := by
  obtain ⟨x, c, w, rfl, hc, hw, hx⟩ := isStart_shape l h
  have sA : ∀ d : UInt8, isS d = true ∨ isA d = true ∨ d = 44 → d < 0x80 ∧ (d ≠ nl → isX d.toNat = true) := by
    intro d hd
    simp only [isS, isA, Bool.or_eq_true, beq_iff_eq] at hd
    rcases hd with ((((rfl | rfl) | rfl) | rfl) | rfl) | ((hd | rfl) | rfl) | rfl
    · decide
    · exact ⟨by decide, fun h => absurd rfl h⟩
    · decide
    · decide
    · decide
    · refine ⟨?_, fun _ => ?_⟩
      · simp only [isDigit_iff] at hd
        rw [UInt8.lt_iff_toNat_lt]
        have e : (128 : UInt8).toNat = 128 := rfl
        omega
      · simp [isX, isDig_toNat hd]
    · decide
    · decide
    · decide
  have hasc : ∀ d ∈ x ++ c :: w, d < 0x80 := by
    intro d hd
    simp only [List.mem_append, List.mem_cons] at hd
    rcases hd with hd | rfl | hd
    · exact (sA d (hx d hd)).1
    · rcases hc with rfl | rfl | rfl <;> decide
    · exact (sA d (.inl (hw d hd))).1
  rw [chunks_rn _ hasc]
  refine ⟨c.toNat, rn w ++ rest, by rcases hc with rfl | rfl | rfl <;> decide, rn x, by simp [rn], ?_⟩
  intro d hd
  simp only [rn, List.mem_map] at hd
  obtain ⟨b, hb, rfl⟩ := hd
  exact (sA b (hx b hb)).2 (fun e => hn (by rw [← e]; simp [hb]))

/-! ## One text, one command -/

/-- A line of a dot and one or more blanks. -/
def DotBlank (l : Bytes) : Prop := ∃ w : Bytes, l = 46 :: w ∧ w ≠ [] ∧ ∀ b ∈ w, b = 32 ∨ b = 9

/-- The units of a text that parses. -/
theorem units_of {buffer : Bytes} {cmds : List Command} (h : parseCommands buffer = some cmds) (hne : runes buffer ≠ []) :
    ∃ (u : List Nat) (us : List (List Nat)) (t : List Tok), runes buffer = u ++ us.flatten ∧ us.length + 1 = cmds.length ∧ Unit u ∧ (∀ v ∈ us, Unit v) ∧
      e 0 (runes buffer) = some (u.length, us.flatten, t) := by
  obtain ⟨units, h1, h2, h3⟩ := C66_partition buffer cmds h
  have hall : ∀ v ∈ units, Unit v := by
    intro v hv
    obtain ⟨i, hi, rfl⟩ := List.mem_iff_getElem.1 hv
    exact (h3 i _ (cmds[i]'(h2 ▸ hi)) (List.getElem?_eq_getElem hi) (List.getElem?_eq_getElem (h2 ▸ hi))).1
  cases units with
  | nil => exact absurd (by simpa using h1) hne
  | cons u us =>
    have hl : 0 < cmds.length := by rw [← h2]; simp
    obtain ⟨_, t, b, e', he, _⟩ := h3 0 u (cmds[0]'hl) rfl (List.getElem?_eq_getElem hl)
    refine ⟨u, us, t ++ [.act 1], by simpa using h1, by simpa using h2, hall u (by simp), fun v hv => hall v (by simp [hv]), ?_⟩
    rw [h1]
    simpa using he

theorem unit_nl {u : List Nat} (h : Unit u) : 10 ∈ u := by
  rcases h with ⟨l, rfl, _⟩ | ⟨h, c, t, w, rfl, _⟩ <;> simp

/-- A single line is one command, if it parses. -/
theorem line_one {l : Bytes} (hn : nl ∉ l) {cmds : List Command} (h : parseCommands (l ++ [nl]) = some cmds) : cmds.length = 1 := by
  have hr : runes (l ++ [nl]) = runes l ++ [10] := by
    have := runes_nl [] l.length l (Nat.le_refl _)
    simpa [runes, chunks, chunksAux] using this
  obtain ⟨u, us, _, h1, h2, hu, hus, _⟩ := units_of h (by rw [hr]; simp)
  rw [hr] at h1
  cases us with
  | nil => simpa using h2.symm
  | cons v us =>
    exfalso
    have hc := congrArg (List.count 10) h1
    have c1 : (runes l).count 10 = 0 := List.count_eq_zero.2 (runes_no_nl _ l (Nat.le_refl _) hn)
    have c2 := List.count_pos_iff.2 (unit_nl hu)
    have c3 := List.count_pos_iff.2 (unit_nl (hus v (by simp)))
    simp only [List.count_append, List.flatten_cons, c1] at hc
    simp at hc
    omega

/-- A text block is one command, if it parses and no line of the text after its first is a dot and
blanks. -/
theorem block_one {l : Bytes} {body fin : List Bytes} (hs : isStart l = true) (hn : ∀ x ∈ l :: body, nl ∉ x)
    (hf : fin = [] ∨ fin = [b!"."]) (hd : ∀ x ∈ body, x ≠ b!".") (hb : ∀ x ∈ body.tail, ¬ DotBlank x)
    {cmds : List Command} (h : parseCommands (join [nl] (l :: body ++ fin) ++ [nl]) = some cmds) : cmds.length = 1 := by
  have hR : runes (join [nl] (l :: body ++ fin) ++ [nl]) = runeLines ((l :: body ++ fin).map runes) := runes_join _ (by simp)
  have hR2 : runeLines ((l :: body ++ fin).map runes) = runes l ++ 10 :: runeLines ((body ++ fin).map runes) := by simp [runeLines]
  obtain ⟨u, us, t, h1, h2, hu, hus, he⟩ := units_of h (by rw [hR, hR2]; simp)
  rw [hR, hR2] at he
  obtain ⟨c, rest', hc, hup⟩ := start_upto hs (hn l (by simp)) (10 :: runeLines ((body ++ fin).map runes))
  obtain ⟨h0, d, t0, w, e1, e2, e3, e4, _⟩ := e_block hc hup he
  have hnl : ∀ x ∈ l :: body ++ fin, 10 ∉ runes x := by
    intro x hx
    apply runes_no_nl _ x (Nat.le_refl _)
    simp only [List.cons_append, List.mem_cons, List.mem_append] at hx
    rcases hx with rfl | hx | hx
    · exact hn x (by simp)
    · exact hn x (by simp [hx])
    · rcases hf with rfl | rfl
      · cases hx
      · simp at hx; subst hx; decide
  have e1' : runes l ++ 10 :: runeLines ((body ++ fin).map runes) = (h0 ++ [d]) ++ 10 :: (t0 ++ 10 :: ((46 :: w) ++ 10 :: us.flatten)) := by
    rw [e1]; simp
  obtain ⟨_, e5⟩ := head_line (hnl l (by simp)) (by
    simp only [List.mem_append, List.mem_singleton, not_or]
    exact ⟨e2, by rcases e3 with rfl | rfl | rfl <;> decide⟩) e1'
  have hw10 : 10 ∉ 46 :: w := by
    simp only [List.mem_cons, not_or]
    refine ⟨by decide, fun hm => ?_⟩
    rcases e4 10 hm with h | h <;> cases h
  obtain ⟨L1, L2, f1, f2, f3⟩ := later_line _ t0 (46 :: w) us.flatten (by
    intro x hx
    obtain ⟨y, hy, rfl⟩ := List.mem_map.1 hx
    exact hnl y (by simp only [List.mem_append] at hy; simp only [List.cons_append, List.mem_cons, List.mem_append]; exact .inr hy)) hw10 e5
  obtain ⟨t1, t2', g1, g2, g3⟩ := List.map_eq_append_iff.1 f1
  obtain ⟨z, t2, rfl, g4, g5⟩ := List.map_eq_cons_iff.1 g3
  have hz := runes_ascii (46 :: w) z (by
    intro x hx
    rcases List.mem_cons.1 hx with rfl | hx
    · decide
    · rcases e4 x hx with rfl | rfl <;> decide) g4
  have ht1 : t1 ≠ [] := by rintro rfl; exact f2 (by simpa using g2.symm)
  have hdone : t2 = [] → cmds.length = 1 := by
    rintro rfl
    have hL2 : L2 = [] := by simpa using g5.symm
    rw [hL2] at f3
    cases us with
    | nil => simpa using h2.symm
    | cons v us =>
      exfalso
      have := unit_ne (hus v (by simp))
      simp [runeLines] at f3
      exact this f3.1
  have hno : z ∈ body.tail → cmds.length = 1 := by
    intro hz2
    exfalso
    by_cases hw0 : w = []
    · subst hw0
      exact hd z (List.mem_of_mem_tail hz2) hz
    · refine hb z hz2 ⟨w.map UInt8.ofNat, hz, by simpa using hw0, ?_⟩
      intro b hb
      obtain ⟨n, hn, rfl⟩ := List.mem_map.1 hb
      rcases e4 n hn with rfl | rfl
      · exact .inl rfl
      · exact .inr rfl
  have tl : ∀ {α : Type} (a : List α) (x : α) (b : List α), a ≠ [] → x ∈ (a ++ x :: b).tail := by
    intro α a x b ha
    cases a with
    | nil => exact absurd rfl ha
    | cons y a => simp
  rcases hf with rfl | rfl
  · rw [List.append_nil] at g1
    exact hno (by rw [g1]; exact tl _ _ _ ht1)
  · rcases List.eq_nil_or_concat t2 with ht | ⟨t2', y, ht⟩
    · exact hdone ht
    · apply hno
      have : body ++ [b!"."] = (t1 ++ z :: t2') ++ [y] := by rw [g1, ht]; simp
      have := (List.append_inj' this rfl).1
      rw [this]
      exact tl _ _ _ ht1

/-! ## Every text -/

/-- The texts are single lines that start no block, and blocks: a first line, lines that are not a dot, and
the dot if it was typed. -/
theorem groups_mem : ∀ (ls : List Bytes),
    (∀ t ∈ groups none ls, (t ∈ ls ∧ isStart t = false) ∨ ∃ l body fin, t = join [nl] (l :: body ++ fin) ∧ l :: body ++ fin <:+: ls ∧
      isStart l = true ∧ (∀ x ∈ body, x ≠ b!".") ∧ (fin = [] ∨ fin = [b!"."])) ∧
    (∀ (l : Bytes) (b : List Bytes), isStart l = true → (∀ x ∈ b, x ≠ b!".") → ∀ t ∈ groups (some (b.reverse ++ [l])) ls,
      (t ∈ ls ∧ isStart t = false) ∨ ∃ l' body fin, t = join [nl] (l' :: body ++ fin) ∧ l' :: body ++ fin <:+: l :: b ++ ls ∧
      isStart l' = true ∧ (∀ x ∈ body, x ≠ b!".") ∧ (fin = [] ∨ fin = [b!"."])) := by
  intro ls
  induction ls with
  | nil =>
    refine ⟨by simp [groups], ?_⟩
    intro l b hl hb t ht
    simp only [groups, List.mem_singleton] at ht
    exact .inr ⟨l, b, [], by rw [ht]; simp, by simp, hl, hb, .inl rfl⟩
  | cons m ls ih =>
    refine ⟨?_, ?_⟩
    · intro t ht
      simp only [groups] at ht
      split at ht
      · rename_i hm
        rcases ih.2 m [] hm (by simp) t (by simpa using ht) with ⟨h1, h2⟩ | ⟨l, body, fin, h1, h2, h3⟩
        · exact .inl ⟨by simp [h1], h2⟩
        · exact .inr ⟨l, body, fin, h1, by simpa using h2, h3⟩
      · rename_i hm
        rcases List.mem_cons.1 ht with rfl | ht
        · exact .inl ⟨by simp, by simpa using hm⟩
        · rcases ih.1 t ht with ⟨h1, h2⟩ | ⟨l, body, fin, h1, h2, h3⟩
          · exact .inl ⟨by simp [h1], h2⟩
          · exact .inr ⟨l, body, fin, h1, h2.trans (List.suffix_cons m ls).isInfix, h3⟩
    · intro l0 b hl hb t ht
      simp only [groups] at ht
      split at ht
      · rename_i hm
        rcases List.mem_cons.1 ht with rfl | ht
        · refine .inr ⟨l0, b, [b!"."], by rw [hm]; simp, ?_, hl, hb, .inr rfl⟩
          rw [hm]
          exact (List.prefix_append (l0 :: b ++ [b!"."]) ls).isInfix.trans (by simp)
        · rcases ih.1 t ht with ⟨h1, h2⟩ | ⟨l, body, fin, h1, h2, h3⟩
          · exact .inl ⟨by simp [h1], h2⟩
          · exact .inr ⟨l, body, fin, h1, h2.trans (by
            have := (List.suffix_append (l0 :: b ++ [m]) ls).isInfix
            simpa using this), h3⟩
      · rename_i hm
        rcases ih.2 l0 (b ++ [m]) hl (by
          intro x hx
          rcases List.mem_append.1 hx with hx | hx
          · exact hb x hx
          · simp at hx; rw [hx]; exact hm) t (by simpa using ht) with ⟨h1, h2⟩ | ⟨l', body, fin, h1, h2, h3⟩
        · exact .inl ⟨by simp [h1], h2⟩
        · exact .inr ⟨l', body, fin, h1, by simpa using h2, h3⟩

theorem scanned_no_nl (input : Bytes) : ∀ l ∈ (scanLines input).1, nl ∉ l := by
  have aux : ∀ raw : List Bytes, (∀ l ∈ raw, nl ∉ l) → ∀ l ∈ (scanTokens raw).1, nl ∉ l := by
    intro raw
    induction raw with
    | nil => simp [scanTokens]
    | cons r raw ih =>
      intro h l hl
      simp only [scanTokens] at hl
      split at hl
      · rcases List.mem_cons.1 hl with rfl | hl
        · intro hm
          refine h r (by simp) ?_
          simp only [dropCR] at hm
          split at hm
          · exact List.dropLast_subset _ hm
          · exact hm
        · exact ih (fun x hx => h x (by simp [hx])) l hl
      · cases hl
  exact aux _ (rawLines_no_nl input)

theorem resumed_no_nl (input : Bytes) : ∀ l ∈ resumed input, nl ∉ l := by
  intro t ht hm
  simp only [resumed] at ht
  split at ht
  · cases ht
  · next l hl =>
    split at ht
    · rw [List.mem_singleton] at ht
      subst ht
      refine rawLines_no_nl input l (List.mem_of_find?_eq_some hl) ?_
      refine List.mem_of_mem_take (i := maxToken) ?_
      simp only [dropCR] at hm
      split at hm
      · exact List.dropLast_subset _ hm
      · exact hm
    · cases ht

/-! ## C87 -/

/-- **C87** A block of typed text (the first line, the text, and the dot if it was typed) that parses is one command, so
that no line of the text is executed, unless a line of the text other than its first is a dot followed by blanks.
Missing: texts with such a line, see below. -/
theorem C87_block_partial {l : Bytes} {body fin : List Bytes} (hs : isStart l = true) (hn : ∀ x ∈ l :: body, nl ∉ x)
    (hf : fin = [] ∨ fin = [b!"."]) (hd : ∀ x ∈ body, x ≠ b!".") (hb : ∀ x ∈ body.tail, ¬ DotBlank x) (cmds : List Command)
    (h : parseCommands (join [nl] (l :: body ++ fin) ++ [nl]) = some cmds) : ∃ c, cmds = [c] :=
  List.length_eq_one_iff.1 (block_one hs hn hf hd hb h)

example : parseCommands (join [nl] (b!"1a" :: [b!".  ", b!"1d", b!"q"] ++ [b!"."]) ++ [nl]) =
      some [{ typ := .append, start := ⟨.num, b!"1", 0⟩, text := b!".  \n1d\nq" }] ∧
    isStart b!"1a" = true ∧ ¬ DotBlank b!"1d" ∧ ¬ DotBlank b!"q" :=
  ⟨by decide +kernel, by decide +kernel, by rintro ⟨w, h, _⟩; simp at h, by rintro ⟨w, h, _⟩; simp at h⟩

/-- **C87** Whatever is typed: if no line is a dot followed by blanks, every text given to the parser, be it a line or a
block, is one command or a parse error. -/
theorem C87_every_text_partial (input : Bytes) (h : ∀ l ∈ (scanLines input).1, ¬ DotBlank l) :
    ∀ t ∈ texts input, ∀ cmds, parseCommands (t ++ [nl]) = some cmds → ∃ c, cmds = [c] := by
  intro t ht cmds hp
  rw [texts, List.mem_append] at ht
  rcases ht with ht | ht
  case inr => exact List.length_eq_one_iff.1 (line_one (resumed_no_nl input t ht) hp)
  rcases (groups_mem (scanLines input).1).1 t ht with ⟨h1, _⟩ | ⟨l, body, fin, rfl, h1, h2, h3, h4⟩
  · exact List.length_eq_one_iff.1 (line_one (scanned_no_nl input t h1) hp)
  · have hsub := h1.subset
    refine C87_block_partial h2 ?_ h4 h3 ?_ cmds hp
    · intro x hx
      exact scanned_no_nl input x (hsub (by simp only [List.cons_append, List.mem_cons, List.mem_append] at hx ⊢; rcases hx with rfl | hx; exact .inl rfl; exact .inr (.inl hx)))
    · intro x hx
      exact h x (hsub (by simp only [List.cons_append, List.mem_cons, List.mem_append]; exact .inr (.inl (List.mem_of_mem_tail hx))))

/-- **C87** The commands the reader sends are those of the texts, in the order typed and in the order in which they stand in
each text. -/
theorem C87_order (errText : Bytes → Bytes) (input : Bytes) :
    sends (program errText input) = (texts input).flatMap (fun t => (parseCommands (t ++ [nl])).getD []) := by
  have hs : sends (scanError (scanLines input).2) = [] := by
    simp only [scanError]
    split <;> rfl
  have aux : ∀ ts : List Bytes, sends (ts.flatMap (eventsOf errText)) = ts.flatMap (fun t => (parseCommands (t ++ [nl])).getD []) := by
    intro ts
    induction ts with
    | nil => rfl
    | cons t ts ih =>
      rw [List.flatMap_cons, List.flatMap_cons, sends_append, ih]
      congr 1
      cases hp : parseCommands (t ++ [nl]) with
      | none => rw [eventsOf_none hp]; rfl
      | some cs => rw [eventsOf_some hp, sends_evs]; rfl
  rw [program, sends_append, hs, List.append_nil, aux]

/-- **C87** Every text is one action of the reader: nothing typed is dropped and nothing is executed twice. -/
theorem C87_reader_partial (errText : Bytes → Bytes) (input : Bytes) (h : ∀ l ∈ (scanLines input).1, ¬ DotBlank l) :
    (sends (program errText input)).length + (reports (program errText input)).length = (texts input).length := by
  have h1 := C87_every_text_partial input h
  have hs : sends (scanError (scanLines input).2) = [] ∧ reports (scanError (scanLines input).2) = [] := by
    simp only [scanError]
    split <;> exact ⟨rfl, rfl⟩
  simp only [program, sends_append, reports_append, hs.1, hs.2, List.append_nil]
  generalize texts input = ts at h1
  clear hs h
  induction ts with
  | nil => rfl
  | cons t ts ih =>
    have ih := ih (fun t ht => h1 t (by simp [ht]))
    simp only [List.flatMap_cons, sends_append, reports_append, List.length_append, List.length_cons]
    have : (sends (eventsOf errText t)).length + (reports (eventsOf errText t)).length = 1 := by
      cases hp : parseCommands (t ++ [nl]) with
      | none => rw [eventsOf_none hp]; rfl
      | some cs =>
        obtain ⟨c, rfl⟩ := h1 t (by simp) cs hp
        rw [eventsOf_some hp, sends_evs, reports_evs]
        rfl
    omega

example : (∀ l ∈ (scanLines b!"a\n.. \n1d\n.\n,p\n").1, ¬ DotBlank l) ∧ (texts b!"a\n.. \n1d\n.\n,p\n").length = 2 := by
  refine ⟨?_, by decide +kernel⟩
  have : (scanLines b!"a\n.. \n1d\n.\n,p\n").1 = [b!"a", b!".. ", b!"1d", b!".", b!",p"] := by decide +kernel
  rw [this]
  intro l hl
  simp only [List.mem_cons, List.not_mem_nil, or_false] at hl
  rintro ⟨w, h1, h2, h3⟩
  rcases hl with rfl | rfl | rfl | rfl | rfl <;> simp at h1
  · subst h1; exact absurd (h3 46 (by simp)) (by decide)
  · exact h2 h1

/-- What a user types to append the lines `x`, dot and space, `1d`. -/
def demoDot : Bytes := b!"$a\nx\n. \n1d\n.\n"

/-- **C87** is false: of the text `x`, dot and space, `1d` only `x` is appended; the rest of the text is executed, and
however the goroutines are scheduled line 1 of the file is lost. -/
theorem C87_counterexample (errText : Bytes → Bytes) (st : Sys) (hs : Steps demoEnv (initial errText (opened [b!"one"] 1) demoDot) st)
    (he : st.cons.ended = some .finished) :
    sends (program errText demoDot) = [{ typ := .append, start := ⟨.last, b!"$", 0⟩, text := b!"x" },
        { typ := .delete, start := ⟨.num, b!"1", 0⟩, end_ := ⟨.num, b!"1", 0⟩ }, { typ := .null, start := ⟨.current, b!".", 0⟩ }] ∧
    reports (program errText demoDot) = [] ∧ st.ed.pt.string = .ok b!"x\n" := by
  have h1 : sends (program errText demoDot) = [{ typ := .append, start := ⟨.last, b!"$", 0⟩, text := b!"x" },
        { typ := .delete, start := ⟨.num, b!"1", 0⟩, end_ := ⟨.num, b!"1", 0⟩ }, { typ := .null, start := ⟨.current, b!".", 0⟩ }] := by
    rw [C87_order]
    decide +kernel
  have h0 : program errText demoDot = program (fun _ => []) demoDot := by
    have g : texts demoDot = [b!"$a\nx\n. \n1d\n."] := by decide +kernel
    have p : ∃ cs, parseCommands (b!"$a\nx\n. \n1d\n." ++ [nl]) = some cs := Option.isSome_iff_exists.1 (by decide +kernel)
    obtain ⟨cs, p⟩ := p
    simp only [program, g, List.flatMap_cons, List.flatMap_nil, eventsOf_some p]
  refine ⟨h1, by rw [h0]; decide +kernel, ?_⟩
  have h2 := (C69_schedule_independent demoEnv errText (opened [b!"one"] 1) demoDot st .finished hs he).1
  rw [h1] at h2
  have h3 := congrArg (fun r => r.2.1.pt.string) h2
  simp only at h3
  rw [← h3]
  decide +kernel

end Ed
