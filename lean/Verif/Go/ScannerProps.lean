import Verif.Go.Scanner

/-! # The tokens of a scanner are those of the bytes, however these arrive -/

namespace Go

/-- What a scanner has not delivered yet. -/
def Scanner.pending (s : Scanner) : Bytes := s.held ++ s.src.bytes

/-- The states a scanner is in while its input has not ended. -/
structure Scanner.Sound (s : Scanner) : Prop where
  fits : s.start + s.held.length ≤ s.cap
  capped : s.cap ≤ maxToken
  lively : s.src.Lively
  open_ : s.err = none

theorem new_sound {r : Source} (h : r.Lively) : (newScanner r).Sound :=
  ⟨Nat.le_refl _, Nat.zero_le _, h, rfl⟩

theorem shift_same (s : Scanner) : s.shift.held = s.held ∧ s.shift.src = s.src ∧ s.shift.err = s.err ∧ s.shift.cap = s.cap ∧
    s.shift.start ≤ s.start ∧ (s.shift.start + s.held.length = s.cap → s.shift.start = 0) := by
  unfold Scanner.shift
  split
  · exact ⟨rfl, rfl, rfl, rfl, Nat.zero_le _, fun _ => rfl⟩
  · next h =>
    refine ⟨rfl, rfl, rfl, rfl, Nat.le_refl _, fun he => ?_⟩
    apply Decidable.byContradiction
    intro hz
    exact h ⟨by omega, .inl he⟩

/-- A round that found no token: the buffer is full, or the input is at its end, or there is more to look at. -/
theorem after_attempt (s : Scanner) (h : s.Sound) :
    (s.held.length = maxToken ∧ ∃ s2, s.shift.grow = (s2, false) ∧ s2.held = s.held ∧ s2.src = s.src ∧ s2.err = some .tooLong) ∨
    (s.held.length < maxToken ∧ ∃ s2, s.shift.grow = (s2, true) ∧
      ((s.src.chunks = [] ∧ s2.fill.held = s.held ∧ s2.fill.src = s.src ∧ s2.fill.err = some s.src.ending) ∨
        (s2.fill.Sound ∧ s2.fill.src.err = s.src.err ∧
          ∃ x, x ≠ [] ∧ s2.fill.held = s.held ++ x ∧ s.src.bytes = x ++ s2.fill.src.bytes))) := by
  obtain ⟨e1, e2, e3, e4, e5, e6⟩ := shift_same s
  have hf := h.fits
  have hc := h.capped
  have ho := h.open_
  have key : ∀ s2 : Scanner, s2.held = s.held → s2.src = s.src → s2.err = none → s2.start + s2.held.length < s2.cap →
      s2.cap ≤ maxToken → s.held.length < maxToken ∧
      ((s.src.chunks = [] ∧ s2.fill.held = s.held ∧ s2.fill.src = s.src ∧ s2.fill.err = some s.src.ending) ∨
        (s2.fill.Sound ∧ s2.fill.src.err = s.src.err ∧
          ∃ x, x ≠ [] ∧ s2.fill.held = s.held ++ x ∧ s.src.bytes = x ++ s2.fill.src.bytes)) := by
    intro s2 k1 k2 k3 k4 k5
    rw [k1] at k4
    refine ⟨by omega, ?_⟩
    have hl := h.lively
    generalize hk : s2.cap - (s2.start + s.held.length) = k
    have hk0 : 0 < k := by omega
    cases hch : s.src.chunks with
    | nil =>
      left
      refine ⟨rfl, ?_⟩
      have : s2.fill = { s2 with src := s.src, held := s.held ++ [], err := some s.src.ending } := by
        simp only [Scanner.fill, k1, hk, k2, Source.read, hch]
      rw [this]
      exact ⟨List.append_nil _, rfl, rfl⟩
    | cons c cs =>
      right
      have hcne : c ≠ [] := hl c (by rw [hch]; exact List.mem_cons_self)
      have hlcs : ∀ d ∈ cs, d ≠ [] := fun d hd => hl d (by rw [hch]; exact List.mem_cons_of_mem _ hd)
      by_cases hle : c.length ≤ k
      · have : s2.fill = { s2 with src := { s.src with chunks := cs }, held := s.held ++ c, err := none } := by
          simp only [Scanner.fill, k1, hk, k2, Source.read, hch, if_pos hle]
        rw [this]
        refine ⟨⟨?_, k5, hlcs, rfl⟩, rfl, c, hcne, rfl, ?_⟩
        · simp only [List.length_append]; omega
        · simp [Source.bytes, hch]
      · have : s2.fill = { s2 with src := { s.src with chunks := c.drop k :: cs }, held := s.held ++ c.take k, err := none } := by
          simp only [Scanner.fill, k1, hk, k2, Source.read, hch, if_neg hle]
        rw [this]
        refine ⟨⟨?_, k5, ?_, rfl⟩, rfl, c.take k, ?_, rfl, ?_⟩
        · simp only [List.length_append, List.length_take]; omega
        · intro d hd
          rcases List.mem_cons.1 hd with rfl | hd
          · intro h0; have := congrArg List.length h0; simp at this; omega
          · exact hlcs d hd
        · intro h0; have := congrArg List.length h0; simp at this; rcases this with h1 | h1
          · omega
          · exact hcne h1
        · simp [Source.bytes, hch]
          rw [← List.append_assoc, List.take_append_drop]
  by_cases hfull : s.shift.start + s.held.length = s.cap
  · have h0 := e6 hfull
    by_cases hm : maxToken ≤ s.cap
    · left
      have hg : s.shift.grow = ({ s.shift with err := some .tooLong }, false) := by
        simp only [Scanner.grow, e1, e4, hfull, if_true, if_pos hm]
      exact ⟨by omega, _, hg, e1, e2, rfl⟩
    · right
      have hg : s.shift.grow = ({ s.shift with cap := min (if s.cap * 2 = 0 then 4096 else s.cap * 2) maxToken, start := 0 }, true) := by
        simp only [Scanner.grow, e1, e4, hfull, if_true, if_neg hm]
      have := key { s.shift with cap := min (if s.cap * 2 = 0 then 4096 else s.cap * 2) maxToken, start := 0 } e1 e2
        (e3.trans ho) (by
          simp only [e1]
          have h2 : s.held.length = s.cap := by omega
          rw [h2]
          have : s.cap < if s.cap * 2 = 0 then 4096 else s.cap * 2 := by split <;> omega
          omega) (Nat.min_le_right _ _)
      exact ⟨this.1, _, hg, this.2⟩
  · right
    have hg : s.shift.grow = (s.shift, true) := by simp only [Scanner.grow, e1, e4, hfull, if_false]
    have := key s.shift e1 e2 (e3.trans ho) (by rw [e1, e4]; omega) (by rw [e4]; exact hc)
    exact ⟨this.1, _, hg, this.2⟩

/-! ## Lines -/

theorem takeWhile_line (l rest : Bytes) (h : nl ∉ l) : (l ++ nl :: rest).takeWhile (· ≠ nl) = l := by
  induction l with
  | nil => simp
  | cons c l ih =>
    have hc : c ≠ nl := by rintro rfl; simp at h
    simp only [List.cons_append]
    rw [List.takeWhile_cons_of_pos (by simpa using hc), ih (fun hm => h (by simp [hm]))]

theorem splitLines_line (l rest : Bytes) (h : nl ∉ l) (b : Bool) :
    splitLines (l ++ nl :: rest) b = (l.length + 1, some (dropCR l)) := by
  unfold splitLines
  rw [if_neg (by simp), if_pos (by simp), takeWhile_line l rest h]

theorem splitLines_more (d : Bytes) (h : nl ∉ d) : splitLines d false = (0, none) := by
  unfold splitLines
  rw [if_neg (by simp), if_neg h, if_neg (by simp)]

theorem splitLines_last (d : Bytes) (h : nl ∉ d) (hd : d ≠ []) : splitLines d true = (d.length, some (dropCR d)) := by
  unfold splitLines
  rw [if_neg (by simp [hd]), if_neg h, if_pos rfl]

/-- One call of `Scan` on an input that has not ended. -/
structure LineStep (s : Scanner) (r : Option Bytes × Scanner) : Prop where
  line : ∀ l rest, s.pending = l ++ nl :: rest → nl ∉ l → l.length < maxToken →
    r.1 = some (dropCR l) ∧ r.2.Sound ∧ r.2.pending = rest ∧ r.2.src.err = s.src.err
  long : ∀ l rest, s.pending = l ++ rest → nl ∉ l → l.length = maxToken →
    r.1 = none ∧ r.2.held = l ∧ r.2.err = some .tooLong
  last : nl ∉ s.pending → s.pending.length < maxToken → s.pending ≠ [] →
    r.1 = some (dropCR s.pending) ∧ r.2.held = [] ∧ r.2.src.chunks = [] ∧ r.2.err = some s.src.ending
  done : s.pending = [] → r.1 = none ∧ r.2.held = [] ∧ r.2.src.chunks = [] ∧ r.2.err = some s.src.ending

theorem split_at {α : Type} [DecidableEq α] {x : α} {p : List α} (h : x ∈ p) : ∃ l rest, p = l ++ x :: rest ∧ x ∉ l := by
  obtain ⟨l, rest, h1, h2⟩ := List.eq_append_cons_of_mem h
  exact ⟨l, rest, h1, h2⟩

theorem attempt_open (split : Split) (s : Scanner) (ho : s.err = none) (hh : s.held ≠ []) :
    s.attempt split = ((split s.held false).2, { s with start := s.start + (split s.held false).1, held := s.held.drop (split s.held false).1 }) := by
  simp only [Scanner.attempt, ho]
  rw [if_pos (.inl hh)]
  rfl

theorem attempt_none (split : Split) (s : Scanner) (ho : s.err = none) (hh : s.held ≠ [] → split s.held false = (0, none)) :
    s.attempt split = (none, s) := by
  by_cases h : s.held = []
  · simp [Scanner.attempt, ho, h]
  · rw [attempt_open split s ho h, hh h]
    rfl

theorem rounds_succ (split : Split) (n : Nat) (s : Scanner) : Scanner.rounds split (n + 1) s =
    match s.attempt split with
    | (some t, s1) => (some t, s1)
    | (none, s1) =>
      if s1.err ≠ none then (none, { s1 with start := 0, held := [] })
      else
        match s1.shift.grow with
        | (s2, false) => (none, s2)
        | (s2, true) => Scanner.rounds split n s2.fill := rfl

theorem rounds_ended (n : Nat) (s : Scanner) (e : ScanErr) (he : s.err = some e) (hn : nl ∉ s.held) (h : 1 ≤ n) :
    (s.held = [] → Scanner.rounds splitLines n s = (none, { s with start := 0 })) ∧
    (s.held ≠ [] → Scanner.rounds splitLines n s = (some (dropCR s.held), { s with start := s.start + s.held.length, held := [] })) := by
  obtain ⟨m, rfl⟩ : ∃ m, n = m + 1 := ⟨n - 1, by omega⟩
  constructor
  · intro hh
    rw [rounds_succ]
    have : s.attempt splitLines = (none, s) := by
      obtain ⟨src, cap, start, held, err⟩ := s
      simp only at he hh
      subst he hh
      simp [Scanner.attempt, splitLines]
    rw [this]
    simp [he, ← hh]
  · intro hh
    rw [rounds_succ]
    have : s.attempt splitLines = (some (dropCR s.held), { s with start := s.start + s.held.length, held := [] }) := by
      simp only [Scanner.attempt, he]
      rw [if_pos (.inl hh)]
      simp [splitLines_last _ hn hh]
    rw [this]

theorem prefix_cases {a b c d : Bytes} (h : a ++ b = c ++ d) (hl : a.length ≤ c.length) : ∃ x, c = a ++ x ∧ b = x ++ d := by
  rcases List.append_eq_append_iff.1 h with ⟨x, h1, h2⟩ | ⟨x, h1, h2⟩
  · exact ⟨x, h1, h2⟩
  · have : x = [] := by
      have := congrArg List.length h1
      simp at this
      exact List.length_eq_zero_iff.1 (by omega)
    subst this
    exact ⟨[], by simpa using h1.symm, by simpa using h2.symm⟩

theorem rounds_lines : ∀ (n : Nat) (s : Scanner), s.Sound → s.src.bytes.length + 2 ≤ n →
    LineStep s (Scanner.rounds splitLines n s) := by
  intro n
  induction n with
  | zero => intro s _ h; omega
  | succ n ih =>
    intro s hs hn
    have hlen : s.held.length ≤ maxToken := by have := hs.fits; have := hs.capped; omega
    by_cases hnl : nl ∈ s.held
    · -- a line is in the buffer
      obtain ⟨l, rest, e, hl⟩ := split_at hnl
      have hne : s.held ≠ [] := by rw [e]; simp
      have ha : s.attempt splitLines = (some (dropCR l), { s with start := s.start + (l.length + 1), held := rest }) := by
        rw [attempt_open _ _ hs.open_ hne, e, splitLines_line l rest hl]
        congr 2
        rw [show l ++ nl :: rest = (l ++ [nl]) ++ rest by simp, List.drop_left' (by simp)]
      rw [rounds_succ, ha]
      refine ⟨?_, ?_, ?_, ?_⟩
      · intro l' rest' hp hl' _
        simp only [Scanner.pending, e] at hp
        rw [List.append_assoc, List.cons_append] at hp
        have hll : l' = l ∧ rest' = rest ++ s.src.bytes := by
          have h1 := takeWhile_line l (rest ++ s.src.bytes) hl
          rw [hp, takeWhile_line l' rest' hl'] at h1
          subst h1
          have := List.append_cancel_left hp
          simp at this
          exact ⟨rfl, this.symm⟩
        obtain ⟨rfl, rfl⟩ := hll
        refine ⟨rfl, ⟨?_, hs.capped, hs.lively, hs.open_⟩, rfl, rfl⟩
        have := hs.fits
        rw [e] at this
        simp at this ⊢
        omega
      · intro l' rest' hp hl' hlen'
        obtain ⟨x, h1, -⟩ := prefix_cases hp (by omega)
        exact absurd (by rw [h1]; simp [hnl]) hl'
      · intro h; exact absurd (by simp [Scanner.pending, hnl]) h
      · intro h; simp only [Scanner.pending, List.append_eq_nil_iff] at h; exact absurd h.1 hne
    · rw [rounds_succ, attempt_none _ _ hs.open_ (fun _ => splitLines_more _ hnl)]
      simp only [hs.open_, ne_eq, not_true_eq_false, if_false]
      rcases after_attempt s hs with ⟨hfull, s2, hg, g1, g2, g3⟩ | ⟨hroom, s2, hg, hcase⟩
      · rw [hg]
        refine ⟨?_, ?_, ?_, ?_⟩
        · intro l rest hp hl hlt
          obtain ⟨x, h1, h2⟩ := prefix_cases (a := l) (b := nl :: rest) (c := s.held) (d := s.src.bytes) hp.symm (by omega)
          cases x with
          | nil => rw [h1] at hfull; simp at hfull; omega
          | cons y ys => simp at h2; exact absurd (by rw [h1, ← h2.1]; simp) hnl
        · intro l rest hp hl hlt
          have := List.append_inj_left hp (by omega)
          exact ⟨rfl, g1.trans this, g3⟩
        · intro _ h; simp only [Scanner.pending, List.length_append] at h; omega
        · intro h; simp only [Scanner.pending, List.append_eq_nil_iff] at h; rw [h.1] at hfull; cases hfull
      · rw [hg]
        simp only
        rcases hcase with ⟨hc, f1, f2, f3⟩ | ⟨f1, f2, x, hx, f3, f4⟩
        · have hp : s.pending = s.held := by simp [Scanner.pending, Source.bytes, hc]
          obtain ⟨r1, r2⟩ := rounds_ended n s2.fill _ f3 (by rw [f1]; exact hnl) (by omega)
          rw [f1] at r1 r2
          refine ⟨?_, ?_, ?_, ?_⟩
          · intro l rest h; rw [hp] at h; exact absurd (by rw [h]; simp) hnl
          · intro l rest h _ hl; rw [hp] at h; rw [h] at hroom; simp at hroom; omega
          · intro _ _ hne
            rw [hp] at hne ⊢
            rw [r2 hne]
            exact ⟨rfl, rfl, by rw [f2]; exact hc, f3⟩
          · intro he
            rw [hp] at he
            rw [r1 he]
            exact ⟨rfl, by simp [f1, he], by simp [f2, hc], f3⟩
        · have hpend : s2.fill.pending = s.pending := by simp [Scanner.pending, f3, f4]
          have hx1 : 1 ≤ x.length := by
            cases x with
            | nil => exact absurd rfl hx
            | cons => simp
          have := ih s2.fill f1 (by rw [f4] at hn; simp at hn; omega)
          have hend : s2.fill.src.ending = s.src.ending := by simp [Source.ending, f2]
          refine ⟨?_, ?_, ?_, ?_⟩
          · intro l rest hp hl hlt
            obtain ⟨a, b, c, d⟩ := this.line l rest (hpend.trans hp) hl hlt
            exact ⟨a, b, c, d.trans f2⟩
          · intro l rest hp; exact this.long l rest (hpend.trans hp)
          · intro a b c
            have := this.last (hpend ▸ a) (hpend ▸ b) (hpend ▸ c)
            rw [hpend, hend] at this
            exact this
          · intro a
            have := this.done (hpend.trans a)
            rw [hend] at this
            exact this

/-- One call of `Scan`. -/
theorem scan_lines (s : Scanner) (hs : s.Sound) : LineStep s (s.scan splitLines) := rounds_lines _ s hs (Nat.le_refl _)

/-- The scanner will deliver these lines (before carriage returns are dropped, and unless one of them is too long), and its
reader ends like this. -/
inductive Ready (e : ScanErr) : Scanner → List Bytes → Prop
  | more {s : Scanner} (hs : s.Sound) (he : s.src.ending = e) : Ready e s (rawLines s.pending)
  | ended {s : Scanner} (hh : s.held = []) (he : s.err = some e) : Ready e s []

/-- The scanner has stopped at a line that is too long and still holds this much of it. -/
def Stuck (s : Scanner) (l : Bytes) : Prop := nl ∉ l ∧ s.held = l ∧ s.err = some .tooLong

theorem scan_ended {s : Scanner} {e : ScanErr} (hh : s.held = []) (he : s.err = some e) :
    s.scan splitLines = (none, { s with start := 0 }) :=
  (rounds_ended _ s e he (by rw [hh]; simp) (by omega)).1 hh

theorem scan_stuck {s : Scanner} {l : Bytes} (h : Stuck s l) (hl : l ≠ []) :
    (s.scan splitLines).1 = some (dropCR l) ∧ Ready .tooLong (s.scan splitLines).2 [] := by
  obtain ⟨h1, h2, h3⟩ := h
  have := (rounds_ended (s.src.bytes.length + 2) s _ h3 (by rw [h2]; exact h1) (by omega)).2 (by rw [h2]; exact hl)
  rw [Scanner.scan, this, h2]
  exact ⟨rfl, .ended rfl h3⟩

/-- One call of `Scan`, in terms of the lines to come. -/
theorem scan_ready {e : ScanErr} {s : Scanner} {ls : List Bytes} (h : Ready e s ls) :
    (ls = [] → (s.scan splitLines).1 = none ∧ (s.scan splitLines).2.err = some e ∧ Ready e (s.scan splitLines).2 []) ∧
    (∀ l rest, ls = l :: rest → l.length < maxToken →
      (s.scan splitLines).1 = some (dropCR l) ∧ Ready e (s.scan splitLines).2 rest) ∧
    (∀ l rest, ls = l :: rest → maxToken ≤ l.length →
      (s.scan splitLines).1 = none ∧ Stuck (s.scan splitLines).2 (l.take maxToken)) := by
  cases h with
  | ended hh he =>
    rw [scan_ended hh he]
    exact ⟨fun _ => ⟨rfl, he, .ended hh he⟩, fun l rest h => by simp at h, fun l rest h => by simp at h⟩
  | more hs he =>
    have step := scan_lines s hs
    generalize s.scan splitLines = r at step ⊢
    by_cases hnl : nl ∈ s.pending
    · obtain ⟨l, rest, e1, hl⟩ := split_at hnl
      have hraw : rawLines s.pending = l :: rawLines rest := by rw [e1, rawLines_cons_line l hl]
      rw [hraw]
      refine ⟨fun h => (by simp at h), ?_, ?_⟩
      · intro l' rest' h hlt
        obtain ⟨rfl, rfl⟩ := List.cons.inj h
        obtain ⟨a, b, c, d⟩ := step.line l rest e1 hl hlt
        refine ⟨a, ?_⟩
        rw [← c]
        exact .more b (by rw [← he]; simp [Source.ending, d])
      · intro l' rest' h hlt
        obtain ⟨rfl, rfl⟩ := List.cons.inj h
        have hnt : nl ∉ l.take maxToken := fun hm => hl (List.mem_of_mem_take hm)
        obtain ⟨a, b, c⟩ := step.long (l.take maxToken) (l.drop maxToken ++ nl :: rest)
          (by rw [e1, ← List.append_assoc, List.take_append_drop]) hnt (by rw [List.length_take]; omega)
        exact ⟨a, hnt, b, c⟩
    · by_cases hp : s.pending = []
      · obtain ⟨a, b, c, d⟩ := step.done hp
        rw [hp]
        refine ⟨fun _ => ⟨a, d.trans (by rw [he]), .ended b (d.trans (by rw [he]))⟩, fun l rest h => by simp [rawLines] at h, fun l rest h => by simp [rawLines] at h⟩
      · rw [rawLines_unterminated _ hnl hp]
        refine ⟨fun h => (by simp at h), ?_, ?_⟩
        · intro l rest h hlt
          obtain ⟨rfl, rfl⟩ := List.cons.inj h
          obtain ⟨a, b, c, d⟩ := step.last hnl hlt hp
          exact ⟨a, .ended b (d.trans (by rw [he]))⟩
        · intro l rest h hlt
          obtain ⟨rfl, rfl⟩ := List.cons.inj h
          have hnt : nl ∉ s.pending.take maxToken := fun hm => hnl (List.mem_of_mem_take hm)
          obtain ⟨a, b, c⟩ := step.long (s.pending.take maxToken) (s.pending.drop maxToken)
            (by rw [List.take_append_drop]) hnt (by rw [List.length_take]; omega)
          exact ⟨a, hnt, b, c⟩

theorem allUpTo_ready {e : ScanErr} : ∀ (n : Nat) (s : Scanner) (ls : List Bytes), Ready e s ls → ls.length < n →
    (s.allUpTo splitLines n).1 = (scanTokens ls).1 ∧
    (s.allUpTo splitLines n).2.err = some (if (scanTokens ls).2 then .tooLong else e) := by
  intro n
  induction n with
  | zero => intro s ls _ h; omega
  | succ n ih =>
    intro s ls h hn
    obtain ⟨h1, h2, h3⟩ := scan_ready h
    cases ls with
    | nil =>
      obtain ⟨a, b, -⟩ := h1 rfl
      generalize hr : s.scan splitLines = r at a b
      obtain ⟨t, s1⟩ := r
      subst a
      simp only [Scanner.allUpTo, hr, scanTokens]
      exact ⟨trivial, b⟩
    | cons l ls =>
      by_cases hl : l.length < maxToken
      · obtain ⟨a, b⟩ := h2 l ls rfl hl
        generalize hr : s.scan splitLines = r at a b
        obtain ⟨t, s1⟩ := r
        subst a
        obtain ⟨i1, i2⟩ := ih s1 ls b (by simp at hn; omega)
        simp only [Scanner.allUpTo, hr, scanTokens, if_pos hl, i1, i2]
        exact ⟨trivial, trivial⟩
      · obtain ⟨a, -, -, b⟩ := h3 l ls rfl (by omega)
        generalize hr : s.scan splitLines = r at a b
        obtain ⟨t, s1⟩ := r
        subst a
        simp only [Scanner.allUpTo, hr, scanTokens, if_neg hl]
        exact ⟨trivial, b⟩

theorem rawLines_length (s : Bytes) : (rawLines s).length ≤ s.length := by
  induction s with
  | nil => simp [rawLines]
  | cons c cs ih =>
    simp only [rawLines]
    split
    · simp; omega
    · split
      · simp
      · next e => rw [e] at ih; simp at ih ⊢; omega

theorem new_ready (r : Source) (h : r.Lively) : Ready r.ending (newScanner r) (rawLines r.bytes) :=
  Ready.more (s := newScanner r) (new_sound h) rfl

/-- A scanner for lines run to its end: the lines are those of the bytes, in whatever pieces they arrive, and its error is
that of a line too long or else that of the reader. -/
theorem all_lines (r : Source) (h : r.Lively) :
    ((newScanner r).all splitLines).1 = (scanLines r.bytes).1 ∧
    ((newScanner r).all splitLines).2.failure =
      (if (scanLines r.bytes).2 then some .tooLong else match r.err with | none => none | some e => some (.read e)) := by
  obtain ⟨h1, h2⟩ := allUpTo_ready (r.bytes.length + 1) _ _ (new_ready r h) (Nat.lt_succ_of_le (rawLines_length _))
  have e : (newScanner r).all splitLines = (newScanner r).allUpTo splitLines (r.bytes.length + 1) := by
    simp [Scanner.all, newScanner]
  rw [e]
  refine ⟨h1, ?_⟩
  rw [Scanner.failure, h2, ← scanLines]
  cases (scanLines r.bytes).2 with
  | true => rfl
  | false =>
    cases he : r.err with
    | none => simp [Source.ending, he]
    | some x => simp [Source.ending, he]

end Go
