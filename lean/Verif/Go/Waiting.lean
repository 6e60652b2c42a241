import Verif.Go.ScannerProps
import Verif.Go.Drain

/-!
# Readers whose next piece has not arrived yet

A terminal or a pipe that is still open: after the pieces that have arrived the next call of `Read` does not return. The
functions of `Scanner` and `Drain` again, with that third outcome.
-/

namespace Go

/-- A program that reads: it has ended with this result, or it waits in `Read` and has written this much. -/
inductive Progress (α : Type)
  | waits (out : Bytes)
  | done (r : α)
  deriving DecidableEq, Repr

/-- What a call of `Scan` comes to: a token, the end, or waiting in `Read`. -/
inductive Live
  | token (t : Bytes) (s : Scanner)
  | over (s : Scanner)
  | waits (s : Scanner)
  deriving DecidableEq, Repr

/-- The loop of `Scan` of package bufio, as `Scanner.rounds`. `more`: the writer has not closed, so that `Read` waits when
nothing is there. -/
def Scanner.liveRounds (more : Bool) (split : Split) : Nat → Scanner → Live
  | 0, s => .waits s
  | n + 1, s =>
    match s.attempt split with
    | (some t, s1) => .token t s1
    | (none, s1) =>
      if s1.err ≠ none then .over { s1 with start := 0, held := [] }
      else
        match s1.shift.grow with
        | (s2, false) => .over s2
        | (s2, true) => if more ∧ s2.src.chunks = [] then .waits s2 else Scanner.liveRounds more split n s2.fill

/-- `(*Scanner).Scan` and `Text` of package bufio. -/
def Scanner.scanLive (more : Bool) (split : Split) (s : Scanner) : Live := s.liveRounds more split (s.src.bytes.length + 2)

/-- The loop of `io.Copy` of package io, as `drain`: it writes what it has read before it reads again. -/
def drainLive (more : Bool) (size : Nat → Nat) : (rounds : Nat) → (got : Bytes) → Source → Progress (Bytes × Option ScanErr × Source)
  | 0, got, _ => .waits got
  | n + 1, got, r =>
    if more ∧ r.chunks = [] then .waits got
    else
      match r.read (size got.length) with
      | (x, none, r1) => drainLive more size n (got ++ x) r1
      | (x, some e, r1) => .done (got ++ x, some e, r1)

/-- `io.Copy` of package io. -/
def copyLive (more : Bool) (size : Nat → Nat) (r : Source) : Progress (Bytes × Option Bytes × Source) :=
  match drainLive more size (r.bytes.length + 1) [] r with
  | .waits out => .waits out
  | .done x => .done (x.1, (match x.2.1 with | some .eof => none | some e => some e.text | none => none), x.2.2)

/-! ## Once the writer has closed this is what it was -/

theorem liveRounds_closed (split : Split) : ∀ (n : Nat) (s : Scanner), (∃ s', Scanner.liveRounds false split n s = .waits s') ∨
    Scanner.liveRounds false split n s =
      match Scanner.rounds split n s with
      | (some t, s') => .token t s'
      | (none, s') => .over s' := by
  intro n
  induction n with
  | zero => intro s; exact .inl ⟨s, rfl⟩
  | succ n ih =>
    intro s
    rw [Scanner.liveRounds, rounds_succ]
    generalize s.attempt split = r
    obtain ⟨o, s1⟩ := r
    cases o with
    | some t => exact .inr rfl
    | none =>
      simp only
      split
      · exact .inr rfl
      · generalize s1.shift.grow = g
        obtain ⟨s2, b⟩ := g
        cases b with
        | false => exact .inr rfl
        | true => simpa using ih s2.fill

/-! ## What has been delivered when the scanner waits -/

/-- One call of `Scan` on an input that has not ended, and whose writer has not closed. -/
structure LiveStep (s : Scanner) (r : Live) : Prop where
  line : ∀ l rest, s.pending = l ++ nl :: rest → nl ∉ l → l.length < maxToken →
    ∃ s', r = .token (dropCR l) s' ∧ s'.Sound ∧ s'.pending = rest ∧ s'.src.err = s.src.err
  long : ∀ l rest, s.pending = l ++ rest → nl ∉ l → l.length = maxToken → ∃ s', r = .over s' ∧ s'.held = l ∧ s'.err = some .tooLong
  short : nl ∉ s.pending → s.pending.length < maxToken → ∃ s', r = .waits s'

theorem grow_src (s : Scanner) : s.shift.grow.1.src = s.src := by
  unfold Scanner.grow Scanner.shift
  split <;> split <;> try split
  all_goals rfl

theorem live_lines : ∀ (n : Nat) (s : Scanner), s.Sound → s.src.bytes.length + 2 ≤ n →
    LiveStep s (Scanner.liveRounds true splitLines n s) := by
  intro n
  induction n with
  | zero => intro s _ h; omega
  | succ n ih =>
    intro s hs hn
    have hlen : s.held.length ≤ maxToken := by have := hs.fits; have := hs.capped; omega
    by_cases hnl : nl ∈ s.held
    · obtain ⟨l, rest, e, hl⟩ := split_at hnl
      have hne : s.held ≠ [] := by rw [e]; simp
      have ha : s.attempt splitLines = (some (dropCR l), { s with start := s.start + (l.length + 1), held := rest }) := by
        rw [attempt_open _ _ hs.open_ hne, e, splitLines_line l rest hl]
        congr 2
        rw [show l ++ nl :: rest = (l ++ [nl]) ++ rest by simp, List.drop_left' (by simp)]
      rw [Scanner.liveRounds, ha]
      refine ⟨?_, ?_, ?_⟩
      · intro l' rest' hp hl' _
        simp only [Scanner.pending, e] at hp
        rw [List.append_assoc, List.cons_append] at hp
        have hll : l' = l ∧ rest' = rest ++ s.src.bytes := by
          have h1 := takeWhile_line l (rest ++ s.src.bytes) hl
          rw [hp, takeWhile_line l' rest' hl'] at h1
          subst h1
          have := List.append_cancel_left hp
          simp at this
          exact ⟨rfl, this.symm⟩
        obtain ⟨rfl, rfl⟩ := hll
        refine ⟨_, rfl, ⟨?_, hs.capped, hs.lively, hs.open_⟩, rfl, rfl⟩
        have := hs.fits
        rw [e] at this
        simp at this ⊢
        omega
      · intro l' rest' hp hl' hlen'
        obtain ⟨x, h1, -⟩ := prefix_cases hp (by omega)
        exact absurd (by rw [h1]; simp [hnl]) hl'
      · intro h; exact absurd (by simp [Scanner.pending, hnl]) h
    · rw [Scanner.liveRounds, attempt_none _ _ hs.open_ (fun _ => splitLines_more _ hnl)]
      simp only [hs.open_, ne_eq, not_true_eq_false, if_false]
      have hsrc := grow_src s
      rcases after_attempt s hs with ⟨hfull, s2, hg, g1, g2, g3⟩ | ⟨hroom, s2, hg, hcase⟩
      · rw [hg]
        refine ⟨?_, ?_, ?_⟩
        · intro l rest hp hl hlt
          obtain ⟨x, h1, h2⟩ := prefix_cases (a := l) (b := nl :: rest) (c := s.held) (d := s.src.bytes) hp.symm (by omega)
          cases x with
          | nil => rw [h1] at hfull; simp at hfull; omega
          | cons y ys => simp at h2; exact absurd (by rw [h1, ← h2.1]; simp) hnl
        · intro l rest hp hl hlt
          have := List.append_inj_left hp (by omega)
          exact ⟨s2, rfl, g1.trans this, g3⟩
        · intro _ h; simp only [Scanner.pending, List.length_append] at h; omega
      · rw [hg] at hsrc ⊢
        simp only at hsrc ⊢
        rw [hsrc]
        rcases hcase with ⟨hc, f1, f2, f3⟩ | ⟨f1, f2, x, hx, f3, f4⟩
        · have hp : s.pending = s.held := by simp [Scanner.pending, Source.bytes, hc]
          rw [if_pos ⟨trivial, hc⟩]
          refine ⟨?_, ?_, ?_⟩
          · intro l rest h; rw [hp] at h; exact absurd (by rw [h]; simp) hnl
          · intro l rest h _ hl; rw [hp] at h; rw [h] at hroom; simp at hroom; omega
          · intro _ _; exact ⟨s2, rfl⟩
        · have hpend : s2.fill.pending = s.pending := by simp [Scanner.pending, f3, f4]
          have hx1 : 1 ≤ x.length := by
            cases x with
            | nil => exact absurd rfl hx
            | cons => simp
          have hne : s.src.chunks ≠ [] := by
            intro h0
            have : s.src.bytes = [] := by simp [Source.bytes, h0]
            rw [this] at f4
            have := congrArg List.length f4
            simp at this
            omega
          rw [if_neg (fun h => hne h.2)]
          have := ih s2.fill f1 (by rw [f4] at hn; simp at hn; omega)
          refine ⟨?_, ?_, ?_⟩
          · intro l rest hp hl hlt
            obtain ⟨s', a, b, c, d⟩ := this.line l rest (hpend.trans hp) hl hlt
            exact ⟨s', a, b, c, d.trans f2⟩
          · intro l rest hp; exact this.long l rest (hpend.trans hp)
          · intro a b; exact this.short (hpend ▸ a) (hpend ▸ b)

/-- One call of `Scan` while the writer has not closed: it returns as soon as the line is complete, or too long. -/
theorem scan_live (s : Scanner) (hs : s.Sound) : LiveStep s (s.scanLive true splitLines) := live_lines _ s hs (Nat.le_refl _)

theorem drainLive_open (size : Nat → Nat) (hs : ∀ n, 0 < size n) : ∀ (n : Nat) (got : Bytes) (r : Source), r.Lively → r.bytes.length < n →
    drainLive true size n got r = .waits (got ++ r.bytes) := by
  intro n
  induction n with
  | zero => intro got r _ h; omega
  | succ n ih =>
    intro got r hl hn
    obtain ⟨chunks, err⟩ := r
    cases chunks with
    | nil => simp [drainLive, Source.bytes]
    | cons c cs =>
      have hc : 0 < c.length := List.length_pos_iff.2 (hl c (by simp))
      have hcs : ∀ d ∈ cs, d ≠ [] := fun d hd => hl d (by simp [hd])
      simp only [Source.bytes, List.flatten_cons, List.length_append] at hn
      rw [drainLive, if_neg (by simp)]
      by_cases hle : c.length ≤ size got.length
      · have := ih (got ++ c) ⟨cs, err⟩ hcs (by simp only [Source.bytes]; omega)
        rw [Source.read]
        simp only [if_pos hle]
        rw [this]
        simp [Source.bytes]
      · have h0 := hs got.length
        have hd : (⟨c.drop (size got.length) :: cs, err⟩ : Source).Lively := by
          intro d hd
          rcases List.mem_cons.1 hd with rfl | hd
          · intro h1; have := congrArg List.length h1; simp at this; omega
          · exact hcs d hd
        have := ih (got ++ c.take (size got.length)) ⟨c.drop (size got.length) :: cs, err⟩ hd
          (by simp only [Source.bytes, List.flatten_cons, List.length_append, List.length_drop]; omega)
        rw [Source.read]
        simp only [if_neg hle]
        rw [this]
        simp only [Source.bytes, List.flatten_cons]
        rw [List.append_assoc, ← List.append_assoc (c.take _), List.take_append_drop]

theorem drainLive_closed (size : Nat → Nat) : ∀ (n : Nat) (got : Bytes) (r : Source),
    drainLive false size n got r = .waits (drain size n got r).1 ∨ drainLive false size n got r = .done (drain size n got r) := by
  intro n
  induction n with
  | zero => intro got r; exact .inl rfl
  | succ n ih =>
    intro got r
    rw [drainLive, drain, if_neg (by simp)]
    generalize r.read (size got.length) = x
    obtain ⟨x, e, r1⟩ := x
    cases e with
    | none => exact ih (got ++ x) r1
    | some e => exact .inr rfl

/-- Everything that has arrived is written before `io.Copy` waits. -/
theorem copyLive_open (size : Nat → Nat) (hs : ∀ n, 0 < size n) (r : Source) (hl : r.Lively) :
    copyLive true size r = .waits r.bytes := by
  rw [copyLive, drainLive_open size hs _ [] r hl (by omega)]
  rfl

theorem drainLive_ended (size : Nat → Nat) (hs : ∀ n, 0 < size n) : ∀ (n : Nat) (got : Bytes) (r : Source), r.Lively → r.bytes.length < n →
    ∃ x, drainLive false size n got r = .done x := by
  intro n
  induction n with
  | zero => intro got r _ h; omega
  | succ n ih =>
    intro got r hl hn
    obtain ⟨chunks, err⟩ := r
    cases chunks with
    | nil => exact ⟨_, by simp [drainLive, Source.read]; rfl⟩
    | cons c cs =>
      have hc : 0 < c.length := List.length_pos_iff.2 (hl c (by simp))
      have hcs : ∀ d ∈ cs, d ≠ [] := fun d hd => hl d (by simp [hd])
      simp only [Source.bytes, List.flatten_cons, List.length_append] at hn
      rw [drainLive, if_neg (by simp), Source.read]
      by_cases hle : c.length ≤ size got.length
      · simp only [if_pos hle]
        exact ih (got ++ c) ⟨cs, err⟩ hcs (by simp only [Source.bytes]; omega)
      · have h0 := hs got.length
        have hd : (⟨c.drop (size got.length) :: cs, err⟩ : Source).Lively := by
          intro d hd
          rcases List.mem_cons.1 hd with rfl | hd
          · intro h1; have := congrArg List.length h1; simp at this; omega
          · exact hcs d hd
        simp only [if_neg hle]
        exact ih _ ⟨c.drop (size got.length) :: cs, err⟩ hd
          (by simp only [Source.bytes, List.flatten_cons, List.length_append, List.length_drop]; omega)

/-- Once the writer has closed, `io.Copy` ends as `readToEnd` says. -/
theorem copyLive_closed (size : Nat → Nat) (hs : ∀ n, 0 < size n) (r : Source) (hl : r.Lively) :
    copyLive false size r = .done (readToEnd size r) := by
  obtain ⟨x, hx⟩ := drainLive_ended size hs (r.bytes.length + 1) [] r hl (by omega)
  rcases drainLive_closed size (r.bytes.length + 1) [] r with h | h
  · rw [h] at hx; cases hx
  · rw [copyLive, h]
    rfl

/-! ## The specification: lines -/

/-- These lines, each with its newline. -/
def withNewlines (ls : List Bytes) : Bytes := (ls.map (· ++ [nl])).flatten

/-- Lines that are lines, and that are not too long for the scanner. -/
def Fit (ls : List Bytes) : Prop := ∀ l ∈ ls, nl ∉ l ∧ l.length < maxToken

theorem withNewlines_cons (l : Bytes) (ls : List Bytes) (x : Bytes) : withNewlines (l :: ls) ++ x = l ++ nl :: (withNewlines ls ++ x) := by
  simp [withNewlines]

theorem withNewlines_length (ls : List Bytes) : ls.length ≤ (withNewlines ls).length := by
  induction ls with
  | nil => simp
  | cons l ls ih =>
    have := withNewlines_cons l ls []
    simp only [List.append_nil] at this
    rw [this]
    simp
    omega

end Go
