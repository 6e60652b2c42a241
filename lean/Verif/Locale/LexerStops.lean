import Verif.Locale.EndToEnd

/-!
# When the lexer stops

C56: the inputs it runs forever on, and those it never does.
-/

namespace Locale
open Go

/-! ## Specification -/

/-- The end of the text cannot be passed inside a string: the text ends in a line end and has no backslash, or it ends in
three line ends. -/
def SafeEnd (src : Bytes) : Prop :=
  (∃ p, src = p ++ [nl] ∧ (92 : UInt8) ∉ p) ∨ ∃ p, src = p ++ [nl, nl, nl]

/-! ## Reasoning about results -/

/-- The part neither runs forever nor, if it does not panic, ends in a state without `Q`. -/
def Wp {α : Type} (m : Lx α) (l : L) (Q : α → L → Prop) : Prop :=
  match m l with
  | .ok a l' => Q a l'
  | .panic _ => True
  | .hang => False

theorem Wp.bind {α β : Type} {m : Lx α} {f : α → Lx β} {l : L} {P : α → L → Prop} {Q : β → L → Prop} (h : Wp m l P)
    (h' : ∀ a l', P a l' → Wp (f a) l' Q) : Wp (m >>= f) l Q := by
  unfold Wp at h ⊢
  show match Lx.bind m f l with | .ok a l' => Q a l' | .panic _ => True | .hang => False
  simp only [Lx.bind]
  split at h
  · rename_i a l' e
    rw [e]
    exact h' a l' h
  · rename_i e
    rw [e]
    trivial
  · cases h

theorem Wp.pure {α : Type} {a : α} {l : L} {Q : α → L → Prop} (h : Q a l) : Wp (Pure.pure a : Lx α) l Q := h

theorem Wp.mono {α : Type} {m : Lx α} {l : L} {P Q : α → L → Prop} (h : Wp m l P) (h' : ∀ a l', P a l' → Q a l') : Wp m l Q := by
  unfold Wp at h ⊢
  split at h
  · exact h' _ _ h
  · trivial
  · cases h

theorem Wp.error {l : L} {Q : Unit → L → Prop} : Wp error l Q := trivial

/-- The lexer is in the text, and the current token has started there or before. -/
structure Inside (src : Bytes) (l : L) : Prop where
  source : l.source = src
  start : l.start ≤ l.pos
  pos : l.pos ≤ src.length

theorem decode_width (b : UInt8) (rest : Bytes) : 1 ≤ (decodeRune b rest).2 ∧ (decodeRune b rest).2 ≤ rest.length + 1 := by
  rcases decode_valid b rest with h | ⟨r, tail, -, h1, h2⟩
  · rw [h]; simp
  · rw [h2]
    have := congrArg List.length h1
    simp only [List.length_cons, List.length_append] at this
    have hne := List.length_pos_iff.mpr (encode_ne_nil r)
    omega

/-- What `Next` has read. -/
def Read (src : Bytes) (c p q : Nat) : Prop :=
  (c = runeError ∧ q = p + 1 ∧ ∀ b, src[p]? = some b → 0x80 ≤ b.toNat) ∨
    (ValidRune c ∧ q = p + (encodeRune c).length ∧ src.drop p = encodeRune c ++ src.drop q)

theorem Read.lt {src c p q} (h : Read src c p q) : p < q := by
  rcases h with ⟨-, h, -⟩ | ⟨-, h, -⟩
  · omega
  · have := List.length_pos_iff.mpr (encode_ne_nil c)
    omega

theorem next_wp {src : Bytes} {l : L} (h : Inside src l) : Wp next l fun r l' =>
    Inside src l' ∧ l'.start = l.start ∧ l'.stack = r :: l.stack ∧
    ((r = none ∧ l'.pos = l.pos ∧ l.pos = src.length) ∨ (∃ c, r = some c ∧ Read src c l.pos l'.pos)) := by
  unfold Wp next
  rw [h.source]
  split
  · rename_i a l' e
    split at e
    · rename_i hd
      simp only [Res.ok.injEq] at e
      obtain ⟨rfl, rfl⟩ := e
      have : l.pos = src.length := by
        have := List.drop_eq_nil_iff.mp hd
        have := h.pos
        omega
      exact ⟨⟨rfl, h.start, h.pos⟩, rfl, rfl, .inl ⟨rfl, rfl, this⟩⟩
    · rename_i b rest hd
      simp only [Res.ok.injEq] at e
      obtain ⟨rfl, rfl⟩ := e
      have hlen : rest.length + 1 = src.length - l.pos := by
        have := congrArg List.length hd
        simp only [List.length_drop, List.length_cons] at this
        omega
      have hw := decode_width b rest
      refine ⟨⟨rfl, ?_, ?_⟩, rfl, rfl, .inr ⟨_, rfl, ?_⟩⟩
      · have := h.start; dsimp only; omega
      · dsimp only; omega
      · rcases decode_valid b rest with e | ⟨r, tail, e1, e2, e3⟩
        · by_cases hb : b.toNat < 0x80
          · have := decode_encode b.toNat (encode1 hb).1 rest
            obtain ⟨b', bs, q1, q2⟩ := this
            rw [(encode1 hb).2] at q1
            simp only [List.cons.injEq] at q1
            obtain ⟨rfl, rfl⟩ := q1
            rw [List.nil_append] at q2
            rw [q2] at e
            have := congrArg (fun x => x.1) e
            simp only [runeError] at this
            omega
          · left
            rw [e]
            refine ⟨rfl, rfl, fun b' hb' => ?_⟩
            have : src[l.pos]? = some b := by
              have := congrArg (fun x => x[0]?) hd
              simpa using this
            rw [this] at hb'
            simp only [Option.some.injEq] at hb'
            subst hb'
            omega
        · right
          rw [e3]
          refine ⟨e1, rfl, ?_⟩
          dsimp only
          rw [← List.drop_drop, hd, e2, List.drop_left']
          rfl
  · rename_i e
    split at e <;> cases e
  · rename_i e
    split at e <;> cases e

theorem rewind_wp {src : Bytes} {l : L} (h : Inside src l) : Wp rewind l fun _ l' =>
    Inside src l' ∧ l'.start = l.start ∧ l'.pos ≤ l.pos ∧
    (∀ r st, l.stack = r :: st → l'.stack = st) ∧
    (∀ st, l.stack = none :: st → l'.pos = l.pos) ∧
    (∀ c st, l.stack = some c :: st → l'.pos = max l.start (l.pos - (encodeRune c).length)) := by
  have hs := h.start
  have hp := h.pos
  unfold Wp rewind
  split
  · rename_i a l' e
    split at e
    · rename_i hst
      simp only [Res.ok.injEq] at e
      obtain ⟨-, rfl⟩ := e
      refine ⟨h, rfl, Nat.le_refl _, ?_, ?_, ?_⟩ <;> (intros; simp_all)
    · rename_i st hst
      simp only [Res.ok.injEq] at e
      obtain ⟨-, rfl⟩ := e
      refine ⟨⟨h.source, hs, hp⟩, rfl, Nat.le_refl _, ?_, ?_, ?_⟩ <;> (intros; simp_all)
    · rename_i c st hst
      simp only [Res.ok.injEq] at e
      obtain ⟨-, rfl⟩ := e
      refine ⟨⟨h.source, by dsimp only; omega, by dsimp only; omega⟩, rfl, by dsimp only; omega, ?_, ?_, ?_⟩ <;>
        (intros; simp_all)
  · rename_i e
    split at e <;> cases e
  · rename_i e
    split at e <;> cases e

theorem emit_wp {src : Bytes} {l : L} (h : Inside src l) (c : Int) : Wp (emit c) l fun _ l' =>
    Inside src l' ∧ l'.start = l.pos ∧ l'.pos = l.pos ∧ l'.stack = [] :=
  ⟨⟨h.source, Nat.le_refl _, h.pos⟩, rfl, rfl, rfl⟩

theorem position_wp (l : L) : Wp position l fun _ l' => l' = l := rfl

theorem current_wp {src : Bytes} {l : L} (h : Inside src l) : Wp current l fun c l' =>
    l' = l ∧ c = (src.take l.pos).drop l.start ∧ (c ≠ [] → l.start < l.pos) := by
  refine ⟨rfl, by rw [L.current, h.source], ?_⟩
  intro hc
  have : l.current.length = l.pos - l.start := by
    unfold L.current
    rw [h.source]
    simp only [List.length_drop, List.length_take]
    have := h.pos
    omega
  have := List.length_pos_iff.mpr hc
  omega

/-- Only the start of the token matters after most parts. -/
def Kept (src : Bytes) (l l' : L) : Prop := Inside src l' ∧ l'.start = l.start

theorem takeLoop_wp {src : Bytes} (chars : Bytes) (n : Nat) {l : L} (h : Inside src l) (hn : src.length - l.pos < n) :
    Wp (takeLoop chars n) l fun _ l' => Kept src l l' := by
  induction n generalizing l with
  | zero => omega
  | succ n ih =>
    unfold takeLoop
    refine (next_wp h).bind fun r l1 h1 => ?_
    obtain ⟨g1, g2, g3, g4⟩ := h1
    by_cases hc : containsRune chars r = true
    · rw [if_pos hc]
      rcases g4 with ⟨rfl, -⟩ | ⟨c, rfl, g4⟩
      · cases hc
      · have := g4.lt
        have := g1.pos
        exact (ih g1 (by omega)).mono fun _ l' h' => ⟨h'.1, by rw [h'.2, g2]⟩
    · rw [if_neg hc]
      exact (rewind_wp g1).mono fun _ l' h' => ⟨h'.1, by rw [h'.2.1, g2]⟩

theorem take_wp {src : Bytes} (chars : Bytes) {l : L} (h : Inside src l) : Wp (take chars) l fun _ l' => Kept src l l' := by
  unfold take
  exact takeLoop_wp chars _ h (by rw [h.source]; omega)

/-- The token has not been moved back; with `true` something has been sent. -/
def Moved (src : Bytes) (l : L) (b : Bool) (l' : L) : Prop := Inside src l' ∧ l.start ≤ l'.start ∧ (b = true → l.start < l'.start)

theorem must_wp {src : Bytes} {g : Lx Bool} {l : L} (h : Wp g l (Moved src l)) :
    Wp (must g) l fun _ l' => Inside src l' ∧ l.start < l'.start := by
  unfold must
  refine h.bind fun b l1 h1 => ?_
  cases b with
  | false => exact Wp.error
  | true => exact Wp.pure ⟨h1.1, h1.2.2 rfl⟩

theorem takeEmit_wp {src : Bytes} (chars : Bytes) (code : Int) {l : L} (h : Inside src l) :
    Wp (do take chars; let c ← current; if c = [] then Pure.pure false else do emit code; Pure.pure true) l (Moved src l) := by
  refine (take_wp chars h).bind fun _ l1 h1 => ?_
  refine (current_wp h1.1).bind fun c l2 h2 => ?_
  obtain ⟨rfl, -, h2⟩ := h2
  have hs := h1.2
  by_cases hc : c = []
  · rw [if_pos hc]
    exact Wp.pure ⟨h1.1, by omega, by simp⟩
  · rw [if_neg hc]
    refine (emit_wp h1.1 _).bind fun _ l3 h3 => ?_
    have := h2 hc
    exact Wp.pure ⟨h3.1, by omega, by omega⟩

theorem grabWhitespace_wp {src : Bytes} {l : L} (h : Inside src l) : Wp grabWhitespace l (Moved src l) := takeEmit_wp _ _ h
theorem grabNewline_wp {src : Bytes} {l : L} (h : Inside src l) : Wp grabNewline l (Moved src l) := takeEmit_wp _ _ h

theorem rewinds_wp {src : Bytes} (n : Nat) {l : L} (h : Inside src l) : Wp (rewinds n) l fun _ l' => Kept src l l' := by
  induction n generalizing l with
  | zero => exact Wp.pure ⟨h, rfl⟩
  | succ n ih =>
    unfold rewinds
    refine (rewind_wp h).bind fun _ l1 h1 => ?_
    exact (ih h1.1).mono fun _ l' h' => ⟨h'.1, by rw [h'.2, h1.2.1]⟩

/-- `Next`, when it is known not to be at the end afterwards. -/
theorem next_some {src : Bytes} {l : L} (h : Inside src l) : Wp next l fun r l' => Inside src l' ∧ l'.start = l.start ∧
    (∀ c, r = some c → l.start < l'.pos) := by
  refine (next_wp h).mono fun r l' h' => ⟨h'.1, h'.2.1, ?_⟩
  rintro c rfl
  rcases h'.2.2.2 with ⟨h, -⟩ | ⟨c', -, hr⟩
  · cases h
  · have := hr.lt
    have := h.start
    omega

theorem grabChar_wp {src : Bytes} {l : L} (h : Inside src l) : Wp grabChar l (Moved src l) := by
  unfold grabChar
  refine (next_some h).bind fun r l1 h1 => ?_
  by_cases hr : r ≠ some 60
  · rw [if_pos hr]
    refine (rewind_wp h1.1).bind fun _ l2 h2 => ?_
    exact Wp.pure ⟨h2.1, by rw [h2.2.1, h1.2.1]; omega, by simp⟩
  · rw [if_neg hr]
    refine (take_wp _ h1.1).bind fun _ l2 h2 => ?_
    refine (next_some h2.1).bind fun r' l3 h3 => ?_
    have e1 := h1.2.1
    have e2 := h2.2
    have e3 := h3.2.1
    by_cases hr' : r' ≠ some 62
    · rw [if_pos hr']
      refine (current_wp h3.1).bind fun c l4 h4 => ?_
      obtain ⟨rfl, -, -⟩ := h4
      refine (rewinds_wp _ h3.1).bind fun _ l5 h5 => ?_
      have e5 := h5.2
      exact Wp.pure ⟨h5.1, by omega, by simp⟩
    · rw [if_neg hr']
      refine (emit_wp h3.1 _).bind fun _ l4 h4 => ?_
      have := h3.2.2 62 (by simpa using hr')
      exact Wp.pure ⟨h4.1, by omega, by omega⟩

theorem grabCharPair_wp {src : Bytes} {l : L} (h : Inside src l) : Wp grabCharPair l (Moved src l) := by
  unfold grabCharPair
  refine (next_some h).bind fun r l1 h1 => ?_
  by_cases hr : r ≠ some 40
  · rw [if_pos hr]
    refine (rewind_wp h1.1).bind fun _ l2 h2 => ?_
    exact Wp.pure ⟨h2.1, by rw [h2.2.1, h1.2.1]; omega, by simp⟩
  · rw [if_neg hr]
    have p1 := h1.2.2 40 (by simpa using hr)
    refine (emit_wp h1.1 _).bind fun _ l2 h2 => ?_
    refine (grabChar_wp h2.1).bind fun b l3 h3 => ?_
    have e3 := h3.2.1
    cases b with
    | false => exact Wp.pure ⟨h3.1, by omega, by simp⟩
    | true =>
      simp only [Bool.not_true, Bool.false_eq_true, if_false]
      refine (next_some h3.1).bind fun r l4 h4 => ?_
      have e4 := h4.2.1
      by_cases hr : r ≠ some 44
      · rw [if_pos hr]
        refine (rewind_wp h4.1).bind fun _ l5 h5 => ?_
        have e5 := h5.2.1
        exact Wp.pure ⟨h5.1, by omega, by simp⟩
      · rw [if_neg hr]
        have p4 := h4.2.2 44 (by simpa using hr)
        refine (emit_wp h4.1 _).bind fun _ l5 h5 => ?_
        refine (grabChar_wp h5.1).bind fun b l6 h6 => ?_
        have e6 := h6.2.1
        cases b with
        | false => exact Wp.pure ⟨h6.1, by omega, by simp⟩
        | true =>
          simp only [Bool.not_true, Bool.false_eq_true, if_false]
          refine (next_some h6.1).bind fun r l7 h7 => ?_
          have e7 := h7.2.1
          by_cases hr : r ≠ some 41
          · rw [if_pos hr]
            refine (rewind_wp h7.1).bind fun _ l8 h8 => ?_
            have e8 := h8.2.1
            exact Wp.pure ⟨h8.1, by omega, by simp⟩
          · rw [if_neg hr]
            have p7 := h7.2.2 41 (by simpa using hr)
            refine (emit_wp h7.1 _).bind fun _ l8 h8 => ?_
            exact Wp.pure ⟨h8.1, by omega, by omega⟩

theorem grabInt_wp {src : Bytes} {l : L} (h : Inside src l) : Wp grabInt l (Moved src l) := by
  unfold grabInt
  refine (take_wp _ h).bind fun _ l1 h1 => ?_
  refine (current_wp h1.1).bind fun c l2 h2 => ?_
  obtain ⟨rfl, -, h2⟩ := h2
  have e1 := h1.2
  by_cases hc : c = []
  · rw [if_pos hc]
    exact Wp.pure ⟨h1.1, by omega, by simp⟩
  · rw [if_neg hc]
    have := h2 hc
    split
    · exact Wp.error.bind fun _ _ h => h
    · refine (emit_wp h1.1 _).bind fun _ l3 h3 => ?_
      exact Wp.pure ⟨h3.1, by omega, by omega⟩

theorem grabList_wp {src : Bytes} {g : Lx Bool} (hg : ∀ l, Inside src l → Wp g l (Moved src l)) (n : Nat) (ok : Bool) {l0 l : L}
    (h : Inside src l) (hn : src.length - l.start < n) (h0 : l0.start ≤ l.start) (hok : ok = true → l0.start < l.start) :
    Wp (grabListLoop g n ok) l (Moved src l0) := by
  induction n generalizing l ok with
  | zero => omega
  | succ n ih =>
    unfold grabListLoop
    refine (hg l h).bind fun b l1 h1 => ?_
    have e1 := h1.2.1
    cases b with
    | false => exact Wp.pure ⟨h1.1, by omega, fun hh => by have := hok hh; omega⟩
    | true =>
      have p1 := h1.2.2 rfl
      simp only [if_true]
      refine (next_some h1.1).bind fun r l2 h2 => ?_
      have e2 := h2.2.1
      by_cases hr : r = some 59
      · rw [if_pos hr]
        have p2 := h2.2.2 59 hr
        refine (emit_wp h2.1 _).bind fun _ l3 h3 => ?_
        have := h3.1.start
        have := h3.1.pos
        exact ih true h3.1 (by omega) (by omega) (by omega)
      · rw [if_neg hr]
        refine (rewind_wp h2.1).bind fun _ l3 h3 => ?_
        have e3 := h3.2.1
        exact Wp.pure ⟨h3.1, by omega, by omega⟩

/-! ## Strings -/

theorem read_nl {src : Bytes} {c p q : Nat} (h : Read src c p q) (hp : src[p]? = some nl) : c = 10 := by
  rcases h with ⟨-, -, h⟩ | ⟨h1, h2, h3⟩
  · exact absurd (h nl hp) (by decide)
  · by_cases hc : c = 10
    · exact hc
    · exfalso
      refine encode_nl h1 hc ?_
      have : (src.drop p)[0]? = some nl := by simpa using hp
      rw [h3, List.getElem?_append_left (List.length_pos_iff.mpr (encode_ne_nil c))] at this
      exact List.mem_of_getElem? this

theorem read_bound {p0 t : Bytes} {c p q : Nat} (h : Read (p0 ++ nl :: t) c p q) (hp : p ≤ p0.length) : c = 10 ∨ q ≤ p0.length := by
  by_cases hc : c = 10
  · exact .inl hc
  · right
    have hnl : (p0 ++ nl :: t)[p0.length]? = some nl := by simp
    rcases h with ⟨-, h2, h⟩ | ⟨h1, h2, h3⟩
    · by_cases e : p = p0.length
      · subst e
        exact absurd (h nl hnl) (by decide)
      · omega
    · by_cases hq : q ≤ p0.length
      · exact hq
      · exfalso
        refine encode_nl h1 hc ?_
        have : ((p0 ++ nl :: t).drop p)[p0.length - p]? = some nl := by
          rw [List.getElem?_drop, show p + (p0.length - p) = p0.length by omega]
          exact hnl
        rw [h3, List.getElem?_append_left (by omega)] at this
        exact List.mem_of_getElem? this

theorem read_ten {src : Bytes} {p q : Nat} (h : Read src 10 p q) : q = p + 1 := by
  rcases h with ⟨h, -⟩ | ⟨-, h, -⟩
  · exact absurd h (by decide)
  · rw [h]; rfl

theorem read_backslash {src : Bytes} {p q : Nat} (h : Read src 92 p q) : (92 : UInt8) ∈ src := by
  rcases h with ⟨h, -⟩ | ⟨-, -, h⟩
  · exact absurd h (by decide)
  · have : (92 : UInt8) ∈ src.drop p := by
      rw [h]
      exact List.mem_append_left _ (by decide)
    exact List.mem_of_mem_drop this

theorem three_next {p0 : Bytes} {l : L} (h : Inside (p0 ++ [nl, nl, nl]) l) {i : Nat} (hi : i ≤ 2) (hp : l.pos ≤ p0.length + i) :
    Wp next l fun r l' => Inside (p0 ++ [nl, nl, nl]) l' ∧ l'.start = l.start ∧ l'.stack = r :: l.stack ∧
      ∃ c, r = some c ∧ Read (p0 ++ [nl, nl, nl]) c l.pos l'.pos ∧ l'.pos ≤ p0.length + i + 1 ∧ (c ≠ 10 → l'.pos ≤ p0.length) := by
  refine (next_wp h).mono fun r l' h' => ?_
  obtain ⟨g1, g2, g3, g4⟩ := h'
  refine ⟨g1, g2, g3, ?_⟩
  rcases g4 with ⟨-, -, he⟩ | ⟨c, rfl, hr⟩
  · simp only [List.length_append, List.length_cons, List.length_nil] at he
    omega
  · refine ⟨c, rfl, hr, ?_⟩
    by_cases hlt : l.pos ≤ p0.length
    · rcases read_bound hr hlt with rfl | hb
      · have := read_ten hr
        exact ⟨by omega, by simp⟩
      · exact ⟨by omega, fun _ => hb⟩
    · have : (p0 ++ [nl, nl, nl])[l.pos]? = some nl := by
        rw [List.getElem?_append_right (by omega)]
        have : l.pos - p0.length = 1 ∨ l.pos - p0.length = 2 := by omega
        rcases this with e | e <;> rw [e] <;> rfl
      have hc := read_nl hr this
      subst hc
      have := read_ten hr
      exact ⟨by omega, by simp⟩

theorem grabEscape_wp {p0 : Bytes} (esc : Nat) {l : L} (h : Inside (p0 ++ [nl, nl, nl]) l) (hp : l.pos ≤ p0.length) :
    Wp (grabEscapeInString esc) l fun _ l' => Inside (p0 ++ [nl, nl, nl]) l' ∧ l.start < l'.start ∧ l'.pos = l'.start ∧
      l'.pos < p0.length + 3 := by
  unfold grabEscapeInString
  refine (three_next h (i := 0) (by omega) hp).bind fun r l1 h1 => ?_
  obtain ⟨g1, g2, -, c, rfl, g4, g5, g6⟩ := h1
  have q1 := g4.lt
  have hs := h.start
  split
  · refine (emit_wp g1 _).bind fun _ l2 h2 => ?_
    exact Wp.pure ⟨h2.1, by omega, by omega, by omega⟩
  · split
    · rename_i hd
      have hc : c ≠ 10 := by rintro rfl; revert hd; decide
      have g6 := g6 hc
      refine (three_next g1 (i := 0) (by omega) g6).bind fun r2 l2 h2 => ?_
      obtain ⟨k1, k2, -, c2, rfl, k4, k5, -⟩ := h2
      have q2 := k4.lt
      refine (three_next k1 (i := 1) (by omega) k5).bind fun r3 l3 h3 => ?_
      obtain ⟨m1, m2, -, c3, rfl, m4, m5, -⟩ := h3
      have q3 := m4.lt
      refine (emit_wp m1 _).bind fun _ l4 h4 => ?_
      exact Wp.pure ⟨h4.1, by omega, by omega, by omega⟩
    · split
      · rename_i hd
        have hc : c ≠ 10 := by
          rintro rfl
          simp at hd
        have g6 := g6 hc
        refine (three_next g1 (i := 0) (by omega) g6).bind fun r2 l2 h2 => ?_
        obtain ⟨k1, k2, -, c2, rfl, k4, k5, -⟩ := h2
        have q2 := k4.lt
        refine (three_next k1 (i := 1) (by omega) k5).bind fun r3 l3 h3 => ?_
        obtain ⟨m1, m2, -, c3, rfl, m4, m5, -⟩ := h3
        have q3 := m4.lt
        refine (three_next m1 (i := 2) (by omega) m5).bind fun r4 l4 h4 => ?_
        obtain ⟨n1, n2, n3, c4, rfl, n4, n5, n6⟩ := h4
        have q4 := n4.lt
        split
        · rename_i hd4
          have hc4 : c4 ≠ 10 := by rintro rfl; revert hd4; decide
          have := n6 hc4
          refine (emit_wp n1 _).bind fun _ l5 h5 => ?_
          exact Wp.pure ⟨h5.1, by omega, by omega, by omega⟩
        · refine (rewind_wp n1).bind fun _ l5 h5 => ?_
          obtain ⟨r1, r2, r3, -, -, r6⟩ := h5
          have r6 := r6 c4 _ n3
          have hlen : (encodeRune c4).length ≤ 3 ∨ l5.pos = l3.pos := by
            rcases n4 with ⟨rfl, -⟩ | ⟨-, e, -⟩
            · exact .inl (by decide)
            · right; omega
          have hl5 : l5.pos ≤ l3.pos := by
            have hpos := List.length_pos_iff.mpr (encode_ne_nil c4)
            rcases n4 with ⟨rfl, e, -⟩ | ⟨-, e, -⟩
            · have : (encodeRune runeError).length = 3 := by decide
              omega
            · omega
          refine (emit_wp r1 _).bind fun _ l6 h6 => ?_
          refine Wp.pure ⟨h6.1, ?_, by omega, by omega⟩
          rcases hlen with hlen | hlen <;> omega
      · split
        · rename_i hd
          have hc : c ≠ 10 := by
            rintro rfl
            simp at hd
          have g6 := g6 hc
          refine (three_next g1 (i := 0) (by omega) g6).bind fun r2 l2 h2 => ?_
          obtain ⟨k1, k2, -, c2, rfl, k4, k5, -⟩ := h2
          have q2 := k4.lt
          refine (three_next k1 (i := 1) (by omega) k5).bind fun r3 l3 h3 => ?_
          obtain ⟨m1, m2, -, c3, rfl, m4, m5, -⟩ := h3
          have q3 := m4.lt
          refine (emit_wp m1 _).bind fun _ l4 h4 => ?_
          exact Wp.pure ⟨h4.1, by omega, by omega, by omega⟩
        · exact Wp.error.bind fun _ _ h => h

theorem stringLoop_wp {src : Bytes} (hs : SafeEnd src) (esc : Nat → Nat) (n : Nat) (en : Bool) {l0 l : L} (h : Inside src l)
    (h0 : l0.start ≤ l.start)
    (hn : 2 * (src.length - l.start) + 1 < n + en.toNat)
    (hf : en = false → l.pos = l.start ∧ l.pos < src.length)
    (ht : en = true → ∃ p, src = p ++ [nl, nl, nl] ∧ l.pos ≤ p.length) :
    Wp (stringLoop esc n en) l (Moved src l0) := by
  induction n generalizing l en with
  | zero =>
    cases en with
    | false => simp at hn
    | true => simp at hn
  | succ n ih =>
    unfold stringLoop
    cases en with
    | true =>
      obtain ⟨p0, rfl, hp⟩ := ht rfl
      refine (three_next h (i := 0) (by omega) hp).bind fun r l1 h1 => ?_
      obtain ⟨g1, g2, g3, c, rfl, g4, g5, -⟩ := h1
      simp only [if_true]
      refine (rewind_wp g1).bind fun _ l2 h2 => ?_
      obtain ⟨k1, k2, -, -, -, k6⟩ := h2
      have k6 := k6 c _ g3
      have hst := h.start
      have hl2 : l2.pos ≤ l.pos := by
        rcases g4 with ⟨rfl, e, -⟩ | ⟨-, e, -⟩
        · have : (encodeRune runeError).length = 3 := by decide
          omega
        · omega
      refine (position_wp l2).bind fun p l3 h3 => ?_
      subst h3
      refine (grabEscape_wp (esc p) k1 (by omega)).bind fun _ l3 h3 => ?_
      obtain ⟨m1, m2, m3, m4⟩ := h3
      have hlen : (p0 ++ [nl, nl, nl]).length = p0.length + 3 := by simp
      have hp3 := m1.pos
      simp only [Bool.toNat_true] at hn
      refine ih false m1 (by omega) (by simp only [Bool.toNat_false]; omega) (fun _ => ⟨m3, by omega⟩) (by simp)
    | false =>
      obtain ⟨e1, e2⟩ := hf rfl
      simp only [Bool.toNat_false, Nat.add_zero] at hn
      refine (next_wp h).bind fun r l1 h1 => ?_
      obtain ⟨g1, g2, g3, g4⟩ := h1
      simp only [Bool.false_eq_true, if_false]
      rcases g4 with ⟨-, -, he⟩ | ⟨c, rfl, g4⟩
      · omega
      · have q := g4.lt
        by_cases c34 : c = 34
        · subst c34
          rw [if_pos rfl]
          refine (emit_wp g1 _).bind fun _ l2 h2 => ?_
          exact Wp.pure ⟨h2.1, by omega, by omega⟩
        · rw [if_neg (by simpa using c34)]
          by_cases c10 : c = 10
          · subst c10
            rw [if_pos rfl]
            exact Wp.error.bind fun _ _ h => h
          · rw [if_neg (by simpa using c10)]
            have bound : ∃ p t, src = p ++ nl :: t ∧ l.pos ≤ p.length ∧ ((t = [] ∧ (92 : UInt8) ∉ p) ∨ t = [nl, nl]) := by
              rcases hs with ⟨p, rfl, hb⟩ | ⟨p, rfl⟩
              · refine ⟨p, [], rfl, ?_, .inl ⟨rfl, hb⟩⟩
                simp only [List.length_append, List.length_cons, List.length_nil] at e2
                omega
              · refine ⟨p, [nl, nl], rfl, ?_, .inr rfl⟩
                apply Classical.byContradiction
                intro hgt
                simp only [List.length_append, List.length_cons, List.length_nil] at e2
                refine c10 (read_nl g4 ?_)
                rw [List.getElem?_append_right (by omega)]
                have : l.pos - p.length = 1 ∨ l.pos - p.length = 2 := by omega
                rcases this with e | e <;> rw [e] <;> rfl
            obtain ⟨p, t, rfl, hp, ht'⟩ := bound
            have hq := (read_bound g4 hp).resolve_left c10
            by_cases c92 : c = 92
            · subst c92
              rw [if_pos rfl]
              rcases ht' with ⟨rfl, hb⟩ | rfl
              · exfalso
                have := read_backslash g4
                rcases List.mem_append.mp this with h | h
                · exact hb h
                · revert h; decide
              · exact ih true g1 (by omega) (by simp only [Bool.toNat_true]; omega) (by simp) (fun _ => ⟨p, rfl, hq⟩)
            · rw [if_neg (by simpa using c92)]
              refine (emit_wp g1 _).bind fun _ l2 h2 => ?_
              obtain ⟨k1, k2, k3, -⟩ := h2
              have : (p ++ nl :: t).length = p.length + (t.length + 1) := by simp
              exact ih false k1 (by omega) (by simp only [Bool.toNat_false]; omega) (fun _ => ⟨by omega, by omega⟩) (by simp)

theorem read_head {src : Bytes} {b : UInt8} {p q : Nat} (hb : b.toNat < 0x80) (h : Read src b.toNat p q) : src[p]? = some b := by
  rcases h with ⟨h, -⟩ | ⟨-, -, h⟩
  · rw [h] at hb
    exact absurd hb (by decide)
  · rw [(encode1 hb).2] at h
    have := congrArg (fun x => x[0]?) h
    simpa using this

theorem peek_wp {src : Bytes} {l : L} (h : Inside src l) : Wp peek l fun r l' => Kept src l l' ∧ l'.pos ≤ l.pos ∧
    (r = some 34 → l'.pos = l.pos ∧ src[l.pos]? = some 34) := by
  unfold peek
  refine (next_wp h).bind fun r l1 h1 => ?_
  obtain ⟨g1, g2, g3, g4⟩ := h1
  refine (rewind_wp g1).bind fun _ l2 h2 => ?_
  obtain ⟨k1, k2, -, -, k5, k6⟩ := h2
  have hs := h.start
  refine Wp.pure ⟨⟨k1, by rw [k2, g2]⟩, ?_, ?_⟩
  · rcases g4 with ⟨rfl, e, -⟩ | ⟨c, rfl, hr⟩
    · have := k5 _ g3
      omega
    · have := k6 c _ g3
      rcases hr with ⟨rfl, e, -⟩ | ⟨-, e, -⟩
      · have : (encodeRune runeError).length = 3 := by decide
        omega
      · omega
  · rintro rfl
    have k6 := k6 34 _ g3
    rcases g4 with ⟨h, -⟩ | ⟨c', e, hr⟩
    · cases h
    · simp only [Option.some.injEq] at e
      subst e
      refine ⟨?_, read_head (b := 34) (by decide) hr⟩
      rcases hr with ⟨e, -⟩ | ⟨-, e, -⟩
      · exact absurd e (by decide)
      · omega

theorem SafeEnd.split {src : Bytes} (hs : SafeEnd src) : ∃ p t, src = p ++ nl :: t ∧ ∀ x ∈ t, x = nl := by
  rcases hs with ⟨p, rfl, -⟩ | ⟨p, rfl⟩
  · exact ⟨p, [], rfl, by simp⟩
  · exact ⟨p, [nl, nl], rfl, by simp⟩

theorem grabString_wp {src : Bytes} (hs : SafeEnd src) (esc : Nat → Nat) (n : Nat) (hn : 2 * src.length + 2 ≤ n) {l : L} (h : Inside src l) :
    Wp (grabString esc n) l (Moved src l) := by
  unfold grabString
  refine (peek_wp h).bind fun r l1 h1 => ?_
  obtain ⟨⟨g1, g2⟩, -, g4⟩ := h1
  by_cases hr : r ≠ some 34
  · rw [if_pos hr]
    exact Wp.pure ⟨g1, by omega, by simp⟩
  · rw [if_neg hr]
    obtain ⟨e1, e2⟩ := g4 (by simpa using hr)
    refine (next_wp g1).bind fun r2 l2 h2 => ?_
    obtain ⟨k1, k2, -, k4⟩ := h2
    have hl2 : l2.pos < src.length ∧ l.start < l2.pos := by
      have hst := h.start
      obtain ⟨hlt, -⟩ := List.getElem?_eq_some_iff.mp e2
      rcases k4 with ⟨-, -, he⟩ | ⟨c, -, hread⟩
      · omega
      · have := hread.lt
        refine ⟨?_, by omega⟩
        rw [e1] at hread
        obtain ⟨p, t, rfl, ht⟩ := hs.split
        have hp : l.pos ≤ p.length := by
          apply Classical.byContradiction
          intro hgt
          have hm : (34 : UInt8) ∈ nl :: t := by
            rw [List.getElem?_append_right (by omega)] at e2
            exact List.mem_of_getElem? e2
          rcases List.mem_cons.mp hm with h | h
          · revert h; decide
          · have := ht _ h
            revert this
            decide
        rcases read_bound hread hp with rfl | hb
        · have := read_head (b := 10) (by decide) hread
          rw [e2] at this
          exact absurd this (by decide)
        · simp only [List.length_append, List.length_cons]
          omega
    refine (peek_wp k1).bind fun r3 l3 h3 => ?_
    obtain ⟨⟨m1, m2⟩, m3, m4⟩ := h3
    have hst3 := m1.start
    by_cases hr3 : r3 = some 34
    · rw [if_pos hr3]
      have := (m4 hr3).1
      refine (next_wp m1).bind fun r4 l4 h4 => ?_
      obtain ⟨n1, n2, -, n4⟩ := h4
      have hlt : l3.pos < l4.pos := by
        rcases n4 with ⟨-, -, he⟩ | ⟨c, -, hread⟩
        · omega
        · exact hread.lt
      refine (emit_wp n1 _).bind fun _ l5 h5 => ?_
      exact Wp.pure ⟨h5.1, by omega, by omega⟩
    · rw [if_neg hr3]
      refine (emit_wp m1 _).bind fun _ l4 h4 => ?_
      obtain ⟨n1, n2, n3, -⟩ := h4
      exact stringLoop_wp hs esc n false n1 (by omega) (by simp only [Bool.toNat_false]; omega)
        (fun _ => ⟨by omega, by omega⟩) (by simp)

/-! ## The main loop -/

theorem grab_wp {src : Bytes} (hs : SafeEnd src) (esc : Nat → Nat) (n : Nat) (hn : 2 * src.length + 2 ≤ n) {g : Grab} (hg : g ≠ .msg) {l : L}
    (h : Inside src l) : Wp (g.run esc n) l (Moved src l) := by
  cases g with
  | charList => exact grabList_wp (fun l h => grabChar_wp h) n false h (by omega) (Nat.le_refl _) (by simp)
  | stringList => exact grabList_wp (fun l h => grabString_wp hs esc n hn h) n false h (by omega) (Nat.le_refl _) (by simp)
  | charPairList => exact grabList_wp (fun l h => grabCharPair_wp h) n false h (by omega) (Nat.le_refl _) (by simp)
  | string => exact grabString_wp hs esc n hn h
  | int => exact grabInt_wp h
  | intList => exact grabList_wp (fun l h => grabInt_wp h) n false h (by omega) (Nat.le_refl _) (by simp)
  | msg => exact absurd rfl hg

theorem msg_table (c : Cat) : c = .messages ∨ (c.map.all fun e => decide (e.2.2 ≠ .msg)) = true := by
  cases c <;> first | exact .inl rfl | exact .inr (by decide)

theorem sGeneric_wp {src : Bytes} (hs : SafeEnd src) (esc : Nat → Nat) (n : Nat) (hn : 2 * src.length + 2 ≤ n) {c : Cat} (hc : c ≠ .messages) {l : L}
    (h : Inside src l) : Wp (sGeneric esc n c) l fun st l' => Inside src l' ∧ l.start < l'.start ∧ (st = some .category ∨ st = some (.generic c)) := by
  unfold sGeneric
  refine (grabWhitespace_wp h).bind fun _ l1 h1 => ?_
  have e1 := h1.2.1
  refine (take_wp _ h1.1).bind fun _ l2 h2 => ?_
  have e2 := h2.2
  refine (current_wp h2.1).bind fun word l3 h3 => ?_
  obtain ⟨rfl, -, h3⟩ := h3
  by_cases hw : word = b!"END"
  · rw [if_pos hw]
    have p3 := h3 (by rw [hw]; decide)
    refine (emit_wp h2.1 _).bind fun _ l4 h4 => ?_
    refine (must_wp (grabWhitespace_wp h4.1)).bind fun _ l5 h5 => ?_
    refine (take_wp _ h5.1).bind fun _ l6 h6 => ?_
    refine (current_wp h6.1).bind fun cur l7 h7 => ?_
    obtain ⟨rfl, -, -⟩ := h7
    have e6 := h6.2
    split
    · exact Wp.error.bind fun _ _ h => h
    · refine (emit_wp h6.1 _).bind fun _ l8 h8 => ?_
      refine (grabWhitespace_wp h8.1).bind fun _ l9 h9 => ?_
      refine (must_wp (grabNewline_wp h9.1)).bind fun _ l10 h10 => ?_
      have := h6.1.start
      have := h9.2.1
      exact Wp.pure ⟨h10.1, by omega, .inl rfl⟩
  · rw [if_neg hw]
    split
    · rename_i e hf
      have hmem := List.mem_of_find?_eq_some hf
      have heq : e.1 = word := by
        have := List.find?_some hf
        simpa using this
      have hm := List.all_eq_true.mp (map_ok c) _ hmem
      simp only [decide_eq_true_eq] at hm
      have hg : e.2.2 ≠ .msg := by
        rcases msg_table c with h | h
        · exact absurd h hc
        · have := List.all_eq_true.mp h _ hmem
          simpa using this
      have p3 := h3 (by rw [← heq]; exact hm.2.2.1)
      refine (emit_wp h2.1 _).bind fun _ l4 h4 => ?_
      refine (must_wp (grabWhitespace_wp h4.1)).bind fun _ l5 h5 => ?_
      refine (must_wp (grab_wp hs esc n hn hg h5.1)).bind fun _ l6 h6 => ?_
      refine (must_wp (grabNewline_wp h6.1)).bind fun _ l7 h7 => ?_
      exact Wp.pure ⟨h7.1, by omega, .inr rfl⟩
    · exact Wp.error.bind fun _ _ h => h

theorem sCategory_wp {src : Bytes} (h1 : ¬ b!"LC_COLLATE" <:+: src) (h2 : ¬ b!"LC_MESSAGES" <:+: src) {l : L} (h : Inside src l) :
    Wp sCategory l fun st l' => Inside src l' ∧ (st = none ∨ ∃ c, st = some (.generic c) ∧ c ≠ .messages ∧ l.start < l'.start) := by
  unfold sCategory
  refine (take_wp _ h).bind fun _ l1 k1 => ?_
  refine (current_wp k1.1).bind fun header l2 k2 => ?_
  obtain ⟨rfl, hh, k2⟩ := k2
  have hin : header <:+: src := by
    rw [hh]
    exact (List.drop_suffix _ _).isInfix.trans (List.take_prefix _ _).isInfix
  have key : ∀ (o : Option (Tm × St)), (o = none ∨ (header ≠ [] ∧ ∃ tm c, o = some (tm, .generic c) ∧ c ≠ .messages)) →
      Wp (match o with
        | none => Pure.pure none
        | some (tm, st) => do
          emit tm.code
          take whiteSpace
          must grabNewline
          Pure.pure (some st)) l2 fun st l' => Inside src l' ∧ (st = none ∨ ∃ c, st = some (.generic c) ∧ c ≠ .messages ∧ l.start < l'.start) := by
    rintro o (rfl | ⟨hne, tm, c, rfl, hc⟩)
    · exact Wp.pure ⟨k1.1, .inl rfl⟩
    · have p := k2 hne
      have e1 := k1.2
      refine (emit_wp k1.1 _).bind fun _ l3 k3 => ?_
      refine (take_wp _ k3.1).bind fun _ l4 k4 => ?_
      refine (must_wp (grabNewline_wp k4.1)).bind fun _ l5 k5 => ?_
      have e4 := k4.2
      exact Wp.pure ⟨k5.1, .inr ⟨c, rfl, hc, by omega⟩⟩
  refine key _ ?_
  by_cases c1 : header = b!"LC_CTYPE"
  · rw [if_pos c1]; exact .inr ⟨by rw [c1]; decide, _, _, rfl, by decide⟩
  rw [if_neg c1]
  rw [if_neg (show header ≠ b!"LC_COLLATE" from fun e => h1 (e ▸ hin))]
  by_cases c3 : header = b!"LC_MONETARY"
  · rw [if_pos c3]; exact .inr ⟨by rw [c3]; decide, _, _, rfl, by decide⟩
  rw [if_neg c3]
  by_cases c4 : header = b!"LC_NUMERIC"
  · rw [if_pos c4]; exact .inr ⟨by rw [c4]; decide, _, _, rfl, by decide⟩
  rw [if_neg c4]
  by_cases c5 : header = b!"LC_TIME"
  · rw [if_pos c5]; exact .inr ⟨by rw [c5]; decide, _, _, rfl, by decide⟩
  rw [if_neg c5]
  rw [if_neg (show header ≠ b!"LC_MESSAGES" from fun e => h2 (e ▸ hin))]
  exact .inl rfl

theorem runLoop_wp {src : Bytes} (hs : SafeEnd src) (h1 : ¬ b!"LC_COLLATE" <:+: src) (h2 : ¬ b!"LC_MESSAGES" <:+: src)
    (esc : Nat → Nat) (n : Nat) (hn : 2 * src.length + 2 ≤ n) (k : Nat) {st : St} (hst : st = .category ∨ ∃ c, st = .generic c ∧ c ≠ .messages) {l : L}
    (h : Inside src l) (hk : src.length - l.start < k) : Wp (runLoop esc n k st) l fun _ _ => True := by
  induction k generalizing st l with
  | zero => omega
  | succ k ih =>
    unfold runLoop
    have step : Wp (st.call esc n) l fun o l' => Inside src l' ∧ (o = none ∨ (l.start < l'.start ∧
        ∃ st', o = some st' ∧ (st' = .category ∨ ∃ c, st' = .generic c ∧ c ≠ .messages))) := by
      rcases hst with rfl | ⟨c, rfl, hc⟩
      · refine (sCategory_wp h1 h2 h).mono fun o l' h' => ⟨h'.1, ?_⟩
        rcases h'.2 with h | ⟨c, h3, h4, h5⟩
        · exact .inl h
        · exact .inr ⟨h5, _, h3, .inr ⟨c, rfl, h4⟩⟩
      · refine (sGeneric_wp hs esc n hn hc h).mono fun o l' h' => ⟨h'.1, .inr ⟨h'.2.1, ?_⟩⟩
        rcases h'.2.2 with h | h
        · exact ⟨_, h, .inl rfl⟩
        · exact ⟨_, h, .inr ⟨c, rfl, hc⟩⟩
    refine step.bind fun o l1 h' => ?_
    obtain ⟨g1, g2⟩ := h'
    rcases g2 with rfl | ⟨g2, st', rfl, g3⟩
    · exact Wp.pure trivial
    · have := g1.start
      have := g1.pos
      exact ih g3 g1 (by omega)

/-- **C56**, what holds: the lexer stops on every text without `LC_COLLATE` and `LC_MESSAGES` whose end cannot be passed
inside a string. Missing: the two categories, and texts where a string with a backslash reaches the end; for these the
theorems below show that it need not stop. -/
theorem C56_stops_partial (esc : Nat → Nat) (src : Bytes) (hs : SafeEnd src) (h1 : ¬ b!"LC_COLLATE" <:+: src) (h2 : ¬ b!"LC_MESSAGES" <:+: src) :
    ∃ N, ∀ n, N ≤ n → lexText esc n src ≠ .hang := by
  refine ⟨2 * src.length + 2, fun n hn => ?_⟩
  have := runLoop_wp hs h1 h2 esc n hn n (st := .category) (.inl rfl) (l := { source := src }) ⟨rfl, Nat.le_refl _, Nat.zero_le _⟩
    (by show src.length - 0 < n; omega)
  unfold lexText
  intro e
  unfold Wp at this
  rw [e] at this
  exact this

/-- The hypotheses of `C56_stops_partial` can be met, by a text that is lexed as well as by one that makes the lexer panic. -/
example : SafeEnd b!"LC_TIME\nd_fmt \"x\"\nEND LC_TIME\n" ∧ SafeEnd b!"LC_TIME\nd_fmt \"\\x\n\n\n" :=
  ⟨.inl ⟨b!"LC_TIME\nd_fmt \"x\"\nEND LC_TIME", rfl, by decide⟩, .inr ⟨b!"LC_TIME\nd_fmt \"\\x", rfl⟩⟩

/-! ## Running forever -/

theorem hang_bind {α β : Type} {m : Lx α} {f : α → Lx β} {l : L} {a : α} {P : L → Prop} (h : Runs m l a P)
    (h' : ∀ l', P l' → f a l' = .hang) : (m >>= f) l = .hang := by
  obtain ⟨l1, h1, h2⟩ := h
  show Lx.bind m f l = _
  simp only [Lx.bind, h1]
  exact h' l1 h2

theorem hang_first {α β : Type} {m : Lx α} {f : α → Lx β} {l : L} (h : m l = .hang) : (m >>= f) l = .hang := by
  show Lx.bind m f l = _
  simp only [Lx.bind, h]

/-- The loop that looks for a quote never ends when there is none. -/
theorem msgLoop_hang (n : Nat) {l : L} (h : (34 : UInt8) ∉ l.source.drop l.pos) (hi : Inside l.source l) : msgLoop n l = .hang := by
  induction n generalizing l with
  | zero => rfl
  | succ n ih =>
    unfold msgLoop
    have hw := next_wp hi
    unfold Wp at hw
    split at hw
    · rename_i r l1 e
      obtain ⟨g1, -, -, g4⟩ := hw
      have hsrc := g1.source
      have hle : l.pos ≤ l1.pos := by
        rcases g4 with ⟨-, e, -⟩ | ⟨c, -, hr⟩
        · omega
        · exact Nat.le_of_lt hr.lt
      have hne : r ≠ some 34 := by
        rintro rfl
        rcases g4 with ⟨h, -⟩ | ⟨c, hc, hr⟩
        · cases h
        · simp only [Option.some.injEq] at hc
          subst hc
          have := read_head (b := 34) (by decide) hr
          refine h (List.mem_of_getElem? (i := 0) ?_)
          simpa using this
      show Lx.bind next _ l = _
      simp only [Lx.bind, e]
      rw [if_pos hne]
      refine ih ?_ (by rw [hsrc]; exact g1)
      rw [hsrc]
      intro hm
      refine h ?_
      rw [show l1.pos = l.pos + (l1.pos - l.pos) by omega, ← List.drop_drop] at hm
      exact List.mem_of_mem_drop hm
    · rename_i e
      unfold next at e
      split at e <;> cases e
    · cases hw

theorem grabMsg_hang (n : Nat) {body pre t l} (hb : (34 : UInt8) ∉ body) (h : Pos pre [] (34 :: body) t l) : grabMsg n l = .hang := by
  unfold grabMsg
  refine hang_bind (next_ascii (by decide) h) fun l1 h1 => ?_
  rw [if_neg (by simp)]
  refine hang_bind (emit_spec h1.1 _) fun l2 h2 => ?_
  refine hang_first (msgLoop_hang n ?_ ?_)
  · rw [h2.ahead]
    exact hb
  · exact ⟨rfl, by rw [h2.start, h2.pos]; simp, by rw [h2.pos, h2.source]; simp⟩

/-- **C56**, refuted: in `LC_MESSAGES`, a string without a closing quote makes the lexer run forever. -/
theorem C56_open_message_runs_forever (esc : Nat → Nat) (n : Nat) (k : Ends) (lead word gap body : Bytes) (h1 : Blank lead)
    (hw : word = b!"yesexpr" ∨ word = b!"noexpr") (h2 : Blank gap) (h3 : gap ≠ []) (hb : (34 : UInt8) ∉ body) :
    lexText esc n (b!"LC_MESSAGES" ++ (lineEnd k ++ (lead ++ (word ++ (gap ++ 34 :: body))))) = .hang := by
  unfold lexText
  have hword : (∀ b ∈ word, b ∈ wordChars) ∧ word ≠ [] ∧ word ≠ b!"END" := by rcases hw with rfl | rfl <;> decide
  have hlet := lettered_of_word hword.1 hword.2.1
  generalize hm : n = m
  have key : ∀ m k', (∃ k0, m = k0) → runLoop esc k' m .category
      { source := b!"LC_MESSAGES" ++ (lineEnd k ++ (lead ++ (word ++ (gap ++ 34 :: body)))) } = .hang := by
    rintro m k' -
    cases m with
    | zero => rfl
    | succ m =>
      rw [runLoop]
      simp only [St.call]
      refine hang_bind (header_lex (c := .messages) (lead_stops h1 hlet.append) (pre := []) (t := []) ⟨rfl, rfl, rfl, rfl⟩) fun l1 k1 => ?_
      cases m with
      | zero => rfl
      | succ m =>
        show runLoop esc k' (m + 1) (.generic .messages) l1 = _
        rw [runLoop]
        simp only [St.call]
        refine hang_first ?_
        unfold sGeneric
        obtain ⟨b, hb'⟩ := grabWhitespace_any h1 (lettered_stops hlet.append).1 k1
        refine hang_bind hb' fun l2 k2 => ?_
        refine hang_bind (take_spec (chars := wordChars) wordChars_ascii hword.1 (blank_stops h2 h3 _ (by decide)) k2) fun l3 k3 => ?_
        refine hang_bind (current_spec k3) fun l4 k4 => ?_
        simp only [List.nil_append]
        rw [if_neg hword.2.2]
        have hf : ∃ tm, Cat.messages.map.find? (fun e => e.1 == word) = some (word, tm, .msg) := by
          rcases hw with rfl | rfl
          · exact ⟨.YESEXPR_STR, by decide⟩
          · exact ⟨.NOEXPR_STR, by decide⟩
        obtain ⟨tm, hf⟩ := hf
        rw [hf]
        refine hang_bind (emit_spec k4 _) fun l5 k5 => ?_
        refine hang_bind (must_spec (grabWhitespace_some (rest := 34 :: body) h2 h3 ⟨by decide, by decide⟩ k5)) fun l6 k6 => ?_
        refine hang_first ?_
        unfold must
        exact hang_first (grabMsg_hang k' hb k6)
  exact key m m ⟨m, rfl⟩

/-- `NewLexer` on such a file. -/
theorem C56_counterexample (n : Nat) : newLexer n b!"LC_MESSAGES\nyesexpr \"^[yY]\nnoexpr \n" = .hang := by
  unfold newLexer
  rw [show removeComments b!"LC_MESSAGES\nyesexpr \"^[yY]\nnoexpr \n" =
    .ok (b!"LC_MESSAGES\nyesexpr \"^[yY]\nnoexpr \n\n", 92) by decide +kernel]
  have := C56_open_message_runs_forever (fun _ => 92) n 0 [] b!"yesexpr" b!" " b!"^[yY]\nnoexpr \n\n" (by decide) (.inl rfl) (by decide) (by decide) (by decide)
  show (match lexText (fun _ => 92) n _ with | .ok _ l => _ | .panic p => _ | .hang => _) = _
  rw [show b!"LC_MESSAGES\nyesexpr \"^[yY]\nnoexpr \n\n" = b!"LC_MESSAGES" ++ (lineEnd 0 ++ ([] ++ (b!"yesexpr" ++ (b!" " ++ 34 :: b!"^[yY]\nnoexpr \n\n")))) from rfl, this]

/-- Where the collating state reads nothing, it stays. -/
theorem collate_stuck (esc : Nat → Nat) (n k : Nat) {b : UInt8} {rest pre t l} (hb : b.toNat < 0x80) (h1 : b ∉ whiteSpace) (h2 : b ∉ wordChars)
    (h : Pos pre [] (b :: rest) t l) : runLoop esc n k .collate l = .hang := by
  induction k generalizing l with
  | zero => rfl
  | succ k ih =>
    rw [runLoop]
    simp only [St.call]
    have hstop : ∀ cs : Bytes, b ∉ cs → Stops cs (b :: rest) := fun cs hc => ⟨hb, by simpa using hc⟩
    have step : Runs (sCollate esc n) l (some .collate) (Pos pre [] (b :: rest) t) := by
      unfold sCollate
      obtain ⟨b', hb'⟩ := grabWhitespace_any (x := []) (by simp [Blank]) (hstop _ h1) h
      refine hb'.bind fun l1 k1 => ?_
      simp only [wsTok, if_true, List.append_nil] at k1
      refine (take_spec (chars := wordChars) (x := []) wordChars_ascii (by simp) (hstop _ h2) k1).bind fun l2 k2 => ?_
      refine (current_spec k2).bind fun l3 k3 => ?_
      simp only [List.append_nil] at k3 ⊢
      rw [if_neg (by decide), if_neg (by decide), if_neg (by decide), if_neg (by decide)]
      exact Runs.pure k3
    exact hang_bind step fun l1 k1 => ih k1

/-- **C56**, refuted: in `LC_COLLATE`, every word but `END` and `order_start` that is followed by something else than blanks
makes the lexer run forever; so do all `collating-element` and `collating-symbol` statements. -/
theorem C56_collating_word_runs_forever (esc : Nat → Nat) (n : Nat) (k : Ends) (w rest : Bytes) (b : UInt8) (hw : ∀ c ∈ w, c ∈ wordChars) (hne : w ≠ [])
    (h1 : w ≠ b!"END") (h2 : w ≠ b!"order_start") (hb : b.toNat < 0x80) (hb1 : b ∉ whiteSpace) (hb2 : b ∉ wordChars) :
    lexText esc n (b!"LC_COLLATE" ++ (lineEnd k ++ (w ++ b :: rest))) = .hang := by
  unfold lexText
  have hlet := lettered_of_word hw hne
  have hstop : ∀ cs : Bytes, b ∉ cs → Stops cs (b :: rest) := fun cs hc => ⟨hb, by simpa using hc⟩
  have hdash : ∀ x : Bytes, 45 ∈ x → w ≠ x := by
    rintro x hx rfl
    have := hw _ hx
    exact absurd this (by decide)
  generalize hm : n = m
  have key : ∀ m n, runLoop esc n m .category { source := b!"LC_COLLATE" ++ (lineEnd k ++ (w ++ b :: rest)) } = .hang := by
    intro m n
    cases m with
    | zero => rfl
    | succ m =>
      rw [runLoop]
      simp only [St.call]
      have head : Runs sCategory { source := b!"LC_COLLATE" ++ (lineEnd k ++ (w ++ b :: rest)) } (some .collate)
          (Pos (b!"LC_COLLATE" ++ lineEnd k) [] (w ++ b :: rest) [⟨Tm.LC_COLLATE_STR.code, b!"LC_COLLATE"⟩, eolTok k]) := by
        unfold sCategory
        refine (take_spec (chars := upperChars ++ b!"_") (x := b!"LC_COLLATE") (pre := []) (w := []) (t := []) (rest := lineEnd k ++ (w ++ b :: rest)) headChars_ascii (by decide)
          (lineEnd_stops _ _ _ (by decide)) ⟨rfl, rfl, rfl, rfl⟩).bind fun l1 k1 => ?_
        refine (current_spec k1).bind fun l2 k2 => ?_
        have key : ∀ st : Tm × St, st = (.LC_COLLATE_STR, .collate) → Runs (do
            emit st.1.code
            take whiteSpace
            must grabNewline
            pure (some st.2)) l2 (some .collate) (Pos (b!"LC_COLLATE" ++ lineEnd k) [] (w ++ b :: rest) [⟨Tm.LC_COLLATE_STR.code, b!"LC_COLLATE"⟩, eolTok k]) := by
          rintro _ rfl
          refine (emit_spec k2 _).bind fun l3 k3 => ?_
          refine (take_spec (x := []) whiteSpace_ascii (by simp) (lineEnd_stops k (w ++ b :: rest) _ (by decide)) k3).bind fun l4 k4 => ?_
          refine (must_spec (grabEnds_spec (lettered_stops hlet.append).2 k4)).bind fun l5 k5 => ?_
          exact Runs.pure (by simpa [eolTok] using k5)
        exact key _ rfl
      refine hang_bind head fun l1 k1 => ?_
      cases m with
      | zero => rfl
      | succ m =>
        show runLoop esc n (m + 1) .collate l1 = _
        rw [runLoop]
        simp only [St.call]
        have one : Runs (sCollate esc n) l1 (some .collate)
            (Pos (b!"LC_COLLATE" ++ lineEnd k) w (b :: rest) [⟨Tm.LC_COLLATE_STR.code, b!"LC_COLLATE"⟩, eolTok k]) := by
          unfold sCollate
          obtain ⟨b', hb'⟩ := grabWhitespace_any (x := []) (by simp [Blank]) (lettered_stops hlet.append).1 k1
          refine hb'.bind fun l2 k2 => ?_
          refine (take_spec (chars := wordChars) wordChars_ascii hw (hstop _ hb2) k2).bind fun l3 k3 => ?_
          refine (current_spec k3).bind fun l4 k4 => ?_
          simp only [List.nil_append] at k4 ⊢
          rw [if_neg h1, if_neg h2, if_neg (hdash _ (by decide)), if_neg (hdash _ (by decide))]
          exact Runs.pure (by simpa [wsTok] using k4)
        refine hang_bind one fun l2 k2 => ?_
        cases m with
        | zero => rfl
        | succ m =>
          show runLoop esc n (m + 1) .collate l2 = _
          rw [runLoop]
          simp only [St.call]
          have two : Runs (sCollate esc n) l2 (some .collate)
              (Pos (b!"LC_COLLATE" ++ lineEnd k ++ w) [] (b :: rest) ([⟨Tm.LC_COLLATE_STR.code, b!"LC_COLLATE"⟩, eolTok k] ++ [⟨WHITESPACE, w⟩])) := by
            unfold sCollate grabWhitespace
            refine Runs.bind (a := true) (P := Pos (b!"LC_COLLATE" ++ lineEnd k ++ w) [] (b :: rest) ([⟨Tm.LC_COLLATE_STR.code, b!"LC_COLLATE"⟩, eolTok k] ++ [⟨WHITESPACE, w⟩])) ?_ fun l3 k3 => ?_
            · refine (take_spec (x := []) whiteSpace_ascii (by simp) (hstop _ hb1) k2).bind fun l3 k3 => ?_
              refine (current_spec k3).bind fun l4 k4 => ?_
              rw [List.append_nil, if_neg hne]
              refine (emit_spec k4 _).bind fun l5 k5 => ?_
              exact Runs.pure (by simpa using k5)
            · refine (take_spec (chars := wordChars) (x := []) wordChars_ascii (by simp) (hstop _ hb2) k3).bind fun l4 k4 => ?_
              refine (current_spec k4).bind fun l5 k5 => ?_
              simp only [List.append_nil] at k5 ⊢
              rw [if_neg (by decide), if_neg (by decide), if_neg (by decide), if_neg (by decide)]
              exact Runs.pure k5
          exact hang_bind two fun l3 k3 => collate_stuck esc n m hb hb1 hb2 k3
  exact key m m

/-- The hypotheses can be met: a collating symbol, an unknown word. -/
example (n : Nat) : lexText (fun _ => 92) n b!"LC_COLLATE\ncollating-symbol <a>\n" = .hang ∧ lexText (fun _ => 92) n b!"LC_COLLATE\nscript\n" = .hang :=
  ⟨C56_collating_word_runs_forever (fun _ => 92) n 0 b!"collating" b!"symbol <a>\n" 45 (by decide) (by decide) (by decide) (by decide) (by decide) (by decide) (by decide),
   C56_collating_word_runs_forever (fun _ => 92) n 0 b!"script" [] nl (by decide) (by decide) (by decide) (by decide) (by decide) (by decide) (by decide)⟩

/-- At the end of the text a string goes on forever. -/
theorem stringLoop_hang (esc : Nat → Nat) (n : Nat) {pre t l} (h : Pos pre [] [] t l) : stringLoop esc n false l = .hang := by
  induction n generalizing pre t l with
  | zero => rfl
  | succ n ih =>
    unfold stringLoop
    refine hang_bind (next_eof h) fun l1 k1 => ?_
    simp only [Bool.false_eq_true, if_false]
    rw [if_neg (by simp), if_neg (by simp), if_neg (by simp)]
    refine hang_bind (emit_spec k1.1 _) fun l2 k2 => ?_
    exact ih k2

/-- **C56**, refuted: a backslash can take the line end that would have ended an open string. -/
theorem C56_open_string_runs_forever (n : Nat) : newLexer n b!"LC_TIME\nd_fmt \"\\x" = .hang := by
  unfold newLexer
  rw [show removeComments b!"LC_TIME\nd_fmt \"\\x" = .ok (b!"LC_TIME\nd_fmt \"\\x\n", 92) by decide +kernel]
  show (match lexText (fun _ => 92) n _ with | .ok _ l => _ | .panic p => _ | .hang => _) = _
  suffices h : lexText (fun _ => 92) n b!"LC_TIME\nd_fmt \"\\x\n" = .hang by rw [h]
  unfold lexText
  have key : ∀ m n, runLoop (fun _ => 92) n m .category { source := b!"LC_TIME\nd_fmt \"\\x\n" } = .hang := by
    intro m n
    cases m with
    | zero => rfl
    | succ m =>
      rw [runLoop]
      simp only [St.call]
      refine hang_bind (header_lex (c := .time) (k := 0) (pre := []) (t := []) (rest := b!"d_fmt \"\\x\n") ⟨by decide, by decide⟩ ⟨rfl, rfl, rfl, rfl⟩) fun l1 k1 => ?_
      cases m with
      | zero => rfl
      | succ m =>
        show runLoop (fun _ => 92) n (m + 1) (.generic .time) l1 = _
        rw [runLoop]
        simp only [St.call]
        refine hang_first ?_
        unfold sGeneric
        obtain ⟨b, hb'⟩ := grabWhitespace_any (x := []) (rest := b!"d_fmt \"\\x\n") (by simp [Blank]) ⟨by decide, by decide⟩ k1
        refine hang_bind hb' fun l2 k2 => ?_
        refine hang_bind (take_spec (chars := wordChars) (x := b!"d_fmt") (rest := b!" \"\\x\n") wordChars_ascii (by decide) ⟨by decide, by decide⟩ k2) fun l3 k3 => ?_
        refine hang_bind (current_spec k3) fun l4 k4 => ?_
        simp only [List.nil_append]
        rw [if_neg (by decide)]
        rw [show Cat.time.map.find? (fun e => e.1 == b!"d_fmt") = some (b!"d_fmt", .D_FMT_STR, .string) by decide]
        refine hang_bind (emit_spec k4 _) fun l5 k5 => ?_
        refine hang_bind (must_spec (grabWhitespace_some (x := b!" ") (rest := b!"\"\\x\n") (by decide) (by decide) ⟨by decide, by decide⟩ k5)) fun l6 k6 => ?_
        refine hang_first ?_
        unfold must
        refine hang_first ?_
        show grabString (fun _ => 92) n l6 = _
        unfold grabString
        refine hang_bind (peek_ascii (b := 34) (by decide) k6) fun l7 k7 => ?_
        rw [if_neg (by simp)]
        refine hang_bind (next_ascii (b := 34) (by decide) k7) fun l8 k8 => ?_
        refine hang_bind (peek_ascii (b := 92) (by decide) k8.1) fun l9 k9 => ?_
        rw [if_neg (by decide)]
        refine hang_bind (emit_spec k9 _) fun l10 k10 => ?_
        cases n with
        | zero => rfl
        | succ n =>
          unfold stringLoop
          refine hang_bind (next_ascii (b := 92) (by decide) k10) fun l11 k11 => ?_
          simp only [Bool.false_eq_true, if_false]
          rw [if_neg (by decide), if_neg (by decide), if_pos (by decide)]
          cases n with
          | zero => rfl
          | succ n =>
            unfold stringLoop
            refine hang_bind (next_ascii (b := 120) (by decide) k11.1) fun l12 k12 => ?_
            simp only [if_true]
            refine hang_bind (rewind_ascii (b := 120) (by decide) k12.1 k12.2) fun l13 k13 => ?_
            have esc : Runs (grabEscapeInString 92) l13 true (fun l => ∃ pre t, Pos pre [] [] t l) := by
              unfold grabEscapeInString
              refine (next_ascii (b := 120) (by decide) k13).bind fun l14 k14 => ?_
              rw [if_neg (by decide), if_neg (by decide), if_neg (by decide), if_pos (by decide)]
              refine (next_ascii (b := 10) (by decide) k14.1).bind fun l15 k15 => ?_
              refine (next_eof k15.1).bind fun l16 k16 => ?_
              refine (emit_spec k16.1 _).bind fun l17 k17 => ?_
              exact Runs.pure ⟨_, _, k17⟩
            refine hang_bind (a := l13.pos) (P := fun l => l = l13) ⟨l13, rfl, rfl⟩ fun l' e => ?_
            subst e
            refine hang_bind esc fun l14 k14 => ?_
            obtain ⟨_, _, k14⟩ := k14
            exact stringLoop_hang (fun _ => 92) n k14
  exact key n n

end Locale
