import Verif.Locale.LexerRounds

/-!
# The lexer stops soon or never

C56: whether the lexer runs forever is settled after a number of rounds proportional to the length of the text.
-/

namespace Locale
open Go

/-! ## Parts that are given rounds -/

/-- A part that, given the rounds `i`, panics, or ends in a state with `Q`, or runs out of rounds; in the last case it runs
forever: it would run out of any number of rounds. (`ι` is a number, or two: for the loops inside and outside.) -/
def Wd {ι α : Type} (m : ι → Lx α) (i : ι) (l : L) (Q : α → L → Prop) : Prop :=
  match m i l with
  | .ok a l' => Q a l'
  | .panic _ => True
  | .hang => ∀ j, m j l = .hang

/-- Different numbers of rounds give the same result if they are enough. -/
def Cons {ι α : Type} (m : ι → Lx α) : Prop := ∀ i j l, m i l = .hang ∨ m j l = .hang ∨ m i l = m j l

theorem Cons.const {ι α : Type} (m : Lx α) : Cons fun _ : ι => m := fun _ _ _ => .inr (.inr rfl)

theorem Cons.one {α : Type} {m : Nat → Lx α} (h : ∀ n n', n ≤ n' → Le (m n) (m n')) : Cons m := by
  intro i j l
  rcases Nat.le_total i j with hn | hn
  · rcases h i j hn l with e | e
    · exact .inl e
    · exact .inr (.inr e.symm)
  · rcases h j i hn l with e | e
    · exact .inr (.inl e)
    · exact .inr (.inr e)

theorem Cons.comp {ι κ α : Type} {m : ι → Lx α} (h : Cons m) (φ : κ → ι) : Cons fun k => m (φ k) := fun i j l => h (φ i) (φ j) l

theorem Wd.comp {ι κ α : Type} {m : ι → Lx α} (φ : κ → ι) {k : κ} {l : L} {Q : α → L → Prop} (h : Wd m (φ k) l Q) :
    Wd (fun k => m (φ k)) k l Q := by
  unfold Wd at h ⊢
  dsimp only
  split at h
  · rename_i e; first | exact h | (rw [e]; exact h)
  · trivial
  · rename_i e; first | exact fun j => h (φ j) | (rw [e]; exact fun j => h (φ j))

theorem Wd.bind {ι α β : Type} {m : ι → Lx α} {f : ι → α → Lx β} {N : ι} {l : L} {P : α → L → Prop} {Q : β → L → Prop}
    (hm : Cons m) (h : Wd m N l P) (h' : ∀ a l', P a l' → Wd (fun n => f n a) N l' Q) : Wd (fun n => m n >>= f n) N l Q := by
  have eq : ∀ n, (m n >>= f n) l = Lx.bind (m n) (f n) l := fun _ => rfl
  unfold Wd at h ⊢
  split at h
  · rename_i a l' e
    have h' := h' a l' h
    unfold Wd at h'
    have e1 : (m N >>= f N) l = f N a l' := by rw [eq]; simp only [Lx.bind, e]
    dsimp only at h' ⊢
    rw [e1]
    split at h'
    · rename_i e2; first | exact h' | (rw [e2]; exact h')
    · trivial
    · intro n
      rw [eq]
      rcases hm N n l with e3 | e3 | e3
      · rw [e] at e3; cases e3
      · simp only [Lx.bind, e3]
      · rw [e] at e3
        simp only [Lx.bind, ← e3]
        exact h' n
  · rename_i e
    dsimp only
    rw [eq]
    simp only [Lx.bind, e]
  · rename_i e
    dsimp only
    rw [eq]
    simp only [Lx.bind, e]
    intro n
    rw [eq]
    simp only [Lx.bind, h n]

theorem Wd.lift {ι α : Type} {m : Lx α} {N : ι} {l : L} {Q : α → L → Prop} (h : Wp m l Q) : Wd (fun _ => m) N l Q := by
  unfold Wp at h
  unfold Wd
  split at h
  · rename_i e; dsimp only; rw [e]; exact h
  · rename_i e; dsimp only; rw [e]; trivial
  · cases h

theorem Wd.mono {ι α : Type} {m : ι → Lx α} {N : ι} {l : L} {P Q : α → L → Prop} (h : Wd m N l P) (h' : ∀ a l', P a l' → Q a l') :
    Wd m N l Q := by
  unfold Wd at h ⊢
  split at h
  · exact h' _ _ h
  · trivial
  · exact h

/-- A part with rounds after a part without. -/
theorem Wp.bindd {ι α β : Type} {m : Lx α} {f : ι → α → Lx β} {N : ι} {l : L} {P : α → L → Prop} {Q : β → L → Prop}
    (h : Wp m l P) (h' : ∀ a l', P a l' → Wd (fun n => f n a) N l' Q) : Wd (fun n => m >>= f n) N l Q :=
  Wd.bind (Cons.const m) (Wd.lift h) h'

theorem Wd.pure {ι α : Type} {a : α} {N : ι} {l : L} {Q : α → L → Prop} (h : Q a l) : Wd (fun _ => (Pure.pure a : Lx α)) N l Q := h

/-- A loop: what is known of the first round and the rest is known of the loop. -/
theorem Wd.succ {α : Type} {m : Nat → Lx α} {N : Nat} {l : L} {Q : α → L → Prop} (h0 : m 0 l = .hang) (h : Wd (fun n => m (n + 1)) N l Q) :
    Wd m (N + 1) l Q := by
  unfold Wd at h ⊢
  dsimp only at h ⊢
  split at h
  · rename_i e; first | exact h | (rw [e]; exact h)
  · trivial
  · intro n
    cases n with
    | zero => exact h0
    | succ n => exact h n

/-- The same for a loop in a part with loops. -/
theorem Wd.succ2 {α : Type} {m : Nat × Nat → Lx α} {n k : Nat} {l : L} {Q : α → L → Prop} (h0 : ∀ n, m (n, 0) l = .hang)
    (h : Wd (fun i : Nat × Nat => m (i.1, i.2 + 1)) (n, k) l Q) : Wd m (n, k + 1) l Q := by
  unfold Wd at h ⊢
  dsimp only at h ⊢
  split at h
  · rename_i e; first | exact h | (rw [e]; exact h)
  · trivial
  · rintro ⟨n, k⟩
    cases k with
    | zero => exact h0 n
    | succ k => exact h (n, k)

/-- Running forever. -/
theorem Wd.forever {ι α : Type} {m : ι → Lx α} {N : ι} {l : L} {Q : α → L → Prop} (h : ∀ n, m n l = .hang) : Wd m N l Q := by
  unfold Wd
  rw [h N]
  exact h

/-! ## The grab functions -/

theorem mustd {ι : Type} {src : Bytes} {g : ι → Lx Bool} {N : ι} {l : L} (hm : Cons g) (h : Wd g N l (Moved src l)) :
    Wd (fun n => must (g n)) N l fun _ l' => Inside src l' ∧ l.start < l'.start := by
  unfold must
  refine Wd.bind hm h fun b l1 h1 => ?_
  cases b with
  | false => exact Wd.lift Wp.error
  | true => exact Wd.pure ⟨h1.1, h1.2.2 rfl⟩

theorem grabListd {src : Bytes} {g : Nat → Lx Bool} {n : Nat} (hm : Cons g) (hg : ∀ l, Inside src l → Wd g n l (Moved src l)) (k : Nat)
    (ok : Bool) {l0 l : L} (h : Inside src l) (hk : src.length - l.start < k) (h0 : l0.start ≤ l.start) (hok : ok = true → l0.start < l.start) :
    Wd (fun i : Nat × Nat => grabListLoop (g i.1) i.2 ok) (n, k) l (Moved src l0) := by
  induction k generalizing l ok with
  | zero => omega
  | succ k ih =>
    refine Wd.succ2 (fun _ => rfl) ?_
    simp only [grabListLoop]
    refine Wd.bind (hm.comp Prod.fst) ((hg l h).comp (k := (n, k)) Prod.fst) fun b l1 h1 => ?_
    have e1 := h1.2.1
    cases b with
    | false => exact Wd.pure ⟨h1.1, by omega, fun hh => by have := hok hh; omega⟩
    | true =>
      have p1 := h1.2.2 rfl
      simp only [if_true]
      refine (next_some h1.1).bindd fun r l2 h2 => ?_
      have e2 := h2.2.1
      by_cases hr : r = some 59
      · simp only [if_pos hr]
        have p2 := h2.2.2 59 hr
        refine (emit_wp h2.1 _).bindd fun _ l3 h3 => ?_
        have := h3.1.start
        have := h3.1.pos
        exact ih true h3.1 (by omega) (by omega) (by omega)
      · simp only [if_neg hr]
        refine (rewind_wp h2.1).bindd fun _ l3 h3 => ?_
        have e3 := h3.2.1
        exact Wd.pure ⟨h3.1, by omega, by omega⟩

/-! ## Messages -/

theorem msgLoop_end {src : Bytes} {l : L} (h : Inside src l) (he : l.pos = src.length) (n : Nat) : msgLoop n l = .hang := by
  induction n generalizing l with
  | zero => rfl
  | succ n ih =>
    unfold msgLoop
    have hn : next l = .ok none { l with stack := none :: l.stack } := by
      unfold next
      rw [h.source, List.drop_eq_nil_of_le (by omega)]
    show Lx.bind next _ l = _
    simp only [Lx.bind, hn]
    rw [if_pos (by simp)]
    exact ih ⟨h.source, h.start, h.pos⟩ he

theorem msgLoopd {src : Bytes} (n : Nat) {l : L} (h : Inside src l) (hn : src.length - l.pos < n) :
    Wd (fun n => msgLoop n) n l fun _ l' => Inside src l' ∧ l'.start = l.start := by
  induction n generalizing l with
  | zero => omega
  | succ n ih =>
    by_cases he : l.pos = src.length
    · exact Wd.forever (msgLoop_end h he)
    · refine Wd.succ rfl ?_
      simp only [msgLoop]
      refine (next_wp h).bindd fun r l1 h1 => ?_
      obtain ⟨g1, g2, -, g4⟩ := h1
      by_cases hr : r ≠ some 34
      · simp only [if_pos hr]
        rcases g4 with ⟨-, -, hh⟩ | ⟨c, -, hread⟩
        · exact absurd hh he
        · have := hread.lt
          have := g1.pos
          exact (ih g1 (by omega)).mono fun _ l' h' => ⟨h'.1, by rw [h'.2, g2]⟩
      · simp only [if_neg hr]
        exact Wd.pure ⟨g1, g2⟩

theorem grabMsgd {src : Bytes} (n : Nat) (hn : src.length < n) {l : L} (h : Inside src l) : Wd grabMsg n l (Moved src l) := by
  show Wd (fun n => grabMsg n) n l _
  unfold grabMsg
  refine (next_some h).bindd fun r l1 h1 => ?_
  by_cases hr : r ≠ some 34
  · simp only [if_pos hr]
    refine Wd.lift ((rewind_wp h1.1).bind fun _ l2 h2 => ?_)
    exact Wp.pure ⟨h2.1, by rw [h2.2.1, h1.2.1]; omega, by simp⟩
  · simp only [if_neg hr]
    have p1 := h1.2.2 34 (by simpa using hr)
    refine (emit_wp h1.1 _).bindd fun _ l2 h2 => ?_
    refine Wd.bind (Cons.one fun _ _ hn => Le.msgLoop hn) (msgLoopd n h2.1 (by omega)) fun _ l3 h3 => ?_
    refine Wd.lift ((rewind_wp h3.1).bind fun _ l4 h4 => ?_)
    refine (emit_wp h4.1 _).bind fun _ l5 h5 => ?_
    refine (next_wp h5.1).bind fun _ l6 h6 => ?_
    refine (emit_wp h6.1 _).bind fun _ l7 h7 => ?_
    have e3 := h3.2
    have e4 := h4.2.1
    have e6 := h6.2.1
    have := h4.1.start
    have := h6.1.start
    exact Wp.pure ⟨h7.1, by omega, by omega⟩

/-! ## Strings -/

theorem stringLoop_end (esc : Nat → Nat) {src : Bytes} {l : L} (h : Inside src l) (he : l.pos = src.length) (n : Nat) :
    stringLoop esc n false l = .hang := by
  induction n generalizing l with
  | zero => rfl
  | succ n ih =>
    unfold stringLoop
    have hn : next l = .ok none { l with stack := none :: l.stack } := by
      unfold next
      rw [h.source, List.drop_eq_nil_of_le (by omega)]
    show Lx.bind next _ l = _
    simp only [Lx.bind, hn]
    simp only [Bool.false_eq_true, if_false]
    rw [if_neg (by simp), if_neg (by simp), if_neg (by simp)]
    show Lx.bind (emit _) _ _ = _
    simp only [Lx.bind, emit]
    exact ih ⟨h.source, Nat.le_refl _, h.pos⟩ he

/-- `grabEscapeInString` panics or sends something. -/
theorem escape_wp {src : Bytes} (esc : Nat) {l : L} (h : Inside src l) : Wp (grabEscapeInString esc) l fun _ l' =>
    Inside src l' ∧ l.start < l'.start ∧ l'.pos = l'.start := by
  unfold grabEscapeInString
  refine (next_wp h).bind fun r l1 h1 => ?_
  obtain ⟨g1, g2, -, g4⟩ := h1
  have hs := h.start
  rcases g4 with ⟨rfl, -⟩ | ⟨c, rfl, hr⟩
  · rw [if_neg (by simp), if_neg (by simp [containsRune]), if_neg (by simp), if_neg (by simp)]
    exact Wp.error.bind fun _ _ h => h
  have q1 := hr.lt
  have next_le : ∀ l, Inside src l → Wp next l fun _ l' => Inside src l' ∧ l'.start = l.start ∧ l.pos ≤ l'.pos := by
    intro l h
    refine (next_wp h).mono fun r l' h' => ⟨h'.1, h'.2.1, ?_⟩
    rcases h'.2.2.2 with ⟨-, e, -⟩ | ⟨c, -, hr⟩
    · omega
    · have := hr.lt; omega
  split
  · refine (emit_wp g1 _).bind fun _ l2 h2 => ?_
    exact Wp.pure ⟨h2.1, by omega, by omega⟩
  split
  · refine (next_le _ g1).bind fun _ l2 h2 => ?_
    refine (next_le _ h2.1).bind fun _ l3 h3 => ?_
    refine (emit_wp h3.1 _).bind fun _ l4 h4 => ?_
    exact Wp.pure ⟨h4.1, by omega, by omega⟩
  split
  · refine (next_wp g1).bind fun r2 l2 h2 => ?_
    refine (next_wp h2.1).bind fun r3 l3 h3 => ?_
    refine (next_wp h3.1).bind fun r4 l4 h4 => ?_
    obtain ⟨a1, a2, -, a4⟩ := h2
    obtain ⟨b1, b2, -, b4⟩ := h3
    obtain ⟨c1, c2, c3, c4⟩ := h4
    have m2 : l1.pos ≤ l2.pos ∧ (l2.pos < src.length → l1.pos < l2.pos) := by
      rcases a4 with ⟨-, e, e'⟩ | ⟨_, -, hr⟩
      · exact ⟨by omega, by omega⟩
      · have := hr.lt; exact ⟨by omega, by omega⟩
    have m3 : l2.pos ≤ l3.pos ∧ (l3.pos < src.length → l2.pos < l3.pos) := by
      rcases b4 with ⟨-, e, e'⟩ | ⟨_, -, hr⟩
      · exact ⟨by omega, by omega⟩
      · have := hr.lt; exact ⟨by omega, by omega⟩
    split
    · have : l3.pos ≤ l4.pos := by
        rcases c4 with ⟨-, e, -⟩ | ⟨_, -, hr⟩
        · omega
        · have := hr.lt; omega
      refine (emit_wp c1 _).bind fun _ l5 h5 => ?_
      exact Wp.pure ⟨h5.1, by omega, by omega⟩
    · refine (rewind_wp c1).bind fun _ l5 h5 => ?_
      obtain ⟨r1, r2, -, -, r5, r6⟩ := h5
      refine (emit_wp r1 _).bind fun _ l6 h6 => ?_
      obtain ⟨s1, s2, s3, -⟩ := h6
      refine Wp.pure ⟨s1, ?_, by omega⟩
      rw [s2]
      rcases c4 with ⟨rfl, e, -⟩ | ⟨d, rfl, hr4⟩
      · have := r5 _ c3
        omega
      · have r6 := r6 _ _ c3
        have := c1.pos
        rcases hr4 with ⟨rfl, e, -⟩ | ⟨-, e, -⟩
        · have : (encodeRune runeError).length = 3 := by decide
          omega
        · omega
  split
  · refine (next_le _ g1).bind fun _ l2 h2 => ?_
    refine (next_le _ h2.1).bind fun _ l3 h3 => ?_
    refine (emit_wp h3.1 _).bind fun _ l4 h4 => ?_
    exact Wp.pure ⟨h4.1, by omega, by omega⟩
  · exact Wp.error.bind fun _ _ h => h

theorem stringLoopd {src : Bytes} (esc : Nat → Nat) (n : Nat) (en : Bool) {l0 l : L} (h : Inside src l) (h0 : l0.start ≤ l.start)
    (hn : 2 * (src.length - l.start) + 1 < n + en.toNat) (hf : en = false → l.pos = l.start) :
    Wd (fun n => stringLoop esc n en) n l (Moved src l0) := by
  induction n generalizing l en with
  | zero =>
    cases en with
    | false => simp at hn
    | true => simp at hn
  | succ n ih =>
    cases en with
    | true =>
      refine Wd.succ rfl ?_
      simp only [stringLoop]
      refine (next_wp h).bindd fun r l1 h1 => ?_
      simp only [if_true]
      refine (rewind_wp h1.1).bindd fun _ l2 h2 => ?_
      refine (position_wp l2).bindd fun p l3 h3 => ?_
      subst h3
      refine (escape_wp (esc p) h2.1).bindd fun _ l4 h4 => ?_
      have e1 := h1.2.1
      have e2 := h2.2.1
      have := h4.1.start
      have := h4.1.pos
      simp only [Bool.toNat_true] at hn
      exact ih false h4.1 (by omega) (by simp only [Bool.toNat_false]; omega) (fun _ => h4.2.2)
    | false =>
      have hp := hf rfl
      by_cases he : l.pos = src.length
      · exact Wd.forever (stringLoop_end esc h he)
      refine Wd.succ rfl ?_
      simp only [stringLoop]
      refine (next_wp h).bindd fun r l1 h1 => ?_
      obtain ⟨g1, g2, -, g4⟩ := h1
      simp only [Bool.false_eq_true, if_false]
      simp only [Bool.toNat_false, Nat.add_zero] at hn
      have hlt : l.pos < l1.pos := by
        rcases g4 with ⟨-, -, hh⟩ | ⟨c, -, hread⟩
        · exact absurd hh he
        · exact hread.lt
      have := g1.pos
      by_cases c34 : r = some 34
      · simp only [if_pos c34]
        refine Wd.lift ((emit_wp g1 _).bind fun _ l2 h2 => ?_)
        exact Wp.pure ⟨h2.1, by omega, by omega⟩
      simp only [if_neg c34]
      by_cases c10 : r = some 10
      · simp only [if_pos c10]
        exact Wd.lift (Wp.error.bind fun _ _ h => h)
      simp only [if_neg c10]
      by_cases c92 : r = some 92
      · simp only [if_pos c92]
        exact ih true g1 (by omega) (by simp only [Bool.toNat_true]; omega) (by simp)
      simp only [if_neg c92]
      refine (emit_wp g1 _).bindd fun _ l2 h2 => ?_
      exact ih false h2.1 (by omega) (by simp only [Bool.toNat_false]; omega) (fun _ => by omega)

theorem grabStringd {src : Bytes} (esc : Nat → Nat) (n : Nat) (hn : 2 * src.length + 2 ≤ n) {l : L} (h : Inside src l) :
    Wd (grabString esc) n l (Moved src l) := by
  show Wd (fun n => grabString esc n) n l _
  unfold grabString
  refine (peek_wp h).bindd fun r l1 h1 => ?_
  obtain ⟨⟨g1, g2⟩, -, g4⟩ := h1
  by_cases hr : r ≠ some 34
  · simp only [if_pos hr]
    exact Wd.pure ⟨g1, by omega, by simp⟩
  simp only [if_neg hr]
  obtain ⟨e1, e2⟩ := g4 (by simpa using hr)
  refine (next_wp g1).bindd fun r2 l2 h2 => ?_
  obtain ⟨k1, k2, -, k4⟩ := h2
  obtain ⟨hlt, -⟩ := List.getElem?_eq_some_iff.mp e2
  have hl2 : l.pos < l2.pos := by
    rcases k4 with ⟨-, -, he⟩ | ⟨c, -, hread⟩
    · omega
    · have := hread.lt; omega
  refine (peek_wp k1).bindd fun r3 l3 h3 => ?_
  obtain ⟨⟨m1, m2⟩, -, m4⟩ := h3
  have hst := h.start
  have hst3 := m1.start
  by_cases hr3 : r3 = some 34
  · simp only [if_pos hr3]
    have := (m4 hr3).1
    refine Wd.lift ((next_wp m1).bind fun r4 l4 h4 => ?_)
    obtain ⟨n1, n2, -, n4⟩ := h4
    have : l3.pos ≤ l4.pos := by
      rcases n4 with ⟨-, e, -⟩ | ⟨c, -, hread⟩
      · omega
      · have := hread.lt; omega
    refine (emit_wp n1 _).bind fun _ l5 h5 => ?_
    exact Wp.pure ⟨h5.1, by omega, by omega⟩
  · simp only [if_neg hr3]
    refine (emit_wp m1 _).bindd fun _ l4 h4 => ?_
    obtain ⟨n1, n2, n3, -⟩ := h4
    exact stringLoopd esc n false n1 (by omega) (by simp only [Bool.toNat_false]; omega) (fun _ => by omega)

theorem Cons.grab (esc : Nat → Nat) (g : Grab) : Cons fun n => g.run esc n := Cons.one fun _ _ hn => Le.grab esc hn g

theorem grabd {src : Bytes} (esc : Nat → Nat) (n : Nat) (hn : 2 * src.length + 2 ≤ n) (g : Grab) {l : L} (h : Inside src l) :
    Wd (fun n => g.run esc n) n l (Moved src l) := by
  have list : ∀ {g : Nat → Lx Bool}, Cons g → (∀ l, Inside src l → Wd g n l (Moved src l)) → Wd (fun n => grabListLoop (g n) n false) n l (Moved src l) :=
    fun hm hg => Wd.comp (fun n => (n, n)) (grabListd hm hg n false h (by omega) (Nat.le_refl _) (by simp))
  cases g with
  | charList => exact list (g := fun _ => grabChar) (Cons.const _) fun l h => Wd.lift (grabChar_wp h)
  | stringList => exact list (g := grabString esc) (Cons.one fun _ _ hn => Le.grabString esc hn) fun l h => grabStringd esc n hn h
  | charPairList => exact list (g := fun _ => grabCharPair) (Cons.const _) fun l h => Wd.lift (grabCharPair_wp h)
  | string => exact grabStringd esc n hn h
  | int => exact Wd.lift (grabInt_wp h)
  | intList => exact list (g := fun _ => grabInt) (Cons.const _) fun l h => Wd.lift (grabInt_wp h)
  | msg => exact grabMsgd n (by omega) h

/-! ## The states -/

theorem sGenericd {src : Bytes} (esc : Nat → Nat) (n : Nat) (hn : 2 * src.length + 2 ≤ n) (c : Cat) {l : L} (h : Inside src l) :
    Wd (fun n => sGeneric esc n c) n l fun _ l' => Inside src l' ∧ l.start < l'.start := by
  unfold sGeneric
  refine (grabWhitespace_wp h).bindd fun _ l1 h1 => ?_
  have e1 := h1.2.1
  refine (take_wp _ h1.1).bindd fun _ l2 h2 => ?_
  have e2 := h2.2
  refine (current_wp h2.1).bindd fun word l3 h3 => ?_
  obtain ⟨rfl, -, h3⟩ := h3
  by_cases hw : word = b!"END"
  · simp only [if_pos hw]
    have p3 := h3 (by rw [hw]; decide)
    refine Wd.lift ((emit_wp h2.1 _).bind fun _ l4 h4 => ?_)
    refine (must_wp (grabWhitespace_wp h4.1)).bind fun _ l5 h5 => ?_
    refine (take_wp _ h5.1).bind fun _ l6 h6 => ?_
    refine (current_wp h6.1).bind fun cur l7 h7 => ?_
    obtain ⟨rfl, -, -⟩ := h7
    have e6 := h6.2
    split
    · exact Wp.error.bind fun _ _ h => h
    · refine (emit_wp h6.1 _).bind fun _ l8 h8 => ?_
      refine (grabWhitespace_wp h8.1).bind fun _ l9 h9 => ?_
      refine (must_wp (grabNewline_wp h9.1)).bind fun _ l10 h10 => ?_
      have := h6.1.start
      have := h9.2.1
      exact Wp.pure ⟨h10.1, by omega⟩
  · simp only [if_neg hw]
    cases hf : c.map.find? (fun e => e.1 == word) with
    | none =>
      dsimp only
      refine Wd.lift ?_
      exact Wp.error.bind fun _ _ h => h
    | some e =>
      dsimp only
      have hmem := List.mem_of_find?_eq_some hf
      have heq : e.1 = word := by
        have := List.find?_some hf
        simpa using this
      have hm := List.all_eq_true.mp (map_ok c) _ hmem
      simp only [decide_eq_true_eq] at hm
      have p3 := h3 (by rw [← heq]; exact hm.2.2.1)
      refine (emit_wp h2.1 _).bindd fun _ l4 h4 => ?_
      refine (must_wp (grabWhitespace_wp h4.1)).bindd fun _ l5 h5 => ?_
      refine Wd.bind ?_ (mustd (Cons.grab esc e.2.2) (grabd esc n hn e.2.2 h5.1)) fun _ l6 h6 => ?_
      · exact Cons.one fun _ _ hn => Le.must (Le.grab esc hn e.2.2)
      refine Wd.lift ((must_wp (grabNewline_wp h6.1)).bind fun _ l7 h7 => ?_)
      exact Wp.pure ⟨h7.1, by omega⟩

theorem sCategoryd {src : Bytes} {l : L} (h : Inside src l) :
    Wp sCategory l fun st l' => Inside src l' ∧ (st = none ∨ l.start < l'.start) := by
  unfold sCategory
  refine (take_wp _ h).bind fun _ l1 k1 => ?_
  refine (current_wp k1.1).bind fun header l2 k2 => ?_
  obtain ⟨rfl, hh, k2⟩ := k2
  have key : ∀ (o : Option (Tm × St)), (o = none ∨ header ≠ []) →
      Wp (match o with
        | none => Pure.pure none
        | some (tm, st) => do
          emit tm.code
          take whiteSpace
          must grabNewline
          Pure.pure (some st)) l2 fun st l' => Inside src l' ∧ (st = none ∨ l.start < l'.start) := by
    rintro o ho
    cases o with
    | none => exact Wp.pure ⟨k1.1, .inl rfl⟩
    | some x =>
      obtain ⟨tm, st⟩ := x
      have p := k2 (ho.resolve_left (by simp))
      have e1 := k1.2
      refine (emit_wp k1.1 _).bind fun _ l3 k3 => ?_
      refine (take_wp _ k3.1).bind fun _ l4 k4 => ?_
      refine (must_wp (grabNewline_wp k4.1)).bind fun _ l5 k5 => ?_
      have e4 := k4.2
      exact Wp.pure ⟨k5.1, .inr (by omega)⟩
  refine key _ ?_
  by_cases hne : header = []
  · left
    subst hne
    rfl
  · exact .inr hne

theorem sOrder_wp {src : Bytes} {l : L} (h : Inside src l) : Wp sOrder l fun _ l' => Inside src l' ∧ l.start < l'.start := by
  unfold sOrder
  refine (grabChar_wp h).bind fun b l1 h1 => ?_
  have e1 := h1.2.1
  cases b with
  | true =>
    simp only [Bool.not_true, Bool.false_eq_true, if_false]
    refine (must_wp (grabNewline_wp h1.1)).bind fun _ l2 h2 => ?_
    exact Wp.pure ⟨h2.1, by omega⟩
  | false =>
    simp only [Bool.not_false, if_true]
    refine (take_wp _ h1.1).bind fun _ l2 h2 => ?_
    refine (current_wp h2.1).bind fun cur l3 h3 => ?_
    obtain ⟨rfl, -, h3⟩ := h3
    have e2 := h2.2
    by_cases hc : cur ≠ b!"order_end"
    · rw [if_pos hc]
      exact Wp.error.bind fun _ _ h => h
    · rw [if_neg hc]
      refine (emit_wp h2.1 _).bind fun _ l4 h4 => ?_
      refine (must_wp (grabNewline_wp h4.1)).bind fun _ l5 h5 => ?_
      have := h2.1.start
      exact Wp.pure ⟨h5.1, by omega⟩

/-! ## The two states that may stay where they are -/

/-- Where `Take` ends: the position after it, given the start of the token and the position before. -/
def takeTo (chars src : Bytes) (start : Nat) : Nat → Nat → Nat
  | 0, p => p
  | n + 1, p =>
    match src.drop p with
    | [] => p
    | b :: rest =>
      if containsRune chars (some (decodeRune b rest).1) then takeTo chars src start n (p + (decodeRune b rest).2)
      else max start (p + (decodeRune b rest).2 - (encodeRune (decodeRune b rest).1).length)

theorem takeLoop_eq {src : Bytes} (chars : Bytes) (n : Nat) {l : L} (h : Inside src l) (hn : src.length - l.pos < n) :
    ∃ st, takeLoop chars n l = .ok () { l with pos := takeTo chars src l.start n l.pos, stack := st } := by
  induction n generalizing l with
  | zero => omega
  | succ n ih =>
    unfold takeLoop takeTo
    show ∃ st, Lx.bind next _ l = _
    simp only [Lx.bind, next, h.source]
    cases hd : src.drop l.pos with
    | nil =>
      dsimp only [containsRune]
      exact ⟨l.stack, rfl⟩
    | cons b rest =>
      dsimp only
      have hlen : rest.length + 1 = src.length - l.pos := by
        have := congrArg List.length hd
        simp only [List.length_drop, List.length_cons] at this
        omega
      have hw := decode_width b rest
      have hs := h.start
      by_cases hc : containsRune chars (some (decodeRune b rest).1) = true
      · rw [if_pos hc, if_pos hc]
        have := ih (l := { l with pos := l.pos + (decodeRune b rest).2, stack := some (decodeRune b rest).1 :: l.stack })
          ⟨h.source, by dsimp only; omega, by dsimp only; omega⟩ (by dsimp only; omega)
        simpa only [h.source] using this
      · rw [if_neg hc, if_neg hc]
        exact ⟨l.stack, rfl⟩

/-- Where `Take` ends. -/
def takeEnd (chars src : Bytes) (start p : Nat) : Nat := takeTo chars src start (src.length - p + 1) p

theorem take_eq {src : Bytes} (chars : Bytes) {l : L} (h : Inside src l) :
    ∃ st, take chars l = .ok () { l with pos := takeEnd chars src l.start l.pos, stack := st } := by
  unfold take
  rw [h.source]
  have := takeLoop_eq chars (src.length - l.pos + 1) h (by omega)
  simpa only [h.source, takeEnd] using this

theorem take_inside {src : Bytes} (chars : Bytes) {l l' : L} (h : Inside src l) (e : take chars l = .ok () l') : Inside src l' := by
  have := take_wp chars h
  unfold Wp at this
  rw [e] at this
  exact this.1

theorem grabWhitespace_eq {src : Bytes} {l : L} (h : Inside src l) :
    (takeEnd whiteSpace src l.start l.pos = l.start ∧ ∃ st, grabWhitespace l = .ok false { l with pos := l.start, stack := st }) ∨
    (takeEnd whiteSpace src l.start l.pos ≠ l.start ∧ ∃ l', grabWhitespace l = .ok true l' ∧ Inside src l' ∧ l.start < l'.start) := by
  obtain ⟨st, e⟩ := take_eq whiteSpace h
  have hi := take_inside _ h e
  have hs := hi.start
  have hp := hi.pos
  dsimp only at hs hp
  have run : grabWhitespace l = (if L.current { l with pos := takeEnd whiteSpace src l.start l.pos, stack := st } = [] then
      .ok false { l with pos := takeEnd whiteSpace src l.start l.pos, stack := st }
    else .ok true { l with pos := takeEnd whiteSpace src l.start l.pos, stack := [], start := takeEnd whiteSpace src l.start l.pos,
                           toks := l.toks ++ [⟨WHITESPACE, L.current { l with pos := takeEnd whiteSpace src l.start l.pos, stack := st }⟩] }) := by
    unfold grabWhitespace
    show Lx.bind (take _) _ l = _
    simp only [Lx.bind, e]
    show Lx.bind current _ _ = _
    simp only [Lx.bind, current]
    split <;> rfl
  have hcur : L.current { l with pos := takeEnd whiteSpace src l.start l.pos, stack := st } = [] ↔ takeEnd whiteSpace src l.start l.pos = l.start := by
    unfold L.current
    rw [h.source, ← List.length_eq_zero_iff]
    simp only [List.length_drop, List.length_take]
    omega
  by_cases hc : takeEnd whiteSpace src l.start l.pos = l.start
  · left
    refine ⟨hc, st, ?_⟩
    rw [run, if_pos (hcur.mpr hc), hc]
  · right
    refine ⟨hc, _, by rw [run, if_neg (fun e => hc (hcur.mp e))], ?_, ?_⟩
    · exact ⟨h.source, Nat.le_refl _, hp⟩
    · dsimp only; omega

theorem Wp.of_eq {α : Type} {m : Lx α} {l l' : L} {a : α} {Q : α → L → Prop} (e : m l = .ok a l') (h : Q a l') : Wp m l Q := by
  unfold Wp
  rw [e]
  exact h

theorem take_wp' {src : Bytes} (chars : Bytes) {l : L} (h : Inside src l) :
    Wp (take chars) l fun _ l' => Inside src l' ∧ l'.start = l.start ∧ l'.pos = takeEnd chars src l.start l.pos := by
  obtain ⟨st, e⟩ := take_eq chars h
  exact Wp.of_eq e ⟨take_inside _ h e, rfl, rfl⟩

/-- The words `LC_COLLATE` sections may have. -/
def collateWords : List Bytes := [b!"END", b!"order_start", b!"collating-element", b!"collating-symbol"]

/-- The word at a place. -/
def wordAt (chars src : Bytes) (start p : Nat) : Bytes := (src.take (takeEnd chars src start p)).drop start

/-- localelex.go:383-421: `sCollateCategory` after the blanks. -/
def collateRest (esc : Nat → Nat) (n : Nat) : Lx (Option St) := do
  take (upperChars ++ lowerChars ++ b!"_")
  let word ← current
  if word = b!"END" then do
    emit Tm.END_STR.code
    must grabWhitespace
    take upperChars
    let cur ← current
    if cur ≠ b!"LC_COLLATE" then error else pure ()
    emit Tm.LC_COLLATE_STR.code
    let _ ← grabNewline
    pure (some .category)
  else if word = b!"order_start" then do
    emit Tm.ORDER_START_STR.code
    pure (some .orderStart)
  else if word = b!"collating-element" then do
    emit Tm.COLLATING_ELEMENT_STR.code
    must grabWhitespace
    must grabChar
    must grabWhitespace
    take b!"from"
    let cur ← current
    if cur ≠ b!"from" then error else pure ()
    emit Tm.FROM_STR.code
    must grabWhitespace
    must (grabString esc n)
    let _ ← grabWhitespace
    must grabNewline
    pure (some .collate)
  else if word = b!"collating-symbol" then do
    emit Tm.COLLATING_SYMBOL_STR.code
    must grabWhitespace
    must (grabString esc n)
    let _ ← grabWhitespace
    must grabNewline
    pure (some .collate)
  else pure (some .collate)

theorem sCollate_rest (esc : Nat → Nat) (n : Nat) : sCollate esc n = (do let _ ← grabWhitespace; collateRest esc n) := rfl

theorem collateRestd {src : Bytes} (esc : Nat → Nat) (n : Nat) (hn : 2 * src.length + 2 ≤ n) {l : L} (h : Inside src l) :
    Wd (fun n => collateRest esc n) n l fun _ l' => Inside src l' ∧ l.start ≤ l'.start ∧
      (wordAt (upperChars ++ lowerChars ++ b!"_") src l.start l.pos ∈ collateWords → l.start < l'.start) := by
  unfold collateRest
  refine (take_wp' _ h).bindd fun _ l1 h1 => ?_
  obtain ⟨i1, e1, e2⟩ := h1
  refine (current_wp i1).bindd fun word l2 h2 => ?_
  obtain ⟨rfl, hw, h2⟩ := h2
  have hword : wordAt (upperChars ++ lowerChars ++ b!"_") src l.start l.pos = word := by rw [hw, wordAt, e2, e1]
  rw [hword]
  have strs : Cons fun n => must (grabString esc n) := Cons.one fun _ _ hn => Le.must (Le.grabString esc hn)
  by_cases c1 : word = b!"END"
  · simp only [if_pos c1]
    have p := h2 (by rw [c1]; decide)
    refine Wd.lift ((emit_wp i1 _).bind fun _ l4 h4 => ?_)
    refine (must_wp (grabWhitespace_wp h4.1)).bind fun _ l5 h5 => ?_
    refine (take_wp _ h5.1).bind fun _ l6 h6 => ?_
    refine (current_wp h6.1).bind fun cur l7 h7 => ?_
    obtain ⟨rfl, -, -⟩ := h7
    have e6 := h6.2
    split
    · exact Wp.error.bind fun _ _ h => h
    · refine (emit_wp h6.1 _).bind fun _ l8 h8 => ?_
      refine (grabNewline_wp h8.1).bind fun _ l9 h9 => ?_
      have := h6.1.start
      have := h9.2.1
      exact Wp.pure ⟨h9.1, by omega, by omega⟩
  simp only [if_neg c1]
  by_cases c2 : word = b!"order_start"
  · simp only [if_pos c2]
    have p := h2 (by rw [c2]; decide)
    refine Wd.lift ((emit_wp i1 _).bind fun _ l4 h4 => ?_)
    exact Wp.pure ⟨h4.1, by omega, by omega⟩
  simp only [if_neg c2]
  by_cases c3 : word = b!"collating-element"
  · simp only [if_pos c3]
    have p := h2 (by rw [c3]; decide)
    refine (emit_wp i1 _).bindd fun _ l4 h4 => ?_
    refine (must_wp (grabWhitespace_wp h4.1)).bindd fun _ l5 h5 => ?_
    refine (must_wp (grabChar_wp h5.1)).bindd fun _ l6 h6 => ?_
    refine (must_wp (grabWhitespace_wp h6.1)).bindd fun _ l7 h7 => ?_
    refine (take_wp _ h7.1).bindd fun _ l8 h8 => ?_
    refine (current_wp h8.1).bindd fun cur l9 h9 => ?_
    obtain ⟨rfl, -, -⟩ := h9
    have e8 := h8.2
    by_cases hc : cur ≠ b!"from"
    · simp only [if_pos hc]
      exact (Wp.error (Q := fun _ _ => False)).bindd fun _ _ h => h.elim
    · simp only [if_neg hc]
      refine (emit_wp h8.1 _).bindd fun _ l11 h11 => ?_
      refine (must_wp (grabWhitespace_wp h11.1)).bindd fun _ l12 h12 => ?_
      refine Wd.bind strs (mustd (Cons.one fun _ _ hn => Le.grabString esc hn) (grabStringd esc n hn h12.1)) fun _ l13 h13 => ?_
      refine Wd.lift ((grabWhitespace_wp h13.1).bind fun _ l14 h14 => ?_)
      refine (must_wp (grabNewline_wp h14.1)).bind fun _ l15 h15 => ?_
      have := h8.1.start
      have := h14.2.1
      exact Wp.pure ⟨h15.1, by omega, by omega⟩
  simp only [if_neg c3]
  by_cases c4 : word = b!"collating-symbol"
  · simp only [if_pos c4]
    have p := h2 (by rw [c4]; decide)
    refine (emit_wp i1 _).bindd fun _ l4 h4 => ?_
    refine (must_wp (grabWhitespace_wp h4.1)).bindd fun _ l5 h5 => ?_
    refine Wd.bind strs (mustd (Cons.one fun _ _ hn => Le.grabString esc hn) (grabStringd esc n hn h5.1)) fun _ l13 h13 => ?_
    refine Wd.lift ((grabWhitespace_wp h13.1).bind fun _ l14 h14 => ?_)
    refine (must_wp (grabNewline_wp h14.1)).bind fun _ l15 h15 => ?_
    have := h14.2.1
    exact Wp.pure ⟨h15.1, by omega, by omega⟩
  simp only [if_neg c4]
  refine Wd.pure ⟨i1, by omega, fun hmem => ?_⟩
  simp only [collateWords, List.mem_cons, List.not_mem_nil, or_false] at hmem
  rcases hmem with h | h | h | h <;> contradiction

/-- The collating state reads nothing it knows, and no blanks are left to read. -/
def CollateStays (src : Bytes) (l : L) : Prop :=
  takeEnd whiteSpace src l.start l.pos = l.start ∧ wordAt (upperChars ++ lowerChars ++ b!"_") src l.start l.start ∉ collateWords

theorem collate_stays (esc : Nat → Nat) {src : Bytes} {l : L} (h : Inside src l) (hs : CollateStays src l) :
    ∃ st, ∀ n, sCollate esc n l = .ok (some .collate)
      { l with pos := takeEnd (upperChars ++ lowerChars ++ b!"_") src l.start l.start, stack := st } := by
  obtain ⟨h1, h2⟩ := hs
  rcases grabWhitespace_eq h with ⟨-, st, e⟩ | ⟨h', -⟩
  · obtain ⟨st', e'⟩ := take_eq (upperChars ++ lowerChars ++ b!"_") (l := { l with pos := l.start, stack := st })
      ⟨h.source, Nat.le_refl _, Nat.le_trans h.start h.pos⟩
    refine ⟨st', fun n => ?_⟩
    rw [sCollate_rest]
    show Lx.bind grabWhitespace _ l = _
    simp only [Lx.bind, e]
    unfold collateRest
    show Lx.bind (take _) _ _ = _
    simp only [Lx.bind, e']
    show Lx.bind current _ _ = _
    simp only [Lx.bind, current]
    have hc : L.current { l with pos := takeEnd (upperChars ++ lowerChars ++ b!"_") src l.start l.start, stack := st' } =
        wordAt (upperChars ++ lowerChars ++ b!"_") src l.start l.start := by
      unfold L.current wordAt
      rw [h.source]
    rw [hc]
    simp only [collateWords, List.mem_cons, List.not_mem_nil, or_false, not_or] at h2
    rw [if_neg h2.1, if_neg h2.2.1, if_neg h2.2.2.1, if_neg h2.2.2.2]
    rfl
  · exact absurd h1 h'

theorem collate_moves {src : Bytes} (esc : Nat → Nat) (n : Nat) (hn : 2 * src.length + 2 ≤ n) {l : L} (h : Inside src l) (hs : ¬ CollateStays src l) :
    Wd (fun n => sCollate esc n) n l fun _ l' => Inside src l' ∧ l.start < l'.start := by
  simp only [sCollate_rest]
  rcases grabWhitespace_eq h with ⟨h1, st, e⟩ | ⟨-, l', e, h1, h2⟩
  · have hw : wordAt (upperChars ++ lowerChars ++ b!"_") src l.start l.start ∈ collateWords := by
      by_cases hw : wordAt (upperChars ++ lowerChars ++ b!"_") src l.start l.start ∈ collateWords
      · exact hw
      · exact absurd ⟨h1, hw⟩ hs
    refine (Wp.of_eq e (Q := fun _ l' => l' = { l with pos := l.start, stack := st }) rfl).bindd fun _ l1 h1 => ?_
    subst h1
    have hi : Inside src { l with pos := l.start, stack := st } := ⟨h.source, Nat.le_refl _, Nat.le_trans h.start h.pos⟩
    exact (collateRestd esc n hn hi).mono fun _ l' h' => ⟨h'.1, h'.2.2 hw⟩
  · refine (Wp.of_eq e (Q := fun _ l1 => l1 = l') rfl).bindd fun _ l1 h3 => ?_
    subst h3
    exact (collateRestd esc n hn h1).mono fun _ l' h' => ⟨h'.1, by omega⟩

/-- localelex.go:426-438: `sCollateOrderStart` after the blanks. -/
def orderStartRest : Lx (Option St) := do
  take lowerChars
  let cur ← current
  if cur = [] then do
    must grabNewline
    pure (some .order)
  else if cur = b!"forward" then do
    emit Tm.FORWARD_STR.code
    pure (some .orderStart)
  else if cur = b!"backward" then do
    emit Tm.BACKWARD_STR.code
    pure (some .orderStart)
  else if cur = b!"position" then do
    emit Tm.POSITION_STR.code
    pure (some .orderStart)
  else pure (some .orderStart)

theorem sOrderStart_rest : sOrderStart = (do let _ ← grabWhitespace; orderStartRest) := rfl

/-- What may follow `order_start`. -/
def orderWords : List Bytes := [[], b!"forward", b!"backward", b!"position"]

theorem orderStartRest_wp {src : Bytes} {l : L} (h : Inside src l) : Wp orderStartRest l fun _ l' => Inside src l' ∧ l.start ≤ l'.start ∧
    (wordAt lowerChars src l.start l.pos ∈ orderWords → l.start < l'.start) := by
  unfold orderStartRest
  refine (take_wp' _ h).bind fun _ l1 h1 => ?_
  obtain ⟨i1, e1, e2⟩ := h1
  refine (current_wp i1).bind fun word l2 h2 => ?_
  obtain ⟨rfl, hw, h2⟩ := h2
  have hword : wordAt lowerChars src l.start l.pos = word := by rw [hw, wordAt, e2, e1]
  rw [hword]
  by_cases c1 : word = []
  · rw [if_pos c1]
    refine (must_wp (grabNewline_wp i1)).bind fun _ l3 h3 => ?_
    exact Wp.pure ⟨h3.1, by omega, by omega⟩
  have p := h2 c1
  rw [if_neg c1]
  by_cases c2 : word = b!"forward"
  · rw [if_pos c2]
    refine (emit_wp i1 _).bind fun _ l4 h4 => ?_
    exact Wp.pure ⟨h4.1, by omega, by omega⟩
  rw [if_neg c2]
  by_cases c3 : word = b!"backward"
  · rw [if_pos c3]
    refine (emit_wp i1 _).bind fun _ l4 h4 => ?_
    exact Wp.pure ⟨h4.1, by omega, by omega⟩
  rw [if_neg c3]
  by_cases c4 : word = b!"position"
  · rw [if_pos c4]
    refine (emit_wp i1 _).bind fun _ l4 h4 => ?_
    exact Wp.pure ⟨h4.1, by omega, by omega⟩
  rw [if_neg c4]
  refine Wp.pure ⟨i1, by omega, fun hmem => ?_⟩
  simp only [orderWords, List.mem_cons, List.not_mem_nil, or_false] at hmem
  rcases hmem with h | h | h | h <;> contradiction

/-- The state after `order_start` reads nothing it knows, and no blanks are left to read. -/
def OrderStays (src : Bytes) (l : L) : Prop :=
  takeEnd whiteSpace src l.start l.pos = l.start ∧ wordAt lowerChars src l.start l.start ∉ orderWords

theorem orderStart_stays {src : Bytes} {l : L} (h : Inside src l) (hs : OrderStays src l) :
    ∃ st, sOrderStart l = .ok (some .orderStart) { l with pos := takeEnd lowerChars src l.start l.start, stack := st } := by
  obtain ⟨h1, h2⟩ := hs
  rcases grabWhitespace_eq h with ⟨-, st, e⟩ | ⟨h', -⟩
  · obtain ⟨st', e'⟩ := take_eq lowerChars (l := { l with pos := l.start, stack := st })
      ⟨h.source, Nat.le_refl _, Nat.le_trans h.start h.pos⟩
    refine ⟨st', ?_⟩
    rw [sOrderStart_rest]
    show Lx.bind grabWhitespace _ l = _
    simp only [Lx.bind, e]
    unfold orderStartRest
    show Lx.bind (take _) _ _ = _
    simp only [Lx.bind, e']
    show Lx.bind current _ _ = _
    simp only [Lx.bind, current]
    have hc : L.current { l with pos := takeEnd lowerChars src l.start l.start, stack := st' } =
        wordAt lowerChars src l.start l.start := by
      unfold L.current wordAt
      rw [h.source]
    rw [hc]
    simp only [orderWords, List.mem_cons, List.not_mem_nil, or_false, not_or] at h2
    rw [if_neg h2.1, if_neg h2.2.1, if_neg h2.2.2.1, if_neg h2.2.2.2]
    rfl
  · exact absurd h1 h'

theorem orderStart_moves {src : Bytes} {l : L} (h : Inside src l) (hs : ¬ OrderStays src l) :
    Wp sOrderStart l fun _ l' => Inside src l' ∧ l.start < l'.start := by
  rw [sOrderStart_rest]
  rcases grabWhitespace_eq h with ⟨h1, st, e⟩ | ⟨-, l', e, h1, h2⟩
  · have hw : wordAt lowerChars src l.start l.start ∈ orderWords := by
      by_cases hw : wordAt lowerChars src l.start l.start ∈ orderWords
      · exact hw
      · exact absurd ⟨h1, hw⟩ hs
    refine (Wp.of_eq e (Q := fun _ l' => l' = { l with pos := l.start, stack := st }) rfl).bind fun _ l1 h1 => ?_
    subst h1
    have hi : Inside src { l with pos := l.start, stack := st } := ⟨h.source, Nat.le_refl _, Nat.le_trans h.start h.pos⟩
    exact (orderStartRest_wp hi).mono fun _ l' h' => ⟨h'.1, h'.2.2 hw⟩
  · refine (Wp.of_eq e (Q := fun _ l1 => l1 = l') rfl).bind fun _ l1 h3 => ?_
    subst h3
    exact (orderStartRest_wp h1).mono fun _ l' h' => ⟨h'.1, by omega⟩

/-! ## The main loop -/

/-- A state that stays where it is. -/
def Stays (src : Bytes) : St → L → Prop
  | .collate, l => CollateStays src l
  | .orderStart, l => OrderStays src l
  | _, _ => False

/-- The position at which a state that stays has left the lexer. -/
def stayPos (src : Bytes) : St → Nat → Nat
  | .collate, s => takeEnd (upperChars ++ lowerChars ++ b!"_") src s s
  | .orderStart, s => takeEnd lowerChars src s s
  | _, s => s

theorem call_stays (esc : Nat → Nat) {src : Bytes} {st : St} {l : L} (h : Inside src l) (hs : Stays src st l) :
    ∃ stk, ∀ n, st.call esc n l = .ok (some st) { l with pos := stayPos src st l.start, stack := stk } := by
  cases st with
  | collate => exact collate_stays esc h hs
  | orderStart =>
    obtain ⟨stk, e⟩ := orderStart_stays h hs
    exact ⟨stk, fun _ => e⟩
  | category => exact hs.elim
  | generic c => exact hs.elim
  | order => exact hs.elim

theorem call_moves (esc : Nat → Nat) {src : Bytes} (n : Nat) (hn : 2 * src.length + 2 ≤ n) {st : St} {l : L} (h : Inside src l) (hs : ¬ Stays src st l) :
    Wd (fun n => st.call esc n) n l fun o l' => Inside src l' ∧ (o = none ∨ l.start < l'.start) := by
  cases st with
  | collate => exact (collate_moves esc n hn h hs).mono fun _ _ h => ⟨h.1, .inr h.2⟩
  | orderStart => exact Wd.lift ((orderStart_moves h hs).mono fun _ _ h => ⟨h.1, .inr h.2⟩)
  | category => exact Wd.lift (sCategoryd h)
  | generic c => exact (sGenericd esc n hn c h).mono fun _ _ h => ⟨h.1, .inr h.2⟩
  | order => exact Wd.lift ((sOrder_wp h).mono fun _ _ h => ⟨h.1, .inr h.2⟩)

theorem stayPos_inside {src : Bytes} {l : L} (h : Inside src l) (st : St) (stk : List (Option Nat)) :
    Inside src { l with pos := stayPos src st l.start, stack := stk } := by
  have base : Inside src { l with pos := l.start } := ⟨h.source, Nat.le_refl _, Nat.le_trans h.start h.pos⟩
  have tk : ∀ chars, Inside src { l with pos := takeEnd chars src l.start l.start, stack := stk } := by
    intro chars
    obtain ⟨st, e⟩ := take_eq chars base
    have := take_inside _ base e
    exact ⟨this.source, this.start, this.pos⟩
  cases st with
  | collate => exact tk _
  | orderStart => exact tk _
  | category => exact ⟨h.source, Nat.le_refl _, Nat.le_trans h.start h.pos⟩
  | generic c => exact ⟨h.source, Nat.le_refl _, Nat.le_trans h.start h.pos⟩
  | order => exact ⟨h.source, Nat.le_refl _, Nat.le_trans h.start h.pos⟩

/-- Whether a state stays does not depend on the stack and the tokens. -/
theorem Stays.stack {src : Bytes} {st : St} {l : L} {stk : List (Option Nat)} (h : Stays src st l) : Stays src st { l with stack := stk } := by
  cases st <;> exact h

/-- A state that stays twice stays forever. -/
theorem stays_forever (esc : Nat → Nat) {src : Bytes} {st : St} (n k : Nat) {l : L} (h : Inside src l) (hs : Stays src st l)
    (hp : l.pos = stayPos src st l.start) : runLoop esc n k st l = .hang := by
  induction k generalizing l with
  | zero => rfl
  | succ k ih =>
    obtain ⟨stk, e⟩ := call_stays esc h hs
    unfold runLoop
    show Lx.bind (St.call esc n st) _ l = _
    simp only [Lx.bind, e n]
    have e' : { l with pos := stayPos src st l.start, stack := stk } = { l with stack := stk } := by rw [← hp]
    rw [e']
    exact ih ⟨h.source, h.start, h.pos⟩ hs.stack hp

theorem Cons.call (esc : Nat → Nat) (st : St) : Cons fun n => st.call esc n := Cons.one fun _ _ hn => Le.call esc hn st

theorem runLoopd (esc : Nat → Nat) {src : Bytes} (n : Nat) (hn : 2 * src.length + 2 ≤ n) (k : Nat) {st : St} {l : L} (h : Inside src l)
    (hk : 2 * (src.length - l.start) < k ∧ (Stays src st l → 2 * (src.length - l.start) + 1 < k)) :
    Wd (fun i : Nat × Nat => runLoop esc i.1 i.2 st) (n, k) l fun _ _ => True := by
  induction k generalizing st l with
  | zero => omega
  | succ k ih =>
    refine Wd.succ2 (fun _ => rfl) ?_
    by_cases hs : Stays src st l
    · obtain ⟨stk, e⟩ := call_stays esc h hs
      have hi := stayPos_inside h st stk
      have e1 : ∀ i : Nat × Nat, runLoop esc i.1 (i.2 + 1) st l = runLoop esc i.1 i.2 st { l with pos := stayPos src st l.start, stack := stk } := by
        intro i
        rw [runLoop]
        show Lx.bind (St.call esc i.1 st) _ l = _
        simp only [Lx.bind, e i.1]
      by_cases hs' : Stays src st { l with pos := stayPos src st l.start, stack := stk }
      · refine Wd.forever fun i => ?_
        show runLoop esc i.1 (i.2 + 1) st l = _
        rw [e1]
        exact stays_forever esc i.1 i.2 hi hs' rfl
      · have := ih hi (st := st) ⟨by have := hk.2 hs; dsimp only; omega, fun h => absurd h hs'⟩
        unfold Wd at this ⊢
        have e2 := e1 (n, k)
        dsimp only at e2 this ⊢
        rw [e2]
        split at this
        · trivial
        · trivial
        · intro i
          rw [e1]
          exact this i
    · simp only [runLoop]
      refine Wd.bind ((Cons.call esc st).comp Prod.fst) ((call_moves esc n hn h hs).comp (k := (n, k)) Prod.fst) fun o l1 h1 => ?_
      cases o with
      | none => exact Wd.pure trivial
      | some st' =>
        have p := h1.2.resolve_left (by simp)
        have := h1.1.start
        have := h1.1.pos
        exact ih h1.1 ⟨by omega, fun _ => by omega⟩

/-- **C56**, exactly: the lexer stops within `2 * length + 2` rounds of every loop or not at all. -/
theorem C56_decided (esc : Nat → Nat) (src : Bytes) (n : Nat) (hn : 2 * src.length + 2 ≤ n) :
    lexText esc n src = .hang ↔ ∀ n, lexText esc n src = .hang := by
  refine ⟨fun h m => ?_, fun h => h n⟩
  have hs : ¬ Stays src .category { source := src } := fun h => h
  have := runLoopd esc n hn n (st := .category) (l := { source := src }) ⟨rfl, Nat.le_refl _, Nat.zero_le _⟩
    ⟨by show 2 * (src.length - 0) < n; omega, fun h => absurd h hs⟩
  unfold Wd at this
  dsimp only at this
  unfold lexText at h
  rw [h] at this
  exact this (m, m)

/-! ## Files with comments -/

/-- The bytes of the lines, a newline after each. -/
def bulk : List Bytes → Nat
  | [] => 0
  | l :: ls => l.length + 1 + bulk ls

theorem bulk_join : ∀ ls : List Bytes, ls ≠ [] → bulk ls = (join [nl] ls).length + 1
  | [], h => absurd rfl h
  | [l], _ => by simp [bulk, join]
  | l :: m :: ls, _ => by
    have := bulk_join (m :: ls) (by simp)
    rw [bulk, this]
    simp only [join, List.length_append, List.length_cons, List.length_nil]
    omega

theorem bulk_split (s : Bytes) : bulk (split s [nl]) = s.length + 1 := by
  rw [bulk_join (split s [nl]) (splitFuel_ne_nil _ _ _), join_split]

theorem trimSpace_length (s : Bytes) : (trimSpace s).length ≤ s.length := by
  obtain ⟨u, ⟨⟨a, _, ha⟩, _⟩, ⟨b, _, hb⟩, _⟩ := trimSpace_spec s
  generalize trimSpace s = t at *
  subst hb
  rw [ha]
  simp only [List.length_append]
  omega

theorem joinLine_bulk (esc : Nat) : ∀ (rest : List Bytes) (l l' : Bytes) (rest' : List Bytes),
    joinLine esc l rest = .ok (l', rest') → l'.length + 1 + bulk rest' ≤ l.length + 1 + bulk rest := by
  intro rest
  induction rest with
  | nil =>
    intro l l' rest' h
    unfold joinLine at h
    grind
  | cons next rest ih =>
    intro l l' rest' h
    unfold joinLine at h
    dsimp only at h
    split at h
    · cases h; exact Nat.le_refl _
    · split at h
      · cases h
      · split at h
        · cases h; exact Nat.le_refl _
        · have := ih _ _ _ h
          have t := trimSpace_length next
          simp only [List.length_append, List.length_take] at this
          simp only [bulk]
          omega

theorem cleanFuel_length : ∀ (n comment esc : Nat) (out : Bytes) (ls : List Bytes) (text : Bytes) (e : Nat),
    cleanFuel n comment esc out ls = .ok (text, e) → text.length ≤ out.length + bulk ls := by
  intro n
  induction n with
  | zero => intro comment esc out ls text e h; cases h; omega
  | succ n ih =>
    intro comment esc out ls text e h
    cases ls with
    | nil => cases h; omega
    | cons l rest =>
      simp only [cleanFuel] at h
      split at h
      · have := ih _ _ _ _ _ _ h
        simp only [bulk]; omega
      · split at h
        · have := ih _ _ _ _ _ _ h
          simp only [bulk]; omega
        · split at h
          · cases h
          · next l' rest' hj =>
            have h1 := ih _ _ _ _ _ _ h
            have h2 := joinLine_bulk _ _ _ _ _ hj
            simp only [List.length_append, List.length_cons, List.length_nil] at h1
            simp only [bulk]; omega

/-- Removing comments and joining lines makes a file at most one byte longer. -/
theorem removeComments_length (input text : Bytes) (e : Nat) (h : removeComments input = .ok (text, e)) :
    text.length ≤ input.length + 1 := by
  have := cleanFuel_length _ _ _ _ _ _ _ h
  rw [bulk_split] at this
  simpa using this

/-- **C56**, exactly, for files with comments: reading a file stops within a number of rounds known from its length or
not at all. -/
theorem C56_decided_file (input : Bytes) (n : Nat) (hn : 2 * input.length + 4 ≤ n) :
    newLexer n input = .hang ↔ ∀ n, newLexer n input = .hang := by
  refine ⟨fun h m => ?_, fun h => h n⟩
  unfold newLexer at h ⊢
  cases hc : removeComments input with
  | error p => rw [hc] at h; cases h
  | ok te =>
    obtain ⟨text, e⟩ := te
    have hl := removeComments_length _ _ _ hc
    rw [hc] at h
    dsimp only at h ⊢
    have hh : lexText (fun _ => e) n text = .hang := by
      cases hx : lexText (fun _ => e) n text with
      | ok a l => rw [hx] at h; cases h
      | panic p => rw [hx] at h; cases h
      | hang => rfl
    rw [(C56_decided _ _ _ (by omega)).1 hh m]

/-- Files on both sides: one the lexer never finishes, one it does. -/
example : ∀ n, newLexer n b!"LC_MESSAGES\nyesexpr \"" = .hang :=
  (C56_decided_file b!"LC_MESSAGES\nyesexpr \"" 50 (by decide)).1 (by decide +kernel)

example : ¬ ∀ n, newLexer n b!"LC_MESSAGES\nyesexpr \"y\"\nEND LC_MESSAGES\n" = .hang := fun h =>
  absurd (h 100) (by decide +kernel)

end Locale
