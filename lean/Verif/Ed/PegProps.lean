import Verif.Ed.ParseProps

/-! # The generated parser on every buffer (C66) -/

namespace Ed
open Go

/-! ## Loops run to the end -/

/-- A rule that, when it succeeds, has moved forward. -/
def Consumes (p : P) : Prop := ∀ pos rs pos' rs' t, p pos rs = some (pos', rs', t) → rs'.length < rs.length

theorem starAux_unbounded {p : P} (hp : Consumes p) : ∀ (n m pos : Nat) (rs : List Nat), rs.length < n → rs.length < m →
    starAux p n pos rs = starAux p m pos rs := by
  intro n
  induction n with
  | zero => intro m pos rs h; omega
  | succ n ih =>
    intro m pos rs h1 h2
    obtain ⟨k, rfl⟩ : ∃ k, m = k + 1 := ⟨m - 1, by omega⟩
    simp only [starAux]
    cases hs : p pos rs with
    | none => rfl
    | some r =>
      obtain ⟨pos1, rs1, t1⟩ := r
      have := hp _ _ _ _ _ hs
      simp only
      rw [ih k pos1 rs1 (by omega) (by omega)]

/-- The bound in `star` makes no difference: any larger number of rounds gives the same. -/
theorem star_unbounded {p : P} (hp : Consumes p) (n pos : Nat) (rs : List Nat) (h : rs.length < n) :
    star p pos rs = some (starAux p n pos rs) := by
  simp only [star]
  rw [starAux_unbounded hp _ n pos rs (by omega) h]

theorem starAux_stops {p : P} (hp : Consumes p) : ∀ (n pos : Nat) (rs : List Nat), rs.length < n →
    p (starAux p n pos rs).1 (starAux p n pos rs).2.1 = none := by
  intro n
  induction n with
  | zero => intro pos rs h; omega
  | succ n ih =>
    intro pos rs h
    simp only [starAux]
    cases hs : p pos rs with
    | none => simpa using hs
    | some r =>
      obtain ⟨pos1, rs1, t1⟩ := r
      have := hp _ _ _ _ _ hs
      exact ih pos1 rs1 (by omega)

/-- The loop stops exactly where the body fails. -/
theorem star_stops {p : P} (hp : Consumes p) {pos : Nat} {rs : List Nat} {pos' : Nat} {rs' : List Nat} {t : List Tok}
    (h : star p pos rs = some (pos', rs', t)) : p pos' rs' = none := by
  have := starAux_stops hp (rs.length + 1) pos rs (by omega)
  simp only [star, Option.some.injEq] at h
  rw [h] at this
  exact this

/-! ## What a rule reads and which tokens it adds -/

/-- When the rule succeeds it has read a piece of the input with property `L`, the position has advanced by
its length, and the tokens have property `T`. -/
def Runs (L : List Nat → Prop) (T : List Tok → Prop) (p : P) : Prop :=
  ∀ pos rs pos' rs' t, p pos rs = some (pos', rs', t) → ∃ pre, rs = pre ++ rs' ∧ pos' = pos + pre.length ∧ L pre ∧ T t

/-- Closed under concatenation. -/
structure Mono {α : Type} (Q : List α → Prop) : Prop where
  nil : Q []
  app : ∀ a b, Q a → Q b → Q (a ++ b)

theorem Runs.imp {L L' : List Nat → Prop} {T T' : List Tok → Prop} {p : P} (h : Runs L T p) (hL : ∀ x, L x → L' x)
    (hT : ∀ x, T x → T' x) : Runs L' T' p := by
  intro pos rs pos' rs' t hp
  obtain ⟨pre, h1, h2, h3, h4⟩ := h _ _ _ _ _ hp
  exact ⟨pre, h1, h2, hL _ h3, hT _ h4⟩

theorem Runs.cls {L : List Nat → Prop} {T : List Tok → Prop} {f : Nat → Bool} (hL : ∀ c, f c = true → L [c]) (hT : T []) :
    Runs L T (Ed.cls f) := by
  intro pos rs pos' rs' t h
  cases rs with
  | nil => cases h
  | cons c rs =>
    simp only [Ed.cls] at h
    split at h
    · rename_i hc
      cases h
      exact ⟨[c], rfl, rfl, hL c hc, hT⟩
    · cases h

theorem Runs.act {L : List Nat → Prop} {T : List Tok → Prop} {n : Nat} (hL : L []) (hT : T [.act n]) : Runs L T (Ed.act n) := by
  intro pos rs pos' rs' t h
  cases h
  exact ⟨[], rfl, rfl, hL, hT⟩

theorem Runs.seq {L1 L2 L : List Nat → Prop} {T1 T2 T : List Tok → Prop} {p q : P} (hp : Runs L1 T1 p) (hq : Runs L2 T2 q)
    (hL : ∀ a b, L1 a → L2 b → L (a ++ b)) (hT : ∀ a b, T1 a → T2 b → T (a ++ b)) : Runs L T (p ⬝ q) := by
  intro pos rs pos' rs' t h
  simp only [Ed.seq] at h
  cases h1 : p pos rs with
  | none => simp [h1] at h
  | some r1 =>
    obtain ⟨pos1, rs1, t1⟩ := r1
    simp only [h1] at h
    cases h2 : q pos1 rs1 with
    | none => simp [h2] at h
    | some r2 =>
      obtain ⟨pos2, rs2, t2⟩ := r2
      simp only [h2, Option.some.injEq, Prod.mk.injEq] at h
      obtain ⟨rfl, rfl, rfl⟩ := h
      obtain ⟨a, e1, e2, e3, e4⟩ := hp _ _ _ _ _ h1
      obtain ⟨b, f1, f2, f3, f4⟩ := hq _ _ _ _ _ h2
      exact ⟨a ++ b, by rw [e1, f1]; simp, by rw [f2, e2]; simp; omega, hL a b e3 f3, hT _ _ e4 f4⟩

theorem Runs.alt {L : List Nat → Prop} {T : List Tok → Prop} {p q : P} (hp : Runs L T p) (hq : Runs L T q) : Runs L T (p / q) := by
  intro pos rs pos' rs' t h
  simp only [Ed.alt] at h
  cases h1 : p pos rs with
  | none => rw [h1] at h; exact hq _ _ _ _ _ h
  | some r => rw [h1] at h; cases h; exact hp _ _ _ _ _ h1

theorem Runs.opt {L : List Nat → Prop} {T : List Tok → Prop} {p : P} (hp : Runs L T p) (hL : L []) (hT : T []) : Runs L T (Ed.opt p) := by
  intro pos rs pos' rs' t h
  simp only [Ed.opt] at h
  cases h1 : p pos rs with
  | none => rw [h1] at h; cases h; exact ⟨[], rfl, rfl, hL, hT⟩
  | some r => rw [h1] at h; cases h; exact hp _ _ _ _ _ h1

theorem Runs.star {L : List Nat → Prop} {T : List Tok → Prop} {p : P} (hp : Runs L T p) (mL : Mono L) (mT : Mono T) : Runs L T (Ed.star p) := by
  have aux : ∀ n pos rs, ∃ pre, rs = pre ++ (starAux p n pos rs).2.1 ∧ (starAux p n pos rs).1 = pos + pre.length ∧ L pre ∧
      T (starAux p n pos rs).2.2 := by
    intro n
    induction n with
    | zero => intro pos rs; exact ⟨[], rfl, rfl, mL.nil, mT.nil⟩
    | succ n ih =>
      intro pos rs
      simp only [starAux]
      cases h1 : p pos rs with
      | none => exact ⟨[], rfl, rfl, mL.nil, mT.nil⟩
      | some r =>
        obtain ⟨pos1, rs1, t1⟩ := r
        obtain ⟨a, e1, e2, e3, e4⟩ := hp _ _ _ _ _ h1
        obtain ⟨b, f1, f2, f3, f4⟩ := ih pos1 rs1
        refine ⟨a ++ b, ?_, ?_, mL.app _ _ e3 f3, mT.app _ _ e4 f4⟩
        · simp only
          rw [List.append_assoc, ← f1]; exact e1
        · simp only
          rw [f2, e2]; simp; omega
  intro pos rs pos' rs' t h
  simp only [Ed.star, Option.some.injEq] at h
  have := aux (rs.length + 1) pos rs
  rw [h] at this
  exact this

theorem Runs.capture {L : List Nat → Prop} {T : List Tok → Prop} {p : P} (hp : Runs L T p) (hT : ∀ t b e, T t → T (t ++ [.pegText b e])) :
    Runs L T (Ed.capture p) := by
  intro pos rs pos' rs' t h
  simp only [Ed.capture] at h
  cases h1 : p pos rs with
  | none => simp [h1] at h
  | some r =>
    obtain ⟨pos1, rs1, t1⟩ := r
    simp only [h1, Option.some.injEq, Prod.mk.injEq] at h
    obtain ⟨rfl, rfl, rfl⟩ := h
    obtain ⟨a, e1, e2, e3, e4⟩ := hp _ _ _ _ _ h1
    exact ⟨a, e1, e2, e3, hT _ _ _ e4⟩

theorem notP_some {p : P} {pos : Nat} {rs : List Nat} {r} (h : Ed.notP p pos rs = some r) : r = (pos, rs, []) ∧ p pos rs = none := by
  simp only [Ed.notP] at h
  cases h1 : p pos rs with
  | none => rw [h1] at h; cases h; exact ⟨rfl, rfl⟩
  | some x => rw [h1] at h; cases h

/-- `!p .` with a rune `p` does not accept. -/
theorem Runs.notDot {L : List Nat → Prop} {T : List Tok → Prop} {p : P} (hL : ∀ c rs pos, p pos (c :: rs) = none → L [c]) (hT : T []) :
    Runs L T (Ed.notP p ⬝ Ed.dot) := by
  intro pos rs pos' rs' t h
  simp only [Ed.seq] at h
  cases h1 : Ed.notP p pos rs with
  | none => simp [h1] at h
  | some r =>
    obtain ⟨rfl, hn⟩ := notP_some h1
    simp only [h1] at h
    cases rs with
    | nil => simp [Ed.dot, Ed.cls] at h
    | cons c rs =>
      simp [Ed.dot, Ed.cls] at h
      obtain ⟨rfl, rfl, rfl⟩ := h
      exact ⟨[c], rfl, rfl, hL c rs pos hn, hT⟩

/-! ## The rules -/

/-- No newline. -/
def NoNl (x : List Nat) : Prop := 10 ∉ x

theorem NoNl.mono : Mono NoNl := ⟨by simp [NoNl], fun a b h1 h2 => by simp [NoNl] at *; exact ⟨h1, h2⟩⟩

/-- What the tokens do to the parser's state. -/
def runToks (buffer : Bytes) : Exec → List Tok → Exec
  | s, [] => s
  | s, .pegText b e :: ts => runToks buffer { s with b := b, e := e } ts
  | s, .act n :: ts => runToks buffer (s.step buffer n) ts

theorem runToks_append (buffer : Bytes) : ∀ (a b : List Tok) (s : Exec), runToks buffer s (a ++ b) = runToks buffer (runToks buffer s a) b := by
  intro a
  induction a with
  | nil => intros; rfl
  | cons x a ih => intro b s; cases x <;> simp [runToks, ih]

/-- No command is sent. -/
def Quiet (t : List Tok) : Prop := Tok.act 1 ∉ t

theorem Quiet.mono : Mono Quiet := ⟨by simp [Quiet], fun a b h1 h2 => by simp [Quiet] at *; exact ⟨h1, h2⟩⟩

theorem Quiet.capture (t : List Tok) (b e : Nat) (h : Quiet t) : Quiet (t ++ [.pegText b e]) := by
  simp [Quiet] at *; exact h

theorem Quiet.act {n : Nat} (h : n ≠ 1) : Quiet [.act n] := by simp [Quiet]; omega

/-- No command is sent and the pending address is empty afterwards if it was before. -/
def Keeps (t : List Tok) : Prop := Quiet t ∧ ∀ buffer s, s.addr = {} → (runToks buffer s t).addr = {}

theorem Keeps.mono : Mono Keeps := by
  refine ⟨⟨Quiet.mono.nil, fun _ _ h => h⟩, fun a b h1 h2 => ⟨Quiet.mono.app _ _ h1.1 h2.1, fun buffer s h => ?_⟩⟩
  rw [runToks_append]
  exact h2.2 _ _ (h1.2 _ _ h)

theorem Keeps.capture (t : List Tok) (b e : Nat) (h : Keeps t) : Keeps (t ++ [.pegText b e]) := by
  refine ⟨Quiet.capture t b e h.1, fun buffer s hs => ?_⟩
  rw [runToks_append]
  exact h.2 _ _ hs

/-- Tokens that end by emptying the pending address. -/
theorem Keeps.resets {t : List Tok} {n : Nat} (h : Quiet t) (hn : n = 3 ∨ n = 17 ∨ n = 18) : Keeps (t ++ [.act n]) := by
  refine ⟨Quiet.mono.app _ _ h (Quiet.act (by omega)), fun buffer s _ => ?_⟩
  rw [runToks_append]
  rcases hn with rfl | rfl | rfl <;> rfl

theorem Keeps.act {n : Nat} (h : (2 ≤ n ∧ n ≤ 18) ∨ (26 ≤ n ∧ n ≤ 46)) : Keeps [.act n] := by
  refine ⟨Quiet.act (by omega), fun buffer s hs => ?_⟩
  have hn : n ∈ List.range 47 := List.mem_range.2 (by omega)
  simp only [List.range, List.range.loop, List.mem_cons, List.not_mem_nil, or_false] at hn
  rcases hn with rfl | rfl | rfl | rfl | rfl | rfl | rfl | rfl | rfl | rfl | rfl | rfl | rfl | rfl | rfl | rfl | rfl | rfl | rfl | rfl |
    rfl | rfl | rfl | rfl | rfl | rfl | rfl | rfl | rfl | rfl | rfl | rfl | rfl | rfl | rfl | rfl | rfl | rfl | rfl | rfl | rfl | rfl |
    rfl | rfl | rfl | rfl | rfl <;> first | omega | (simp [runToks, Exec.step, hs])

section rules
variable {T : List Tok → Prop} (m : Mono T)
include m

theorem seqNT {p q : P} (hp : Runs NoNl T p) (hq : Runs NoNl T q) : Runs NoNl T (p ⬝ q) := Runs.seq hp hq NoNl.mono.app m.app

theorem plusNT {p : P} (hp : Runs NoNl T p) : Runs NoNl T (plus p) := seqNT m hp (Runs.star hp NoNl.mono m)

theorem clsNT {f : Nat → Bool} (h : f 10 = false) : Runs NoNl T (cls f) :=
  Runs.cls (fun c hc => by
    simp only [NoNl, List.mem_cons, List.not_mem_nil, or_false]
    rintro rfl
    rw [h] at hc; exact absurd hc (by decide)) m.nil

theorem chrNT {c : Nat} (h : c ≠ 10) : Runs NoNl T (chr c) := clsNT m (by simp; omega)

omit m in
theorem actNT {n : Nat} (h : T [.act n]) : Runs NoNl T (act n) := Runs.act NoNl.mono.nil h

theorem optNT {p : P} (hp : Runs NoNl T p) : Runs NoNl T (opt p) := Runs.opt hp NoNl.mono.nil m.nil

theorem spNT : Runs NoNl T (star sp) := Runs.star (plusNT m (clsNT m (by decide))) NoNl.mono m

theorem sp1NT : Runs NoNl T sp := plusNT m (clsNT m (by decide))

theorem paramNT : Runs NoNl T param := by
  refine plusNT m (Runs.notDot (fun c rs pos h => ?_) m.nil)
  simp only [NoNl, List.mem_cons, List.not_mem_nil, or_false]
  rintro rfl
  exact absurd h (by simp [chr, cls])

theorem regexNT {d : Nat} (hd : d ≠ 10) : Runs NoNl T (plus ((chr 92 ⬝ chr d) / (notP (chr 10 / chr d) ⬝ dot))) := by
  refine plusNT m (Runs.alt (seqNT m (chrNT m (by decide)) (chrNT m hd)) (Runs.notDot (fun c rs pos h => ?_) m.nil))
  simp only [NoNl, List.mem_cons, List.not_mem_nil, or_false]
  rintro rfl
  exact absurd h (by simp [alt, chr, cls])

end rules

theorem addr_runs : Runs NoNl Quiet addr := by
  have m := Quiet.mono
  have a : ∀ {n : Nat}, n ≠ 1 → Runs NoNl Quiet (act n) := fun h => actNT (Quiet.act h)
  refine Runs.alt (seqNT m (Runs.capture (plusNT m (clsNT m (by decide))) Quiet.capture) (a (by decide))) ?_
  refine Runs.alt (seqNT m (chrNT m (by decide)) (seqNT m (clsNT m (by decide)) (a (by decide)))) ?_
  refine Runs.alt (seqNT m (chrNT m (by decide)) (seqNT m (regexNT m (by decide)) (seqNT m (chrNT m (by decide)) (a (by decide))))) ?_
  refine Runs.alt (seqNT m (chrNT m (by decide)) (seqNT m (regexNT m (by decide)) (seqNT m (chrNT m (by decide)) (a (by decide))))) ?_
  exact Runs.alt (seqNT m (chrNT m (by decide)) (a (by decide))) (seqNT m (chrNT m (by decide)) (a (by decide)))

theorem addrO_runs : Runs NoNl Quiet addrO := by
  have m := Quiet.mono
  refine seqNT m (Runs.capture (seqNT m addr_runs (optNT m (seqNT m (clsNT m (by decide)) (Runs.star (clsNT m (by decide)) NoNl.mono m)))) Quiet.capture)
    (actNT (Quiet.act (by decide)))

theorem startEnd_runs {n : Nat} (hn : n = 17 ∨ n = 18) : Runs NoNl Keeps (star sp ⬝ addrO ⬝ star sp ⬝ act n) := by
  have m := Quiet.mono
  have h1 : Runs NoNl Keeps ((star sp ⬝ addrO ⬝ star sp) ⬝ act n) :=
    Runs.seq (T1 := Quiet) (T2 := fun t => t = [.act n]) (seqNT m (spNT m) (seqNT m addrO_runs (spNT m)))
      (Runs.act (L := NoNl) NoNl.mono.nil rfl) NoNl.mono.app (fun a b h1 h2 => by subst h2; exact Keeps.resets h1 (Or.inr hn))
  have e : (star sp ⬝ addrO ⬝ star sp ⬝ act n) = ((star sp ⬝ addrO ⬝ star sp) ⬝ act n) := by
    funext pos rs
    simp only [seq]
    cases star sp pos rs with
    | none => rfl
    | some r =>
      obtain ⟨p1, r1, t1⟩ := r
      simp only
      cases addrO p1 r1 with
      | none => rfl
      | some r =>
        obtain ⟨p2, r2, t2⟩ := r
        simp only
        cases star sp p2 r2 with
        | none => rfl
        | some r =>
          obtain ⟨p3, r3, t3⟩ := r
          simp [act]
  rw [e]; exact h1

theorem startAddr_runs : Runs NoNl Keeps startAddr := startEnd_runs (Or.inl rfl)
theorem endAddr_runs : Runs NoNl Keeps endAddr := startEnd_runs (Or.inr rfl)

private theorem kact {n : Nat} (h : (2 ≤ n ∧ n ≤ 18) ∨ (26 ≤ n ∧ n ≤ 46)) : Runs NoNl Keeps (act n) := actNT (Keeps.act h)
private theorem kchr {c : Nat} (h : c ≠ 10) : Runs NoNl Keeps (chr c) := chrNT Keeps.mono h

theorem range_runs : Runs NoNl Keeps range := by
  have m := Keeps.mono
  refine Runs.alt (seqNT m startAddr_runs (seqNT m (kchr (by decide)) endAddr_runs)) ?_
  refine Runs.alt (seqNT m startAddr_runs (seqNT m (kchr (by decide)) (kact (by decide)))) ?_
  refine Runs.alt (seqNT m (kchr (by decide)) (seqNT m endAddr_runs (kact (by decide)))) ?_
  refine Runs.alt (seqNT m startAddr_runs (seqNT m (kchr (by decide)) endAddr_runs)) ?_
  refine Runs.alt (seqNT m startAddr_runs (seqNT m (kchr (by decide)) (kact (by decide)))) ?_
  refine Runs.alt (seqNT m (kchr (by decide)) (seqNT m endAddr_runs (kact (by decide)))) ?_
  refine Runs.alt (seqNT m startAddr_runs (kact (by decide))) ?_
  exact Runs.alt (seqNT m (kchr (by decide)) (kact (by decide))) (seqNT m (kchr (by decide)) (kact (by decide)))

private theorem kletter {c n : Nat} (hc : c ≠ 10) (h : (2 ≤ n ∧ n ≤ 18) ∨ (26 ≤ n ∧ n ≤ 46)) : Runs NoNl Keeps (chr c ⬝ act n) :=
  seqNT Keeps.mono (kchr hc) (kact h)

/-- The rest of the input and the pieces of a block: header, letter, newline, text, newline, dot. -/
def BlockShape (x : List Nat) : Prop := ∃ h c t, x = h ++ [c, 10] ++ t ++ [10, 46] ∧ NoNl h ∧ (c = 97 ∨ c = 105 ∨ c = 99) ∧
  ¬ [10, 46] <:+: t ++ [10]

theorem textTerm_none {pos : Nat} {rs : List Nat} (h : textTerm pos rs = none) : ¬ ∃ r, rs = 10 :: 46 :: r := by
  rintro ⟨r, rfl⟩
  have : textTerm pos (10 :: 46 :: r) = some (pos + 2, r, []) := rfl
  rw [this] at h; cases h

/-- The body of a block contains no newline followed by a dot. -/
theorem text_runs : Runs (fun x => ∃ t, x = t ++ [10, 46] ∧ ¬ [10, 46] <:+: t ++ [10]) Keeps text := by
  -- the loop stops before the first newline-dot
  have aux : ∀ n pos rs, ∃ t, rs = t ++ (starAux (notP textTerm ⬝ dot) n pos rs).2.1 ∧
      (starAux (notP textTerm ⬝ dot) n pos rs).1 = pos + t.length ∧ (starAux (notP textTerm ⬝ dot) n pos rs).2.2 = [] ∧
      (∀ a b, t = a ++ b → b ≠ [] → ¬ ∃ r, b ++ (starAux (notP textTerm ⬝ dot) n pos rs).2.1 = 10 :: 46 :: r) := by
    intro n
    induction n with
    | zero => intro pos rs; exact ⟨[], rfl, rfl, rfl, fun a b h hb => absurd (List.append_eq_nil_iff.1 h.symm).2 hb⟩
    | succ n ih =>
      intro pos rs
      simp only [starAux]
      cases h1 : (notP textTerm ⬝ dot) pos rs with
      | none => exact ⟨[], rfl, rfl, rfl, fun a b h hb => absurd (List.append_eq_nil_iff.1 h.symm).2 hb⟩
      | some r =>
        obtain ⟨pos1, rs1, t1⟩ := r
        simp only [seq] at h1
        cases h2 : notP textTerm pos rs with
        | none => simp [h2] at h1
        | some r =>
          obtain ⟨rfl, hn⟩ := notP_some h2
          simp only [h2] at h1
          cases rs with
          | nil => simp [dot, cls] at h1
          | cons c rs =>
            simp [dot, cls] at h1
            obtain ⟨rfl, rfl, rfl⟩ := h1
            obtain ⟨t, e1, e2, e3, e4⟩ := ih (pos + 1) rs
            refine ⟨c :: t, by simp only; rw [List.cons_append, ← e1], by simp only; rw [e2]; simp; omega, by simp [e3], ?_⟩
            intro a b hab hb
            cases a with
            | nil =>
              simp only [List.nil_append] at hab
              subst hab
              simp only [List.cons_append]
              rw [← e1]
              exact textTerm_none hn
            | cons d a =>
              simp only [List.cons_append, List.cons.injEq] at hab
              exact e4 a b hab.2 hb
  intro pos rs pos' rs' t h
  simp only [text, seq, capture] at h
  cases h1 : star (notP textTerm ⬝ dot) pos rs with
  | none => simp [star] at h1
  | some r =>
    obtain ⟨pos1, rs1, t1⟩ := r
    simp only [h1] at h
    have ht : textTerm pos1 rs1 = none ∨ ∃ r, rs1 = 10 :: 46 :: r := by
      match rs1 with
      | [] => exact Or.inl rfl
      | [c] =>
        left
        by_cases hc : c = 10
        · subst hc; rfl
        · exact seq_fail1 (chr_fail_cons hc)
      | c :: d :: r =>
        by_cases hc : c = 10
        · by_cases hd : d = 46
          · exact Or.inr ⟨r, by rw [hc, hd]⟩
          · subst hc; exact Or.inl (seq_fail2 chr_some (chr_fail_cons hd))
        · exact Or.inl (seq_fail1 (chr_fail_cons hc))
    rcases ht with ht | ⟨r, rfl⟩
    · rw [ht] at h; simp at h
    · have ht : textTerm pos1 (10 :: 46 :: r) = some (pos1 + 2, r, []) := rfl
      rw [ht] at h
      simp only [act, Option.some.injEq, Prod.mk.injEq] at h
      obtain ⟨rfl, rfl, rfl⟩ := h
      obtain ⟨x, e1, e2, e3, e4⟩ := aux (rs.length + 1) pos rs
      simp only [star, Option.some.injEq] at h1
      rw [h1] at e1 e2 e3 e4
      simp only at e1 e2 e3 e4
      refine ⟨x ++ [10, 46], by rw [e1]; simp, by rw [e2]; simp; omega, ⟨x, rfl, ?_⟩, ?_⟩
      · rintro ⟨a, b, hab⟩
        have hcut : ∃ b', b = b' ++ [10] := by
          rcases List.eq_nil_or_concat b with rfl | ⟨b', l, rfl⟩
          · have : (a ++ [10]) ++ [46] = x ++ [10] := by simpa using hab
            have := (List.append_inj' this rfl).2
            simp at this
          · have : (a ++ [10, 46] ++ b') ++ [l] = x ++ [10] := by simpa using hab
            have := (List.append_inj' this rfl).2
            simp at this
            exact ⟨b', by simp [this]⟩
        obtain ⟨b', rfl⟩ := hcut
        have hx : x = a ++ ([10, 46] ++ b') := by
          have : a ++ ([10, 46] ++ b') ++ [10] = x ++ [10] := by simpa using hab
          exact (List.append_cancel_right this).symm
        exact e4 a ([10, 46] ++ b') hx (by simp) ⟨b' ++ 10 :: 46 :: r, by simp⟩
      · subst e3
        exact ⟨by simp [Quiet], fun buffer s hs => by simp [runToks, Exec.step, hs]⟩

/-- A command is on one line or is a text block. -/
theorem cmd_runs : Runs (fun x => NoNl x ∨ BlockShape x) Keeps cmd := by
  have m := Keeps.mono
  have n : ∀ {p : P}, Runs NoNl Keeps p → Runs (fun x => NoNl x ∨ BlockShape x) Keeps p := fun h => h.imp (fun _ => Or.inl) (fun _ h => h)
  have bare : Runs NoNl Keeps bareCmd := by
    refine Runs.alt (kletter (by decide) (by decide)) (Runs.alt (kletter (by decide) (by decide)) (Runs.alt (kletter (by decide) (by decide))
      (Runs.alt (kletter (by decide) (by decide)) (Runs.alt (kletter (by decide) (by decide)) (kletter (by decide) (by decide))))))
  have paramC : Runs NoNl Keeps paramC :=
    Runs.alt (kletter (by decide) (by decide)) (Runs.alt (kletter (by decide) (by decide)) (kletter (by decide) (by decide)))
  have nm : Runs NoNl Keeps (capture param) := Runs.capture (paramNT m) Keeps.capture
  have param : Runs NoNl Keeps paramCmd := Runs.alt (seqNT m paramC (seqNT m (sp1NT m) (seqNT m nm (kact (by decide))))) paramC
  have rangeC : Runs NoNl Keeps rangeC :=
    Runs.alt (kletter (by decide) (by decide)) (Runs.alt (kletter (by decide) (by decide)) (Runs.alt (kletter (by decide) (by decide))
      (Runs.alt (kletter (by decide) (by decide)) (kletter (by decide) (by decide)))))
  have rangeCmd : Runs NoNl Keeps rangeCmd := seqNT m (optNT m range_runs) (seqNT m (spNT m) rangeC)
  have addrC : Runs NoNl Keeps addrC := kletter (by decide) (by decide)
  have addrCmd : Runs NoNl Keeps addrCmd :=
    Runs.alt (seqNT m (Runs.capture startAddr_runs Keeps.capture) (seqNT m addrC (kact (by decide)))) addrC
  have blk : ∀ {p : P} {c k : Nat}, Runs NoNl Keeps p → (c = 97 ∨ c = 105 ∨ c = 99) → ((2 ≤ k ∧ k ≤ 18) ∨ (26 ≤ k ∧ k ≤ 46)) →
      ∀ {q : P}, Runs (fun x => x = [97] ∨ x = [105] ∨ x = [99]) Keeps q →
      Runs (fun x => NoNl x ∨ BlockShape x) Keeps (p ⬝ q ⬝ newLine ⬝ text) := by
    intro p c k hp hc hk q hq
    refine Runs.seq hp (Runs.seq hq (Runs.seq (L1 := fun x => x = [10]) (T1 := Keeps) (Runs.cls (fun c hc => by simp at hc; simp [hc]) m.nil) text_runs
      (L := fun x => ∃ t, x = 10 :: (t ++ [10, 46]) ∧ ¬ [10, 46] <:+: t ++ [10]) (fun a b ha ⟨t, hb, ht⟩ => ⟨t, by rw [ha, hb]; rfl, ht⟩) m.app)
      (L := fun x => ∃ c t, x = [c, 10] ++ (t ++ [10, 46]) ∧ (c = 97 ∨ c = 105 ∨ c = 99) ∧ ¬ [10, 46] <:+: t ++ [10])
      (fun a b ha ⟨t, hb, ht⟩ => ?_) m.app) (fun a b ha ⟨c, t, hb, hc, ht⟩ => Or.inr ⟨a, c, t, by rw [hb]; simp, ha, hc, ht⟩) m.app
    rcases ha with ha | ha | ha
    · exact ⟨97, t, by rw [ha, hb]; rfl, by simp, ht⟩
    · exact ⟨105, t, by rw [ha, hb]; rfl, by simp, ht⟩
    · exact ⟨99, t, by rw [ha, hb]; rfl, by simp, ht⟩
  have letter : ∀ {c k : Nat} {L : List Nat → Prop}, L [c] → ((2 ≤ k ∧ k ≤ 18) ∨ (26 ≤ k ∧ k ≤ 46)) → Runs L Keeps (chr c ⬝ act k) := by
    intro c k L hL hk
    exact Runs.seq (L1 := fun x => x = [c]) (L2 := fun x => x = []) (T1 := Keeps) (T2 := Keeps)
      (Runs.cls (fun d hd => by simp at hd; simp [hd]) m.nil) (Runs.act rfl (Keeps.act hk)) (fun a b ha hb => by rw [ha, hb]; exact hL) m.app
  have change : Runs (fun x => NoNl x ∨ BlockShape x) Keeps changeTextCmd :=
    blk (c := 99) (k := 37) (optNT m range_runs) (by decide) (by decide) (letter (by simp) (by decide))
  have add : Runs (fun x => NoNl x ∨ BlockShape x) Keeps addTextCmd :=
    blk (c := 99) (k := 37) (optNT m startAddr_runs) (by decide) (by decide)
      (Runs.alt (letter (by simp) (by decide)) (letter (by simp) (by decide)))
  have mark : Runs NoNl Keeps markCmd := seqNT m (optNT m startAddr_runs) (seqNT m (kchr (by decide))
    (seqNT m (Runs.capture (clsNT m (by decide)) Keeps.capture) (kact (by decide))))
  have dest : Runs NoNl Keeps destCmd := by
    have hd : Runs NoNl Keeps destC := Runs.alt (kletter (by decide) (by decide)) (kletter (by decide) (by decide))
    refine seqNT m (optNT m range_runs) (seqNT m hd ?_)
    exact Runs.seq (T1 := Quiet) (T2 := fun t => t = [.act 3]) (Runs.capture addrO_runs Quiet.capture)
      (Runs.act (L := NoNl) NoNl.mono.nil rfl) NoNl.mono.app (fun a b h1 h2 => by subst h2; exact Keeps.resets h1 (Or.inl rfl))
  have read : Runs NoNl Keeps readCmd := seqNT m (optNT m startAddr_runs) (seqNT m (kchr (by decide)) (seqNT m (sp1NT m) (seqNT m nm (kact (by decide)))))
  have write : Runs NoNl Keeps writeCmd :=
    Runs.alt (seqNT m (optNT m range_runs) (seqNT m (kchr (by decide)) (seqNT m (sp1NT m) (seqNT m nm (kact (by decide))))))
      (seqNT m (optNT m range_runs) (seqNT m (kchr (by decide)) (kact (by decide))))
  have shell : Runs NoNl Keeps shellCmd := seqNT m (kchr (by decide)) (seqNT m nm (kact (by decide)))
  exact Runs.alt (n bare) (Runs.alt (n param) (Runs.alt (n rangeCmd) (Runs.alt (n addrCmd) (Runs.alt change (Runs.alt add (Runs.alt (n mark)
    (Runs.alt (n dest) (Runs.alt (n read) (Runs.alt (n write) (Runs.alt (n shell) (n (optNT m startAddr_runs))))))))))))

/-! ## C66 -/

/-- The source of one command: a line, or a line ending in `a`, `i` or `c`, the text, and a line that
starts with a dot and otherwise has only blanks. The text contains no line starting with a dot, except that
its first line may. -/
def Unit (x : List Nat) : Prop :=
  (∃ l, x = l ++ [10] ∧ 10 ∉ l) ∨
  (∃ h c t w, x = h ++ [c, 10] ++ t ++ [10, 46] ++ w ++ [10] ∧ 10 ∉ h ∧ (c = 97 ∨ c = 105 ∨ c = 99) ∧
    ¬ [10, 46] <:+: t ++ [10] ∧ ∀ b ∈ w, b = 32 ∨ b = 9)

theorem blanks_runs : Runs (fun x => ∀ b ∈ x, b = 32 ∨ b = 9) Keeps (star sp) := by
  have hm : Mono (fun x : List Nat => ∀ b ∈ x, b = 32 ∨ b = 9) :=
    ⟨by simp, fun a b h1 h2 x hx => by rcases List.mem_append.1 hx with h | h; exact h1 x h; exact h2 x h⟩
  have h1 : Runs (fun x => ∀ b ∈ x, b = 32 ∨ b = 9) Keeps (cls (fun c => c == 32 || c == 9)) :=
    Runs.cls (fun c hc => by simpa using hc) Keeps.mono.nil
  exact Runs.star (Runs.seq h1 (Runs.star h1 hm Keeps.mono) hm.app Keeps.mono.app) hm Keeps.mono

/-- One round of the top-level loop reads one unit and sends one command. -/
theorem e_runs : Runs Unit (fun t => ∃ t', t = t' ++ [.act 1] ∧ Keeps t') e := by
  have m := Keeps.mono
  refine Runs.seq (spNT m) (Runs.seq cmd_runs (Runs.seq blanks_runs (Runs.seq (L1 := fun x => x = [10]) (T1 := Keeps)
    (Runs.cls (fun c hc => by simp at hc; simp [hc]) m.nil)
    (Runs.act (L := fun x => x = []) (T := fun t => t = [.act 1]) rfl rfl)
    (L := fun x => x = [10]) (T := fun t => ∃ t', t = t' ++ [.act 1] ∧ Keeps t') (fun a b ha hb => by rw [ha, hb]; rfl)
    (fun a b ha hb => ⟨a, by rw [hb], ha⟩))
    (L := fun x => ∃ w, x = w ++ [10] ∧ ∀ b ∈ w, b = 32 ∨ b = 9) (T := fun t => ∃ t', t = t' ++ [.act 1] ∧ Keeps t')
    (fun a b ha hb => ⟨a, by rw [hb], ha⟩) (fun a b ha ⟨t', hb, hk⟩ => ⟨a ++ t', by rw [hb]; simp, m.app _ _ ha hk⟩))
    (L := fun x => Unit x) (T := fun t => ∃ t', t = t' ++ [.act 1] ∧ Keeps t') (fun a b ha ⟨w, hb, hw⟩ => ?_)
    (fun a b ha ⟨t', hb, hk⟩ => ⟨a ++ t', by rw [hb]; simp, m.app _ _ ha hk⟩))
    (fun a b ha hb => ?_) (fun a b ha ⟨t', hb, hk⟩ => ⟨a ++ t', by rw [hb]; simp, m.app _ _ ha hk⟩)
  · rcases ha with ha | ⟨h, c, t, rfl, h1, h2, h3⟩
    · refine Or.inl ⟨a ++ w, by rw [hb]; simp, ?_⟩
      simp only [List.mem_append, not_or]
      refine ⟨ha, fun h => ?_⟩
      rcases hw _ h with h | h <;> exact absurd h (by decide)
    · exact Or.inr ⟨h, c, t, w, by rw [hb]; simp, h1, h2, h3, hw⟩
  · rcases hb with ⟨l, rfl, hl⟩ | ⟨h, c, t, w, rfl, h1, h2, h3, h4⟩
    · exact Or.inl ⟨a ++ l, by simp, NoNl.mono.app a l ha hl⟩
    · exact Or.inr ⟨a ++ h, c, t, w, by simp, NoNl.mono.app a h ha h1, h2, h3, h4⟩

theorem unit_ne {x : List Nat} (h : Unit x) : x ≠ [] := by
  rcases h with ⟨l, rfl, _⟩ | ⟨h, c, t, w, rfl, _⟩ <;> simp

theorem e_consumes : Consumes e := by
  intro pos rs pos' rs' t h
  obtain ⟨pre, rfl, _, hu, _⟩ := e_runs _ _ _ _ _ h
  have := List.length_pos_iff.2 (unit_ne hu)
  simp; omega

/-- Executing the tokens of a unit sends one command, whatever was left of `begin` and `end`. -/
theorem exec_quiet (buffer : Bytes) : ∀ (t : List Tok) (s : Exec) (rest : List Tok), Quiet t →
    execute buffer s (t ++ rest) = execute buffer (runToks buffer s t) rest := by
  intro t
  induction t with
  | nil => intros; rfl
  | cons x t ih =>
    intro s rest h
    simp only [Quiet, List.mem_cons, not_or] at h
    cases x with
    | pegText b e => simp only [List.cons_append, execute, runToks]; exact ih _ _ h.2
    | act n =>
      have hn : n ≠ 1 := fun e => h.1 (by rw [e])
      simp only [List.cons_append, execute, runToks, hn, if_false]
      exact ih _ _ h.2

/-- **C66** Whatever the buffer, if it parses then it is the concatenation of units, one per command, in
order; and each command is made of the tokens of its own unit alone, starting from an empty command and
an empty address. (`b`, `e` are left-over bounds.) -/
theorem C66_partition (buffer : Bytes) (cmds : List Command) (h : parseCommands buffer = some cmds) :
    ∃ units : List (List Nat), runes buffer = units.flatten ∧ units.length = cmds.length ∧
      ∀ (i : Nat) (u : List Nat) (c : Command), units[i]? = some u → cmds[i]? = some c →
        Unit u ∧
        ∃ t b e', e (units.take i).flatten.length ((units.drop i).flatten) =
            some ((units.take (i + 1)).flatten.length, (units.drop (i + 1)).flatten, t ++ [.act 1]) ∧
          (runToks buffer ⟨b, e', {}, {}⟩ t).cmd = c := by
  have loop : ∀ (n pos : Nat) (rs : List Nat) (s : Exec), s.addr = {} → s.cmd = {} → rs.length < n →
      (starAux e n pos rs).2.1 = [] →
      ∃ (units : List (List Nat)), rs = units.flatten ∧
        units.length = (execute buffer s ((starAux e n pos rs).2.2 ++ [.act 0])).length ∧
        ∀ (i : Nat) (u : List Nat) (c : Command), units[i]? = some u →
          (execute buffer s ((starAux e n pos rs).2.2 ++ [.act 0]))[i]? = some c →
          Unit u ∧
          ∃ t b e', e (pos + (units.take i).flatten.length) ((units.drop i).flatten) =
              some (pos + (units.take (i + 1)).flatten.length, (units.drop (i + 1)).flatten, t ++ [.act 1]) ∧
            (runToks buffer ⟨b, e', {}, {}⟩ t).cmd = c := by
    intro n
    induction n with
    | zero => intro pos rs s _ _ h; omega
    | succ n ih =>
      intro pos rs s hs hsc hl hend
      simp only [starAux] at hend ⊢
      cases he : e pos rs with
      | none =>
        rw [he] at hend
        simp only at hend ⊢
        exact ⟨[], by simp [hend], rfl, fun i u c hu => by simp at hu⟩
      | some r =>
        obtain ⟨pos1, rs1, t1⟩ := r
        rw [he] at hend
        simp only at hend ⊢
        obtain ⟨pre, e1, e2, hu, t', rfl, hk⟩ := e_runs _ _ _ _ _ he
        have hlt := e_consumes _ _ _ _ _ he
        have hex : execute buffer s (((t' ++ [.act 1]) ++ (starAux e n pos1 rs1).2.2) ++ [.act 0]) =
            (runToks buffer s t').cmd :: execute buffer { runToks buffer s t' with cmd := {} } ((starAux e n pos1 rs1).2.2 ++ [.act 0]) := by
          simp only [List.append_assoc]
          rw [exec_quiet buffer t' s _ hk.1]
          simp [execute]
        obtain ⟨units, f1, f2, f3⟩ := ih pos1 rs1 { runToks buffer s t' with cmd := {} } (hk.2 _ _ hs) rfl (by omega) hend
        rw [hex]
        refine ⟨pre :: units, by rw [e1, f1]; rfl, by simp [f2], ?_⟩
        intro i u c hiu hic
        cases i with
        | zero =>
          simp only [List.getElem?_cons_zero, Option.some.injEq] at hiu hic
          subst hiu hic
          refine ⟨hu, t', s.b, s.e, ?_, ?_⟩
          · have : (List.drop 0 (pre :: units)).flatten = rs := by rw [e1, f1]; rfl
            rw [this]
            simp [he, e2, f1]
          · obtain ⟨sb, se, sc, sa⟩ := s
            simp only at hs hsc
            subst hs hsc
            rfl
        | succ i =>
          simp only [List.getElem?_cons_succ] at hiu hic
          obtain ⟨g1, t, b, e', g2, g3⟩ := f3 i u c hiu hic
          refine ⟨g1, t, b, e', ?_, g3⟩
          have el : ∀ k, pos + (List.take (k + 1) (pre :: units)).flatten.length = pos1 + (List.take k units).flatten.length := by
            intro k; simp [e2]; omega
          rw [el, el]
          exact g2
  simp only [parseCommands, parse, Option.map_eq_some_iff] at h
  obtain ⟨toks, ⟨⟨p, rs, tt⟩, h1, rfl⟩, rfl⟩ := h
  have hstar : star e 0 (runes buffer) = some (starAux e ((runes buffer).length + 1) 0 (runes buffer)) := rfl
  simp only [first, seq, hstar] at h1
  cases h2 : notP dot (starAux e ((runes buffer).length + 1) 0 (runes buffer)).1 (starAux e ((runes buffer).length + 1) 0 (runes buffer)).2.1 with
  | none => simp [h2] at h1
  | some r =>
    obtain ⟨rfl, hn⟩ := notP_some h2
    have hend : (starAux e ((runes buffer).length + 1) 0 (runes buffer)).2.1 = [] := by
      cases hx : (starAux e ((runes buffer).length + 1) 0 (runes buffer)).2.1 with
      | nil => rfl
      | cons c cs => rw [hx] at hn; simp [dot, cls] at hn
    simp only [h2, act, List.nil_append, Option.some.injEq, Prod.mk.injEq] at h1
    obtain ⟨units, f1, f2, f3⟩ := loop ((runes buffer).length + 1) 0 (runes buffer) {} rfl rfl (by omega) hend
    rw [h1.2.2] at f2 f3
    refine ⟨units, f1, f2, fun i u c hu hc => ?_⟩
    have := f3 i u c hu hc
    simpa using this

/-- **C66** A buffer is rejected exactly when, after some complete units, there is something left that is not
the beginning of a unit followed by anything. The loop has no other way to stop. -/
theorem C66_rejects (buffer : Bytes) : parseCommands buffer = none ↔
    ∃ (pos : Nat) (rs : List Nat) (t : List Tok), star e 0 (runes buffer) = some (pos, rs, t) ∧ e pos rs = none ∧ rs ≠ [] := by
  obtain ⟨⟨pos, rs, t⟩, hst⟩ : ∃ r, star e 0 (runes buffer) = some r := ⟨_, rfl⟩
  have hs := star_stops e_consumes hst
  simp only [parseCommands, parse, Option.map_eq_none_iff, first, seq, hst]
  constructor
  · intro h
    refine ⟨_, _, _, rfl, hs, ?_⟩
    rintro rfl
    simp [notP, dot, cls, act] at h
  · rintro ⟨pos', rs', t', h1, h2, h3⟩
    cases h1
    cases rs with
    | nil => exact absurd rfl h3
    | cons c cs => simp [notP, dot, cls]

/-- A buffer of two units, one of them a block. -/
example : parseCommands b!"2a\nx\n.\n1,2p\n" = some [{ typ := .append, start := ⟨.num, b!"2", 0⟩, text := b!"x" },
    { typ := .print, start := ⟨.num, b!"1", 0⟩, end_ := ⟨.num, b!"2", 0⟩ }] := by decide +kernel

example : Unit (runes b!"2a\nx\n.\n") ∧ Unit (runes b!"1,2p\n") := by
  refine ⟨Or.inr ⟨[50], 97, [120], [], by decide +kernel, by decide, by decide, ?_, by simp⟩, Or.inl ⟨[49, 44, 50, 112], by decide +kernel, by decide⟩⟩
  rw [List.infix_iff_prefix_suffix]
  rintro ⟨t, h1, h2⟩
  obtain ⟨x, hx⟩ := h2
  obtain ⟨y, hy⟩ := h1
  subst hy
  have := congrArg List.length hx
  rcases x with _ | ⟨a, _ | ⟨b, x⟩⟩ <;> simp at hx this

/-- **C76** No address of a parsed command ever has an offset: `+n` and `-n` are read but ignored. -/
theorem C76_offsets_lost (buffer : Bytes) (cmds : List Command) (h : parseCommands buffer = some cmds) :
    ∀ c ∈ cmds, c.start.offset = 0 ∧ c.end_.offset = 0 ∧ c.dest.offset = 0 := by
  have main : ∀ (ts : List Tok) (s : Exec), s.addr.offset = 0 → s.cmd.start.offset = 0 → s.cmd.end_.offset = 0 → s.cmd.dest.offset = 0 →
      ∀ c ∈ execute buffer s ts, c.start.offset = 0 ∧ c.end_.offset = 0 ∧ c.dest.offset = 0 := by
    intro ts
    induction ts with
    | nil => intro s _ _ _ _ c hc; simp [execute] at hc
    | cons x ts ih =>
      intro s h1 h2 h3 h4 c hc
      cases x with
      | pegText b e => 
        simp only [execute] at hc
        exact ih { s with b := b, e := e } h1 h2 h3 h4 c hc
      | act n =>
        by_cases hn : n = 1
        · subst hn
          simp only [execute, if_true, List.mem_cons] at hc
          rcases hc with rfl | hc
          · exact ⟨h2, h3, h4⟩
          · exact ih _ (by exact h1) rfl rfl rfl c hc
        · simp only [execute, hn, if_false] at hc
          refine ih (s.step buffer n) ?_ ?_ ?_ ?_ c hc <;>
          · simp only [Exec.step]
            split <;> first | assumption | rfl
  simp only [parseCommands, Option.map_eq_some_iff] at h
  obtain ⟨ts, _, rfl⟩ := h
  exact main ts {} rfl rfl rfl rfl

/-- `.+1p` means `.p`. -/
example : parseCommands b!".+1p\n" = some [{ typ := .print, start := ⟨.current, b!".+1", 0⟩, end_ := ⟨.current, b!".+1", 0⟩ }] := by
  decide +kernel

end Ed
