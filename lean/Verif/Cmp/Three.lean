import Verif.Cmp.Relations
import Verif.Go.StrconvProps

/-!
# C160: three files

What `cmp` has said of two pairs of files settles what it says of the third pair, or says where to look.
-/

namespace Cmp
open Go

/-- What `cmp` prints for a difference. -/
def said (f g : Bytes) (i l : Nat) : Bytes :=
  f ++ b!" " ++ g ++ b!" differ: char " ++ natToDec i ++ b!", line " ++ natToDec l ++ b!"\n"

/-! ## Lemmas -/

/-- Two texts are equal, one continues the other, or they have different bytes after a common beginning. -/
theorem first_difference (a b : Bytes) : a = b ∨ (∃ t, t ≠ [] ∧ b = a ++ t) ∨ (∃ t, t ≠ [] ∧ a = b ++ t) ∨
    ∃ pre x y s t, x ≠ y ∧ a = pre ++ x :: s ∧ b = pre ++ y :: t := by
  induction a generalizing b with
  | nil =>
    cases b with
    | nil => exact .inl rfl
    | cons y b => exact .inr (.inl ⟨y :: b, by simp, rfl⟩)
  | cons x a ih =>
    cases b with
    | nil => exact .inr (.inr (.inl ⟨x :: a, by simp, rfl⟩))
    | cons y b =>
      by_cases hxy : x = y
      · subst hxy
        rcases ih b with rfl | ⟨t, ht, rfl⟩ | ⟨t, ht, rfl⟩ | ⟨pre, u, v, s, t, h, rfl, rfl⟩
        · exact .inl rfl
        · exact .inr (.inl ⟨t, ht, rfl⟩)
        · exact .inr (.inr (.inl ⟨t, ht, rfl⟩))
        · exact .inr (.inr (.inr ⟨x :: pre, u, v, s, t, h, rfl, rfl⟩))
      · exact .inr (.inr (.inr ⟨[], x, y, a, b, hxy, rfl, rfl⟩))

theorem said_ne (f g : Bytes) (i l : Nat) : said f g i l ≠ [] := by simp [said]

theorem said_inj {f g : Bytes} {i l i' l' : Nat} (h : said f g i l = said f g i' l') : i = i' ∧ l = l' := by
  have hc : ∀ n, (44 : UInt8) ∉ natToDec n := by
    intro n hn
    have := (natToDec_spec n).2.1 _ hn
    exact absurd this (by decide)
  simp only [said, List.append_assoc] at h
  have h := List.append_cancel_left (List.append_cancel_left (List.append_cancel_left (List.append_cancel_left h)))
  have key : ∀ (a b s t : Bytes), (44 : UInt8) ∉ a → 44 ∉ b → a ++ 44 :: s = b ++ 44 :: t → a = b ∧ s = t := by
    intro a
    induction a with
    | nil =>
      intro b s t _ hb h
      cases b with
      | nil => simpa using h
      | cons y b => simp at h hb; exact absurd h.1 hb.1
    | cons x a ih =>
      intro b s t ha hb h
      cases b with
      | nil => simp at h ha; exact absurd h.1.symm ha.1
      | cons y b =>
        simp only [List.cons_append, List.cons.injEq] at h
        simp only [List.mem_cons, not_or] at ha hb
        obtain ⟨r1, r2⟩ := ih b s t ha.2 hb.2 h.2
        exact ⟨by rw [h.1, r1], r2⟩
  obtain ⟨h1, h2⟩ := key _ _ _ _ (hc i) (hc i') h
  exact ⟨natToDec_injective h1, natToDec_injective (List.append_cancel_right (List.append_cancel_left (as := b!" line ") h2))⟩

/-- What the message says about the contents. -/
theorem said_iff {f g : Bytes} {args : List Bytes} (h : Invocation false false [f, g] args) (w : World) (a b : Bytes)
    (h1 : Reads w f a) (h2 : Reads w g b) (hd : ¬ (f = b!"-" ∧ g = b!"-")) (i l : Nat) :
    (main w args).stdout = said f g i l ↔
      ∃ pre x y s t, x ≠ y ∧ a = pre ++ x :: s ∧ b = pre ++ y :: t ∧ i = pre.length + 1 ∧ l = pre.count nl + 1 := by
  have hs : ∀ pre x y s t, x ≠ y → a = pre ++ x :: s → b = pre ++ y :: t → (main w args).stdout = said f g (pre.length + 1) (pre.count nl + 1) := by
    rintro pre x y s t hxy rfl rfl
    rw [C41_first_difference h w pre s t x y hxy h1 h2 hd]
    simp only [said]
    rfl
  constructor
  · intro ho
    rcases first_difference a b with rfl | ⟨t, ht, rfl⟩ | ⟨t, ht, rfl⟩ | ⟨pre, x, y, s, t, hxy, ha, hb⟩
    · rw [C40_equal_quiet h w a h1 h2 hd] at ho
      exact absurd ho.symm (said_ne _ _ _ _)
    · rw [(C41_prefix h w a t ht hd).1 h1 h2] at ho
      exact absurd ho.symm (said_ne _ _ _ _)
    · rw [(C41_prefix h w b t ht hd).2 h1 h2] at ho
      exact absurd ho.symm (said_ne _ _ _ _)
    · rw [hs pre x y s t hxy ha hb] at ho
      obtain ⟨e1, e2⟩ := said_inj ho
      exact ⟨pre, x, y, s, t, hxy, ha, hb, e1.symm, e2.symm⟩
  · rintro ⟨pre, x, y, s, t, hxy, ha, hb, rfl, rfl⟩
    exact hs pre x y s t hxy ha hb

/-! ## Theorems -/

/-- **C160** A difference found earlier between two files than between the second and a third is found at the same place between the first and
the third. -/
theorem C160_earlier {f g k : Bytes} {args args' args'' : List Bytes} (h : Invocation false false [f, g] args)
    (h' : Invocation false false [g, k] args') (h'' : Invocation false false [f, k] args'') (w : World) (a b c : Bytes)
    (ha : Reads w f a) (hb : Reads w g b) (hc : Reads w k c) (hd : f ≠ b!"-" ∧ g ≠ b!"-") (i l j m : Nat)
    (hi : (main w args).stdout = said f g i l) (hj : (main w args').stdout = said g k j m) (hij : i < j) :
    (main w args'').stdout = said f k i l := by
  obtain ⟨pre, x, y, s, t, hxy, rfl, rfl, rfl, rfl⟩ := (said_iff h w a b ha hb (fun e => hd.1 e.1) i l).1 hi
  obtain ⟨pre', x', y', s', t', hxy', e, rfl, rfl, -⟩ := (said_iff h' w _ c hb hc (fun e => hd.2 e.1) j m).1 hj
  refine (said_iff h'' w _ _ ha hc (fun e => hd.1 e.1) _ _).2 ?_
  have hp : ∃ r, pre' = pre ++ y :: r := by
    rcases List.append_eq_append_iff.1 e with ⟨as, h1, h2⟩ | ⟨bs, h1, h2⟩
    · cases as with
      | nil => rw [h1] at hij; simp at hij
      | cons z as =>
        simp only [List.cons_append, List.cons.injEq] at h2
        exact ⟨as, by rw [h1, h2.1]⟩
    · rw [h1] at hij
      simp at hij
      omega
  obtain ⟨r, rfl⟩ := hp
  exact ⟨pre, x, y, s, r ++ y' :: t', hxy, rfl, by simp, rfl, rfl⟩

/-- **C160** The same with the files in another order: a difference found later between the first two than between the second and a third. -/
theorem C160_later {f g k : Bytes} {args args' args'' : List Bytes} (h : Invocation false false [f, g] args)
    (h' : Invocation false false [g, k] args') (h'' : Invocation false false [f, k] args'') (w : World) (a b c : Bytes)
    (ha : Reads w f a) (hb : Reads w g b) (hc : Reads w k c) (hd : f ≠ b!"-" ∧ g ≠ b!"-") (i l j m : Nat)
    (hi : (main w args).stdout = said f g i l) (hj : (main w args').stdout = said g k j m) (hij : j < i) :
    (main w args'').stdout = said f k j m := by
  obtain ⟨pre, x, y, s, t, hxy, rfl, rfl, rfl, rfl⟩ := (said_iff h w a b ha hb (fun e => hd.1 e.1) i l).1 hi
  obtain ⟨pre', x', y', s', t', hxy', e, rfl, rfl, rfl⟩ := (said_iff h' w _ c hb hc (fun e => hd.2 e.1) j m).1 hj
  refine (said_iff h'' w _ _ ha hc (fun e => hd.1 e.1) _ _).2 ?_
  have hp : ∃ r, pre = pre' ++ x' :: r := by
    rcases List.append_eq_append_iff.1 e with ⟨as, h1, h2⟩ | ⟨bs, h1, h2⟩
    · rw [h1] at hij
      simp at hij
      omega
    · cases bs with
      | nil => rw [h1] at hij; simp at hij
      | cons z bs =>
        simp only [List.cons_append, List.cons.injEq] at h2
        exact ⟨bs, by rw [h1, h2.1]⟩
  obtain ⟨r, rfl⟩ := hp
  exact ⟨pre', x', y', r ++ x :: s, t', hxy', by simp, rfl, rfl, rfl⟩

/-- **C160** Two differences at the same byte are on the same line, and the first and third files do not differ before it. -/
theorem C160_same_place {f g k : Bytes} {args args' args'' : List Bytes} (h : Invocation false false [f, g] args)
    (h' : Invocation false false [g, k] args') (h'' : Invocation false false [f, k] args'') (w : World) (a b c : Bytes)
    (ha : Reads w f a) (hb : Reads w g b) (hc : Reads w k c) (hd : f ≠ b!"-" ∧ g ≠ b!"-") (i l m : Nat)
    (hi : (main w args).stdout = said f g i l) (hj : (main w args').stdout = said g k i m) :
    m = l ∧ ∀ j n, (main w args'').stdout = said f k j n → i ≤ j := by
  obtain ⟨pre, x, y, s, t, hxy, rfl, rfl, rfl, rfl⟩ := (said_iff h w a b ha hb (fun e => hd.1 e.1) i l).1 hi
  obtain ⟨pre', x', y', s', t', hxy', e, rfl, e1, rfl⟩ := (said_iff h' w _ c hb hc (fun e => hd.2 e.1) _ m).1 hj
  obtain ⟨rfl, e⟩ := List.append_inj e (by omega)
  refine ⟨rfl, fun j n hjn => ?_⟩
  obtain ⟨p, u, v, s2, t2, huv, e2, e3, rfl, -⟩ := (said_iff h'' w _ _ ha hc (fun e => hd.1 e.1) j n).1 hjn
  apply Classical.byContradiction
  intro hlt
  have hlt : p.length < pre.length := by omega
  have q1 := congrArg (·[p.length]?) e2
  have q2 := congrArg (·[p.length]?) e3
  simp only [List.getElem?_append_left hlt, List.getElem?_append_right (Nat.le_refl _), Nat.sub_self, List.getElem?_cons_zero] at q1 q2
  rw [q1] at q2
  exact huv (Option.some.inj q2)

/-- **C160** A file found equal to another can take its place. -/
theorem C160_equal {f g k : Bytes} {args args' args'' : List Bytes} (h : Invocation false false [f, g] args)
    (h' : Invocation false false [g, k] args') (h'' : Invocation false false [f, k] args'') (w : World) (a b c : Bytes)
    (ha : Reads w f a) (hb : Reads w g b) (hc : Reads w k c) (hd : f ≠ b!"-" ∧ g ≠ b!"-") (he : (main w args').exit = 0) (i l : Nat) :
    (main w args).stdout = said f g i l ↔ (main w args'').stdout = said f k i l := by
  have e := C40_status h' w b c hb hc (fun e => hd.2 e.1)
  rw [he] at e
  have e : b = c := by
    by_cases hbc : b = c
    · exact hbc
    · rw [if_neg hbc] at e; cases e
  subst e
  rw [said_iff h w a b ha hb (fun e => hd.1 e.1), said_iff h'' w a b ha hc (fun e => hd.1 e.1)]

/-- Three files that differ as in the theorems. -/
def threeFiles : World where
  file n := if n = b!"a" then some ⟨b!"x\ny", none⟩ else if n = b!"b" then some ⟨b!"x\nz\n1", none⟩ else if n = b!"c" then some ⟨b!"x\nz\n2", none⟩ else none
  stdin := ⟨[], none⟩
  shared := (⟨[], none⟩, ⟨[], none⟩)

example : (main threeFiles [b!"a", b!"b"]).stdout = said b!"a" b!"b" 3 2 ∧ (main threeFiles [b!"b", b!"c"]).stdout = said b!"b" b!"c" 5 3 ∧
    (main threeFiles [b!"a", b!"c"]).stdout = said b!"a" b!"c" 3 2 := by decide +kernel

end Cmp
