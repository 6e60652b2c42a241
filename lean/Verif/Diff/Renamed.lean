import Verif.Diff.First
import Verif.Diff.CmdProps

/-!
# Only which lines are equal matters to a diff (C145)
-/

namespace Diff
open Go

section
variable {α β : Type} [DecidableEq α] [DecidableEq β]

/-- The lines of a block replaced. -/
def Block.rename (f : α → β) (c : Block α) : Block β := ⟨c.kind, c.values.map f⟩

/-- `f` keeps the lines of the two files apart. -/
def Apart2 (f : α → β) (old new : List α) : Prop := ∀ x ∈ old ++ new, ∀ y ∈ old ++ new, f x = f y → x = y

omit [DecidableEq α] [DecidableEq β] in
theorem map_inj_on {f : α → β} : ∀ {u v : List α}, (∀ x ∈ u, ∀ y ∈ v, f x = f y → x = y) → u.map f = v.map f → u = v := by
  intro u
  induction u with
  | nil => intro v _ h; cases v with
    | nil => rfl
    | cons => simp at h
  | cons a u ih =>
    intro v hi h
    cases v with
    | nil => simp at h
    | cons b v =>
      simp only [List.map_cons, List.cons.injEq] at h
      rw [hi a (by simp) b (by simp) h.1, ih (fun x hx y hy => hi x (by simp [hx]) y (by simp [hy])) h.2]

omit [DecidableEq α] [DecidableEq β] in
theorem commonRun_rename {f : α → β} {old new : List α} (hf : Apart2 f old new) (a b n : Nat) :
    CommonRun (old.map f) (new.map f) a b n ↔ CommonRun old new a b n := by
  simp only [CommonRun, List.length_map, ← List.map_drop, ← List.map_take]
  constructor
  · rintro ⟨h1, h2, h3⟩
    refine ⟨h1, h2, map_inj_on (fun x hx y hy => ?_) h3⟩
    exact hf x (List.mem_append_left _ (List.mem_of_mem_drop (List.mem_of_mem_take hx))) y
      (List.mem_append_right _ (List.mem_of_mem_drop (List.mem_of_mem_take hy)))
  · rintro ⟨h1, h2, h3⟩
    exact ⟨h1, h2, by rw [h3]⟩

omit [DecidableEq α] [DecidableEq β] in
theorem firstLongest_rename {f : α → β} {old new : List α} (hf : Apart2 f old new) (a b n : Nat) :
    FirstLongest (old.map f) (new.map f) a b n ↔ FirstLongest old new a b n := by
  simp only [FirstLongest, commonRun_rename hf]

omit [DecidableEq α] [DecidableEq β] in
theorem isDiff_rename {f : α → β} {old new : List α} {cs : List (Block α)} (h : IsDiff old new cs) : Apart2 f old new →
    IsDiff (old.map f) (new.map f) (cs.map (Block.rename f)) := by
  induction h with
  | both => intro _; exact .both
  | add new hn => intro _; exact .add _ (by simpa using hn)
  | minus old hn => intro _; exact .minus _ (by simpa using hn)
  | change old new h1 h2 h3 =>
    intro hf
    refine .change _ _ (by simpa using h1) (by simpa using h2) ?_
    intro y hy hy'
    obtain ⟨x, hx, rfl⟩ := List.mem_map.1 hy
    obtain ⟨x', hx', e⟩ := List.mem_map.1 hy'
    have := hf x (by simp [hx]) x' (by simp [hx']) e.symm
    subst this
    exact h3 x hx hx'
  | split old new a b n l r h1 h2 h3 ih1 ih2 =>
    intro hf
    have k1 := ih1 (fun x hx y hy => hf x (by
      rcases List.mem_append.1 hx with h | h
      · exact List.mem_append_left _ (List.mem_of_mem_take h)
      · exact List.mem_append_right _ (List.mem_of_mem_take h)) y (by
      rcases List.mem_append.1 hy with h | h
      · exact List.mem_append_left _ (List.mem_of_mem_take h)
      · exact List.mem_append_right _ (List.mem_of_mem_take h)))
    have k2 := ih2 (fun x hx y hy => hf x (by
      rcases List.mem_append.1 hx with h | h
      · exact List.mem_append_left _ (List.mem_of_mem_drop h)
      · exact List.mem_append_right _ (List.mem_of_mem_drop h)) y (by
      rcases List.mem_append.1 hy with h | h
      · exact List.mem_append_left _ (List.mem_of_mem_drop h)
      · exact List.mem_append_right _ (List.mem_of_mem_drop h)))
    have e : (l ++ [(⟨.equal, (old.drop a).take n⟩ : Block α)] ++ r).map (Block.rename f) =
        l.map (Block.rename f) ++ [⟨.equal, ((old.map f).drop a).take n⟩] ++ r.map (Block.rename f) := by
      simp [Block.rename, List.map_drop, List.map_take]
    rw [e]
    rw [List.map_take, List.map_take] at k1
    rw [List.map_drop, List.map_drop] at k2
    exact .split _ _ a b n _ _ ((firstLongest_rename hf a b n).2 h1) k1 k2

/-- **C145** `Diff` looks at nothing but which lines are equal: if lines are replaced by others, different ones by different ones, the diff is
the same with the lines replaced. -/
theorem C145_renamed (f : α → β) (old new : List α) (hf : Apart2 f old new) :
    diff (old.map f) (new.map f) = (diff old new).map (Block.rename f) :=
  ((C107_exact _ _ _).1 (isDiff_rename ((C107_exact old new _).2 rfl) hf)).symm

/-- **C145** In particular the diff of any two files has the kinds and the lengths of the diff of two lists of numbers: give every line the
number of the first line equal to it. -/
theorem C145_numbers (old new : List α) : ∃ f : α → Nat, Apart2 f old new ∧
    (diff old new).map (fun c => (c.kind, c.values.length)) = (diff (old.map f) (new.map f)).map (fun c => (c.kind, c.values.length)) := by
  have hf : Apart2 (fun x => (old ++ new).idxOf x) old new := by
    intro x hx y hy e
    have h1 := List.getElem_idxOf (List.idxOf_lt_length_of_mem hx)
    have h2 := List.getElem_idxOf (List.idxOf_lt_length_of_mem hy)
    dsimp only at e
    simp only [e] at h1
    exact h1.symm.trans h2
  refine ⟨_, hf, ?_⟩
  rw [C145_renamed _ _ _ hf, List.map_map]
  simp [Block.rename, Function.comp_def]

end

/-! ## What is printed -/

/-- A line of the output with the text replaced: after `< ` and `> `; other lines are left. -/
def renameLine (f : Bytes → Bytes) (l : Bytes) : Bytes :=
  if startsWith b!"< " l then b!"< " ++ f (l.drop 2) else if startsWith b!"> " l then b!"> " ++ f (l.drop 2) else l

theorem renameLine_gt (f : Bytes → Bytes) (v : Bytes) : renameLine f (b!"> " ++ v) = b!"> " ++ f v := by
  simp [renameLine, startsWith]

theorem renameLine_lt (f : Bytes → Bytes) (v : Bytes) : renameLine f (b!"< " ++ v) = b!"< " ++ f v := by
  simp [renameLine, startsWith]

theorem renameLine_digit (f : Bytes → Bytes) {c : UInt8} {r : Bytes} (h : isDigit c = true) : renameLine f (c :: r) = c :: r := by
  have h1 : (60 == c) = false := by
    cases e : (60 == c) with
    | false => rfl
    | true => rw [beq_iff_eq] at e; subst e; exact absurd h (by decide)
  have h2 : (62 == c) = false := by
    cases e : (62 == c) with
    | false => rfl
    | true => rw [beq_iff_eq] at e; subst e; exact absurd h (by decide)
  simp [renameLine, startsWith, List.isPrefixOf, h1, h2]

theorem renameLine_itoa (f : Bytes → Bytes) (n : Nat) (r : Bytes) : renameLine f (itoa n ++ r) = itoa n ++ r := by
  obtain ⟨c, t, e, hc⟩ := head_digit_itoa n
  rw [e]
  exact renameLine_digit f hc

theorem renameLine_range (f : Bytes → Bytes) (a n : Nat) (r : Bytes) : renameLine f (fmtRange a n ++ r) = fmtRange a n ++ r := by
  obtain ⟨c, t, e, hc⟩ := head_digit_fmt a n
  rw [e]
  exact renameLine_digit f hc

theorem map_gt (f : Bytes → Bytes) (vs : List Bytes) : (gt vs).map (renameLine f) = gt (vs.map f) := by
  induction vs with
  | nil => rfl
  | cons v vs ih =>
    simp only [gt, List.map_cons] at ih ⊢
    rw [renameLine_gt, ih]

theorem map_lt (f : Bytes → Bytes) (vs : List Bytes) : (lt vs).map (renameLine f) = lt (vs.map f) := by
  induction vs with
  | nil => rfl
  | cons v vs ih =>
    simp only [lt, List.map_cons] at ih ⊢
    rw [renameLine_lt, ih]

theorem outputLoop_rename (f : Bytes → Bytes) (cs : List (Block Bytes)) : ∀ o n : Nat,
    outputLoop o n (cs.map (Block.rename f)) = (outputLoop o n cs).map (renameLine f) := by
  intro o n
  induction o, n, cs using outputLoop.induct with
  | case1 o n => rfl
  | case2 o n vs cs ih => simpa [outputLoop, Block.rename] using ih
  | case3 o n vs cs ih =>
    simp only [List.map_cons, Block.rename, outputLoop, List.length_map, List.map_append, List.cons_append, map_gt, List.append_assoc] at ih ⊢
    rw [renameLine_itoa, ih]
  | case4 o n vs ws cs ih =>
    have hd : renameLine f b!"---" = b!"---" := by simp [renameLine, startsWith, List.isPrefixOf]
    simp only [List.map_cons, Block.rename, outputLoop, List.length_map, List.map_append, List.cons_append, List.nil_append, map_gt, map_lt, List.append_assoc, List.map_nil, hd] at ih ⊢
    rw [renameLine_range, ih]
  | case5 o n vs cs hno ih =>
    have e1 : outputLoop o n (⟨.minus, vs⟩ :: cs) = (fmtRange o vs.length ++ b!"d" ++ itoa n) :: lt vs ++ outputLoop (o + vs.length) n cs := by
      rw [outputLoop]
      exact hno
    have e2 : outputLoop o n ((⟨.minus, vs⟩ :: cs).map (Block.rename f)) =
        (fmtRange o (vs.map f).length ++ b!"d" ++ itoa n) :: lt (vs.map f) ++ outputLoop (o + (vs.map f).length) n (cs.map (Block.rename f)) := by
      rw [List.map_cons]
      simp only [Block.rename]
      rw [outputLoop]
      intro ws cs' e
      cases cs with
      | nil => simp at e
      | cons c cs =>
        obtain ⟨k, us⟩ := c
        simp only [List.map_cons, List.cons.injEq, Block.mk.injEq] at e
        obtain ⟨⟨rfl, -⟩, -⟩ := e
        exact hno us cs rfl
    rw [e1, e2, List.length_map, ih]
    simp only [List.map_cons, List.map_append, List.cons_append, map_lt, List.append_assoc]
    rw [renameLine_range]

/-- **C145** What `Format` prints has the same headers, and the lines after `< ` and `> ` are the lines that replace those printed before. -/
theorem C145_printed (f : Bytes → Bytes) (old new : List Bytes) (hf : Apart2 f old new) :
    format (diff (old.map f) (new.map f)) = join [nl] ((outputLoop 0 0 (diff old new)).map (renameLine f)) := by
  rw [C145_renamed f old new hf, format, outputLoop_rename]

/-- **C145** The command: a file system with two files whose lines are replaced, different ones by different ones. -/
theorem C145_command (p : Nat → Bool) (f : Bytes → Bytes) (args : List Bytes) (ha : ∀ a ∈ args, a ≠ []) (f1 f2 : Bytes) (hp : Parses args [f1, f2])
    (fs fs' : FS) (old new : List Bytes) (h1 : fs f1 = some (unlines old)) (h2 : fs f2 = some (unlines new))
    (h1' : fs' f1 = some (unlines (old.map f))) (h2' : fs' f2 = some (unlines (new.map f)))
    (hpl : ∀ l ∈ old ++ new, PlainLine l ∧ PlainLine (f l)) (hf : Apart2 f old new) :
    ∃ ls, (main p fs args).stdout = join [nl] ls ++ [nl] ∧ (main p fs' args).stdout = join [nl] (ls.map (renameLine f)) ++ [nl] := by
  obtain ⟨s, hs, e1, e2⟩ := (C17_accepts_iff args ha f1 f2).2 hp
  have q : ∀ l ∈ old ++ new, PlainLine l := fun l hl => (hpl l hl).1
  have r1 : readLines fs s.file1 = old := by simp [readLines, e1, h1, scanLines_unlines old (fun l hl => q l (by simp [hl]))]
  have r2 : readLines fs s.file2 = new := by simp [readLines, e2, h2, scanLines_unlines new (fun l hl => q l (by simp [hl]))]
  have r1' : readLines fs' s.file1 = old.map f := by
    simp only [readLines, e1, h1']
    rw [scanLines_unlines]
    intro l hl
    obtain ⟨x, hx, rfl⟩ := List.mem_map.1 hl
    exact (hpl x (by simp [hx])).2
  have r2' : readLines fs' s.file2 = new.map f := by
    simp only [readLines, e2, h2']
    rw [scanLines_unlines]
    intro l hl
    obtain ⟨x, hx, rfl⟩ := List.mem_map.1 hl
    exact (hpl x (by simp [hx])).2
  refine ⟨outputLoop 0 0 (diff old new), ?_, ?_⟩
  · simp [main, hs, r1, r2, format]
  · simp only [main, hs, r1', r2', C145_printed f old new hf]

example : Apart2 (fun x => x ++ b!"!") [b!"a", b!"b", b!"c"] [b!"b", b!"d"] ∧
    outputLoop 0 0 (diff [b!"a", b!"b", b!"c"] [b!"b", b!"d"]) = [b!"1d0", b!"< a", b!"3c2", b!"< c", b!"---", b!"> d"] ∧
    format (diff [b!"a!", b!"b!", b!"c!"] [b!"b!", b!"d!"]) = join [nl] [b!"1d0", b!"< a!", b!"3c2", b!"< c!", b!"---", b!"> d!"] := by
  refine ⟨?_, by decide, by decide⟩
  intro x _ y _ h
  exact List.append_cancel_right h

end Diff
