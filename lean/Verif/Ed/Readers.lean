import Verif.Ed.LinksProps

/-!
# C163: a file that is read while ed saves it

On a disk with links (`Verif.Ed.Links`). A program that has opened a file reads from that file, whatever happens to the name.
-/

namespace Ed.Links
open Go

/-! ## Specification -/

/-- A save: how its system calls go, the name and the text. -/
structure Save where
  o : Outcome
  name : Bytes
  data : Bytes

/-- The disks that exist one after the other while a file, or several, are saved any number of times (pkg/ed/ed.go:48-77 by `save`). -/
def history (umask : BitVec 9) : Disk → List Save → List Disk
  | d, [] => [d]
  | d, s :: rest => d :: ((save s.o umask d s.name s.data).1 ++ history umask (final d (save s.o umask d s.name s.data).1) rest)

/-- A program reads from file number `i`, at various times and any number of bytes at a time, from where it has got to. -/
def reads (i : Nat) : Nat → List (Disk × Nat) → Bytes
  | _, [] => []
  | off, (d, k) :: rest =>
    let got := ((d.node i).data.drop off).take k
    got ++ reads i (off + got.length) rest

/-- A name that is not used for a temporary file. -/
def Plain (saves : List Save) (n : Bytes) : Prop := ∀ s ∈ saves, n ≠ tmpName s.name

/-- The disk before the saves: the temporary files have no other names, and no file to be saved is itself the temporary file of another. -/
structure Ready (d : Disk) (saves : List Save) : Prop where
  wf : d.WF
  apart : ∀ s ∈ saves, Apart d s.name
  plain : ∀ s ∈ saves, Plain saves s.name

/-! ## Lemmas -/

/-- A file that no save will write to: it is not new, and no temporary name stands for it. -/
def Held (d : Disk) (names : List Bytes) (i : Nat) : Prop := i < d.next ∧ ∀ m ∈ names, d.entry (tmpName m) ≠ some (.file i)

theorem tmp_inj {a b : Bytes} (h : tmpName a = tmpName b) : a = b := List.append_cancel_right h

/-- What happens to a disk during saves of the given names. -/
inductive Move (names : List Bytes) (d : Disk) : Disk → Prop
  | opened (name : Bytes) (hn : name ∈ names) (umask m : BitVec 9) (d' : Disk) (j : Nat) (h : openTrunc umask m d (tmpName name) = some (d', j)) : Move names d d'
  | put (name : Bytes) (hn : name ∈ names) (data : Bytes) (j k : Nat) (h : d.entry (tmpName name) = some (.file j)) : Move names d (written d j data k)
  | removed (name : Bytes) (hn : name ∈ names) : Move names d (setEntry d (tmpName name) none)
  | renamed (name : Bytes) (hn : name ∈ names) (j : Nat) (h : d.entry (tmpName name) = some (.file j)) : Move names d (rename d (tmpName name) name)

/-- Any number of moves. -/
inductive Moves (names : List Bytes) (d : Disk) : Disk → Prop
  | refl : Moves names d d
  | tail {d1 d2 : Disk} : Moves names d d1 → Move names d1 d2 → Moves names d d2

theorem Moves.trans {names : List Bytes} {a b c : Disk} (h1 : Moves names a b) (h2 : Moves names b c) : Moves names a c := by
  induction h2 with
  | refl => exact h1
  | tail _ h ih => exact .tail ih h

theorem Moves.one {names : List Bytes} {a b : Disk} (h : Move names a b) : Moves names a b := .tail .refl h

/-- What is true of the disk at every moment. -/
structure Good (names : List Bytes) (d : Disk) : Prop where
  wf : d.WF
  apart : ∀ m ∈ names, Apart d m

theorem open_cases {umask m : BitVec 9} {d d' : Disk} {name : Bytes} {j : Nat} (ha : Apart d name)
    (h : openTrunc umask m d (tmpName name) = some (d', j)) :
    (d.entry (tmpName name) = some (.file j) ∧ d' = setNode d j { d.node j with data := [] }) ∨
    (d.entry (tmpName name) = none ∧ j = d.next ∧
      d' = { setNode (setEntry d (tmpName name) (some (.file d.next))) d.next ⟨[], m &&& ~~~umask⟩ with next := d.next + 1 }) := by
  unfold openTrunc at h
  cases he : d.entry (tmpName name) with
  | none =>
    have hres : d.resolve (tmpName name) = some (.missing (tmpName name)) := by rw [Disk.resolve, follow, he]
    rw [hres] at h
    simp only [Option.some.injEq, Prod.mk.injEq] at h
    exact .inr ⟨rfl, h.2.symm, h.1.symm⟩
  | some e =>
    obtain ⟨i, rfl, hi⟩ := ha.1 e he
    have hres : d.resolve (tmpName name) = some (.file i) := by rw [Disk.resolve, follow, he]
    rw [hres] at h
    simp only [Option.some.injEq, Prod.mk.injEq] at h
    obtain ⟨h1, rfl⟩ := h
    exact .inl ⟨rfl, h1.symm⟩

theorem rename_cases (d : Disk) (name : Bytes) (j : Nat) (h : d.entry (tmpName name) = some (.file j)) :
    rename d (tmpName name) name = d ∨ rename d (tmpName name) name = setEntry (setEntry d name (some (.file j))) (tmpName name) none := by
  unfold rename
  rw [h]
  split
  · split
    · exact .inl rfl
    · exact .inr rfl
  · exact .inr rfl

/-- A move keeps the disk in order, and leaves a held file alone. -/
theorem Move.good {names : List Bytes} {d d' : Disk} (hp : ∀ a ∈ names, ∀ b ∈ names, a ≠ tmpName b) (h : Move names d d') (hg : Good names d) :
    Good names d' ∧ ∀ i, Held d names i → d'.node i = d.node i ∧ Held d' names i := by
  cases h with
  | opened name hn umask m _ j h =>
    rcases open_cases (hg.apart name hn) h with ⟨he, rfl⟩ | ⟨he, rfl, rfl⟩
    · refine ⟨⟨hg.wf, hg.apart⟩, fun i hi => ⟨?_, hi⟩⟩
      have : i ≠ j := by rintro rfl; exact hi.2 name hn he
      simp only [setNode, if_neg this]
    · refine ⟨⟨?_, ?_⟩, fun i hi => ⟨?_, ?_⟩⟩
      · intro n i h
        simp only [setNode, setEntry] at h ⊢
        split at h
        · simp only [Option.some.injEq, Entry.file.injEq] at h; omega
        · have := hg.wf n i h; omega
      · intro m hm
        constructor
        · intro e h
          simp only [setNode, setEntry] at h ⊢
          split at h
          · next e1 =>
            cases h
            refine ⟨_, rfl, fun n hn' h => ?_⟩
            split at h
            · next e2 => exact hn' (e2.trans e1.symm)
            · exact absurd (hg.wf n _ h) (Nat.lt_irrefl _)
          · obtain ⟨j, rfl, hj⟩ := (hg.apart m hm).1 e h
            refine ⟨j, rfl, fun n hn' h' => ?_⟩
            split at h'
            · simp only [Option.some.injEq, Entry.file.injEq] at h'
              have := hg.wf _ _ h; omega
            · exact hj n hn' h'
        · intro n h
          simp only [setNode, setEntry] at h
          split at h
          · cases h
          · exact (hg.apart m hm).2 n h
      · have : i ≠ d.next := by have := hi.1; omega
        simp only [setNode, setEntry, if_neg this]
      · refine ⟨by have := hi.1; simp only [setNode, setEntry]; omega, fun m hm h => ?_⟩
        simp only [setNode, setEntry] at h
        split at h
        · simp only [Option.some.injEq, Entry.file.injEq] at h
          have := hi.1; omega
        · exact hi.2 m hm h
  | put name hn data j k h =>
    refine ⟨⟨hg.wf, hg.apart⟩, fun i hi => ⟨?_, hi⟩⟩
    have : i ≠ j := by rintro rfl; exact hi.2 name hn h
    simp only [written, setNode, if_neg this]
  | removed name hn =>
    refine ⟨⟨?_, ?_⟩, fun i hi => ⟨rfl, hi.1, fun m hm h => ?_⟩⟩
    · intro n i h
      simp only [setEntry] at h
      split at h
      · cases h
      · exact hg.wf n i h
    · intro m hm
      constructor
      · intro e h
        simp only [setEntry] at h ⊢
        split at h
        · cases h
        · obtain ⟨j, rfl, hj⟩ := (hg.apart m hm).1 e h
          refine ⟨j, rfl, fun n hn' h' => ?_⟩
          split at h'
          · cases h'
          · exact hj n hn' h'
      · intro n h
        simp only [setEntry] at h
        split at h
        · cases h
        · exact (hg.apart m hm).2 n h
    · simp only [setEntry] at h
      split at h
      · cases h
      · exact hi.2 m hm h
  | renamed name hn j h =>
    rcases rename_cases d name j h with e | e
    · rw [e]; exact ⟨hg, fun i hi => ⟨rfl, hi⟩⟩
    · rw [e]
      refine ⟨⟨?_, ?_⟩, fun i hi => ⟨rfl, hi.1, fun m hm h' => ?_⟩⟩
      · intro n i h'
        simp only [setEntry] at h' ⊢
        split at h'
        · cases h'
        · split at h'
          · cases h'; exact hg.wf _ _ h
          · exact hg.wf n i h'
      · intro m hm
        constructor
        · intro e h'
          simp only [setEntry, if_neg (hp name hn m hm).symm] at h' ⊢
          split at h'
          · cases h'
          · next hne =>
            obtain ⟨j', rfl, hj⟩ := (hg.apart m hm).1 e h'
            refine ⟨j', rfl, fun n hn' h2 => ?_⟩
            split at h2
            · cases h2
            · split at h2
              · cases h2
                exact hj _ (fun e => hne e.symm) h
              · exact hj n hn' h2
        · intro n h'
          simp only [setEntry] at h'
          split at h'
          · cases h'
          · split at h'
            · cases h'
            · exact (hg.apart m hm).2 n h'
      · simp only [setEntry, if_neg (hp name hn m hm).symm] at h'
        split at h'
        · cases h'
        · exact hi.2 m hm h'

theorem Moves.good {names : List Bytes} {d d' : Disk} (hp : ∀ a ∈ names, ∀ b ∈ names, a ≠ tmpName b) (h : Moves names d d') (hg : Good names d) :
    Good names d' ∧ ∀ i, Held d names i → d'.node i = d.node i ∧ Held d' names i := by
  induction h with
  | refl => exact ⟨hg, fun i hi => ⟨rfl, hi⟩⟩
  | tail _ h ih =>
    obtain ⟨g2, h2⟩ := h.good hp ih.1
    exact ⟨g2, fun i hi => ⟨(h2 i (ih.2 i hi).2).1.trans (ih.2 i hi).1, (h2 i (ih.2 i hi).2).2⟩⟩

theorem written_twice (d : Disk) (j : Nat) (data : Bytes) (k k' : Nat) : written (written d j data k) j data k' = written d j data k' := by
  simp only [written, setNode]
  congr 1
  funext i
  split <;> simp_all

/-- The disks of a save follow one another by moves. -/
theorem save_moves (o : Outcome) (umask : BitVec 9) {d : Disk} {name data : Bytes} {names : List Bytes} (hn : name ∈ names) (ha : Apart d name)
    (hwf : d.WF) : List.Pairwise (Moves names) (d :: (save o umask d name data).1) := by
  have hrem : ∀ d1 : Disk, List.Pairwise (Moves names) (d1 :: remove o d1 (tmpName name)) := by
    intro d1
    unfold remove
    split
    · simp only [List.pairwise_cons, List.mem_singleton, forall_eq, List.not_mem_nil, false_implies, implies_true, List.Pairwise.nil, and_self, and_true]
      exact .one (.removed name hn)
    · simp
  by_cases hi : ∃ i, d.resolve name = some (.file i)
  · obtain ⟨i, hi⟩ := hi
    rw [save_file hi]
    cases o.stat with
    | some e => simp
    | none =>
      simp only
      cases hop : openTrunc umask (d.node i).mode d (tmpName name) with
      | none => exact hrem d
      | some p =>
        obtain ⟨d1, j⟩ := p
        obtain ⟨-, -, k3, -⟩ := open_spec hwf ha hop
        have hput : ∀ k, Moves names d (written d1 j data k) := fun k => .tail (.one (.opened name hn _ _ _ _ hop)) (.put name hn data j k k3)
        have hnext : ∀ k k', Moves names (written d1 j data k) (written d1 j data k') := fun k k' => by
          have := Move.put (d := written d1 j data k) name hn data j k' k3
          rw [written_twice] at this
          exact .one this
        have key : ∀ (n : Nat) (l : List Disk), List.Pairwise (Moves names) (written d1 j data n :: l) →
            List.Pairwise (Moves names) (d :: ((List.range (n + 1)).map (written d1 j data) ++ l)) := by
          intro n l hl
          rw [List.pairwise_cons] at hl ⊢
          constructor
          · intro x hx
            rcases List.mem_append.1 hx with hx | hx
            · obtain ⟨k, _, rfl⟩ := List.mem_map.1 hx
              exact hput k
            · exact (hput n).trans (hl.1 x hx)
          · rw [List.pairwise_append]
            refine ⟨?_, hl.2, ?_⟩
            · rw [List.pairwise_map]
              exact List.Pairwise.imp (R := fun _ _ => True) (fun _ => hnext _ _) (List.pairwise_of_forall (by simp))
            · intro x hx y hy
              obtain ⟨k, _, rfl⟩ := List.mem_map.1 hx
              exact (hnext k n).trans (hl.1 y hy)
        simp only
        cases o.writeFile with
        | some e =>
          simp only
          cases o.written with
          | none => exact hrem d
          | some n => exact key n _ (hrem _)
        | none =>
          simp only
          cases o.rename with
          | some e => exact key _ _ (hrem _)
          | none =>
            refine key _ _ ?_
            simp only [List.pairwise_cons, List.mem_singleton, forall_eq, List.not_mem_nil, false_implies, implies_true, List.Pairwise.nil, and_self, and_true]
            exact .one (.renamed name hn j k3)
  · rw [save_nothing (fun i h => hi ⟨i, h⟩)]
    simp

theorem moves_final {names : List Bytes} {d : Disk} {tr : List Disk} (h : List.Pairwise (Moves names) (d :: tr)) :
    ∀ x ∈ d :: tr, Moves names x (final d tr) := by
  induction tr generalizing d with
  | nil => intro x hx; simp only [List.mem_singleton] at hx; subst hx; exact .refl
  | cons y ys ih =>
    intro x hx
    have e : final d (y :: ys) = final y ys := by
      unfold final
      cases ys with
      | nil => rfl
      | cons z zs => simp [List.getLast?_cons]
    rw [e]
    rw [List.pairwise_cons] at h
    have := ih h.2
    rcases List.mem_cons.1 hx with rfl | hx
    · exact (h.1 y List.mem_cons_self).trans (this y List.mem_cons_self)
    · exact this x hx

theorem history_moves (umask : BitVec 9) (names : List Bytes) (hp : ∀ a ∈ names, ∀ b ∈ names, a ≠ tmpName b) : ∀ (saves : List Save) (d : Disk),
    (∀ s ∈ saves, s.name ∈ names) → Good names d →
    List.Pairwise (Moves names) (history umask d saves) ∧ ∀ x ∈ history umask d saves, Moves names d x := by
  intro saves
  induction saves with
  | nil => intro d _ _; simp [history, Moves.refl]
  | cons s rest ih =>
    intro d hs hg
    have hn := hs s List.mem_cons_self
    have h1 := save_moves s.o umask (data := s.data) hn (hg.apart _ hn) hg.wf
    have h2 := moves_final h1
    have hF := h2 d List.mem_cons_self
    obtain ⟨i1, i2⟩ := ih (final d (save s.o umask d s.name s.data).1) (fun x hx => hs x (List.mem_cons_of_mem _ hx)) (hF.good hp hg).1
    rw [List.pairwise_cons] at h1
    rw [history]
    constructor
    · rw [List.pairwise_cons, List.pairwise_append]
      refine ⟨fun x hx => ?_, h1.2, i1, fun x hx y hy => (h2 x (List.mem_cons_of_mem _ hx)).trans (i2 y hy)⟩
      rcases List.mem_append.1 hx with hx | hx
      · exact h1.1 x hx
      · exact hF.trans (i2 x hx)
    · intro x hx
      rcases List.mem_cons.1 hx with rfl | hx
      · exact .refl
      · rcases List.mem_append.1 hx with hx | hx
        · exact h1.1 x hx
        · exact hF.trans (i2 x hx)

theorem held_of_resolve {names : List Bytes} {d : Disk} (hg : Good names d) {n : Bytes} {i : Nat} (hn : ∀ m ∈ names, n ≠ tmpName m)
    (h : d.resolve n = some (.file i)) : Held d names i := by
  have key : ∀ (k : Nat) (n : Bytes), (∀ m ∈ names, n ≠ tmpName m) → follow d.entry k n = some (.file i) →
      ∃ x, (∀ m ∈ names, x ≠ tmpName m) ∧ d.entry x = some (.file i) := by
    intro k
    induction k with
    | zero =>
      intro n hn h
      rw [follow] at h
      split at h
      · cases h
      · next x hx => exact ⟨n, hn, by rw [hx]; cases h; rfl⟩
      · cases h
    | succ k ih =>
      intro n hn h
      rw [follow] at h
      split at h
      · cases h
      · next x hx => exact ⟨n, hn, by rw [hx]; cases h; rfl⟩
      · next t ht => exact ih t (fun m hm e => (hg.apart m hm).2 n (by rw [ht, e])) h
  obtain ⟨x, hx, he⟩ := key 40 n hn h
  refine ⟨hg.wf _ _ he, fun m hm hc => ?_⟩
  obtain ⟨j, e1, hj⟩ := (hg.apart m hm).1 _ hc
  cases e1
  exact hj x (hx m hm) he

theorem Ready.good {d : Disk} {saves : List Save} (hr : Ready d saves) :
    Good (saves.map Save.name) d ∧ ∀ a ∈ saves.map Save.name, ∀ b ∈ saves.map Save.name, a ≠ tmpName b := by
  refine ⟨⟨hr.wf, fun m hm => ?_⟩, fun a ha b hb => ?_⟩
  · obtain ⟨s, hs, rfl⟩ := List.mem_map.1 hm
    exact hr.apart s hs
  · obtain ⟨s, hs, rfl⟩ := List.mem_map.1 ha
    obtain ⟨t, ht, rfl⟩ := List.mem_map.1 hb
    exact hr.plain s hs t ht

theorem Plain.names {saves : List Save} {n : Bytes} (h : Plain saves n) : ∀ m ∈ saves.map Save.name, n ≠ tmpName m := by
  intro m hm
  obtain ⟨s, hs, rfl⟩ := List.mem_map.1 hm
  exact h s hs

theorem reads_same (i : Nat) (text : Bytes) : ∀ (l : List (Disk × Nat)) (off : Nat), (∀ x ∈ l, (x.1.node i).data = text) →
    reads i off l = (text.drop off).take (l.map Prod.snd).sum := by
  intro l
  induction l with
  | nil => intro off _; simp [reads]
  | cons x rest ih =>
    intro off h
    obtain ⟨d, k⟩ := x
    have hd := h (d, k) List.mem_cons_self
    simp only at hd
    simp only [reads, hd, List.map_cons, List.sum_cons]
    rw [ih _ fun x hx => h x (List.mem_cons_of_mem _ hx), List.take_add, List.length_take, List.length_drop]
    congr 1
    rw [List.drop_drop]
    by_cases hk : k ≤ text.length - off
    · rw [Nat.min_eq_left hk]
    · have h1 : text.drop (off + min k (text.length - off)) = [] := List.drop_eq_nil_of_le (by omega)
      have h2 : text.drop (off + k) = [] := List.drop_eq_nil_of_le (by omega)
      rw [h1, h2]

theorem leads_file {e : Bytes → Option Entry} {n m : Bytes} (h : Leads e n m) (hn : ∀ t, e n ≠ some (.link t)) : n = m := by
  cases h with
  | here => rfl
  | link _ t _ h _ => exact absurd h (hn t)

theorem Move.plain {names : List Bytes} {d d' : Disk} (hg : Good names d) (h : Move names d d') {n : Bytes} (hl : ∀ t, d.entry n ≠ some (.link t)) :
    ∀ t, d'.entry n ≠ some (.link t) := by
  intro t ht
  cases h with
  | opened name hn umask m _ j h =>
    rcases open_cases (hg.apart name hn) h with ⟨he, rfl⟩ | ⟨he, rfl, rfl⟩
    · exact hl t ht
    · simp only [setNode, setEntry] at ht
      split at ht
      · cases ht
      · exact hl t ht
  | put name hn data j k h => exact hl t ht
  | removed name hn =>
    simp only [setEntry] at ht
    split at ht
    · cases ht
    · exact hl t ht
  | renamed name hn j h =>
    rcases rename_cases d name j h with e | e
    · rw [e] at ht; exact hl t ht
    · rw [e] at ht
      simp only [setEntry] at ht
      split at ht
      · cases ht
      · split at ht
        · cases ht
        · exact hl t ht

theorem Moves.plain {names : List Bytes} {d d' : Disk} (hp : ∀ a ∈ names, ∀ b ∈ names, a ≠ tmpName b) (hg : Good names d) (h : Moves names d d')
    {n : Bytes} (hl : ∀ t, d.entry n ≠ some (.link t)) : ∀ t, d'.entry n ≠ some (.link t) := by
  induction h with
  | refl => exact hl
  | tail h1 h ih => exact h.plain (h1.good hp hg).1 ih

theorem final_mem (d : Disk) (tr : List Disk) : final d tr = d ∨ final d tr ∈ tr := by
  unfold final
  cases h : tr.getLast? with
  | none => exact .inl rfl
  | some x => exact .inr (List.mem_of_getLast? h)

/-! ## Theorems -/

/-- **C163** Whoever has opened a file keeps it as it was: whatever ed saves afterwards, under this name or another, the open file does not change,
neither its contents nor its permissions, even when no name stands for it any more. -/
theorem C163_open_file (umask : BitVec 9) (d : Disk) (saves : List Save) (hr : Ready d saves) (pre post : List Disk) (d1 : Disk)
    (h : history umask d saves = pre ++ d1 :: post) (n : Bytes) (hn : Plain saves n) (i : Nat) (hi : d1.resolve n = some (.file i)) :
    ∀ d2 ∈ post, d2.node i = d1.node i := by
  obtain ⟨hg, hp⟩ := hr.good
  obtain ⟨h1, h2⟩ := history_moves umask _ hp saves d (fun s hs => List.mem_map_of_mem hs) hg
  have hg1 := ((h2 d1 (by rw [h]; simp)).good hp hg).1
  rw [h, List.pairwise_append, List.pairwise_cons] at h1
  intro d2 hd2
  exact ((h1.2.1.1 d2 hd2).good hp hg1).2 i (held_of_resolve hg1 hn.names hi) |>.1

/-- **C163** At every moment an ordinary name shows what it showed at the start, or the whole text of one of the saves of that name. -/
theorem C163_versions (umask : BitVec 9) : ∀ (saves : List Save) (d : Disk), Ready d saves → ∀ d1 ∈ history umask d saves, ∀ n, Plain saves n →
    (∀ t, d.entry n ≠ some (.link t)) → d1.read n = d.read n ∨ ∃ s ∈ saves, s.name = n ∧ d1.read n = some s.data := by
  suffices ∀ (names : List Bytes), (∀ a ∈ names, ∀ b ∈ names, a ≠ tmpName b) → ∀ (saves : List Save) (d : Disk), (∀ s ∈ saves, s.name ∈ names) →
      Good names d → ∀ d1 ∈ history umask d saves, ∀ n, (∀ m ∈ names, n ≠ tmpName m) → (∀ t, d.entry n ≠ some (.link t)) →
      d1.read n = d.read n ∨ ∃ s ∈ saves, s.name = n ∧ d1.read n = some s.data by
    intro saves d hr d1 hd n hn
    obtain ⟨hg, hp⟩ := hr.good
    exact this _ hp saves d (fun s hs => List.mem_map_of_mem hs) hg d1 hd n hn.names
  intro names hp saves
  induction saves with
  | nil =>
    intro d _ _ d1 hd n _ _
    simp only [history, List.mem_singleton] at hd
    exact .inl (by rw [hd])
  | cons s rest ih =>
    intro d hs hg d1 hd n hn hl
    have hm := hs s List.mem_cons_self
    have hone : ∀ x ∈ (save s.o umask d s.name s.data).1, x.read n = d.read n ∨ s.name = n ∧ x.read n = some s.data := by
      intro x hx
      rcases C104_atomic s.o umask d s.name s.data hg.wf (hg.apart _ hm) x hx n (hn _ hm) with h | ⟨h1, h2⟩
      · exact .inl h.1
      · exact .inr ⟨(leads_file h1 hl).symm, h2⟩
    rw [history] at hd
    rcases List.mem_cons.1 hd with rfl | hd
    · exact .inl rfl
    rcases List.mem_append.1 hd with hd | hd
    · rcases hone d1 hd with h | h
      · exact .inl h
      · exact .inr ⟨s, List.mem_cons_self, h⟩
    · have hF := moves_final (save_moves s.o umask (data := s.data) hm (hg.apart _ hm) hg.wf) d List.mem_cons_self
      rcases ih _ (fun x hx => hs x (List.mem_cons_of_mem _ hx)) (hF.good hp hg).1 d1 hd n hn (hF.plain hp hg hl) with h | ⟨t, ht, h⟩
      · rw [h]
        rcases final_mem d (save s.o umask d s.name s.data).1 with e | e
        · exact .inl (by rw [e])
        · rcases hone _ e with h | h
          · exact .inl h
          · exact .inr ⟨s, List.mem_cons_self, h⟩
      · exact .inr ⟨t, List.mem_cons_of_mem _ ht, h⟩

/-- **C163** A program that reads a file while ed saves it, opening it at any moment and reading at any later moments, any number of bytes at a
time, gets one version of the text, the one at the start or that of one of the saves, and nothing of any other: all of it if it reads far
enough, otherwise the beginning of it. -/
theorem C163_reader (umask : BitVec 9) (d : Disk) (saves : List Save) (hr : Ready d saves) (pre post : List Disk) (d1 : Disk)
    (h : history umask d saves = pre ++ d1 :: post) (n : Bytes) (hn : Plain saves n) (hl : ∀ t, d.entry n ≠ some (.link t)) (i : Nat)
    (hi : d1.resolve n = some (.file i)) (l : List (Disk × Nat)) (ht : ∀ x ∈ l, x.1 ∈ d1 :: post) :
    ∃ text, (d.read n = some text ∨ ∃ s ∈ saves, s.name = n ∧ s.data = text) ∧ reads i 0 l = text.take (l.map Prod.snd).sum ∧
      (text.length ≤ (l.map Prod.snd).sum → reads i 0 l = text) := by
  have hrd : d1.read n = some (d1.node i).data := by rw [Disk.read, hi]
  have hkeep := C163_open_file umask d saves hr pre post d1 h n hn i hi
  have hreads := reads_same i (d1.node i).data l 0 fun x hx => by
    rcases List.mem_cons.1 (ht x hx) with e | hx
    · rw [e]
    · rw [hkeep _ hx]
  rw [List.drop_zero] at hreads
  refine ⟨(d1.node i).data, ?_, hreads, fun hle => by rw [hreads, List.take_of_length_le hle]⟩
  rcases C163_versions umask saves d hr d1 (by rw [h]; simp) n hn hl with e | ⟨s, hs, e1, e2⟩
  · exact .inl (by rw [← e, hrd])
  · rw [hrd] at e2
    exact .inr ⟨s, hs, e1, (Option.some.inj e2).symm⟩

/-! ## Cases -/

/-- Two saves of the same file, one of another that fails. -/
def demoSaves : List Save := [⟨{}, b!"f", b!"new\n"⟩, ⟨{ rename := some b!"no" }, b!"f", b!"lost\n"⟩, ⟨{}, b!"f", b!"newer\n"⟩]

example : Ready (demoDisk none) demoSaves ∧ Plain demoSaves b!"f" ∧ (∀ t, (demoDisk none).entry b!"f" ≠ some (.link t)) ∧
    (demoDisk none).resolve b!"f" = some (.file 0) ∧
    (∃ post, history 0o022#9 (demoDisk none) demoSaves = [] ++ demoDisk none :: post ∧ post.length = 24 ∧
      (post.getLast?.map fun x => (x.read b!"f", reads 0 0 [(demoDisk none, 2), (x, 1), (x, 9)])) = some (some b!"newer\n", b!"old\n")) := by
  refine ⟨⟨demo_wf none (by simp), ?_, ?_⟩, ?_, ?_, by decide +kernel, _, rfl, by decide +kernel, by decide +kernel⟩
  · intro s hs
    simp only [demoSaves, List.mem_cons, List.not_mem_nil, or_false] at hs
    rcases hs with rfl | rfl | rfl <;> exact demo_apart false
  · unfold Plain; decide
  · unfold Plain; decide
  · intro t h
    have : (match (demoDisk none).entry b!"f" with | some (.link _) => false | _ => true) = true := by decide +kernel
    rw [h] at this
    cases this

end Ed.Links
