import Verif.Ed.Race
import Verif.Ed.Readers

/-!
# C165: several editors save one file at the same time

`Verif.Ed.Race`: the system calls of any number of saves of one file, in any order.
-/

namespace Ed.Race
open Go Links

/-! ## Specification -/

/-- Every byte stands at the same place in one of the texts (or is a null byte, where these can occur). -/
def Mixed (nul : Bool) (texts : Nat → Bytes) (data : Bytes) : Prop :=
  ∀ (p : Nat) (b : UInt8), data[p]? = some b → (∃ i, (texts i)[p]? = some b) ∨ (nul = true ∧ b = 0)

/-- The disk before the saves: the file exists, and the temporary file has no other name and no links. -/
structure Ready (d : Disk) (name old : Bytes) : Prop where
  wf : d.WF
  apart : Apart d name
  shows : d.read name = some old

/-- All saves that have begun are over. -/
def Over (w : World) : Prop := ∀ i, w.phase i = .start ∨ w.phase i = .failed ∨ w.phase i = .ok

/-! ## Lemmas -/

theorem overwrite_get (old : Bytes) (off : Nat) (bs : Bytes) (p : Nat) :
    (overwrite old off bs)[p]? = if p < off then (if p < old.length then old[p]? else some 0)
      else if p < off + bs.length then bs[p - off]? else old[p]? := by
  have h1 : ((old ++ List.replicate (off - old.length) (0 : UInt8)).take off).length = off := by simp; omega
  unfold overwrite
  by_cases hp : p < off
  · rw [if_pos hp, List.append_assoc, List.getElem?_append_left (by omega), List.getElem?_take_of_lt hp]
    by_cases ho : p < old.length
    · rw [if_pos ho, List.getElem?_append_left ho]
    · rw [if_neg ho, List.getElem?_append_right (by omega), List.getElem?_replicate, if_pos (by omega)]
  · rw [if_neg hp, List.append_assoc, List.getElem?_append_right (by omega), h1]
    by_cases hb : p < off + bs.length
    · rw [if_pos hb, List.getElem?_append_left (by omega)]
    · rw [if_neg hb, List.getElem?_append_right (by omega), List.getElem?_drop]
      congr 1; omega

theorem overwrite_length (old : Bytes) (off : Nat) (bs : Bytes) : (overwrite old off bs).length = max old.length (off + bs.length) := by
  unfold overwrite
  simp
  omega

/-- A file number some editor writes to. -/
def Writing (w : World) (j : Nat) : Prop := ∃ i off, w.phase i = .writing j off

/-- What stays true, for a property `Q` of files. -/
structure Inv (Q : World → Nat → Prop) (name : Bytes) (d0 : Disk) (i0 : Nat) (w : World) : Prop where
  good : Good [name] w.disk
  fds : ∀ j, Writing w j → Q w j
  tmp : (∃ j, Writing w j) → ∀ j, w.disk.entry (tmpName name) = some (.file j) → Q w j
  shown : ((∀ i, w.phase i ≠ .ok) ∧ i0 < w.disk.next ∧ w.disk.resolve name = some (.file i0) ∧ w.disk.node i0 = d0.node i0 ∧ ¬ Writing w i0) ∨
    ((∃ j, w.disk.entry name = some (.file j) ∧ Q w j) ∧ ∃ i, w.phase i = .ok)

theorem names_apart (name : Bytes) : ∀ a ∈ [name], ∀ b ∈ [name], a ≠ tmpName b := by
  simp only [List.mem_singleton]
  rintro a rfl b rfl
  exact (tmp_ne _).symm

theorem resolve_file {d : Disk} {name : Bytes} {j : Nat} (h : d.entry name = some (.file j)) : d.resolve name = some (.file j) := by
  rw [Disk.resolve, follow, h]

/-- The cases of a step. -/
inductive Did (texts : Nat → Bytes) (umask : BitVec 9) (name : Bytes) (w : World) (i : Nat) : Act → World → Prop
  | stat (j : Nat) (hp : w.phase i = .start) (hr : w.disk.resolve name = some (.file j)) :
      Did texts umask name w i .stat (setPhase w i (.checked (w.disk.node j).mode))
  | missing (hp : w.phase i = .start) (hr : ∀ j, w.disk.resolve name ≠ some (.file j)) : Did texts umask name w i .stat (setPhase w i .failed)
  | opened (m : BitVec 9) (d : Disk) (j : Nat) (hp : w.phase i = .checked m) (ho : openTrunc umask m w.disk (tmpName name) = some (d, j)) :
      Did texts umask name w i .open (setPhase { w with disk := d } i (.writing j 0))
  | notOpened (m : BitVec 9) (hp : w.phase i = .checked m) (ho : openTrunc umask m w.disk (tmpName name) = none) :
      Did texts umask name w i .open (setPhase w i .failing)
  | write (j off k : Nat) (hp : w.phase i = .writing j off) (hk : 0 < k) (hl : off + k ≤ (texts i).length) :
      Did texts umask name w i (.write k) (setPhase { w with disk := setNode w.disk j { w.disk.node j with data := overwrite (w.disk.node j).data off (((texts i).drop off).take k) } } i (.writing j (off + k)))
  | renamed (j off : Nat) (e : Entry) (hp : w.phase i = .writing j off) (hl : off = (texts i).length) (he : w.disk.entry (tmpName name) = some e) :
      Did texts umask name w i .rename (setPhase { w with disk := rename w.disk (tmpName name) name } i .ok)
  | notRenamed (j off : Nat) (hp : w.phase i = .writing j off) (hl : off = (texts i).length) (he : w.disk.entry (tmpName name) = none) :
      Did texts umask name w i .rename (setPhase w i .failing)
  | remove (hp : w.phase i = .failing) : Did texts umask name w i .remove (setPhase { w with disk := setEntry w.disk (tmpName name) none } i .failed)
  | refused (hp : w.phase i = .start) : Did texts umask name w i .error (setPhase w i .failed)
  | error (hn : w.phase i ≠ .ok) (hf : w.phase i ≠ .start ∧ w.phase i ≠ .failed) : Did texts umask name w i .error (setPhase w i .failing)
  | stuck (hp : w.phase i = .failing) : Did texts umask name w i .stuck (setPhase w i .failed)

theorem step_did {texts : Nat → Bytes} {umask : BitVec 9} {name : Bytes} {w w' : World} {i : Nat} {a : Act}
    (h : step texts umask name w i a = some w') : Did texts umask name w i a w' := by
  unfold step at h
  split at h
  · next hp =>
    split at h
    · next j hr => cases h; exact .stat j hp hr
    · next hr => cases h; exact .missing hp (fun j hj => hr j hj)
  · next hp => cases h; exact .refused hp
  · next m hp =>
    split at h
    · next d j ho => cases h; exact .opened m d j hp ho
    · next ho => cases h; exact .notOpened m hp ho
  · next hp => cases h; exact .error (by rw [hp]; simp) (by rw [hp]; simp)
  · next j off k hp =>
    split at h
    · next hc => cases h; exact .write j off k hp hc.1 hc.2
    · cases h
  · next j off hp =>
    split at h
    · next hc =>
      split at h
      · next e he => cases h; exact .renamed j off e hp hc he
      · next he => cases h; exact .notRenamed j off hp hc he
    · cases h
  · next hp => cases h; exact .error (by rw [hp]; simp) (by rw [hp]; simp)
  · next hp => cases h; exact .remove hp
  · next hp => cases h; exact .stuck hp
  · cases h

theorem good_step {texts : Nat → Bytes} {umask : BitVec 9} {name : Bytes} {w w' : World} {i : Nat} {a : Act}
    (h : Did texts umask name w i a w') (hg : Good [name] w.disk) : Good [name] w'.disk := by
  have hn : name ∈ [name] := List.mem_singleton.2 rfl
  cases h with
  | stat | missing | notOpened | notRenamed | error | refused | stuck => exact hg
  | opened m d j hp ho => exact ((Move.opened name hn umask m d j ho).good (names_apart name) hg).1
  | write => exact ⟨hg.wf, hg.apart⟩
  | renamed j off e hp hl he =>
    obtain ⟨j', rfl, -⟩ := (hg.apart name hn).1 e he
    exact ((Move.renamed name hn j' he).good (names_apart name) hg).1
  | remove => exact ((Move.removed (d := w.disk) name hn).good (names_apart name) hg).1

theorem writing_set {w : World} {i : Nat} {p : Phase} {j : Nat} (hp : ∀ j off, p ≠ .writing j off) (h : Writing (setPhase w i p) j) : Writing w j := by
  obtain ⟨x, off, h⟩ := h
  simp only [setPhase] at h
  split at h
  · exact absurd h (hp _ _)
  · exact ⟨x, off, h⟩

theorem resolve_other {d d' : Disk} {name : Bytes} (ha : Apart d name) (h : ∀ n, n ≠ tmpName name → d'.entry n = d.entry n) :
    d'.resolve name = d.resolve name := follow_same h ha.2 40 name (tmp_ne name).symm

/-- The file shown under the name is not the temporary one. -/
theorem shown_ne {d : Disk} {name : Bytes} {i0 : Nat} (ha : Apart d name) (hr : d.resolve name = some (.file i0)) :
    d.entry (tmpName name) ≠ some (.file i0) := by
  intro he
  obtain ⟨m, hm, hf⟩ := follow_file ha.2 40 name i0 (tmp_ne name).symm hr
  obtain ⟨j, hj, hj'⟩ := ha.1 _ he
  cases hj
  exact hj' m hm hf

theorem rename_entry {d : Disk} {name : Bytes} {j : Nat} (ha : Apart d name) (he : d.entry (tmpName name) = some (.file j)) :
    rename d (tmpName name) name = setEntry (setEntry d name (some (.file j))) (tmpName name) none := by
  obtain ⟨j', hj, hj'⟩ := ha.1 _ he
  cases hj
  unfold rename
  rw [he]
  split
  · next x y h1 h2 =>
    cases h1
    rw [if_neg (by rintro rfl; exact hj' name (tmp_ne name).symm h2)]
  · rfl

theorem ok_step {texts : Nat → Bytes} {umask : BitVec 9} {name : Bytes} {w w' : World} {i : Nat} {a : Act} (h : Did texts umask name w i a w') :
    (∃ x, w.phase x = .ok) → ∃ x, w'.phase x = .ok := by
  rintro ⟨x, hx⟩
  have hkeep : ∀ d p, w.phase i ≠ .ok → ∃ x, (setPhase { w with disk := d } i p).phase x = .ok := by
    intro d p hp
    refine ⟨x, ?_⟩
    simp only [setPhase]
    rw [if_neg (by rintro rfl; exact hp hx)]
    exact hx
  cases h with
  | stat j hp hr => exact hkeep w.disk _ (by simp [hp])
  | missing hp => exact hkeep w.disk _ (by simp [hp])
  | opened m d j hp ho => exact hkeep d _ (by simp [hp])
  | notOpened m hp => exact hkeep w.disk _ (by simp [hp])
  | write j off k hp => exact hkeep _ _ (by simp [hp])
  | renamed j off e hp => exact hkeep _ _ (by simp [hp])
  | notRenamed j off hp => exact hkeep w.disk _ (by simp [hp])
  | remove hp => exact hkeep _ _ (by simp [hp])
  | refused hp => exact hkeep w.disk _ (by simp [hp])
  | error hn => exact hkeep w.disk _ hn
  | stuck hp => exact hkeep w.disk _ (by simp [hp])

theorem inv_step {Q : World → Nat → Prop} {texts : Nat → Bytes} {umask : BitVec 9} {name : Bytes} {d0 : Disk} {i0 : Nat} {w w' : World} {i : Nat} {a : Act}
    (hQ : ∀ j, Q w j → Q w' j)
    (hopen : a = .open → ∀ m d j, openTrunc umask m w.disk (tmpName name) = some (d, j) → Q (setPhase { w with disk := d } i (.writing j 0)) j)
    (h : Did texts umask name w i a w') (hi : Inv Q name d0 i0 w) : Inv Q name d0 i0 w' := by
  have hg := good_step h hi.good
  have ha := hi.good.apart name (List.mem_singleton.2 rfl)
  have hok := ok_step h
  -- nothing on the disk changes, and nobody starts to write
  have quiet : ∀ p : Phase, (∀ j off, p ≠ .writing j off) → p ≠ .ok → (∀ j, Q w j → Q (setPhase w i p) j) →
      ((∃ x, w.phase x = .ok) → ∃ x, (setPhase w i p).phase x = .ok) → Inv Q name d0 i0 (setPhase w i p) := by
    intro p hp hpo hQ hok'
    refine ⟨hi.good, fun j hj => hQ j (hi.fds j (writing_set hp hj)), fun ⟨j, hj⟩ x hx => hQ x (hi.tmp ⟨j, writing_set hp hj⟩ x hx), ?_⟩
    rcases hi.shown with ⟨h1, h0, h2, h3, h4⟩ | ⟨⟨j, h1, h2⟩, h3⟩
    · refine .inl ⟨fun x => ?_, h0, h2, h3, fun hw => h4 (writing_set hp hw)⟩
      simp only [setPhase]
      split
      · exact hpo
      · exact h1 x
    · exact .inr ⟨⟨j, h1, hQ j h2⟩, hok' h3⟩
  cases h with
  | stat => exact quiet _ (by simp) (by simp) hQ hok
  | missing => exact quiet _ (by simp) (by simp) hQ hok
  | notOpened => exact quiet _ (by simp) (by simp) hQ hok
  | notRenamed => exact quiet _ (by simp) (by simp) hQ hok
  | refused => exact quiet _ (by simp) (by simp) hQ hok
  | error => exact quiet _ (by simp) (by simp) hQ hok
  | stuck => exact quiet _ (by simp) (by simp) hQ hok
  | opened m d j hp ho =>
    obtain ⟨k1, k2, k3, k4⟩ := open_spec hi.good.wf ha ho
    have hj := hopen rfl m d j ho
    refine ⟨hg, ?_, ?_, ?_⟩
    · rintro x ⟨y, off, hy⟩
      simp only [setPhase] at hy
      split at hy
      · cases hy; exact hj
      · exact hQ x (hi.fds x ⟨y, off, hy⟩)
    · intro _ x hx
      have hx' : d.entry (tmpName name) = some (.file x) := hx
      rw [k3] at hx'
      cases hx'
      exact hj
    · rcases hi.shown with ⟨h1, h0, h2, h3, h4⟩ | ⟨⟨x, h1, h2⟩, h3⟩
      · have hne : i0 ≠ j := by
          rintro rfl
          obtain ⟨m', hm', hf⟩ := follow_file ha.2 40 name i0 (tmp_ne name).symm h2
          exact k2 m' hm' hf
        refine .inl ⟨fun x => ?_, ?_, (resolve_other ha k1.entries).trans h2, (k1.nodes i0 hne).trans h3, ?_⟩
        · simp only [setPhase]
          split
          · simp
          · exact h1 x
        · rcases open_cases ha ho with ⟨-, rfl⟩ | ⟨-, -, rfl⟩
          · exact h0
          · exact Nat.lt_succ_of_lt h0
        · rintro ⟨y, off, hy⟩
          simp only [setPhase] at hy
          split at hy
          · cases hy; exact hne rfl
          · exact h4 ⟨y, off, hy⟩
      · exact .inr ⟨⟨x, (k1.entries name (tmp_ne name).symm).trans h1, hQ x h2⟩, hok h3⟩
  | write j off k hp hk hl =>
    have hwr : ∀ x, Writing (setPhase { w with disk := setNode w.disk j { w.disk.node j with data := overwrite (w.disk.node j).data off (((texts i).drop off).take k) } } i (.writing j (off + k))) x → Writing w x := by
      rintro x ⟨y, o, hy⟩
      simp only [setPhase] at hy
      split at hy
      · cases hy; exact ⟨i, off, hp⟩
      · exact ⟨y, o, hy⟩
    refine ⟨hg, fun x hx => hQ x (hi.fds x (hwr x hx)), fun ⟨x, hx⟩ y hy => hQ y (hi.tmp ⟨x, hwr x hx⟩ y hy), ?_⟩
    rcases hi.shown with ⟨h1, h0, h2, h3, h4⟩ | ⟨⟨x, h1, h2⟩, h3⟩
    · refine .inl ⟨fun x => ?_, h0, h2, ?_, fun hw => h4 (hwr i0 hw)⟩
      · simp only [setPhase]
        split
        · simp
        · exact h1 x
      · have : i0 ≠ j := by rintro rfl; exact h4 ⟨i, off, hp⟩
        simp only [setPhase, setNode, if_neg this, h3]
    · exact .inr ⟨⟨x, h1, hQ x h2⟩, hok h3⟩
  | renamed j off e hp hl he =>
    obtain ⟨j', rfl, hj'⟩ := ha.1 e he
    have hr := rename_entry ha he
    have hq : Q w j' := hi.tmp ⟨j, i, off, hp⟩ j' he
    refine ⟨hg, fun x hx => hQ x (hi.fds x (writing_set (w := { w with disk := rename w.disk (tmpName name) name }) (by simp) hx)), ?_, ?_⟩
    · intro _ x hx
      simp only [setPhase, hr, setEntry] at hx
      simp at hx
    · refine .inr ⟨⟨j', ?_, hQ j' hq⟩, i, by simp [setPhase]⟩
      simp only [setPhase, hr, setEntry, if_neg (tmp_ne name).symm, if_true]
  | remove hp =>
    have hws : ∀ x, Writing (setPhase { w with disk := setEntry w.disk (tmpName name) none } i .failed) x → Writing w x :=
      fun x hx => writing_set (w := { w with disk := setEntry w.disk (tmpName name) none }) (by simp) hx
    refine ⟨hg, fun x hx => hQ x (hi.fds x (hws x hx)), ?_, ?_⟩
    · intro _ x hx
      simp [setPhase, setEntry] at hx
    · have hen : ∀ n, n ≠ tmpName name → (setEntry w.disk (tmpName name) none).entry n = w.disk.entry n := fun n hn => by simp [setEntry, hn]
      rcases hi.shown with ⟨h1, h0, h2, h3, h4⟩ | ⟨⟨x, h1, h2⟩, h3⟩
      · refine .inl ⟨fun x => ?_, h0, (resolve_other ha hen).trans h2, h3, fun hw => h4 (hws i0 hw)⟩
        simp only [setPhase]
        split
        · simp
        · exact h1 x
      · exact .inr ⟨⟨x, (hen name (tmp_ne name).symm).trans h1, hQ x h2⟩, hok h3⟩

/-- From the beginning. -/
theorem inv_run {Q : World → Nat → Prop} {texts : Nat → Bytes} {umask : BitVec 9} {name : Bytes} {d0 : Disk} {i0 : Nat} (R : Nat → Act → Prop)
    (hQ : ∀ w w' i a, R i a → Did texts umask name w i a w' → ∀ j, Q w j → Q w' j)
    (hopen : ∀ (w : World) i m d j, R i .open → Apart w.disk name → openTrunc umask m w.disk (tmpName name) = some (d, j) → w.disk.WF →
      Q (setPhase { w with disk := d } i (.writing j 0)) j) :
    ∀ (acts : List (Nat × Act)) (w w' : World), (∀ x ∈ acts, R x.1 x.2) → run texts umask name w acts = some w' →
      Inv Q name d0 i0 w → Inv Q name d0 i0 w' := by
  intro acts
  induction acts with
  | nil => intro w w' _ h hi; cases h; exact hi
  | cons x rest ih =>
    intro w w' hR h hi
    obtain ⟨i, a⟩ := x
    rw [run] at h
    split at h
    · next w1 hs =>
      have hd := step_did hs
      have hr := hR _ List.mem_cons_self
      refine ih w1 w' (fun x hx => hR x (List.mem_cons_of_mem _ hx)) h ?_
      refine inv_step (fun j => hQ w w1 i _ hr hd j) (fun ho m d j h => ?_) hd hi
      subst ho
      exact hopen w i m d j hr (hi.good.apart name (List.mem_singleton.2 rfl)) h hi.good.wf
    · cases h

theorem ready_inv {Q : World → Nat → Prop} {d : Disk} {name old : Bytes} (h : Ready d name old) :
    ∃ i0, (d.node i0).data = old ∧ Inv Q name d i0 (begin d) := by
  have hs := h.shows
  unfold Disk.read at hs
  split at hs
  · next i0 hr =>
    cases hs
    obtain ⟨m, -, hf⟩ := follow_file h.apart.2 40 name i0 (tmp_ne name).symm hr
    refine ⟨i0, rfl, ⟨h.wf, ?_⟩, ?_, ?_, .inl ⟨?_, h.wf m i0 hf, hr, rfl, ?_⟩⟩
    · intro m hm; cases List.mem_singleton.1 hm; exact h.apart
    · rintro j ⟨i, off, hi⟩; cases hi
    · rintro ⟨j, i, off, hi⟩; cases hi
    · intro i hi; cases hi
    · rintro ⟨i, off, hi⟩; cases hi
  · cases hs

theorem inv_read {Q : World → Nat → Prop} {name : Bytes} {d0 : Disk} {i0 : Nat} {w : World} (h : Inv Q name d0 i0 w) :
    (w.disk.read name = some (d0.node i0).data ∧ ∀ i, w.phase i ≠ .ok) ∨
      ∃ j, w.disk.read name = some (w.disk.node j).data ∧ Q w j ∧ ∃ i, w.phase i = .ok := by
  rcases h.shown with ⟨h1, h0, h2, h3, h4⟩ | ⟨⟨x, h1, h2⟩, h3⟩
  · exact .inl ⟨by simp only [Disk.read, h2, h3], h1⟩
  · exact .inr ⟨x, by simp only [Disk.read, resolve_file h1], h2, h3⟩

theorem mixed_overwrite {nul : Bool} {texts : Nat → Bytes} {old : Bytes} {i off k : Nat} (h : Mixed nul texts old) (hn : nul = true ∨ off = 0) :
    Mixed nul texts (overwrite old off (((texts i).drop off).take k)) := by
  intro p b hb
  rw [overwrite_get] at hb
  split at hb
  · split at hb
    · exact h p b hb
    · cases hb
      rcases hn with rfl | rfl
      · exact .inr ⟨rfl, rfl⟩
      · omega
  · split at hb
    · next hp _ =>
      rw [List.getElem?_take] at hb
      split at hb
      · rw [List.getElem?_drop] at hb
        refine .inl ⟨i, ?_⟩
        rw [← hb]; congr 1; omega
      · cases hb
    · exact h p b hb

theorem mixed_run {nul : Bool} {texts : Nat → Bytes} {umask : BitVec 9} {name : Bytes} {d : Disk} {i0 : Nat} (acts : List (Nat × Act)) (w : World)
    (hn : nul = true ∨ ∀ i k, (i, Act.write k) ∈ acts → k = (texts i).length)
    (h : run texts umask name (begin d) acts = some w) (hi : Inv (fun w j => Mixed nul texts (w.disk.node j).data) name d i0 (begin d)) :
    Inv (fun w j => Mixed nul texts (w.disk.node j).data) name d i0 w := by
  refine inv_run (fun i a => nul = true ∨ ∀ k, a = .write k → k = (texts i).length) ?_ ?_ acts _ _ ?_ h hi
  · intro w w' i a hR hd j hj
    cases hd with
    | stat | missing | notOpened | notRenamed | error | refused | stuck | remove => exact hj
    | opened m d j' hp ho =>
      simp only [setPhase]
      unfold openTrunc at ho
      split at ho
      · cases ho
      · cases ho
        simp only [setNode]
        split
        · intro p b hb; simp at hb
        · exact hj
      · cases ho
        simp only [setNode, setEntry]
        split
        · intro p b hb; simp at hb
        · exact hj
    | write j' off k hp hk hl =>
      simp only [setPhase, setNode]
      split
      · next e =>
        subst e
        refine mixed_overwrite hj ?_
        rcases hR with h | h
        · exact .inl h
        · have := h k rfl; right; omega
      · exact hj
    | renamed j' off e hp hl he =>
      simp only [setPhase, rename]
      split
      · split
        · exact hj
        · exact hj
      · exact hj
  · intro w i m d j _ ha ho hwf
    obtain ⟨-, -, -, k4⟩ := open_spec hwf ha ho
    intro p b hb
    simp only [setPhase, k4] at hb
    simp at hb
  · intro x hx
    rcases hn with h | h
    · exact .inl h
    · refine .inr fun k hk => h x.1 k ?_
      rw [← hk]; exact hx

/-- Under the invariant of equal texts: every place of the file holds the right byte or is still to be written by somebody. -/
def Pending (text : Bytes) (w : World) (j : Nat) : Prop :=
  (w.disk.node j).data.length ≤ text.length ∧
    ∀ p : Nat, p < text.length → (w.disk.node j).data[p]? = text[p]? ∨ ∃ i off, w.phase i = .writing j off ∧ off ≤ p

theorem pending_mono {text : Bytes} {w w' : World} {j : Nat} (hd : w'.disk.node j = w.disk.node j)
    (hp : ∀ i off, w.phase i = .writing j off → off < text.length → w'.phase i = .writing j off) (h : Pending text w j) : Pending text w' j := by
  unfold Pending
  rw [hd]
  refine ⟨h.1, fun p hpt => ?_⟩
  rcases h.2 p hpt with h | ⟨i, off, h1, h2⟩
  · exact .inl h
  · exact .inr ⟨i, off, hp i off h1 (by omega), h2⟩

theorem pending_run {text : Bytes} {texts : Nat → Bytes} {umask : BitVec 9} {name : Bytes} {d : Disk} {i0 : Nat} (acts : List (Nat × Act)) (w : World)
    (ht : ∀ x ∈ acts, texts x.1 = text ∧ x.2 ≠ .error)
    (h : run texts umask name (begin d) acts = some w) (hi : Inv (Pending text) name d i0 (begin d)) : Inv (Pending text) name d i0 w := by
  have hset : ∀ (w : World) (i : Nat) (p : Phase) (j : Nat), (∀ j off, w.phase i = .writing j off → text.length ≤ off) → Pending text w j → Pending text (setPhase w i p) j := by
    intro w i p j hw hj
    refine pending_mono (w := w) rfl (fun x off hx hlt => ?_) hj
    simp only [setPhase]
    split
    · next e => subst e; have := hw _ _ hx; omega
    · exact hx
  refine inv_run (fun i a => texts i = text ∧ a ≠ .error) ?_ ?_ acts _ _ ht h hi
  · intro w w' i a hR hd j hj
    obtain ⟨hR, hne⟩ := hR
    cases hd with
    | stat j' hp => exact hset w i _ j (by simp [hp]) hj
    | missing hp => exact hset w i _ j (by simp [hp]) hj
    | notOpened m hp => exact hset w i _ j (by simp [hp]) hj
    | notRenamed j' off hp hl => exact hset w i _ j (by simp [hp, hl, hR]) hj
    | refused => exact absurd rfl hne
    | error => exact absurd rfl hne
    | stuck hp => exact hset w i _ j (by simp [hp]) hj
    | remove hp => exact hset { w with disk := setEntry w.disk (tmpName name) none } i _ j (by simp [hp]) hj
    | renamed j' off e hp hl he =>
      refine hset { w with disk := rename w.disk (tmpName name) name } i _ j (by simp [hp, hl, hR]) ?_
      have : (rename w.disk (tmpName name) name).node = w.disk.node := by
        unfold rename
        split
        · split <;> rfl
        · rfl
      exact pending_mono (w := w) (by rw [this]) (fun _ _ h _ => h) hj
    | opened m d j' hp ho =>
      have hnode : ∀ x, x ≠ j' → d.node x = w.disk.node x := by
        intro x hx
        unfold openTrunc at ho
        split at ho
        · cases ho
        · cases ho; simp [setNode, hx]
        · cases ho; simp [setNode, setEntry, hx]
      have hdata : (d.node j').data = [] := by
        unfold openTrunc at ho
        split at ho
        · cases ho
        · cases ho; simp [setNode]
        · cases ho; simp [setNode, setEntry]
      by_cases e : j = j'
      · subst e
        refine ⟨by simp [setPhase, hdata], fun p _ => .inr ⟨i, 0, by simp [setPhase], Nat.zero_le _⟩⟩
      · refine pending_mono (hnode j e) (fun x off hx _ => ?_) hj
        simp only [setPhase]
        split
        · next e' => subst e'; rw [hp] at hx; cases hx
        · exact hx
    | write j' off k hp hk hl =>
      by_cases e : j = j'
      · subst e
        have hlen : (((texts i).drop off).take k).length = k := by simp; omega
        refine ⟨?_, fun p hpt => ?_⟩
        · simp only [setPhase, setNode, if_true]
          rw [overwrite_length, hlen]
          have := hj.1
          rw [hR] at hl
          omega
        · simp only [setPhase, setNode, if_true]
          rw [overwrite_get, hlen]
          by_cases h1 : p < off
          · rw [if_pos h1]
            rcases hj.2 p hpt with h | ⟨x, o, h2, h3⟩
            · left
              have : p < (w.disk.node j).data.length := by
                rcases Nat.lt_or_ge p (w.disk.node j).data.length with h' | h'
                · exact h'
                · rw [List.getElem?_eq_none h', List.getElem?_eq_getElem hpt] at h; cases h
              rw [if_pos this]; exact h
            · refine .inr ⟨x, o, ?_, h3⟩
              rw [if_neg (by rintro rfl; rw [hp] at h2; cases h2; omega)]
              exact h2
          · rw [if_neg h1]
            by_cases h2 : p < off + k
            · left
              rw [if_pos h2, List.getElem?_take_of_lt (by omega), List.getElem?_drop, hR]
              congr 1; omega
            · exact .inr ⟨i, off + k, by rw [if_pos rfl], by omega⟩
      · refine pending_mono (by simp [setPhase, setNode, e]) (fun x o hx _ => ?_) hj
        simp only [setPhase]
        split
        · next e' => subst e'; rw [hp] at hx; cases hx; exact absurd rfl e
        · exact hx
  · intro w i m d j _ ha ho hwf
    obtain ⟨-, -, -, k4⟩ := open_spec hwf ha ho
    refine ⟨by simp [setPhase, k4], fun p _ => .inr ⟨i, 0, by simp [setPhase], Nat.zero_le _⟩⟩

/-- The first save to get as far as the rename succeeds. -/
def First (name : Bytes) (w : World) : Prop :=
  (∃ i, w.phase i = .ok) ∨ ((∀ i, w.phase i ≠ .failing ∧ w.phase i ≠ .failed) ∧ ((∃ j, Writing w j) → w.disk.entry (tmpName name) ≠ none))

theorem first_step {texts : Nat → Bytes} {umask : BitVec 9} {name : Bytes} {d0 : Disk} {i0 : Nat} {w w' : World} {i : Nat} {a : Act}
    (h : Did texts umask name w i a w') (hne : a ≠ .error) (hi : Inv (fun _ _ => True) name d0 i0 w) (hf : First name w) : First name w' := by
  have ha := hi.good.apart name (List.mem_singleton.2 rfl)
  have hres : ∃ j, w.disk.resolve name = some (.file j) := by
    rcases hi.shown with ⟨-, -, h, -, -⟩ | ⟨⟨x, h, -⟩, -⟩
    · exact ⟨_, h⟩
    · exact ⟨x, resolve_file h⟩
  rcases hf with ⟨x, hx⟩ | ⟨h1, h2⟩
  · exact .inl (ok_step h ⟨x, hx⟩)
  · cases h with
    | stat j hp hr =>
      refine .inr ⟨fun x => ?_, fun ⟨j, hj⟩ => h2 ⟨j, writing_set (by simp) hj⟩⟩
      simp only [setPhase]
      split
      · simp
      · exact h1 x
    | missing hp hr => obtain ⟨j, hj⟩ := hres; exact absurd hj (hr j)
    | opened m d j hp ho =>
      obtain ⟨-, -, k3, -⟩ := open_spec hi.good.wf ha ho
      refine .inr ⟨fun x => ?_, fun _ => by simp [setPhase, k3]⟩
      simp only [setPhase]
      split
      · simp
      · exact h1 x
    | notOpened m hp ho =>
      unfold openTrunc at ho
      split at ho
      · next hr =>
        cases he : w.disk.entry (tmpName name) with
        | none => rw [Disk.resolve, follow, he] at hr; cases hr
        | some e =>
          obtain ⟨j, rfl, -⟩ := ha.1 e he
          rw [resolve_file he] at hr; cases hr
      · cases ho
      · cases ho
    | write j off k hp =>
      refine .inr ⟨fun x => ?_, fun _ => h2 ⟨j, i, off, hp⟩⟩
      simp only [setPhase]
      split
      · simp
      · exact h1 x
    | renamed => exact .inl ⟨i, by simp [setPhase]⟩
    | notRenamed j off hp hl he => exact absurd he (h2 ⟨j, i, off, hp⟩)
    | remove hp => exact absurd hp (h1 i).1
    | refused => exact absurd rfl hne
    | error => exact absurd rfl hne
    | stuck hp => exact absurd hp (h1 i).1

theorem first_run {texts : Nat → Bytes} {umask : BitVec 9} {name : Bytes} {d0 : Disk} {i0 : Nat} : ∀ (acts : List (Nat × Act)) (w w' : World),
    (∀ x ∈ acts, x.2 ≠ .error) → run texts umask name w acts = some w' → Inv (fun _ _ => True) name d0 i0 w → First name w → First name w' := by
  intro acts
  induction acts with
  | nil => intro w w' _ h hi hf; cases h; exact hf
  | cons x rest ih =>
    intro w w' hR h hi hf
    obtain ⟨i, a⟩ := x
    rw [run] at h
    split at h
    · next w1 hs =>
      have hd := step_did hs
      exact ih w1 w' (fun x hx => hR x (List.mem_cons_of_mem _ hx)) h (inv_step (fun _ _ => trivial) (fun _ _ _ _ _ => trivial) hd hi)
        (first_step hd (hR _ List.mem_cons_self) hi hf)
    · cases h

/-- How a save goes that nobody disturbs. -/
def Alone (texts : Nat → Bytes) (name : Bytes) (i : Nat) (w : World) : Prop :=
  Good [name] w.disk ∧ (∃ j, w.disk.resolve name = some (.file j)) ∧
    match w.phase i with
    | .start => True
    | .checked _ => True
    | .writing j off => w.disk.entry (tmpName name) = some (.file j) ∧ off ≤ (texts i).length ∧ (w.disk.node j).data = (texts i).take off
    | .ok => w.disk.read name = some (texts i)
    | _ => False

theorem overwrite_end {t : Bytes} {off k : Nat} (h : off + k ≤ t.length) : overwrite (t.take off) off ((t.drop off).take k) = t.take (off + k) := by
  have h1 : (t.take off).length = off := by simp; omega
  unfold overwrite
  rw [h1, Nat.sub_self, List.replicate_zero, List.append_nil, List.take_of_length_le (by omega),
    List.drop_eq_nil_of_le (as := t.take off) (by omega), List.append_nil, List.take_add]

theorem alone_step {texts : Nat → Bytes} {umask : BitVec 9} {name : Bytes} {w w' : World} {i x : Nat} {a : Act}
    (h : Did texts umask name w x a w') (hx : x = i ∧ a ≠ .error ∨ x ≠ i ∧ a = .stat) (hi : Alone texts name i w) : Alone texts name i w' := by
  obtain ⟨hg, ⟨r, hr⟩, hm⟩ := hi
  have ha := hg.apart name (List.mem_singleton.2 rfl)
  rcases hx with ⟨rfl, hne⟩ | ⟨hxi, rfl⟩
  · refine ⟨good_step h hg, ?_, ?_⟩
    · cases h with
      | stat | missing | notOpened | notRenamed | error | refused | stuck | write => exact ⟨r, hr⟩
      | opened m d j hp ho =>
        obtain ⟨k1, -, -, -⟩ := open_spec hg.wf ha ho
        exact ⟨r, (resolve_other ha k1.entries).trans hr⟩
      | renamed j off e hp hl he =>
        obtain ⟨j', rfl, -⟩ := ha.1 e he
        refine ⟨j', resolve_file ?_⟩
        simp only [setPhase, rename_entry ha he, setEntry, if_neg (tmp_ne name).symm, if_true]
      | remove hp => rw [hp] at hm; exact hm.elim
    · cases h with
      | stat j hp => simp [setPhase]
      | missing hp hr' => exact absurd hr (hr' r)
      | opened m d j hp ho =>
        obtain ⟨-, -, k3, k4⟩ := open_spec hg.wf ha ho
        simp [setPhase, k3, k4]
      | notOpened m hp ho =>
        unfold openTrunc at ho
        split at ho
        · next hr =>
          cases he : w.disk.entry (tmpName name) with
          | none => rw [Disk.resolve, follow, he] at hr; cases hr
          | some e =>
            obtain ⟨j, rfl, -⟩ := ha.1 e he
            rw [resolve_file he] at hr; cases hr
        · cases ho
        · cases ho
      | write j off k hp hk hl =>
        rw [hp] at hm
        obtain ⟨m1, m2, m3⟩ := hm
        simp only [setPhase, if_true, setNode]
        refine ⟨m1, hl, ?_⟩
        rw [m3, overwrite_end hl]
      | renamed j off e hp hl he =>
        rw [hp] at hm
        obtain ⟨m1, m2, m3⟩ := hm
        rw [he] at m1
        cases m1
        have hen : (rename w.disk (tmpName name) name).entry name = some (.file j) := by
          simp only [rename_entry ha he, setEntry, if_neg (tmp_ne name).symm, if_true]
        have hno : (rename w.disk (tmpName name) name).node j = w.disk.node j := by rw [rename_entry ha he]; rfl
        simp only [setPhase, if_true]
        simp only [Disk.read, resolve_file hen, hno, m3, hl, List.take_length]
      | notRenamed j off hp hl he =>
        rw [hp] at hm
        rw [hm.1] at he
        cases he
      | remove hp => rw [hp] at hm; exact hm.elim
      | refused => exact absurd rfl hne
      | error => exact absurd rfl hne
      | stuck hp => rw [hp] at hm; exact hm.elim
  · have hph : ∀ p, (setPhase w x p).phase i = w.phase i := by intro p; simp [setPhase, Ne.symm hxi]
    cases h with
    | stat j hp => refine ⟨hg, ⟨r, hr⟩, ?_⟩; rw [hph]; exact hm
    | missing hp => refine ⟨hg, ⟨r, hr⟩, ?_⟩; rw [hph]; exact hm

theorem alone_run {texts : Nat → Bytes} {umask : BitVec 9} {name : Bytes} {i : Nat} : ∀ (acts : List (Nat × Act)) (w w' : World),
    (∀ x ∈ acts, x.1 = i ∧ x.2 ≠ .error ∨ x.1 ≠ i ∧ x.2 = .stat) → run texts umask name w acts = some w' → Alone texts name i w → Alone texts name i w' := by
  intro acts
  induction acts with
  | nil => intro w w' _ h hi; cases h; exact hi
  | cons x rest ih =>
    intro w w' hR h hi
    obtain ⟨i, a⟩ := x
    rw [run] at h
    split at h
    · next w1 hs => exact ih w1 w' (fun x hx => hR x (List.mem_cons_of_mem _ hx)) h (alone_step (step_did hs) (hR _ List.mem_cons_self) hi)
    · cases h

/-- Somebody is still to rename or to remove the temporary file. -/
def Busy (w : World) : Prop := ∃ i, (∃ j off, w.phase i = .writing j off) ∨ w.phase i = .failing

theorem busy_set {w : World} {i : Nat} {p : Phase} {d : Disk} (h : (∃ j off, p = .writing j off) ∨ p = .failing) : Busy (setPhase { w with disk := d } i p) :=
  ⟨i, by simpa [setPhase] using h⟩

theorem clean_step {texts : Nat → Bytes} {umask : BitVec 9} {name : Bytes} {w w' : World} {i : Nat} {a : Act} (ha : Apart w.disk name)
    (h : Did texts umask name w i a w') (hs : a ≠ .stuck) (hi : w.disk.entry (tmpName name) = none ∨ Busy w) :
    w'.disk.entry (tmpName name) = none ∨ Busy w' := by
  have hkeep : ∀ p, w.phase i = .start → w.disk.entry (tmpName name) = none ∨ Busy (setPhase w i p) := by
    intro p hp
    rcases hi with h | ⟨x, hx⟩
    · exact .inl h
    · refine .inr ⟨x, ?_⟩
      have : x ≠ i := by rintro rfl; simp [hp] at hx
      simpa [setPhase, this] using hx
  cases h with
  | stat j hp => exact hkeep _ hp
  | missing hp => exact hkeep _ hp
  | refused hp => exact hkeep _ hp
  | opened m d j => exact .inr (busy_set (.inl ⟨j, 0, rfl⟩))
  | notOpened => exact .inr (busy_set (d := w.disk) (.inr rfl))
  | write j off k => exact .inr (busy_set (.inl ⟨j, off + k, rfl⟩))
  | renamed j off e hp hl he =>
    obtain ⟨j', rfl, -⟩ := ha.1 e he
    left
    simp [setPhase, rename_entry ha he, setEntry]
  | notRenamed => exact .inr (busy_set (d := w.disk) (.inr rfl))
  | remove => left; simp [setPhase, setEntry]
  | error => exact .inr (busy_set (d := w.disk) (.inr rfl))
  | stuck => exact absurd rfl hs

theorem clean_run {texts : Nat → Bytes} {umask : BitVec 9} {name : Bytes} : ∀ (acts : List (Nat × Act)) (w w' : World), Good [name] w.disk →
    (∀ x ∈ acts, x.2 ≠ .stuck) → run texts umask name w acts = some w' → w.disk.entry (tmpName name) = none ∨ Busy w →
    w'.disk.entry (tmpName name) = none ∨ Busy w' := by
  intro acts
  induction acts with
  | nil => intro w w' _ _ h hi; cases h; exact hi
  | cons x rest ih =>
    intro w w' hg hR h hi
    obtain ⟨i, a⟩ := x
    rw [run] at h
    split at h
    · next w1 hs =>
      exact ih w1 w' (good_step (step_did hs) hg) (fun x hx => hR x (List.mem_cons_of_mem _ hx)) h
        (clean_step (hg.apart name (List.mem_singleton.2 rfl)) (step_did hs) (hR _ List.mem_cons_self) hi)
    · cases h

/-! ## Theorems -/

/-- Until a save has succeeded the file shows its old text. From then on every byte of it stands at the same place in one of
the texts, or is a null byte; if every text is written with one call there are no null bytes. Some calls may fail. -/
theorem C165_bytes (texts : Nat → Bytes) (umask : BitVec 9) (d : Disk) (name old : Bytes) (acts : List (Nat × Act)) (w : World)
    (hd : Ready d name old) (h : run texts umask name (begin d) acts = some w) :
    ((∀ i, w.phase i ≠ .ok) → w.disk.read name = some old) ∧
      ((∃ i, w.phase i = .ok) → ∃ data, w.disk.read name = some data ∧ Mixed true texts data ∧
        ((∀ i k, (i, Act.write k) ∈ acts → k = (texts i).length) → Mixed false texts data)) := by
  obtain ⟨i0, rfl, hi⟩ := ready_inv (Q := fun w j => Mixed true texts (w.disk.node j).data) hd
  have h1 := inv_read (mixed_run acts w (.inl rfl) h hi)
  refine ⟨fun hno => ?_, fun ⟨x, hx⟩ => ?_⟩
  · rcases h1 with ⟨h1, -⟩ | ⟨-, -, -, x, hx⟩
    · exact h1
    · exact absurd hx (hno x)
  · rcases h1 with ⟨-, h1⟩ | ⟨j, h1, h2, -⟩
    · exact absurd hx (h1 x)
    · refine ⟨_, h1, h2, fun hw => ?_⟩
      obtain ⟨i0, -, hi⟩ := ready_inv (Q := fun w j => Mixed false texts (w.disk.node j).data) hd
      rcases inv_read (mixed_run acts w (.inr hw) h hi) with ⟨-, h3⟩ | ⟨j', h3, h4, -⟩
      · exact absurd hx (h3 x)
      · rw [h1] at h3
        simp only [Option.some.injEq] at h3
        rw [h3]; exact h4

/-- If no call fails for reasons of its own, at least one of the saves succeeds. -/
theorem C165_one_succeeds (texts : Nat → Bytes) (umask : BitVec 9) (d : Disk) (name old : Bytes) (acts : List (Nat × Act)) (w : World)
    (hd : Ready d name old) (h : run texts umask name (begin d) acts = some w) (he : ∀ x ∈ acts, x.2 ≠ .error)
    (ho : Over w) (hs : ∃ i, w.phase i ≠ .start) : ∃ i, w.phase i = .ok := by
  obtain ⟨i0, -, hi⟩ := ready_inv (Q := fun _ _ => True) hd
  have hf : First name (begin d) := .inr ⟨fun i => by simp [begin], fun ⟨j, i, off, hw⟩ => by cases hw⟩
  rcases first_run acts _ _ he h hi hf with h | ⟨h, -⟩
  · exact h
  · obtain ⟨i, hi⟩ := hs
    rcases ho i with h' | h' | h'
    · exact absurd h' hi
    · exact absurd h' (h i).2
    · exact ⟨i, h'⟩

/-- Editors that save the same text: once all have finished, the file holds that text. -/
theorem C165_same_text_partial (text : Bytes) (texts : Nat → Bytes) (umask : BitVec 9) (d : Disk) (name old : Bytes) (acts : List (Nat × Act)) (w : World)
    (hd : Ready d name old) (h : run texts umask name (begin d) acts = some w) (he : ∀ x ∈ acts, texts x.1 = text ∧ x.2 ≠ .error)
    (ho : Over w) (hs : ∃ i, w.phase i ≠ .start) : w.disk.read name = some text := by
  obtain ⟨x, hx⟩ := C165_one_succeeds texts umask d name old acts w hd h (fun x hx => (he x hx).2) ho hs
  obtain ⟨i0, -, hi⟩ := ready_inv (Q := Pending text) hd
  rcases inv_read (pending_run acts w he h hi) with ⟨-, h1⟩ | ⟨j, h1, ⟨h2, h3⟩, -⟩
  · exact absurd hx (h1 x)
  · rw [h1]
    congr 1
    apply List.ext_getElem?
    intro p
    rcases Nat.lt_or_ge p text.length with hp | hp
    · rcases h3 p hp with h | ⟨i, off, h, -⟩
      · exact h
      · rcases ho i with h' | h' | h' <;> rw [h'] at h <;> cases h
    · rw [List.getElem?_eq_none hp, List.getElem?_eq_none (Nat.le_trans h2 hp)]

/-- A save during which the other editors at most look at the file succeeds, and the file then shows its text: whatever state
the other saves are in. -/
theorem C165_alone_partial (texts : Nat → Bytes) (umask : BitVec 9) (name old : Bytes) (i : Nat) (acts : List (Nat × Act)) (w w' : World)
    (hd : Ready w.disk name old) (hp : w.phase i = .start) (h : run texts umask name w acts = some w')
    (ha : ∀ x ∈ acts, x.1 = i ∧ x.2 ≠ .error ∨ x.1 ≠ i ∧ x.2 = .stat) :
    w'.phase i ≠ .failing ∧ w'.phase i ≠ .failed ∧ (w'.phase i = .ok → w'.disk.read name = some (texts i)) := by
  have hr : ∃ j, w.disk.resolve name = some (.file j) := by
    have hs := hd.shows
    unfold Disk.read at hs
    split at hs
    · next j hr => exact ⟨j, hr⟩
    · cases hs
  have hi : Alone texts name i w := by
    refine ⟨⟨hd.wf, fun m hm => by cases List.mem_singleton.1 hm; exact hd.apart⟩, hr, ?_⟩
    rw [hp]; trivial
  obtain ⟨-, -, hm⟩ := alone_run acts w w' ha h hi
  refine ⟨fun e => ?_, fun e => ?_, fun e => ?_⟩ <;> rw [e] at hm
  · exact hm
  · exact hm
  · exact hm

/-- No temporary file is left when all saves are over, unless it could not be removed. -/
theorem C165_nothing_left (texts : Nat → Bytes) (umask : BitVec 9) (d : Disk) (name old : Bytes) (acts : List (Nat × Act)) (w : World)
    (hd : Ready d name old) (hn : d.entry (tmpName name) = none) (h : run texts umask name (begin d) acts = some w) (he : ∀ x ∈ acts, x.2 ≠ .stuck)
    (ho : Over w) : w.disk.entry (tmpName name) = none := by
  rcases clean_run acts _ w ⟨hd.wf, fun m hm => by cases List.mem_singleton.1 hm; exact hd.apart⟩ he h (.inl hn) with h | ⟨i, h⟩
  · exact h
  · rcases ho i with h' | h' | h' <;> simp [h'] at h

/-- A file that does not exist is not created by anybody, and nothing else happens either: all saves fail. -/
theorem C165_missing (texts : Nat → Bytes) (umask : BitVec 9) (d : Disk) (name : Bytes) (hr : d.read name = none) : ∀ (acts : List (Nat × Act)) (w : World),
    run texts umask name (begin d) acts = some w → w.disk = d ∧ ∀ i, w.phase i = .start ∨ w.phase i = .failed := by
  have key : ∀ (acts : List (Nat × Act)) (w w' : World), w.disk = d → (∀ i, w.phase i = .start ∨ w.phase i = .failed) →
      run texts umask name w acts = some w' → w'.disk = d ∧ ∀ i, w'.phase i = .start ∨ w'.phase i = .failed := by
    intro acts
    induction acts with
    | nil => intro w w' h1 h2 h; cases h; exact ⟨h1, h2⟩
    | cons x rest ih =>
      intro w w' h1 h2 h
      obtain ⟨i, a⟩ := x
      rw [run] at h
      split at h
      · next w1 hs =>
        have hset : ∀ x, (setPhase w i .failed).phase x = .start ∨ (setPhase w i .failed).phase x = .failed := by
          intro x
          simp only [setPhase]
          split
          · exact .inr rfl
          · exact h2 x
        refine ih w1 w' ?_ ?_ h
        · cases step_did hs with
          | stat j hp hr' => exact h1
          | missing | refused => exact h1
          | opened m d j hp | notOpened m hp | write j off k hp | renamed j off e hp | notRenamed j off hp | remove hp | stuck hp =>
            rcases h2 i with h | h <;> rw [h] at hp <;> cases hp
          | error => exact h1
        · cases step_did hs with
          | stat j hp hr' => rw [h1] at hr'; simp only [Disk.read, hr'] at hr; cases hr
          | missing | refused => exact hset
          | opened m d j hp | notOpened m hp | write j off k hp | renamed j off e hp | notRenamed j off hp | remove hp | stuck hp =>
            rcases h2 i with h | h <;> rw [h] at hp <;> cases hp
          | error hn hf =>
            rcases h2 i with h | h
            · exact absurd h hf.1
            · exact absurd h hf.2
      · cases h
  intro acts w h
  exact key acts _ w rfl (fun _ => .inl rfl) h

/-- Two editors. -/
def two (a b : Bytes) : Nat → Bytes := fun i => if i = 0 then a else if i = 1 then b else []

/-- Both editors open the temporary file before they write. -/
def together (n m : Nat) : List (Nat × Act) :=
  [(0, .stat), (1, .stat), (0, .open), (1, .open), (0, .write n), (1, .write m), (0, .rename), (1, .rename), (1, .remove)]

theorem demo_ready : Ready (demoDisk none) b!"f" b!"old\n" := ⟨demo_wf none (by simp), demo_apart false, by decide +kernel⟩

/-- What the file shows in the end, and how the two saves have ended. -/
def outcome (a b : Bytes) (acts : List (Nat × Act)) : Option (Option Bytes × Phase × Phase) :=
  (run (two a b) 0o022#9 b!"f" (begin (demoDisk none)) acts).map fun w => (w.disk.read b!"f", w.phase 0, w.phase 1)

/-- The file need not end up with the text of either editor, although one save has succeeded: the end of the longer text follows the
whole of the shorter one. Or with the text of the save that failed, while the one that succeeded is lost. Or with null bytes in place
of the beginning, while a save has not finished. -/
theorem C165_counterexample :
    outcome b!"alpha\nbeta\n" b!"gamma\n" (together 11 6) = some (some b!"gamma\nbeta\n", .ok, .failed) ∧
    outcome b!"alpha\n" b!"gamma\n" (together 6 6) = some (some b!"gamma\n", .ok, .failed) ∧
    outcome b!"alpha\n" b!"gamma\n" [(0, .stat), (1, .stat), (0, .open), (0, .write 4), (1, .open), (0, .write 2), (0, .rename)] =
      some (some (List.replicate 4 0 ++ b!"a\n"), .ok, .writing 2 0) := by
  refine ⟨by decide +kernel, by decide +kernel, by decide +kernel⟩

/-- Two editors that save the same text, both writing at once: the hypotheses of the theorems are met. -/
example : outcome b!"new\n" b!"new\n" (together 4 4) = some (some b!"new\n", .ok, .failed) ∧ (∀ x ∈ together 4 4, two b!"new\n" b!"new\n" x.1 = b!"new\n" ∧ x.2 ≠ .error) ∧
    Ready (demoDisk none) b!"f" b!"old\n" := by
  refine ⟨by decide +kernel, by decide +kernel, demo_ready⟩

/-- A file that does not exist: the save fails. -/
example : (demoDisk none).read b!"h" = none ∧
    (run (two b!"new\n" []) 0o022#9 b!"h" (begin (demoDisk none)) [(0, .stat)]).map (fun w => w.phase 0) = some .failed := by
  refine ⟨by decide +kernel, by decide +kernel⟩

/-- One save after the other. -/
example : outcome b!"one\n" b!"two\n" [(0, .stat), (0, .open), (0, .write 4), (1, .stat), (0, .rename), (1, .open), (1, .write 4), (1, .rename)] = some (some b!"two\n", .ok, .ok) := by
  decide +kernel

end Ed.Race
