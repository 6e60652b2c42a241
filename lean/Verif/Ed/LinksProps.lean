import Verif.Ed.Links
import Verif.Ed.SaveProps

/-! # Saving on a disk with links and permissions (C104) -/

namespace Ed.Links
open Go

/-! ## Specification -/

/-- Following the symbolic links from one name leads to another, or it is that name. -/
inductive Leads (entry : Bytes → Option Entry) : Bytes → Bytes → Prop
  | here (n : Bytes) : Leads entry n n
  | link (n t m : Bytes) (h : entry n = some (.link t)) (h' : Leads entry t m) : Leads entry n m

/-- The numbers of the files in use are below the next one. -/
def Disk.WF (d : Disk) : Prop := ∀ n i, d.entry n = some (.file i) → i < d.next

/-- The name of the temporary file is free, or stands for a file without any other name; no link points to it. -/
def Apart (d : Disk) (name : Bytes) : Prop :=
  (∀ e, d.entry (tmpName name) = some e → ∃ j, e = .file j ∧ ∀ n, n ≠ tmpName name → d.entry n ≠ some (.file j)) ∧
    ∀ n, d.entry n ≠ some (.link (tmpName name))

/-- Another disk shows the same under a name: contents and permissions. -/
def Same (d d' : Disk) (n : Bytes) : Prop := d'.read n = d.read n ∧ d'.mode n = d.mode n

/-! ## Proofs -/

/-- Only the name `tmp` and the file `j` may have changed. -/
structure Only (d d' : Disk) (tmp : Bytes) (j : Nat) : Prop where
  entries : ∀ n, n ≠ tmp → d'.entry n = d.entry n
  nodes : ∀ i, i ≠ j → d'.node i = d.node i

/-- No name but `tmp` stands for the file `j`. -/
def Own (d : Disk) (tmp : Bytes) (j : Nat) : Prop := ∀ n, n ≠ tmp → d.entry n ≠ some (.file j)

theorem follow_same {e e' : Bytes → Option Entry} {tmp : Bytes} (h : ∀ n, n ≠ tmp → e' n = e n) (hl : ∀ n, e n ≠ some (.link tmp)) :
    ∀ (k : Nat) (n : Bytes), n ≠ tmp → follow e' k n = follow e k n := by
  intro k
  induction k with
  | zero =>
    intro n hn
    rw [follow, follow, h n hn]
  | succ k ih =>
    intro n hn
    rw [follow, follow, h n hn]
    split
    · rfl
    · rfl
    · next t ht => exact ih t (fun he => hl n (by rw [ht, he]))

theorem follow_file {e : Bytes → Option Entry} {tmp : Bytes} (hl : ∀ n, e n ≠ some (.link tmp)) :
    ∀ (k : Nat) (n : Bytes) (i : Nat), n ≠ tmp → follow e k n = some (.file i) → ∃ m, m ≠ tmp ∧ e m = some (.file i) := by
  intro k
  induction k with
  | zero =>
    intro n i hn h
    rw [follow] at h
    split at h
    · cases h
    · next x hx => exact ⟨n, hn, by rw [hx]; cases h; rfl⟩
    · cases h
  | succ k ih =>
    intro n i hn h
    rw [follow] at h
    split at h
    · cases h
    · next x hx => exact ⟨n, hn, by rw [hx]; cases h; rfl⟩
    · next t ht => exact ih t i (fun he => hl n (by rw [ht, he])) h

theorem same_of_resolve {d d' : Disk} {tmp n : Bytes} {j : Nat} (hl : ∀ n, d.entry n ≠ some (.link tmp)) (ho : Own d tmp j)
    (hn : n ≠ tmp) (hr : d'.resolve n = d.resolve n) (hnode : ∀ i, i ≠ j → d'.node i = d.node i) : Same d d' n := by
  unfold Same Disk.read Disk.mode
  rw [hr]
  cases h : d.resolve n with
  | none => exact ⟨rfl, rfl⟩
  | some p =>
    cases p with
    | missing m => exact ⟨rfl, rfl⟩
    | file i =>
      obtain ⟨m, hm, he⟩ := follow_file hl 40 n i hn h
      have hij : i ≠ j := by rintro rfl; exact ho m hm he
      simp only
      rw [hnode i hij]
      exact ⟨rfl, rfl⟩

theorem Only.same {d d' : Disk} {tmp n : Bytes} {j : Nat} (h : Only d d' tmp j) (hl : ∀ n, d.entry n ≠ some (.link tmp))
    (ho : Own d tmp j) (hn : n ≠ tmp) : Same d d' n :=
  same_of_resolve hl ho hn (follow_same h.entries hl 40 n hn) h.nodes

theorem Only.written {d d' : Disk} {tmp data : Bytes} {j k : Nat} (h : Only d d' tmp j) : Only d (written d' j data k) tmp j :=
  ⟨h.entries, fun i hi => by simp only [Links.written, setNode, if_neg hi]; exact h.nodes i hi⟩

theorem Only.remove {d d' : Disk} {tmp : Bytes} {j : Nat} (h : Only d d' tmp j) : Only d (setEntry d' tmp none) tmp j :=
  ⟨fun n hn => by simp only [setEntry, if_neg hn]; exact h.entries n hn, h.nodes⟩

theorem Only.refl (d : Disk) (tmp : Bytes) (j : Nat) : Only d d tmp j := ⟨fun _ _ => rfl, fun _ _ => rfl⟩

/-- The permissions the temporary file has. -/
def tmpMode (umask old : BitVec 9) (d : Disk) (tmp : Bytes) : BitVec 9 := (d.mode tmp).getD (old &&& ~~~umask)

theorem open_spec {umask m : BitVec 9} {d d1 : Disk} {name : Bytes} {j : Nat} (hwf : d.WF) (ha : Apart d name)
    (h : openTrunc umask m d (tmpName name) = some (d1, j)) :
    Only d d1 (tmpName name) j ∧ Own d (tmpName name) j ∧ d1.entry (tmpName name) = some (.file j) ∧
      d1.node j = ⟨[], tmpMode umask m d (tmpName name)⟩ := by
  unfold openTrunc at h
  cases he : d.entry (tmpName name) with
  | none =>
    have hres : d.resolve (tmpName name) = some (.missing (tmpName name)) := by rw [Disk.resolve, follow, he]
    rw [hres] at h
    simp only [Option.some.injEq, Prod.mk.injEq] at h
    obtain ⟨rfl, rfl⟩ := h
    refine ⟨⟨fun n hn => by simp [setNode, setEntry, hn], fun i hi => by simp [setNode, setEntry, hi]⟩, ?_, ?_, ?_⟩
    · intro n _ hh
      exact absurd (hwf n _ hh) (Nat.lt_irrefl _)
    · simp [setNode, setEntry]
    · simp [setNode, tmpMode, Disk.mode, hres]
  | some e =>
    obtain ⟨i, rfl, hi⟩ := ha.1 e he
    have hres : d.resolve (tmpName name) = some (.file i) := by rw [Disk.resolve, follow, he]
    rw [hres] at h
    simp only [Option.some.injEq, Prod.mk.injEq] at h
    obtain ⟨rfl, rfl⟩ := h
    refine ⟨⟨fun n hn => rfl, fun x hx => by simp [setNode, hx]⟩, hi, he, ?_⟩
    simp [setNode, tmpMode, Disk.mode, hres]

theorem rename_spec {d d' : Disk} {name : Bytes} {j : Nat} (ho : Own d (tmpName name) j) (h : Only d d' (tmpName name) j)
    (he : d'.entry (tmpName name) = some (.file j)) :
    (rename d' (tmpName name) name).entry =
        (fun n => if n = tmpName name then none else if n = name then some (.file j) else d'.entry n) ∧
      (rename d' (tmpName name) name).node = d'.node := by
  have hne := (tmp_ne name).symm
  have hn : d'.entry name ≠ some (.file j) := by rw [h.entries name hne]; exact ho name hne
  have hkey : rename d' (tmpName name) name = setEntry (setEntry d' name (some (.file j))) (tmpName name) none := by
    unfold rename
    rw [he]
    split
    · next i i' h1 h2 =>
      cases h1
      rw [if_neg (by rintro rfl; exact hn h2)]
    · rfl
  rw [hkey]
  exact ⟨rfl, rfl⟩

theorem moved_follow {d F : Disk} {tmp name : Bytes} {j : Nat} (hl : ∀ n, d.entry n ≠ some (.link tmp)) (hj : F.entry name = some (.file j))
    (hF : ∀ n, n ≠ tmp → n ≠ name → F.entry n = d.entry n) : ∀ (k : Nat) (n : Bytes), n ≠ tmp →
      (follow F.entry k n = follow d.entry k n ∧ ¬ Leads d.entry n name) ∨
      (Leads d.entry n name ∧ (follow F.entry k n = some (.file j) ∨ follow F.entry k n = none ∧ follow d.entry k n = none)) := by
  intro k
  induction k with
  | zero =>
    intro n hn
    by_cases hnn : n = name
    · subst hnn
      exact .inr ⟨.here _, .inl (by rw [follow, hj])⟩
    · rw [follow, hF n hn hnn]
      cases he : d.entry n with
      | none =>
        refine .inl ⟨by rw [follow, he], fun hh => ?_⟩
        cases hh with
        | here => exact hnn rfl
        | link _ t _ h _ => rw [he] at h; cases h
      | some e =>
        cases e with
        | file i =>
          refine .inl ⟨by rw [follow, he], fun hh => ?_⟩
          cases hh with
          | here => exact hnn rfl
          | link _ t _ h _ => rw [he] at h; cases h
        | link t =>
          by_cases hh : Leads d.entry n name
          · exact .inr ⟨hh, .inr ⟨rfl, by rw [follow, he]⟩⟩
          · exact .inl ⟨by rw [follow, he], hh⟩
  | succ k ih =>
    intro n hn
    by_cases hnn : n = name
    · subst hnn
      exact .inr ⟨.here _, .inl (by rw [follow, hj])⟩
    · rw [follow, hF n hn hnn]
      cases he : d.entry n with
      | none =>
        refine .inl ⟨by rw [follow, he], fun hh => ?_⟩
        cases hh with
        | here => exact hnn rfl
        | link _ t _ h _ => rw [he] at h; cases h
      | some e =>
        cases e with
        | file i =>
          refine .inl ⟨by rw [follow, he], fun hh => ?_⟩
          cases hh with
          | here => exact hnn rfl
          | link _ t _ h _ => rw [he] at h; cases h
        | link t =>
          rw [show follow d.entry (k + 1) n = follow d.entry k t by rw [follow, he]]
          simp only
          rcases ih t (fun h => hl n (by rw [he, h])) with ⟨h1, h2⟩ | ⟨h1, h2⟩
          · refine .inl ⟨h1, fun hh => ?_⟩
            cases hh with
            | here => exact hnn rfl
            | link _ t' _ h h' => rw [he] at h; cases h; exact h2 h'
          · exact .inr ⟨.link n t name he h1, h2⟩

/-- What a disk of a trace looks like: as before but for the temporary file, or with the name moved to the new file. -/
inductive Stage (d : Disk) (name data : Bytes) (m : BitVec 9) (d' : Disk) : Prop
  | before (j : Nat) (ho : Own d (tmpName name) j) (h : Only d d' (tmpName name) j)
  | after (j : Nat) (ho : Own d (tmpName name) j) (hF : ∀ n, n ≠ tmpName name → n ≠ name → d'.entry n = d.entry n)
    (ht : d'.entry (tmpName name) = none) (hj : d'.entry name = some (.file j)) (hnode : ∀ i, i ≠ j → d'.node i = d.node i)
    (hd : d'.node j = ⟨data, m⟩)

theorem fresh_own {d : Disk} (hwf : d.WF) (tmp : Bytes) : Own d tmp d.next := fun n _ h => absurd (hwf n _ h) (Nat.lt_irrefl _)

theorem save_file {o : Outcome} {umask : BitVec 9} {d : Disk} {name data : Bytes} {i : Nat} (hr : d.resolve name = some (.file i)) :
    save o umask d name data = match o.stat with
    | some err => ([], some err)
    | none =>
      match openTrunc umask (d.node i).mode d (tmpName name) with
      | none => (remove o d (tmpName name), some (o.writeFile.getD o.noFile))
      | some (d1, j) =>
        match o.writeFile with
        | some err =>
          match o.written with
          | none => (remove o d (tmpName name), some err)
          | some n => ((List.range (n + 1)).map (written d1 j data) ++ remove o (written d1 j data n) (tmpName name), some err)
        | none =>
          match o.rename with
          | some err => ((List.range (data.length + 1)).map (written d1 j data) ++
              remove o (written d1 j data data.length) (tmpName name), some err)
          | none => ((List.range (data.length + 1)).map (written d1 j data) ++
              [rename (written d1 j data data.length) (tmpName name) name], none) := by
  rw [save, hr]
  rfl

theorem save_nothing {o : Outcome} {umask : BitVec 9} {d : Disk} {name data : Bytes} (hr : ∀ i, d.resolve name ≠ some (.file i)) :
    save o umask d name data = ([], some o.noFile) := by
  rw [save]
  split
  · next i h => exact absurd h (hr i)
  · rfl

theorem save_stage (o : Outcome) (umask : BitVec 9) (d : Disk) (name data : Bytes) (hwf : d.WF) (ha : Apart d name) (i : Nat)
    (hi : d.resolve name = some (.file i)) :
    (∀ d' ∈ (save o umask d name data).1, Stage d name data (tmpMode umask (d.node i).mode d (tmpName name)) d') ∧
    (((save o umask d name data).2 = none → ∃ j, Own d (tmpName name) j ∧
      let d' := final d (save o umask d name data).1
      (∀ n, n ≠ tmpName name → n ≠ name → d'.entry n = d.entry n) ∧
      d'.entry (tmpName name) = none ∧ d'.entry name = some (.file j) ∧ (∀ i, i ≠ j → d'.node i = d.node i) ∧
      d'.node j = ⟨data, tmpMode umask (d.node i).mode d (tmpName name)⟩) ∧
    ((save o umask d name data).2 ≠ none → ∃ j, Own d (tmpName name) j ∧
      Only d (final d (save o umask d name data).1) (tmpName name) j ∧
      (o.stat = none → o.removed = true → (final d (save o umask d name data).1).entry (tmpName name) = none))) := by
  have hrem : ∀ (d1 : Disk) (j : Nat), Own d (tmpName name) j → Only d d1 (tmpName name) j →
      ∀ d' ∈ remove o d1 (tmpName name), Only d d' (tmpName name) j := by
    intro d1 j _ h d' hd
    unfold remove at hd
    split at hd
    · simp only [List.mem_singleton] at hd; subst hd; exact h.remove
    · cases hd
  have hfin : ∀ (l : List Disk) (d1 : Disk) (j : Nat), Own d (tmpName name) j → (∀ x ∈ l, Only d x (tmpName name) j) →
      Only d d1 (tmpName name) j →
      Only d (final d (l ++ remove o d1 (tmpName name))) (tmpName name) j ∧
      (o.removed = true → (final d (l ++ remove o d1 (tmpName name))).entry (tmpName name) = none) := by
    intro l d1 j h1 h2 h3
    unfold final remove
    split
    · simp only [List.getLast?_append, List.getLast?_singleton, Option.some_or, Option.getD_some]
      exact ⟨h3.remove, fun _ => by simp [setEntry]⟩
    · next hr =>
      refine ⟨?_, fun h => absurd h hr⟩
      rw [List.append_nil]
      cases hg : l.getLast? with
      | none => exact Only.refl ..
      | some g => exact h2 g (List.mem_of_getLast? hg)
  rw [save_file hi]
  cases hst : o.stat with
  | some err => exact ⟨by simp, by simp, fun _ => ⟨d.next, fresh_own hwf _, Only.refl .., by simp⟩⟩
  | none =>
    simp only
    cases hop : openTrunc umask (d.node i).mode d (tmpName name) with
    | none =>
      simp only
      refine ⟨fun d' hd => .before d.next (fresh_own hwf _) (hrem d d.next (fresh_own hwf _) (Only.refl ..) d' hd), by simp,
        fun _ => ⟨d.next, fresh_own hwf _, ?_⟩⟩
      have := hfin [] d d.next (fresh_own hwf _) (by simp) (Only.refl ..)
      rw [List.nil_append] at this
      exact ⟨this.1, fun _ => this.2⟩
    | some p =>
      obtain ⟨d1, j⟩ := p
      obtain ⟨k1, k2, k3, k4⟩ := open_spec hwf ha hop
      have hpart : ∀ n, ∀ x ∈ (List.range (n + 1)).map (written d1 j data), Only d x (tmpName name) j := by
        intro n x hx
        obtain ⟨k, _, rfl⟩ := List.mem_map.mp hx
        exact k1.written
      simp only
      cases hw : o.writeFile with
      | some err =>
        simp only
        cases hn : o.written with
        | none =>
          simp only
          refine ⟨fun d' hd => .before j k2 (hrem d j k2 (Only.refl ..) d' hd), by simp, fun _ => ⟨j, k2, ?_⟩⟩
          have := hfin [] d j k2 (by simp) (Only.refl ..)
          rw [List.nil_append] at this
          exact ⟨this.1, fun _ => this.2⟩
        | some n =>
          simp only
          refine ⟨fun d' hd => .before j k2 ?_, by simp, fun _ => ⟨j, k2, ?_⟩⟩
          · rcases List.mem_append.mp hd with hd | hd
            · exact hpart n d' hd
            · exact hrem _ j k2 k1.written d' hd
          · have := hfin _ _ j k2 (hpart n) (k1.written (data := data) (k := n))
            exact ⟨this.1, fun _ => this.2⟩
      | none =>
        simp only
        cases hr : o.rename with
        | some err =>
          simp only
          refine ⟨fun d' hd => .before j k2 ?_, by simp, fun _ => ⟨j, k2, ?_⟩⟩
          · rcases List.mem_append.mp hd with hd | hd
            · exact hpart _ d' hd
            · exact hrem _ j k2 k1.written d' hd
          · have := hfin _ _ j k2 (hpart data.length) (k1.written (data := data) (k := data.length))
            exact ⟨this.1, fun _ => this.2⟩
        | none =>
          simp only
          have hfull : Only d (written d1 j data data.length) (tmpName name) j := k1.written
          obtain ⟨r1, r2⟩ := rename_spec k2 hfull k3
          have hne := (tmp_ne name).symm
          have e1 : ∀ n, n ≠ tmpName name → n ≠ name →
              (rename (written d1 j data data.length) (tmpName name) name).entry n = d.entry n := by
            intro n h1 h2
            rw [r1]; simp only [if_neg h1, if_neg h2]
            exact hfull.entries n h1
          have e2 : (rename (written d1 j data data.length) (tmpName name) name).entry (tmpName name) = none := by
            rw [r1]; simp
          have e3 : (rename (written d1 j data data.length) (tmpName name) name).entry name = some (.file j) := by
            rw [r1]; simp only [if_neg hne, if_true]
          have e4 : ∀ i, i ≠ j → (rename (written d1 j data data.length) (tmpName name) name).node i = d.node i := by
            intro i hi
            rw [r2]; exact hfull.nodes i hi
          have e5 : (rename (written d1 j data data.length) (tmpName name) name).node j =
              ⟨data, tmpMode umask (d.node i).mode d (tmpName name)⟩ := by
            rw [r2]
            simp [written, setNode, k4]
          refine ⟨fun d' hd => ?_, fun _ => ⟨j, k2, ?_⟩, by simp⟩
          · rcases List.mem_append.mp hd with hd | hd
            · exact .before j k2 (hpart _ d' hd)
            · simp only [List.mem_singleton] at hd
              subst hd
              exact .after j k2 e1 e2 e3 e4 e5
          · simp only [final, List.getLast?_append, List.getLast?_singleton, Option.some_or, Option.getD_some]
            exact ⟨e1, e2, e3, e4, e5⟩

/-! ## C104 -/

/-- **C104** At every point during a save, every name shows what it showed before, or, if it is the name of the file or a
link to it, the complete new contents. -/
theorem C104_atomic (o : Outcome) (umask : BitVec 9) (d : Disk) (name data : Bytes) (hwf : d.WF) (ha : Apart d name)
    (d' : Disk) (h : d' ∈ (save o umask d name data).1) (n : Bytes) (hn : n ≠ tmpName name) :
    Same d d' n ∨ (Leads d.entry n name ∧ d'.read n = some data) := by
  by_cases hi : ∃ i, d.resolve name = some (.file i)
  · obtain ⟨i, hi⟩ := hi
    cases (save_stage o umask d name data hwf ha i hi).1 d' h with
    | before j ho h => exact .inl (h.same ha.2 ho hn)
    | after j ho hF ht hj hnode hd =>
      rcases moved_follow ha.2 hj hF 40 n hn with ⟨h1, -⟩ | ⟨h1, h2 | h2⟩
      · exact .inl (same_of_resolve ha.2 ho hn h1 hnode)
      · exact .inr ⟨h1, by rw [Disk.read, Disk.resolve, h2]; simp only [hd]⟩
      · exact .inl (same_of_resolve ha.2 ho hn (h2.1.trans h2.2.symm) hnode)
  · rw [save_nothing (fun i hh => hi ⟨i, hh⟩)] at h
    cases h

/-- **C104** A save that fails leaves every name as it was, and no temporary file if that can be removed. -/
theorem C104_failure (o : Outcome) (umask : BitVec 9) (d : Disk) (name data : Bytes) (hwf : d.WF) (ha : Apart d name)
    (h : (save o umask d name data).2 ≠ none) :
    let d' := final d (save o umask d name data).1
    (∀ n, n ≠ tmpName name → Same d d' n ∧ d'.entry n = d.entry n) ∧
      (o.stat = none → o.removed = true → d.read name ≠ none → d'.entry (tmpName name) = none) := by
  by_cases hi : ∃ i, d.resolve name = some (.file i)
  · obtain ⟨i, hi⟩ := hi
    obtain ⟨j, h1, h2, h3⟩ := (save_stage o umask d name data hwf ha i hi).2.2 h
    exact ⟨fun n hn => ⟨h2.same ha.2 h1 hn, h2.entries n hn⟩, fun a b _ => h3 a b⟩
  · rw [save_nothing (fun i hh => hi ⟨i, hh⟩)]
    refine ⟨fun n hn => ⟨⟨rfl, rfl⟩, rfl⟩, fun _ _ hr => absurd ?_ hr⟩
    unfold Disk.read
    split
    · next i h => exact absurd ⟨i, h⟩ hi
    · rfl

/-- **C104** A save that succeeds makes the name a file of its own, with the new contents; its permissions are those it had
without the bits of the umask, or those of a temporary file that was left over. Links to the name show the new contents.
Whatever does not lead to the name is as it was: in particular other names of the old file show the old contents. -/
theorem C104_success (o : Outcome) (umask : BitVec 9) (d : Disk) (name data : Bytes) (hwf : d.WF) (ha : Apart d name)
    (h : (save o umask d name data).2 = none) :
    let d' := final d (save o umask d name data).1
    ∃ old, d.mode name = some old ∧
    d'.mode name = some ((d.mode (tmpName name)).getD (old &&& ~~~umask)) ∧
    (∃ j, d'.entry name = some (.file j) ∧ ∀ n, n ≠ tmpName name → d.entry n ≠ some (.file j)) ∧
    (∀ n, n ≠ tmpName name → n ≠ name → d'.entry n = d.entry n) ∧
    d'.entry (tmpName name) = none ∧
    (∀ n, n ≠ tmpName name → Leads d.entry n name → d.read n ≠ none → d'.read n = some data) ∧
    (∀ n, n ≠ tmpName name → ¬ Leads d.entry n name → Same d d' n) := by
  by_cases hi : ∃ i, d.resolve name = some (.file i)
  · obtain ⟨i, hi⟩ := hi
    obtain ⟨j, h1, h2, h3, h4, h5, h6⟩ := (save_stage o umask d name data hwf ha i hi).2.1 h
    refine ⟨(d.node i).mode, by rw [Disk.mode, hi], ?_, ⟨j, h4, h1⟩, h2, h3, ?_, ?_⟩
    · rw [Disk.mode, show (final d (save o umask d name data).1).resolve name = some (.file j) by rw [Disk.resolve, follow, h4]]
      simp only [h6]
      rfl
    · intro n hn hl hr
      rcases moved_follow ha.2 h4 h2 40 n hn with ⟨-, k⟩ | ⟨k1, k2 | k2⟩
      · exact absurd hl k
      · rw [Disk.read, Disk.resolve, k2]; simp only [h6]
      · exact absurd (by rw [Disk.read, Disk.resolve, k2.2]) hr
    · intro n hn hl
      rcases moved_follow ha.2 h4 h2 40 n hn with ⟨k, -⟩ | ⟨k1, -⟩
      · exact same_of_resolve ha.2 h1 hn k h5
      · exact absurd k1 hl
  · rw [save_nothing (fun i hh => hi ⟨i, hh⟩)] at h
    cases h

/-- **C104** Saving keeps the permissions exactly if the umask clears none of them; with a temporary file left over, exactly
if that one has the same. -/
theorem C104_permissions_partial (o : Outcome) (umask : BitVec 9) (d : Disk) (name data : Bytes) (hwf : d.WF) (ha : Apart d name)
    (h : (save o umask d name data).2 = none) (old : BitVec 9) (hold : d.mode name = some old) :
    let d' := final d (save o umask d name data).1
    (d.mode (tmpName name) = none → (d'.mode name = some old ↔ old &&& umask = 0#9)) ∧
    (∀ m, d.mode (tmpName name) = some m → (d'.mode name = some old ↔ m = old)) := by
  obtain ⟨old', h1, h2, -⟩ := C104_success o umask d name data hwf ha h
  rw [hold] at h1
  cases h1
  refine ⟨fun ht => ?_, fun m hm => ?_⟩
  · rw [h2, ht]
    simp only [Option.getD_none, Option.some.injEq]
    constructor
    · intro hh
      rw [← hh]
      apply BitVec.eq_of_getElem_eq
      intro k hk
      simp
    · intro hh
      apply BitVec.eq_of_getElem_eq
      intro k hk
      have := congrArg (fun b : BitVec 9 => b[k]) hh
      simp only [BitVec.getElem_and, BitVec.getElem_zero] at this
      simp only [BitVec.getElem_and, BitVec.getElem_not]
      revert this
      cases old[k] <;> cases umask[k] <;> simp
  · rw [h2, hm]
    simp

/-- **C104** Of the names that showed the file, those that lead to the name it was opened with show the new contents; the
others show the old ones. -/
theorem C104_names_partial (o : Outcome) (umask : BitVec 9) (d : Disk) (name data old : Bytes) (hwf : d.WF) (ha : Apart d name)
    (h : (save o umask d name data).2 = none) (hold : d.read name = some old) (hne : data ≠ old) (n : Bytes)
    (hn : n ≠ tmpName name) (hs : d.resolve n = d.resolve name) :
    let d' := final d (save o umask d name data).1
    (d'.read n = some data ↔ Leads d.entry n name) ∧ (d'.read n = some old ↔ ¬ Leads d.entry n name) := by
  obtain ⟨-, -, -, -, -, -, h1, h2⟩ := C104_success o umask d name data hwf ha h
  have hr : d.read n = some old := by rw [← hold, Disk.read, Disk.read, hs]
  by_cases hl : Leads d.entry n name
  · have := h1 n hn hl (by rw [hr]; simp)
    simp only [this, hl, iff_true, not_true_eq_false, iff_false, Option.some.injEq, true_and]
    exact hne
  · have := (h2 n hn hl).1
    rw [hr] at this
    simp only [this, hl, iff_false, not_false_eq_true, iff_true, Option.some.injEq, and_true]
    exact fun e => hne e.symm

/-- A disk with a file `f`, also called `g`, a link `l` to `f`, and a file `f.swp` left over if asked for. -/
def demoDisk (swp : Option Entry) : Disk where
  entry n := if n = b!"f" ∨ n = b!"g" then some (.file 0) else if n = b!"l" then some (.link b!"f")
    else if n = b!"f.swp" then swp else none
  node i := if i = 0 then ⟨b!"old\n", 0o664#9⟩ else ⟨b!"left over\n", 0o600#9⟩
  next := 2

theorem demo_wf (e : Option Entry) (he : ∀ i, e = some (.file i) → i < 2) : (demoDisk e).WF := by
  intro n i h
  simp only [demoDisk] at h ⊢
  split at h
  · cases h; decide
  · split at h
    · cases h
    · split at h
      · exact he i h
      · cases h

theorem demo_apart (b : Bool) : Apart (demoDisk (if b then some (.file 1) else none)) b!"f" := by
  refine ⟨?_, ?_⟩
  · intro e he
    cases b
    · simp [demoDisk, tmpName] at he
    · refine ⟨1, by simpa [demoDisk, tmpName] using he.symm, ?_⟩
      intro n hn h
      simp only [demoDisk] at h
      split at h
      · cases h
      · split at h
        · cases h
        · split at h
          · next hx => exact hn (by rw [hx]; rfl)
          · cases h
  · intro n h
    simp only [demoDisk] at h
    split at h
    · cases h
    · split at h
      · cases h
      · split at h
        · cases b <;> simp at h
        · cases h

/-- The hypotheses are met: a save that succeeds, on a disk with other names and links. -/
example : (save {} 0o022#9 (demoDisk none) b!"f" b!"new\n").2 = none ∧ (demoDisk none).WF ∧ Apart (demoDisk none) b!"f" ∧
    (demoDisk none).read b!"f" = some b!"old\n" ∧ Leads (demoDisk none).entry b!"l" b!"f" ∧
    (demoDisk none).resolve b!"l" = (demoDisk none).resolve b!"f" :=
  ⟨by decide +kernel, demo_wf none (by simp), demo_apart false, by decide +kernel,
    .link _ b!"f" _ (by decide +kernel) (.here _), by decide +kernel⟩

/-- The disk after saving `new` under a name with the usual umask. -/
def demoSaved (d : Disk) (name : Bytes) : Disk := final d (save {} 0o022#9 d name b!"new\n").1

/-- **C104** is not kept: with the usual umask a file its group may write no longer is; another name of the file keeps the
old contents; if the name is a symbolic link it becomes a file, and what it pointed to keeps the old contents; and the
permissions of a temporary file left over replace those of the file. -/
theorem C104_counterexample :
    ((demoDisk none).mode b!"f" = some 0o664#9 ∧ (demoSaved (demoDisk none) b!"f").mode b!"f" = some 0o644#9) ∧
    ((demoDisk none).resolve b!"g" = (demoDisk none).resolve b!"f" ∧
      (demoSaved (demoDisk none) b!"f").read b!"g" = some b!"old\n") ∧
    ((demoDisk none).entry b!"l" = some (.link b!"f") ∧ (demoSaved (demoDisk none) b!"l").entry b!"l" = some (.file 2) ∧
      (demoSaved (demoDisk none) b!"l").read b!"l" = some b!"new\n" ∧
      (demoSaved (demoDisk none) b!"l").read b!"f" = some b!"old\n") ∧
    (demoSaved (demoDisk (some (.file 1))) b!"f").mode b!"f" = some 0o600#9 := by
  decide +kernel

/-- **C104** Without the condition on the temporary file not even the contents are safe: if its name is a symbolic link to
the file, a save that the system calls report no error for first empties the file and then makes the name a link to itself. -/
theorem C104_swap_link_counterexample :
    (save {} 0o022#9 (demoDisk (some (.link b!"f"))) b!"f" b!"new\n").2 = none ∧
    (∃ d' ∈ (save {} 0o022#9 (demoDisk (some (.link b!"f"))) b!"f" b!"new\n").1, d'.read b!"f" = some b!"ne") ∧
    (demoSaved (demoDisk (some (.link b!"f"))) b!"f").read b!"f" = none ∧
    (demoSaved (demoDisk (some (.link b!"f"))) b!"f").entry b!"f" = some (.link b!"f") := by
  refine ⟨by decide +kernel, ?_, by decide +kernel, by decide +kernel⟩
  have : ((save {} 0o022#9 (demoDisk (some (.link b!"f"))) b!"f" b!"new\n").1.any fun d' => d'.read b!"f" == some b!"ne") = true := by
    decide +kernel
  obtain ⟨d', h1, h2⟩ := List.any_eq_true.mp this
  exact ⟨d', h1, by simpa using h2⟩

end Ed.Links
