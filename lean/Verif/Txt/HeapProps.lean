import Verif.Txt.Heap
import Verif.Txt.Spec

/-!
# Property C10: the pointer-level code implements the list-level model
-/

namespace Txt
open Go

/-- `Seg h p as ps q`: following `next` from `p` visits exactly the addresses `as`, whose nodes hold
the pieces `ps`, and ends at pointer `q`. -/
def Seg (h : Heap) : Option Nat → List Nat → List Piece → Option Nat → Prop
  | p, [], [], q => p = q
  | p, a :: as, x :: xs, q => p = some a ∧ (h.mem a).piece = x ∧ Seg h (h.mem a).next as xs q
  | _, _, _, _ => False

/-- A heap table represents a list table: the chain from head is finite, visits no node twice, only
allocated nodes, and holds the same pieces; the append buffers agree. -/
def Rep (t : HTable) (pt : PieceTable) : Prop :=
  (∃ as, Seg t.heap t.head as pt.pieces none ∧ as.Nodup ∧ ∀ a ∈ as, a < t.heap.fresh) ∧
  t.append = pt.append

theorem Seg.frame {h h' : Heap} {as : List Nat} : ∀ {p xs q}, Seg h p as xs q →
    (∀ a ∈ as, h'.mem a = h.mem a) → Seg h' p as xs q := by
  induction as with
  | nil => intro p xs q hs _; cases xs <;> exact hs
  | cons a as ih =>
    intro p xs q hs hf
    cases xs with
    | nil => exact hs
    | cons x xs =>
      obtain ⟨h1, h2, h3⟩ := hs
      have e := hf a (by simp)
      refine ⟨h1, by rw [e]; exact h2, ?_⟩
      rw [e]
      exact ih h3 (fun b hb => hf b (by simp [hb]))

theorem Seg.append {h : Heap} {as : List Nat} : ∀ {p xs q bs ys r}, Seg h p as xs q →
    Seg h q bs ys r → Seg h p (as ++ bs) (xs ++ ys) r := by
  induction as with
  | nil =>
    intro p xs q bs ys r h1 h2
    cases xs with
    | nil => cases h1; exact h2
    | cons => exact h1.elim
  | cons a as ih =>
    intro p xs q bs ys r h1 h2
    cases xs with
    | nil => exact h1.elim
    | cons x xs => exact ⟨h1.1, h1.2.1, ih h1.2.2 h2⟩

/-- Redirecting the last node of a segment. -/
theorem Seg.relink {h : Heap} {a : Nat} {x : Piece} {r : Option Nat} {as : List Nat} :
    ∀ {p xs q}, Seg h p (as ++ [a]) (xs ++ [x]) q → (as ++ [a]).Nodup → as.length = xs.length →
    Seg (h.set a { h.mem a with next := r }) p (as ++ [a]) (xs ++ [x]) r := by
  induction as with
  | nil =>
    intro p xs q hs _ hl
    cases xs with
    | nil =>
      obtain ⟨h1, h2, _⟩ := hs
      refine ⟨h1, by simp [Heap.set, h2], ?_⟩
      show ((h.set a _).mem a).next = r
      simp [Heap.set]
    | cons => simp at hl
  | cons b as ih =>
    intro p xs q hs hn hl
    cases xs with
    | nil => simp at hl
    | cons y ys =>
      obtain ⟨h1, h2, h3⟩ := hs
      simp only [List.cons_append, List.nodup_cons] at hn
      have hne : b ≠ a := by
        rintro rfl; exact hn.1 (by simp)
      refine ⟨h1, by simp [Heap.set, hne, h2], ?_⟩
      have := ih (q := q) h3 hn.2 (by simpa using hl)
      simpa [Heap.set, hne] using this

theorem Seg.length_eq {h : Heap} {as : List Nat} : ∀ {p xs q}, Seg h p as xs q →
    as.length = xs.length := by
  induction as with
  | nil => intro p xs q hs; cases xs with | nil => rfl | cons => exact hs.elim
  | cons a as ih =>
    intro p xs q hs
    cases xs with
    | nil => exact hs.elim
    | cons x xs => simp [ih hs.2.2]

/-- The head of a non-empty segment. -/
theorem Seg.head_eq {h : Heap} {a as p xs q} (hs : Seg h p (a :: as) xs q) : p = some a := by
  cases xs with
  | nil => exact hs.elim
  | cons => exact hs.1

/-- Traversal terminates and visits the pieces of the list model. -/
theorem walk_of_seg {h : Heap} {as : List Nat} : ∀ {p xs}, Seg h p as xs none →
    ∀ n, xs.length < n → h.walk n p = some xs := by
  induction as with
  | nil =>
    intro p xs hs n hn
    cases xs with
    | nil => cases hs; cases n with | zero => omega | succ n => rfl
    | cons => exact hs.elim
  | cons a as ih =>
    intro p xs hs n hn
    cases xs with
    | nil => exact hs.elim
    | cons x xs =>
      obtain ⟨h1, h2, h3⟩ := hs
      subst h1
      cases n with
      | zero => omega
      | succ n =>
        simp only [Heap.walk]
        rw [ih h3 n (by simp at hn; omega)]
        simp [h2]

/-- `prev` as a function of the visited addresses. -/
def lastOf (as : List Nat) : Option Nat := as.getLast?

theorem lastOf_snoc (as : List Nat) (a : Nat) : lastOf (as ++ [a]) = some a := by
  simp [lastOf]

/-- Effect of linking the new nodes in, on memory. -/
theorem link_mem (h : Heap) (head prev : Option Nat) (p : Nat) (x y z : Piece)
    (hp : p < h.fresh) (hq : ∀ q, prev = some q → q < h.fresh ∧ q ≠ p) :
    (h.link head prev p x y z).1.fresh = h.fresh + 3 ∧
    (h.link head prev p x y z).2 = (if prev = none then some h.fresh else head) ∧
    (h.link head prev p x y z).1.mem h.fresh = ⟨x, some (h.fresh + 2)⟩ ∧
    (h.link head prev p x y z).1.mem (h.fresh + 2) = ⟨z, some (h.fresh + 1)⟩ ∧
    (h.link head prev p x y z).1.mem (h.fresh + 1) = ⟨y, (h.mem p).next⟩ ∧
    (∀ a, a < h.fresh → some a ≠ prev → (h.link head prev p x y z).1.mem a = h.mem a) ∧
    (∀ q, prev = some q →
      (h.link head prev p x y z).1.mem q = { h.mem q with next := some h.fresh }) := by
  cases prev with
  | none =>
    simp only [Heap.link, Heap.alloc, Heap.set]
    refine ⟨by simp, by simp, ?_, ?_, ?_, ?_, ?_⟩ <;> grind
  | some q =>
    have := hq q rfl
    simp only [Heap.link, Heap.alloc, Heap.set]
    refine ⟨by simp, by simp, ?_, ?_, ?_, ?_, ?_⟩ <;> grind

theorem lastOf_mem {as : List Nat} {c : Nat} (h : lastOf as = some c) : c ∈ as :=
  List.mem_of_getLast? h

/-- Effect of linking the new nodes in, on the chain. -/
theorem link_seg (h : Heap) (head : Option Nat) (as0 as : List Nat) (ps0 ps : List Piece) (a : Nat)
    (x y z : Piece)
    (h0 : Seg h head as0 ps0 (some a)) (h1 : Seg h (h.mem a).next as ps none)
    (hnd : (as0 ++ a :: as).Nodup) (hfr : ∀ c ∈ as0 ++ a :: as, c < h.fresh) :
    Seg (h.link head (lastOf as0) a x y z).1 (h.link head (lastOf as0) a x y z).2
      (as0 ++ h.fresh :: (h.fresh + 2) :: (h.fresh + 1) :: as) (ps0 ++ x :: z :: y :: ps) none ∧
    (as0 ++ h.fresh :: (h.fresh + 2) :: (h.fresh + 1) :: as).Nodup ∧
    ∀ c ∈ as0 ++ h.fresh :: (h.fresh + 2) :: (h.fresh + 1) :: as,
      c < (h.link head (lastOf as0) a x y z).1.fresh := by
  obtain ⟨m1, m2, m3, m4, m5, m6, m7⟩ := link_mem h head (lastOf as0) a x y z (hfr a (by simp))
    (fun q hq => ⟨hfr q (by simp [lastOf_mem hq]), by
      rintro rfl
      exact (List.nodup_append.1 hnd).2.2 q (lastOf_mem hq) q (by simp) rfl⟩)
  have hdis : ∀ c ∈ as, ∀ d ∈ as0, c ≠ d := by
    intro c hc d hd e
    subst e
    exact (List.nodup_append.1 hnd).2.2 c hd c (by simp [hc]) rfl
  refine ⟨?_, ?_, ?_⟩
  · apply Seg.append (q := some h.fresh)
    · rcases List.eq_nil_or_concat as0 with e | ⟨bs, c, e⟩
      · subst e
        cases ps0 with
        | nil => simp [lastOf, Seg] at m2 ⊢; exact m2
        | cons => exact h0.elim
      · rw [List.concat_eq_append] at e
        subst e
        have hl := h0.length_eq
        have hps : ps0 ≠ [] := by rintro rfl; simp at hl
        obtain ⟨ys, w, rfl⟩ : ∃ ys w, ps0 = ys ++ [w] := by
          rcases List.eq_nil_or_concat ps0 with e | ⟨ys, w, e⟩
          · exact absurd e hps
          · exact ⟨ys, w, by rw [e, List.concat_eq_append]⟩
        have hnd0 : (bs ++ [c]).Nodup := (List.nodup_append.1 hnd).1
        have hr := Seg.relink (r := some h.fresh) h0 hnd0 (by simpa using hl)
        rw [lastOf_snoc] at m2 m6 m7 ⊢
        simp only [reduceCtorEq, if_false] at m2
        rw [m2]
        refine hr.frame ?_
        intro d hd
        by_cases hdc : d = c
        · subst hdc
          rw [m7 d rfl]
          simp [Heap.set]
        · rw [m6 d (hfr d (by grind)) (by simpa using hdc)]
          simp [Heap.set, hdc]
    · refine ⟨rfl, by rw [m3], by rw [m3], by rw [m4], by rw [m4], by rw [m5], ?_⟩
      rw [m5]
      refine h1.frame ?_
      intro d hd
      refine m6 d (hfr d (by simp [hd])) ?_
      intro e
      exact hdis d hd d (lastOf_mem e.symm) rfl
  · have hF : ∀ c ∈ as0 ++ as, c < h.fresh := fun c hc => hfr c (by simp at hc ⊢; grind)
    clear m1 m2 m3 m4 m5 m6 m7 hfr h0 h1
    rw [List.nodup_append] at hnd ⊢
    obtain ⟨n1, n2, n3⟩ := hnd
    rw [List.nodup_cons] at n2
    refine ⟨n1, ?_, ?_⟩
    · simp only [List.nodup_cons, List.mem_cons]
      refine ⟨?_, ?_, ?_, n2.2⟩
      · rintro (h' | h' | h')
        · omega
        · omega
        · have := hF _ (List.mem_append_right _ h'); omega
      · rintro (h' | h')
        · omega
        · have := hF _ (List.mem_append_right _ h'); omega
      · intro h'
        have := hF _ (List.mem_append_right _ h'); omega
    · intro c hcm d hdm
      have hc' := hF c (by simp [hcm])
      simp only [List.mem_cons] at hdm
      rcases hdm with rfl | rfl | rfl | hdm
      · omega
      · omega
      · omega
      · exact n3 c hcm d (by simp [hdm])
  · rw [m1]
    clear m1 m2 m3 m4 m5 m6 m7 h0 h1 hdis hnd
    intro c hc
    simp only [List.mem_append, List.mem_cons] at hc
    rcases hc with hc | rfl | rfl | rfl | hc
    · have := hfr c (by simp [hc]); omega
    · omega
    · omega
    · omega
    · have := hfr c (by simp [hc]); omega

/-- Simulation of the loop of `Insert`. -/
theorem hInsertLoop_sim (text : Bytes) (at_ : Int) (t : HTable) (as : List Nat) :
    ∀ (ps : List Piece) (p : Option Nat) (as0 : List Nat) (ps0 : List Piece) (idx : Int) (n : Nat),
      Seg t.heap t.head as0 ps0 p → Seg t.heap p as ps none → (as0 ++ as).Nodup →
      (∀ a ∈ as0 ++ as, a < t.heap.fresh) → ps.length < n →
      match insertLoop t.append text at_ idx ps with
      | .error e => hInsertLoop text at_ t n p (lastOf as0) idx = some (.error e)
      | .ok (qs, b) => ∃ t', hInsertLoop text at_ t n p (lastOf as0) idx = some (.ok t') ∧
          t'.append = some b ∧
          ∃ as', Seg t'.heap t'.head as' (ps0 ++ qs) none ∧ as'.Nodup ∧
            ∀ a ∈ as', a < t'.heap.fresh := by
  induction as with
  | nil =>
    intro ps p as0 ps0 idx n h0 h1 hnd hfr hn
    cases ps with
    | cons => exact h1.elim
    | nil =>
      cases h1
      simp only [insertLoop]
      cases n with
      | zero => omega
      | succ n => rfl
  | cons a as ih =>
    intro ps p as0 ps0 idx n h0 h1 hnd hfr hn
    cases ps with
    | nil => exact h1.elim
    | cons x xs =>
      obtain ⟨rfl, hx, hrest⟩ := h1
      cases n with
      | zero => omega
      | succ n =>
        simp only [insertLoop, hInsertLoop, hx]
        by_cases hc : idx + x.length ≥ at_
        · rw [if_pos hc, if_pos hc]
          cases hb : t.append with
          | none => rfl
          | some b =>
            exact ⟨_, rfl, rfl, _, link_seg t.heap t.head as0 as ps0 xs a _ _ _ h0 hrest hnd hfr⟩
        · rw [if_neg hc, if_neg hc]
          have hseg : Seg t.heap t.head (as0 ++ [a]) (ps0 ++ [x]) (t.heap.mem a).next :=
            h0.append ⟨rfl, hx, rfl⟩
          have := ih xs (t.heap.mem a).next (as0 ++ [a]) (ps0 ++ [x]) (idx + x.length) n hseg hrest
            (by simpa using hnd) (by simpa using hfr) (by simp at hn; omega)
          rw [lastOf_snoc] at this
          cases hi : insertLoop t.append text at_ (idx + x.length) xs with
          | error e => rw [hi] at this; exact this
          | ok r =>
            obtain ⟨qs, b⟩ := r
            rw [hi] at this
            simp only [List.append_assoc, List.singleton_append] at this
            exact this

/-- Simulation of the loop of `Delete` after `first` has been found. `as1` are the nodes from
`head` up to and including `first` (`f`), `mid` those visited after it. -/
theorem hDeleteTail_sim (stop length at_ : Int) (h : Heap) (head : Option Nat) (as : List Nat) :
    ∀ (ps : List Piece) (p : Option Nat) (as1 mid : List Nat) (ps1 pmid : List Piece) (f : Nat)
      (w : Piece) (fn : Option Nat) (end_ : Int) (n : Nat),
      Seg h head (as1 ++ [f]) (ps1 ++ [w]) fn → as1.length = ps1.length → Seg h fn mid pmid p →
      Seg h p as ps none → ((as1 ++ [f]) ++ (mid ++ as)).Nodup → ps.length < n →
      ∃ h', hDeleteLoop stop length at_ n h p (some f) end_ = some h' ∧ h'.fresh = h.fresh ∧
        ∃ as', Seg h' head as' (ps1 ++ w :: deleteTail stop length at_ end_ pmid ps) none ∧ as'.Nodup ∧
          ∀ a ∈ as', a ∈ (as1 ++ [f]) ++ (mid ++ as) := by
  induction as with
  | nil =>
    intro ps p as1 mid ps1 pmid f w fn end_ n h0 hl hm h1 hnd hn
    cases ps with
    | cons => exact h1.elim
    | nil =>
      cases h1
      cases n with
      | zero => omega
      | succ n =>
        refine ⟨h, rfl, rfl, (as1 ++ [f]) ++ mid, ?_, by simpa using hnd, by simp⟩
        have := h0.append hm
        simpa [deleteTail] using this
  | cons a as ih =>
    intro ps p as1 mid ps1 pmid f w fn end_ n h0 hl hm h1 hnd hn
    cases ps with
    | nil => exact h1.elim
    | cons x xs =>
      obtain ⟨rfl, hx, hrest⟩ := h1
      cases n with
      | zero => omega
      | succ n =>
        simp only [hDeleteLoop, deleteTail, hx]
        simp only [reduceCtorEq, and_false, if_false]
        have hfa : f ≠ a := by rintro rfl; grind
        by_cases hc : end_ + x.length ≥ stop
        · rw [if_pos hc, if_pos hc]
          refine ⟨_, rfl, rfl, (as1 ++ [f]) ++ a :: as, ?_, by grind, by grind⟩
          have hr := Seg.relink (r := some a) h0 (by grind) hl
          have hA : ((h.set f { h.mem f with next := some a }).mem a) = h.mem a := by
            simp [Heap.set, Ne.symm hfa]
          rw [hA, hx]
          rw [List.append_cons ps1 w]
          apply Seg.append (q := some a)
          · refine hr.frame ?_
            intro d hd
            have : d ≠ a := by grind
            simp [Heap.set, this]
          · refine ⟨rfl, by simp [Heap.set], ?_⟩
            have : Seg h (h.mem a).next as xs none := hrest
            simp only [Heap.set, if_true]
            refine this.frame ?_
            intro d hd
            have h1 : d ≠ a := by grind
            have h2 : d ≠ f := by grind
            simp [h1, h2]
        · rw [if_neg hc, if_neg hc]
          obtain ⟨h', e, hf, as', s1, s2, s3⟩ := ih xs (h.mem a).next as1 (mid ++ [a]) ps1 (pmid ++ [x]) f w fn
            (end_ + x.length) n h0 hl (hm.append ⟨rfl, hx, rfl⟩) hrest (by simpa using hnd)
            (by simp at hn; omega)
          exact ⟨h', e, hf, as', s1, s2, by simpa using s3⟩

theorem nodup_insert {as0 as : List Nat} {a n : Nat} (hnd : (as0 ++ a :: as).Nodup)
    (hfr : ∀ c ∈ as0 ++ a :: as, c < n) : (as0 ++ a :: n :: as).Nodup := by
  rw [List.nodup_append] at hnd ⊢
  obtain ⟨n1, n2, n3⟩ := hnd
  rw [List.nodup_cons] at n2
  refine ⟨n1, ?_, ?_⟩
  · simp only [List.nodup_cons, List.mem_cons]
    refine ⟨?_, ?_, n2.2⟩
    · rintro (h | h)
      · have := hfr a (by simp); omega
      · exact n2.1 h
    · intro h
      have := hfr n (by simp [h]); omega
  · intro c hc d hd
    simp only [List.mem_cons] at hd
    rcases hd with rfl | rfl | hd
    · exact n3 c hc d (by simp)
    · have := hfr c (by simp [hc]); omega
    · exact n3 c hc d (by simp [hd])

/-- Simulation of the loop of `Delete`. -/
theorem hDeleteLoop_sim (stop length at_ : Int) (h : Heap) (head : Option Nat) (as : List Nat) :
    ∀ (ps : List Piece) (p : Option Nat) (as0 : List Nat) (ps0 : List Piece) (end_ : Int) (n : Nat),
      Seg h head as0 ps0 p → Seg h p as ps none → (as0 ++ as).Nodup →
      (∀ a ∈ as0 ++ as, a < h.fresh) → ps.length < n →
      ∃ h', hDeleteLoop stop length at_ n h p none end_ = some h' ∧
        ∃ as', Seg h' head as' (ps0 ++ deleteLoop stop length at_ end_ ps) none ∧ as'.Nodup ∧
          ∀ a ∈ as', a < h'.fresh := by
  induction as with
  | nil =>
    intro ps p as0 ps0 end_ n h0 h1 hnd hfr hn
    cases ps with
    | cons => exact h1.elim
    | nil =>
      cases h1
      cases n with
      | zero => omega
      | succ n => exact ⟨h, rfl, as0, by simpa [deleteLoop] using h0, by simpa using hnd,
          by simpa using hfr⟩
  | cons a as ih =>
    intro ps p as0 ps0 end_ n h0 h1 hnd hfr hn
    cases ps with
    | nil => exact h1.elim
    | cons x xs =>
      obtain ⟨rfl, hx, hrest⟩ := h1
      cases n with
      | zero => omega
      | succ n =>
        simp only [hDeleteLoop, deleteLoop, hx]
        by_cases hc : end_ + x.length ≥ at_
        · rw [if_pos ⟨hc, trivial⟩, if_pos hc]
          by_cases hc2 : end_ + x.length ≥ stop
          · rw [if_pos hc2, if_pos hc2]
            simp only [Heap.alloc]
            refine ⟨_, rfl, as0 ++ a :: h.fresh :: as, ?_, nodup_insert hnd hfr, ?_⟩
            · apply Seg.append (q := some a)
              · refine h0.frame ?_
                intro d hd
                have h1 : d ≠ a := by grind
                have h2 : d ≠ h.fresh := by have := hfr d (by simp [hd]); omega
                simp [Heap.set, h1, h2]
              · have h2 : a ≠ h.fresh := by have := hfr a (by simp); omega
                refine ⟨rfl, by simp [Heap.set, h2], by simp [Heap.set], ?_, ?_⟩
                · simp [Heap.set, Ne.symm h2]
                · have hr : Seg h (h.mem a).next as xs none := hrest
                  simp only [Heap.set, if_true, if_neg (Ne.symm h2)]
                  refine hr.frame ?_
                  intro d hd
                  have h3 : d ≠ a := by grind
                  have h4 : d ≠ h.fresh := by have := hfr d (by simp [hd]); omega
                  simp [h3, h4]
            · intro c hcm
              simp only [Heap.set]
              simp only [List.mem_append, List.mem_cons] at hcm
              rcases hcm with hcm | rfl | rfl | hcm
              · have := hfr c (by simp [hcm]); omega
              · have := hfr c (by simp); omega
              · omega
              · have := hfr c (by simp [hcm]); omega
          · rw [if_neg hc2, if_neg hc2]
            simp only
            rw [if_neg hc2]
            generalize hh1 : h.set a { h.mem a with
              piece := { length := at_ - end_, offset := x.offset, reader := x.reader } } = h1
            have hseg : Seg h1 head (as0 ++ [a])
                (ps0 ++ [{ x with length := at_ - end_ }]) (h1.mem a).next := by
              subst hh1
              apply Seg.append (q := some a)
              · refine h0.frame ?_
                intro d hd
                have h1 : d ≠ a := by grind
                simp [Heap.set, h1]
              · exact ⟨rfl, by simp [Heap.set], rfl⟩
            have hnext : (h1.mem a).next = (h.mem a).next := by subst hh1; simp [Heap.set]
            have hrest' : Seg h1 (h1.mem a).next as xs none := by
              rw [hnext]
              refine Seg.frame hrest ?_
              intro d hd
              subst hh1
              have h1 : d ≠ a := by grind
              simp [Heap.set, h1]
            have hfresh : h1.fresh = h.fresh := by subst hh1; rfl
            obtain ⟨h', e, hf, as', s1, s2, s3⟩ := hDeleteTail_sim stop length at_ h1 head as xs (h1.mem a).next
              as0 [] ps0 [] a { x with length := at_ - end_ } (h1.mem a).next (end_ + x.length) n
              hseg h0.length_eq rfl hrest' (by simpa using hnd) (by simp at hn; omega)
            refine ⟨h', e, as', s1, s2, ?_⟩
            intro c hcm
            rw [hf, hfresh]
            exact hfr c (by have := s3 c hcm; grind)
        · rw [if_neg (by simp [hc]), if_neg hc]
          have hseg : Seg h head (as0 ++ [a]) (ps0 ++ [x]) (h.mem a).next :=
            h0.append ⟨rfl, hx, rfl⟩
          obtain ⟨h', e, as', s⟩ := ih xs (h.mem a).next (as0 ++ [a]) (ps0 ++ [x]) (end_ + x.length) n
            hseg hrest (by simpa using hnd) (by simpa using hfr) (by simp at hn; omega)
          exact ⟨h', e, as', by simpa using s⟩

/-- **C10** a fresh table. -/
theorem C10_new (s : Bytes) (c : Bool) (n : Int) : Rep (hNew n) (newPieceTable s c n) :=
  ⟨⟨[0], ⟨rfl, rfl, rfl⟩, by simp, by simp [hNew]⟩, rfl⟩

/-- **C10** reading: the traversal from head terminates and yields the pieces of the list model. -/
theorem C10_walk {t : HTable} {pt : PieceTable} (h : Rep t pt) (fuel : Nat)
    (hf : pt.pieces.length < fuel) : t.heap.walk fuel t.head = some pt.pieces := by
  obtain ⟨⟨as, h1, _⟩, _⟩ := h
  exact walk_of_seg h1 fuel hf

/-- **C10** `Insert` on the heap terminates, and does exactly what the list model does. -/
theorem C10_insert {t : HTable} {pt : PieceTable} (h : Rep t pt) (text : Bytes) (at_ : Int)
    (fuel : Nat) (hf : pt.pieces.length < fuel) :
    (∀ e, pt.insert text at_ = .error e → t.insert fuel text at_ = some (.error e)) ∧
    (∀ pt', pt.insert text at_ = .ok pt' →
      ∃ t', t.insert fuel text at_ = some (.ok t') ∧ Rep t' pt') := by
  obtain ⟨⟨as, h1, h2, h3⟩, hb⟩ := h
  cases hp : pt.pieces with
  | nil =>
    rw [hp] at h1
    cases as with
    | cons => exact h1.elim
    | nil =>
      have hh : t.head = none := h1
      refine ⟨?_, ?_⟩
      · intro e he; simp only [PieceTable.insert, hp] at he; cases he
      · intro pt' he
        simp only [PieceTable.insert, hp] at he
        cases he
        simp only [HTable.insert, hh, Heap.alloc]
        exact ⟨_, rfl, ⟨[t.heap.fresh], ⟨rfl, by simp, by simp [Seg]⟩, by simp, by simp⟩, hb⟩
  | cons x xs =>
    have hsim := hInsertLoop_sim text at_ t as pt.pieces t.head [] [] 0 fuel rfl h1 (by simpa using h2)
      (by simpa using h3) hf
    have hhead : ∃ a, t.head = some a := by
      rw [hp] at h1
      cases as with
      | nil => exact h1.elim
      | cons a as => exact ⟨a, h1.1⟩
    obtain ⟨a, ha⟩ := hhead
    have hins : t.insert fuel text at_ = hInsertLoop text at_ t fuel t.head none 0 := by
      simp only [HTable.insert, ha]
    have hlist : pt.insert text at_ = (insertLoop pt.append text at_ 0 pt.pieces).bind
        fun r => .ok { pt with pieces := r.1, append := some r.2 } := by
      simp only [PieceTable.insert, hp]; rfl
    rw [hb] at hsim
    rw [hins, hlist]
    cases hi : insertLoop pt.append text at_ 0 pt.pieces with
    | error e =>
      rw [hi] at hsim
      refine ⟨?_, ?_⟩
      · intro e' he; cases he; exact hsim
      · intro pt' he; cases he
    | ok r =>
      obtain ⟨qs, b⟩ := r
      rw [hi] at hsim
      refine ⟨?_, ?_⟩
      · intro e' he; cases he
      · intro pt' he
        cases he
        obtain ⟨t', e, hb', as', s⟩ := hsim
        exact ⟨t', e, ⟨as', by simpa using s⟩, hb'⟩

/-- **C10** `Delete` on the heap terminates, and does exactly what the list model does. -/
theorem C10_delete {t : HTable} {pt : PieceTable} (h : Rep t pt) (length at_ : Int)
    (fuel : Nat) (hf : pt.pieces.length < fuel) :
    ∃ t', t.delete fuel length at_ = some t' ∧ Rep t' (pt.delete length at_) := by
  have hw := C10_walk h fuel hf
  obtain ⟨⟨as, h1, h2, h3⟩, hb⟩ := h
  obtain ⟨h', e, as', s⟩ := hDeleteLoop_sim (stopAt (totalLength pt.pieces) at_ length) length at_ t.heap t.head as pt.pieces t.head [] [] 0 fuel
    rfl h1 (by simpa using h2) (by simpa using h3) hf
  exact ⟨{ t with heap := h' }, by simp [HTable.delete, hw, e], ⟨as', by simpa [PieceTable.delete] using s⟩, hb⟩

/-- Simulation of the second loop of `clean`. -/
theorem hCleanLoop_sim (head : Option Nat) (as : List Nat) :
    ∀ (h : Heap) (ps : List Piece) (p : Option Nat) (as0 : List Nat) (ps0 : List Piece)
      (linked : Bool) (prev : Nat) (n : Nat),
      Seg h head as0 ps0 p → Seg h p as ps none → (as0 ++ as).Nodup → ps.length < n →
      (linked = true → lastOf as0 = some prev) → (linked = false → prev ∉ as0 ++ as) →
      ∃ h', hCleanLoop n h p (some prev) = some (.ok h') ∧ h'.fresh = h.fresh ∧
        ∃ as', Seg h' head as' (ps0 ++ cleanLoop linked ps) none ∧ as'.Nodup ∧
          ∀ a ∈ as', a ∈ as0 ++ as := by
  induction as with
  | nil =>
    intro h ps p as0 ps0 linked prev n h0 h1 hnd hn _ _
    cases ps with
    | cons => exact h1.elim
    | nil =>
      cases h1
      cases n with
      | zero => omega
      | succ n => exact ⟨h, rfl, rfl, as0, by simpa [cleanLoop] using h0, by simpa using hnd, by simp⟩
  | cons a as ih =>
    intro h ps p as0 ps0 linked prev n h0 h1 hnd hn hlt hlf
    cases ps with
    | nil => exact h1.elim
    | cons x xs =>
      obtain ⟨rfl, hx, hrest⟩ := h1
      cases n with
      | zero => omega
      | succ n =>
        have hn' : xs.length < n := by simp at hn; omega
        have ha0 : a ∉ as0 := fun hm => (List.nodup_append.1 hnd).2.2 a hm a (by simp) rfl
        have haa : a ∉ as := (List.nodup_cons.1 (List.nodup_append.1 hnd).2.1).1
        simp only [hCleanLoop, cleanLoop, hx]
        by_cases hc : x.length ≤ 0
        · rw [if_pos hc]
          generalize hh1 : h.set prev { h.mem prev with next := (h.mem a).next } = h1
          cases linked with
          | true =>
            have hl := hlt rfl
            have hpm := lastOf_mem hl
            have hpa : prev ≠ a := by rintro rfl; exact ha0 hpm
            rw [if_pos ⟨hc, rfl⟩]
            obtain ⟨bs, rfl⟩ : ∃ bs, as0 = bs ++ [prev] := by
              rcases List.eq_nil_or_concat as0 with e | ⟨bs, c, e⟩
              · subst e; simp [lastOf] at hl
              · rw [List.concat_eq_append] at e
                subst e
                rw [lastOf_snoc] at hl
                exact ⟨bs, by rw [Option.some.inj hl]⟩
            have hlen := h0.length_eq
            obtain ⟨ys, w, rfl⟩ : ∃ ys w, ps0 = ys ++ [w] := by
              rcases List.eq_nil_or_concat ps0 with e | ⟨ys, w, e⟩
              · subst e; simp at hlen
              · exact ⟨ys, w, by rw [e, List.concat_eq_append]⟩
            have hr := Seg.relink (r := (h.mem a).next) h0 (List.nodup_append.1 hnd).1
              (by simpa using hlen)
            rw [hh1] at hr
            have hma : h1.mem a = h.mem a := by subst hh1; simp [Heap.set, Ne.symm hpa]
            have hrest' : Seg h1 (h.mem a).next as xs none := by
              refine Seg.frame hrest ?_
              intro d hd
              have : d ≠ prev := by
                rintro rfl
                exact (List.nodup_append.1 hnd).2.2 d hpm d (by simp [hd]) rfl
              subst hh1; simp [Heap.set, this]
            have hnd' : (bs ++ [prev] ++ as).Nodup := by
              rw [List.nodup_append] at hnd ⊢
              exact ⟨hnd.1, (List.nodup_cons.1 hnd.2.1).2,
                fun c hc d hd => hnd.2.2 c hc d (by simp [hd])⟩
            obtain ⟨h', e, hf, as', s1, s2, s3⟩ := ih h1 xs (h.mem a).next (bs ++ [prev])
              (ys ++ [w]) false a n hr hrest' hnd' hn' (by simp) (by
                intro _ hm
                rcases List.mem_append.1 hm with hm | hm
                · exact ha0 hm
                · exact haa hm)
            rw [hma]
            refine ⟨h', e, ?_, as', s1, s2, ?_⟩
            · rw [hf, ← hh1]; rfl
            · intro c hcm
              have := s3 c hcm
              simp only [List.mem_append, List.mem_cons] at this ⊢
              rcases this with h | h
              · exact .inl h
              · exact .inr (.inr h)
          | false =>
            have hnp := hlf rfl
            rw [if_neg (by simp)]
            have hpa : prev ≠ a := by rintro rfl; exact hnp (by simp)
            have hma : h1.mem a = h.mem a := by subst hh1; simp [Heap.set, Ne.symm hpa]
            have hframe : ∀ d ∈ as0 ++ a :: as, h1.mem d = h.mem d := by
              intro d hd
              have : d ≠ prev := by rintro rfl; exact hnp hd
              subst hh1; simp [Heap.set, this]
            have hseg : Seg h1 head (as0 ++ [a]) (ps0 ++ [x]) (h.mem a).next := by
              apply Seg.append (q := some a)
              · exact h0.frame (fun d hd => hframe d (by simp [hd]))
              · exact ⟨rfl, by rw [hma]; exact hx, by rw [hma]; rfl⟩
            have hrest' : Seg h1 (h.mem a).next as xs none :=
              Seg.frame hrest (fun d hd => hframe d (by simp [hd]))
            obtain ⟨h', e, hf, as', s1, s2, s3⟩ := ih h1 xs (h.mem a).next (as0 ++ [a])
              (ps0 ++ [x]) true a n hseg hrest' (by simpa using hnd) hn'
              (fun _ => lastOf_snoc _ _) (by simp)
            rw [hma]
            refine ⟨h', e, ?_, as', by simpa using s1, s2, by simpa using s3⟩
            rw [hf, ← hh1]; rfl
        · rw [if_neg hc, if_neg (by simp [hc])]
          have hseg : Seg h head (as0 ++ [a]) (ps0 ++ [x]) (h.mem a).next :=
            h0.append ⟨rfl, hx, rfl⟩
          obtain ⟨h', e, hf, as', s1, s2, s3⟩ := ih h xs (h.mem a).next (as0 ++ [a])
            (ps0 ++ [x]) true a n hseg hrest (by simpa using hnd) hn'
            (fun _ => lastOf_snoc _ _) (by simp)
          exact ⟨h', e, hf, as', by simpa using s1, s2, by simpa using s3⟩

/-- **C10** `clean` on the heap terminates, never dereferences nil, and does exactly what the list
model does. -/
theorem C10_clean {t : HTable} {pt : PieceTable} (h : Rep t pt)
    (fuel : Nat) (hf : pt.pieces.length < fuel) :
    ∃ t', t.clean fuel = some (.ok t') ∧ Rep t' pt.clean := by
  obtain ⟨⟨as, h1, h2, h3⟩, hb⟩ := h
  have hd : ∀ (as : List Nat) (ps : List Piece) (p : Option Nat) (n : Nat),
      Seg t.heap p as ps none → as.Nodup → ps.length < n →
      ∃ p' as', hCleanHead t.heap n p = some p' ∧ as'.Nodup ∧ (∀ a ∈ as', a ∈ as) ∧
        Seg t.heap p' as' (ps.dropWhile (fun p => p.length ≤ 0)) none := by
    intro as
    induction as with
    | nil =>
      intro ps p n hs hnd hn
      cases ps with
      | cons => exact hs.elim
      | nil =>
        cases hs
        cases n with
        | zero => omega
        | succ n => exact ⟨none, [], rfl, by simp, by simp, rfl⟩
    | cons a as ih =>
      intro ps p n hs hnd hn
      cases ps with
      | nil => exact hs.elim
      | cons x xs =>
        obtain ⟨rfl, hx, hrest⟩ := hs
        cases n with
        | zero => omega
        | succ n =>
          simp only [hCleanHead, hx]
          by_cases hc : x.length ≤ 0
          · rw [if_pos hc, List.dropWhile_cons_of_pos (by simpa using hc)]
            obtain ⟨p', as', e, n1, n2, s⟩ := ih xs _ n hrest (List.nodup_cons.1 hnd).2
              (by simp at hn; omega)
            exact ⟨p', as', e, n1, fun b hb => by simp [n2 b hb], s⟩
          · rw [if_neg hc, List.dropWhile_cons_of_neg (by simpa using hc)]
            exact ⟨some a, a :: as, rfl, hnd, fun _ h => h, rfl, hx, hrest⟩
  obtain ⟨p', as', e, n1, n2, s⟩ := hd as pt.pieces t.head fuel h1 h2 hf
  have hlen : (pt.pieces.dropWhile (fun p => p.length ≤ 0)).length ≤ pt.pieces.length :=
    (List.dropWhile_suffix _).length_le
  simp only [HTable.clean, e, Option.bind_some]
  cases hdw : pt.pieces.dropWhile (fun p => p.length ≤ 0) with
  | nil =>
    rw [hdw] at s
    cases as' with
    | cons => exact s.elim
    | nil =>
      cases s
      cases fuel with
      | zero => omega
      | succ n =>
        refine ⟨{ t with head := none }, rfl, ⟨[], ?_, by simp, by simp⟩, hb⟩
        simp only [PieceTable.clean, hdw]
        rfl
  | cons x xs =>
    rw [hdw] at s hlen
    cases as' with
    | nil => exact s.elim
    | cons a as' =>
      obtain ⟨rfl, hx, hrest⟩ := s
      cases fuel with
      | zero => omega
      | succ n =>
        have hxpos : ¬ x.length ≤ 0 := by
          have := List.head?_dropWhile_not (fun p : Piece => decide (p.length ≤ 0)) pt.pieces
          rw [hdw] at this
          simpa using this
        simp only [hCleanLoop, hx, if_neg hxpos]
        obtain ⟨h', e', hfr, bs, s1, s2, s3⟩ := hCleanLoop_sim (some a) as' t.heap xs (t.heap.mem a).next
          [a] [x] true a n ⟨rfl, hx, rfl⟩ hrest (by simpa using n1) (by simp at hlen; omega)
          (fun _ => rfl) (by simp)
        rw [e']
        refine ⟨{ t with heap := h', head := some a }, rfl, ⟨bs, ?_, s2, ?_⟩, hb⟩
        · simp only [PieceTable.clean, hdw]
          simpa using s1
        · intro b hb
          show b < h'.fresh
          rw [hfr]
          exact h3 b (n2 b (by simpa using s3 b hb))

/-- Perform a history of calls on the heap (with enough fuel for each loop). -/
def HTable.run (t : HTable) (fuel : Nat) : List Op → Option (M HTable)
  | [] => some (.ok t)
  | .insert x a :: os =>
    match t.insert fuel x a with
    | none => none
    | some (.error e) => some (.error e)
    | some (.ok t') => t'.run fuel os
  | .delete n a :: os =>
    match t.delete fuel n a with
    | none => none
    | some t' => t'.run fuel os

/-- **C10** for whole histories: whatever calls are made, with whatever (even negative or
out-of-range) arguments, the pointer-level table terminates and simulates the list-level one. -/
theorem C10_history (ops : List Op) : ∀ {t : HTable} {pt : PieceTable}, Rep t pt →
    ∃ bound, ∀ fuel, bound ≤ fuel →
      (∀ e, pt.run ops = .error e → t.run fuel ops = some (.error e)) ∧
      (∀ pt', pt.run ops = .ok pt' → ∃ t', t.run fuel ops = some (.ok t') ∧ Rep t' pt' ∧
        t'.heap.walk (pt'.pieces.length + 1) t'.head = some pt'.pieces) := by
  induction ops with
  | nil =>
    intro t pt h
    refine ⟨0, fun fuel _ => ⟨?_, ?_⟩⟩
    · intro e he; cases he
    · intro pt' he; cases he; exact ⟨t, rfl, h, C10_walk h _ (by omega)⟩
  | cons o os ih =>
    intro t pt h
    cases o with
    | insert x a =>
      cases hi : pt.insert x a with
      | error e =>
        refine ⟨pt.pieces.length + 1, fun fuel hf => ⟨?_, ?_⟩⟩
        · intro e' he
          simp only [PieceTable.run, PieceTable.apply, hi] at he
          cases he
          simp only [HTable.run, (C10_insert h x a fuel (by omega)).1 e hi]
        · intro pt' he
          simp only [PieceTable.run, PieceTable.apply, hi] at he
          cases he
      | ok q =>
        have hR : ∀ fuel, pt.pieces.length < fuel →
            ∃ t', t.insert fuel x a = some (.ok t') ∧ Rep t' q :=
          fun fuel hf => (C10_insert h x a fuel hf).2 q hi
        obtain ⟨t1, e1, r1⟩ := hR (pt.pieces.length + 1) (by omega)
        obtain ⟨B, hB⟩ := ih r1
        have mono : ∀ fuel, pt.pieces.length < fuel → t.insert fuel x a = some (.ok t1) := by
          have step : ∀ (n : Nat) p prev idx r, hInsertLoop x a t n p prev idx = some r →
              hInsertLoop x a t (n + 1) p prev idx = some r := by
            intro n
            induction n with
            | zero => intro p prev idx r hr; simp [hInsertLoop] at hr
            | succ n ihn =>
              intro p prev idx r hr
              cases p with
              | none => exact hr
              | some p =>
                rw [hInsertLoop] at hr ⊢
                dsimp only at hr ⊢
                split
                · next hc => rw [if_pos hc] at hr; exact hr
                · next hc => rw [if_neg hc] at hr; exact ihn _ _ _ _ hr
          intro fuel hf
          induction fuel with
          | zero => omega
          | succ fuel ihf =>
            by_cases hlt : pt.pieces.length < fuel
            · have := ihf hlt
              simp only [HTable.insert] at this ⊢
              split at this
              · exact this
              · next hh => rw [hh] at this ⊢; exact step _ _ _ _ _ this
            · have : fuel = pt.pieces.length := by omega
              subst this; exact e1
        refine ⟨max B (pt.pieces.length + 1), fun fuel hf => ⟨?_, ?_⟩⟩
        · intro e' he
          simp only [PieceTable.run, PieceTable.apply, hi] at he
          simp only [HTable.run, mono fuel (by omega)]
          exact (hB fuel (by omega)).1 e' he
        · intro pt' he
          simp only [PieceTable.run, PieceTable.apply, hi] at he
          simp only [HTable.run, mono fuel (by omega)]
          exact (hB fuel (by omega)).2 pt' he
    | delete n a =>
      obtain ⟨t1, e1, r1⟩ := C10_delete h n a (pt.pieces.length + 1) (by omega)
      obtain ⟨B, hB⟩ := ih r1
      have mono : ∀ fuel, pt.pieces.length < fuel → t.delete fuel n a = some t1 := by
        have step : ∀ (stop : Int) (m : Nat) hp p first end_ r, hDeleteLoop stop n a m hp p first end_ = some r →
            hDeleteLoop stop n a (m + 1) hp p first end_ = some r := by
          intro stop m
          induction m with
          | zero => intro hp p first end_ r hr; simp [hDeleteLoop] at hr
          | succ m ihm =>
            intro hp p first end_ r hr
            cases p with
            | none => exact hr
            | some p =>
              rw [hDeleteLoop] at hr ⊢
              simp only at hr ⊢
              split
              · next hc => rw [hc] at hr; exact hr
              · next hc => rw [hc] at hr; exact ihm _ _ _ _ _ hr
              · next hc =>
                rw [hc] at hr
                dsimp only at hr
                split
                · next hd => rw [if_pos hd] at hr; exact hr
                · next hd => rw [if_neg hd] at hr; exact ihm _ _ _ _ _ hr
        intro fuel hf
        induction fuel with
        | zero => omega
        | succ fuel ihf =>
          by_cases hlt : pt.pieces.length < fuel
          · have := ihf hlt
            simp only [HTable.delete, C10_walk h fuel hlt, C10_walk h (fuel + 1) hf] at this ⊢
            cases hd : hDeleteLoop (stopAt (totalLength pt.pieces) a n) n a fuel t.heap t.head none 0 with
            | none => rw [hd] at this; cases this
            | some h' => rw [hd] at this; rw [step _ _ _ _ _ _ _ hd]; exact this
          · have : fuel = pt.pieces.length := by omega
            subst this; exact e1
      refine ⟨max B (pt.pieces.length + 1), fun fuel hf => ⟨?_, ?_⟩⟩
      · intro e' he
        simp only [HTable.run, mono fuel (by omega)]
        exact (hB fuel (by omega)).1 e' he
      · intro pt' he
        simp only [HTable.run, mono fuel (by omega)]
        exact (hB fuel (by omega)).2 pt' he

example : ∃ bound, ∀ fuel, bound ≤ fuel → ∃ t',
    (hNew 5).run fuel [.insert b!"XY" 2, .delete 1 1, .delete 3 2] = some (.ok t') := by
  obtain ⟨B, hB⟩ := C10_history [.insert b!"XY" 2, .delete 1 1, .delete 3 2] (C10_new b!"hello" true 5)
  refine ⟨B, fun fuel hf => ?_⟩
  obtain ⟨pt', e⟩ : ∃ pt', (newPieceTable b!"hello" true 5).run
      [.insert b!"XY" 2, .delete 1 1, .delete 3 2] = .ok pt' := ⟨_, rfl⟩
  obtain ⟨t', h, _⟩ := (hB fuel hf).2 pt' e
  exact ⟨t', h⟩

end Txt
