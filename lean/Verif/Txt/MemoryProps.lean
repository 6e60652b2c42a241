import Verif.Txt.Memory
import Verif.Txt.Props

/-! # C97: a table does not depend on what callers do with their slices -/

namespace Txt
open Go

/-- What happens around a table: calls, the caller writing to an array, and the caller making a new one. -/
inductive Act where
  | insert (text : Slice) (at_ : Int) (spare : Nat)
  | delete (length at_ : Int)
  | scribble (arr : Nat) (data : Bytes)
  | alloc (data : Bytes)
  deriving Repr

/-- The memory, the table, and the numbers of the arrays its append buffer has made. -/
structure World where
  mem : Memory
  tab : MTable
  owned : List Nat

/-- One thing happens. -/
def World.act (w : World) : Act → M World
  | .insert text at_ spare =>
    match w.tab.insert spare w.mem text at_ with
    | .error e => .error e
    | .ok (m, t) => .ok ⟨m, t, if m.length = w.mem.length then w.owned else w.mem.length :: w.owned⟩
  | .delete n a => .ok { w with tab := w.tab.delete n a }
  | .scribble a data => .ok { w with mem := w.mem.set a data }
  | .alloc data => .ok { w with mem := w.mem ++ [data] }

/-- Callers write to their own arrays only: a table never hands out a slice. They may insert any text. -/
def World.Allowed (w : World) : Act → Prop
  | .insert _ _ _ => True
  | .delete _ _ => True
  | .scribble a data => a ∉ w.owned ∧ ∃ old, w.mem[a]? = some old ∧ data.length = old.length
  | .alloc _ => True

/-- The call made on the table, with the bytes the text has at that moment. -/
def World.call (w : World) : Act → List Op
  | .insert text at_ _ => [.insert (w.mem.read text) at_]
  | .delete n a => [.delete n a]
  | _ => []

/-- A list of things happening, each allowed, and the calls among them. -/
inductive Happens : World → List Op → World → Prop
  | nil {w} : Happens w [] w
  | step {w a w' ops w''} : w.Allowed a → w.act a = .ok w' → Happens w' ops w'' → Happens w (w.call a ++ ops) w''

/-- A slice that is safe: empty, or in an array of the table and not beyond the end of the append buffer. -/
def SafeSlice (owned : List Nat) (b s : Slice) : Prop := s.len = 0 ∨ (s.arr ∈ owned ∧ s.off = 0 ∧ (s.arr = b.arr → s.len ≤ b.len))

/-- The invariant. -/
structure Safe (w : World) : Prop where
  ownedLt : ∀ a ∈ w.owned, a < w.mem.length
  buf : ∃ b, w.tab.buf = some b ∧ b.off = 0 ∧ b.len ≤ b.cap ∧
    (b.cap = 0 ∨ (b.arr ∈ w.owned ∧ ((w.mem[b.arr]?).getD []).length = b.cap)) ∧
    ∀ p ∈ w.tab.pieces, ∀ s, p.reader = .slice s → SafeSlice w.owned b s
  ne : w.tab.pieces ≠ []

theorem read_zero (m : Memory) {s : Slice} (h : s.len = 0) : m.read s = [] := by simp [Memory.read, h]

theorem read_set_ne (m : Memory) (a : Nat) (d : Bytes) (s : Slice) (h : s.arr ≠ a) : (Memory.read (m.set a d) s) = m.read s := by
  simp [Memory.read, List.getElem?_set_ne (Ne.symm h)]

theorem read_append (m : Memory) (d : Bytes) (s : Slice) (h : s.arr < m.length) : Memory.read (m ++ [d]) s = m.read s := by
  simp [Memory.read, List.getElem?_append_left h]

/-! ## The memory table is the table of the model, as long as nobody interferes -/

theorem totalLength_seen (m : Memory) (ps : List MPiece) : totalLength (ps.map (MPiece.seen m)) = mtotalLength ps := by
  induction ps with
  | nil => rfl
  | cons p ps ih => simp only [List.map_cons, totalLength, mtotalLength, ih, MPiece.seen]

theorem deleteTail_seen (m : Memory) (stop length at_ : Int) : ∀ (ps : List MPiece) (end_ : Int) (mid : List MPiece),
    deleteTail stop length at_ end_ (mid.map (MPiece.seen m)) (ps.map (MPiece.seen m)) =
      (mdeleteTail stop length at_ end_ mid ps).map (MPiece.seen m) := by
  intro ps
  induction ps with
  | nil => intros; rfl
  | cons p ps ih =>
    intro end_ mid
    simp only [List.map_cons, deleteTail, mdeleteTail]
    have e : (MPiece.seen m p).length = p.length := rfl
    rw [e]
    split
    · rfl
    · rw [← ih, List.map_append]; rfl

theorem deleteLoop_seen (m : Memory) (stop length at_ : Int) : ∀ (ps : List MPiece) (end_ : Int),
    deleteLoop stop length at_ end_ (ps.map (MPiece.seen m)) = (mdeleteLoop stop length at_ end_ ps).map (MPiece.seen m) := by
  intro ps
  induction ps with
  | nil => intros; rfl
  | cons p ps ih =>
    intro end_
    simp only [List.map_cons, deleteLoop, mdeleteLoop]
    have e : (MPiece.seen m p).length = p.length := rfl
    rw [e]
    split
    · split
      · rfl
      · have := deleteTail_seen m stop length at_ ps (end_ + p.length) []
        rw [List.map_nil] at this
        rw [this]; rfl
    · rw [ih]; rfl

theorem delete_seen (m : Memory) (t : MTable) (n a : Int) : (t.delete n a).seen m = (t.seen m).delete n a := by
  simp only [MTable.seen, MTable.delete, PieceTable.delete, totalLength_seen, deleteLoop_seen]

theorem mdelete_reader (stop length at_ : Int) : ∀ (ps : List MPiece) (end_ : Int) (p : MPiece), p ∈ mdeleteLoop stop length at_ end_ ps →
    ∃ q ∈ ps, q.reader = p.reader := by
  have tail : ∀ (ps : List MPiece) (end_ : Int) (mid : List MPiece) (p : MPiece), p ∈ mdeleteTail stop length at_ end_ mid ps →
      ∃ q ∈ mid ++ ps, q.reader = p.reader := by
    intro ps
    induction ps with
    | nil => intro e mid p hp; exact ⟨p, by simpa [mdeleteTail] using hp, rfl⟩
    | cons r ps ih =>
      intro e mid p hp
      simp only [mdeleteTail] at hp
      split at hp
      · rcases List.mem_cons.1 hp with rfl | hp
        · exact ⟨r, by simp, rfl⟩
        · exact ⟨p, by simp [hp], rfl⟩
      · obtain ⟨q, hq, h⟩ := ih _ _ p hp
        exact ⟨q, by simpa using hq, h⟩
  intro ps
  induction ps with
  | nil => intro e p hp; cases hp
  | cons r ps ih =>
    intro e p hp
    simp only [mdeleteLoop] at hp
    split at hp
    · split at hp
      · simp only [List.mem_cons] at hp
        rcases hp with rfl | rfl | hp
        · exact ⟨r, by simp, rfl⟩
        · exact ⟨r, by simp, rfl⟩
        · exact ⟨p, by simp [hp], rfl⟩
      · rcases List.mem_cons.1 hp with rfl | hp
        · exact ⟨r, by simp, rfl⟩
        · obtain ⟨q, hq, h⟩ := tail _ _ _ p hp
          exact ⟨q, by simp at hq; simp [hq], h⟩
    · rcases List.mem_cons.1 hp with rfl | hp
      · exact ⟨p, by simp, rfl⟩
      · obtain ⟨q, hq, h⟩ := ih _ p hp
        exact ⟨q, by simp [hq], h⟩

theorem mdelete_ne (stop length at_ : Int) (ps : List MPiece) (h : ps ≠ []) (e : Int) : mdeleteLoop stop length at_ e ps ≠ [] := by
  cases ps with
  | nil => exact absurd rfl h
  | cons p ps =>
    simp only [mdeleteLoop]
    split
    · split <;> simp
    · simp

theorem seen_congr {m m' : Memory} {p : MPiece} (h : ∀ s, p.reader = .slice s → m'.read s = m.read s) : p.seen m' = p.seen m := by
  cases hr : p.reader with
  | orig => simp [MPiece.seen, hr]
  | slice s => simp [MPiece.seen, hr, h s hr]

theorem overwrite_take (a : Bytes) (k : Nat) (d : Bytes) (n : Nat) (hn : n ≤ k) (hk : k ≤ a.length) : (overwrite a k d).take n = a.take n := by
  unfold overwrite
  rw [List.append_assoc, List.take_append_of_le_length (by simp; omega), List.take_take, Nat.min_eq_left hn]

theorem overwrite_read (a : Bytes) (k : Nat) (d : Bytes) (hk : k + d.length ≤ a.length) : (overwrite a k d).take (k + d.length) = a.take k ++ d := by
  unfold overwrite
  rw [List.take_append_of_le_length (by simp; omega), List.take_of_length_le (by simp; omega)]

theorem overwrite_length (a : Bytes) (k : Nat) (d : Bytes) (hk : k + d.length ≤ a.length) : (overwrite a k d).length = a.length := by
  simp only [overwrite, List.length_append, List.length_take, List.length_drop]
  omega

theorem overwrite_nil (a : Bytes) (k : Nat) : overwrite a k [] = a := by simp [overwrite]

theorem set_same (m : Memory) (i : Nat) : m.set i ((m[i]?).getD []) = m := by
  apply List.ext_getElem?
  intro j
  by_cases h : i = j
  · subst h
    by_cases hl : i < m.length
    · simp [List.getElem?_eq_getElem hl]
    · rw [List.set_eq_of_length_le (Nat.le_of_not_lt hl)]
  · rw [List.getElem?_set_ne h]

/-- What writing to the append buffer does: it appends; safe slices stay as they are, and safe. -/
theorem bufWrite_spec (spare : Nat) (m : Memory) (owned : List Nat) (b : Slice) (text : Bytes)
    (hlt : ∀ a ∈ owned, a < m.length) (h0 : b.off = 0) (hc : b.len ≤ b.cap)
    (hb : b.cap = 0 ∨ (b.arr ∈ owned ∧ ((m[b.arr]?).getD []).length = b.cap)) :
    let w := bufWrite spare m b text
    let owned' := if w.1.length = m.length then owned else m.length :: owned
    (∀ a ∈ owned', a < w.1.length) ∧ w.2.off = 0 ∧ w.2.len ≤ w.2.cap ∧
    (w.2.cap = 0 ∨ (w.2.arr ∈ owned' ∧ ((w.1[w.2.arr]?).getD []).length = w.2.cap)) ∧
    w.1.read w.2 = m.read b ++ text ∧ (m.read b).length = b.len ∧
    (∀ s, SafeSlice owned b s → w.1.read s = m.read s ∧ SafeSlice owned' w.2 s) ∧ SafeSlice owned' w.2 w.2 := by
  have rl : (m.read b).length = b.len := by
    rcases hb with hb | hb
    · have : b.len = 0 := by omega
      simp [Memory.read, this]
    · simp only [Memory.read, h0, List.drop_zero, List.length_take, hb.2]; omega
  unfold bufWrite
  by_cases hfit : text.length ≤ b.cap - b.len
  · rw [if_pos hfit]
    simp only [List.length_set, if_true]
    rcases hb with hb | ⟨ho, hl⟩
    · have ht : text = [] := by
        have : text.length = 0 := by omega
        exact List.length_eq_zero_iff.1 this
      subst ht
      rw [overwrite_nil, set_same]
      simp only [List.length_nil, Nat.add_zero, List.append_nil]
      refine ⟨hlt, h0, hc, .inl hb, ?_, rl, fun s hs => ⟨?_, hs⟩, .inl (by simp only; omega)⟩ <;> trivial
    · have hba := hlt _ ho
      have hk : b.len + text.length ≤ ((m[b.arr]?).getD []).length := by omega
      refine ⟨hlt, h0, by omega, .inr ⟨ho, ?_⟩, ?_, rl, ?_, .inr ⟨ho, h0, fun _ => Nat.le_refl _⟩⟩
      · rw [List.getElem?_set_self hba, Option.getD_some, h0, Nat.zero_add, overwrite_length _ _ _ hk, hl]
      · simp only [Memory.read, List.getElem?_set_self hba, Option.getD_some, h0, Nat.zero_add, List.drop_zero]
        exact overwrite_read _ _ _ hk
      · intro s hs
        rcases hs with hs | ⟨so, sz, sl⟩
        · exact ⟨by rw [read_zero _ hs, read_zero _ hs], .inl hs⟩
        · refine ⟨?_, .inr ⟨so, sz, fun e => by have := sl e; simp only; omega⟩⟩
          by_cases e : s.arr = b.arr
          · simp only [Memory.read, e, List.getElem?_set_self hba, Option.getD_some, h0, Nat.zero_add, sz, List.drop_zero]
            exact overwrite_take _ _ _ _ (sl e) (by omega)
          · exact read_set_ne _ _ _ _ e
  · rw [if_neg hfit]
    have hne : ¬ (m.length + 1 = m.length) := by omega
    simp only [List.length_append, List.length_cons, List.length_nil, Nat.zero_add, hne, if_false]
    refine ⟨?_, trivial, by omega, .inr ⟨by simp, ?_⟩, ?_, rl, ?_, .inr ⟨by simp, rfl, fun _ => Nat.le_refl _⟩⟩
    · intro a ha
      rcases List.mem_cons.1 ha with rfl | ha
      · omega
      · have := hlt a ha; omega
    · simp [rl]; omega
    · simp only [Memory.read, List.getElem?_append_right (Nat.le_refl _), Nat.sub_self, List.getElem?_cons_zero, Option.getD_some, List.drop_zero]
      rw [List.take_append_of_le_length (by simp [Memory.read] at rl; simp; omega)]
      exact List.take_of_length_le (by simp [Memory.read] at rl; simp; omega)
    · intro s hs
      rcases hs with hs | ⟨so, sz, sl⟩
      · exact ⟨by rw [read_zero _ hs, read_zero _ hs], .inl hs⟩
      · have := hlt _ so
        exact ⟨read_append _ _ _ this, .inr ⟨by simp [so], sz, fun e => by simp at e; omega⟩⟩

/-- A list of pieces whose slices are all safe. -/
def AllSafe (owned : List Nat) (b : Slice) (ps : List MPiece) : Prop := ∀ p ∈ ps, ∀ s, p.reader = .slice s → SafeSlice owned b s

theorem minsertLoop_spec (spare : Nat) (m : Memory) (owned : List Nat) (b : Slice) (text : Slice) (at_ : Int)
    (hlt : ∀ a ∈ owned, a < m.length) (h0 : b.off = 0) (hc : b.len ≤ b.cap)
    (hb : b.cap = 0 ∨ (b.arr ∈ owned ∧ ((m[b.arr]?).getD []).length = b.cap)) : ∀ (ps : List MPiece) (idx : Int), AllSafe owned b ps →
    (∃ e, minsertLoop spare m (some b) text at_ idx ps = .error e ∧
      insertLoop (some (m.read b)) (m.read text) at_ idx (ps.map (MPiece.seen m)) = .error e) ∨
    (∃ qs, minsertLoop spare m (some b) text at_ idx ps = .ok (qs, bufWrite spare m b (m.read text)) ∧
      insertLoop (some (m.read b)) (m.read text) at_ idx (ps.map (MPiece.seen m)) =
        .ok (qs.map (MPiece.seen (bufWrite spare m b (m.read text)).1), m.read b ++ m.read text) ∧ qs ≠ [] ∧
      AllSafe (if (bufWrite spare m b (m.read text)).1.length = m.length then owned else m.length :: owned)
        (bufWrite spare m b (m.read text)).2 qs) := by
  have spec := bufWrite_spec spare m owned b (m.read text) hlt h0 hc hb
  simp only at spec
  generalize hw : bufWrite spare m b (m.read text) = w at spec ⊢
  obtain ⟨-, -, -, -, rd, rl, keep, self⟩ := spec
  intro ps
  have congr : ∀ (ps : List MPiece), AllSafe owned b ps → ps.map (MPiece.seen m) = ps.map (MPiece.seen w.1) := by
    intro ps h
    apply List.map_congr_left
    intro p hp
    exact (seen_congr fun s hs => (keep s (h p hp s hs)).1).symm
  induction ps with
  | nil => intro idx _; exact .inl ⟨_, rfl, rfl⟩
  | cons p ps ih =>
    intro idx hs
    have hps : AllSafe owned b ps := fun q hq => hs q (List.mem_cons_of_mem _ hq)
    have hp := hs p List.mem_cons_self
    simp only [List.map_cons, insertLoop, minsertLoop]
    have e : (MPiece.seen m p).length = p.length := rfl
    rw [e]
    by_cases hc : idx + p.length ≥ at_
    · rw [if_pos hc, if_pos hc]
      right
      simp only [hw]
      refine ⟨_, rfl, ?_, by simp, ?_⟩
      · simp only [List.map_cons]
        rw [congr ps hps]
        have hseen : MPiece.seen m p = MPiece.seen w.1 p := (seen_congr fun s hs => (keep s (hp s hs)).1).symm
        have hr : (MPiece.seen m p).reader = (MPiece.seen w.1 p).reader := by rw [hseen]
        simp only [MPiece.seen] at hr
        simp only [MPiece.seen, rl, rd, hr]
      · intro q hq s hqs
        simp only [List.mem_cons] at hq
        rcases hq with rfl | rfl | rfl | hq
        · exact (keep s (hp s hqs)).2
        · cases hqs; exact self
        · exact (keep s (hp s hqs)).2
        · exact (keep s (hps q hq s hqs)).2
    · rw [if_neg hc, if_neg hc]
      rcases ih (idx + p.length) hps with ⟨e, h1, h2⟩ | ⟨qs, h1, h2, h3, h4⟩
      · left
        rw [h1, h2]
        exact ⟨e, rfl, rfl⟩
      · right
        rw [h1, h2]
        refine ⟨p :: qs, rfl, ?_, by simp, ?_⟩
        · rw [List.map_cons, seen_congr fun s hs => (keep s (hp s hs)).1]
          rfl
        · intro q hq s hqs
          rcases List.mem_cons.1 hq with rfl | hq
          · exact (keep s (hp s hqs)).2
          · exact h4 q hq s hqs

/-- One thing that happens keeps the table safe and shows as the call it is; calls panic exactly when they would
on a table whose readers hold their bytes. -/
theorem act_spec {w : World} (h : Safe w) (a : Act) (ha : w.Allowed a) :
    (∃ e, w.act a = .error e ∧ (w.tab.seen w.mem).run (w.call a) = .error e) ∨
    (∃ w', w.act a = .ok w' ∧ Safe w' ∧ (w.tab.seen w.mem).run (w.call a) = .ok (w'.tab.seen w'.mem)) := by
  obtain ⟨hlt, ⟨b, hb, h0, hc, hcap, hs⟩, hne⟩ := h
  have same : ∀ m' : Memory, (∀ s, SafeSlice w.owned b s → m'.read s = w.mem.read s) → w.tab.seen m' = w.tab.seen w.mem := by
    intro m' hm
    have hbs : SafeSlice w.owned b b := by
      rcases hcap with hcap | hcap
      · exact .inl (by omega)
      · exact .inr ⟨hcap.1, h0, fun _ => Nat.le_refl _⟩
    have hp : w.tab.pieces.map (MPiece.seen m') = w.tab.pieces.map (MPiece.seen w.mem) :=
      List.map_congr_left fun p hp => seen_congr fun s e => hm s (hs p hp s e)
    simp only [MTable.seen, hb, Option.map_some, hm b hbs, hp]
  cases a with
  | insert text at_ spare =>
    have spec := minsertLoop_spec spare w.mem w.owned b text at_ hlt h0 hc hcap w.tab.pieces 0 hs
    have bspec := bufWrite_spec spare w.mem w.owned b (w.mem.read text) hlt h0 hc hcap
    simp only at bspec
    have e1 : w.tab.insert spare w.mem text at_ = (match minsertLoop spare w.mem (some b) text at_ 0 w.tab.pieces with
        | .error e => .error e
        | .ok (qs, m', b) => .ok (m', { w.tab with pieces := qs, buf := some b })) := by
      unfold MTable.insert
      cases hp : w.tab.pieces with
      | nil => exact absurd hp hne
      | cons p ps => simp only [hb]; rfl
    have e2 : (w.tab.seen w.mem).insert (w.mem.read text) at_ = (do
        let (qs, b) ← insertLoop (some (w.mem.read b)) (w.mem.read text) at_ 0 (w.tab.pieces.map (MPiece.seen w.mem))
        .ok { w.tab.seen w.mem with pieces := qs, append := some b }) := by
      unfold PieceTable.insert
      cases hp : w.tab.pieces with
      | nil => exact absurd hp hne
      | cons p ps => simp only [MTable.seen, hp, hb, List.map_cons, Option.map_some]
    rcases spec with ⟨e, h1, h2⟩ | ⟨qs, h1, h2, h3, h4⟩
    · left
      refine ⟨e, ?_, ?_⟩
      · simp only [World.act, e1, h1]
      · simp only [World.call, PieceTable.run, PieceTable.apply, e2, h2]
        rfl
    · right
      generalize bufWrite spare w.mem b (w.mem.read text) = bw at h1 h2 h4 bspec
      obtain ⟨bm, bb⟩ := bw
      obtain ⟨b1, b2, b3, b4, b5, b6, b7, b8⟩ := bspec
      refine ⟨⟨bm, { w.tab with pieces := qs, buf := some bb }, if bm.length = w.mem.length then w.owned else w.mem.length :: w.owned⟩, ?_, ⟨b1, ⟨bb, rfl, b2, b3, b4, h4⟩, h3⟩, ?_⟩
      · simp only [World.act, e1, h1]
      · simp only [World.call, PieceTable.run, PieceTable.apply, e2, h2]
        simp only at b5
        simp only [MTable.seen, Option.map_some, b5]
        rfl
  | delete n a =>
    right
    refine ⟨_, rfl, ⟨hlt, ⟨b, hb, h0, hc, hcap, ?_⟩, mdelete_ne _ _ _ _ hne _⟩, ?_⟩
    · intro p hp s e
      obtain ⟨q, hq, hr⟩ := mdelete_reader _ _ _ _ _ p hp
      exact hs q hq s (hr.trans e)
    · simp only [World.call, PieceTable.run, PieceTable.apply, delete_seen]
      rfl
  | scribble a data =>
    right
    obtain ⟨hno, old, hold, hlen⟩ := ha
    refine ⟨_, rfl, ⟨by simpa using hlt, ⟨b, hb, h0, hc, ?_, hs⟩, hne⟩, ?_⟩
    · rcases hcap with hcap | ⟨h1, h2⟩
      · exact .inl hcap
      · refine .inr ⟨h1, ?_⟩
        simp only
        have hab : a ≠ b.arr := fun e => hno (by rw [e]; exact h1)
        rw [List.getElem?_set_ne hab]
        exact h2
    · simp only [World.call, PieceTable.run]
      rw [same (w.mem.set a data)]
      · intro s hs
        rcases hs with hs | ⟨so, -, -⟩
        · rw [read_zero _ hs, read_zero _ hs]
        · exact read_set_ne _ _ _ _ fun e => hno (by rw [← e]; exact so)
  | alloc data =>
    right
    refine ⟨_, rfl, ⟨fun a ha => by have := hlt a ha; simp; omega, ⟨b, hb, h0, hc, ?_, hs⟩, hne⟩, ?_⟩
    · rcases hcap with hcap | ⟨h1, h2⟩
      · exact .inl hcap
      · refine .inr ⟨h1, ?_⟩
        simp only
        rw [List.getElem?_append_left (hlt _ h1)]
        exact h2
    · simp only [World.call, PieceTable.run]
      rw [same (w.mem ++ [data])]
      · intro s hs
        rcases hs with hs | ⟨so, -, -⟩
        · rw [read_zero _ hs, read_zero _ hs]
        · exact read_append _ _ _ (hlt _ so)

/-- A new table in any memory. -/
def World.new (m : Memory) (src : Bytes) (closable : Bool) (n : Int) : World := ⟨m, newMTable src closable n, []⟩

theorem new_safe (m : Memory) (src : Bytes) (closable : Bool) (n : Int) : Safe (World.new m src closable n) :=
  ⟨fun a ha => (List.not_mem_nil ha).elim, ⟨nilSlice, rfl, rfl, Nat.le_refl _, .inl rfl, fun p hp s e => by
    have : p = { length := n, offset := 0, reader := .orig } := by simpa [World.new, newMTable] using hp
    subst this
    cases e⟩, by simp [World.new, newMTable]⟩

theorem new_seen (m : Memory) (src : Bytes) (closable : Bool) (n : Int) :
    (World.new m src closable n).tab.seen m = newPieceTable src closable n := by
  simp [World.new, newMTable, MTable.seen, newPieceTable, MPiece.seen, read_zero, nilSlice]

theorem run_append (pt : PieceTable) (xs ys : List Op) : pt.run (xs ++ ys) = (pt.run xs >>= fun q => q.run ys) := by
  induction xs generalizing pt with
  | nil => rfl
  | cons o os ih =>
    simp only [List.cons_append, PieceTable.run]
    cases pt.apply o with
    | error e => rfl
    | ok q => exact ih q

theorem happens_spec {w w' : World} {ops : List Op} (hh : Happens w ops w') (h : Safe w) :
    Safe w' ∧ (w.tab.seen w.mem).run ops = .ok (w'.tab.seen w'.mem) := by
  induction hh with
  | nil => exact ⟨h, rfl⟩
  | @step w a w1 ops w2 ha hact _ ih =>
    rcases act_spec h a ha with ⟨e, h1, _⟩ | ⟨w1', h1, h2, h3⟩
    · rw [h1] at hact; cases hact
    · rw [h1] at hact; cases hact
      obtain ⟨h4, h5⟩ := ih h2
      refine ⟨h4, ?_⟩
      rw [run_append, h3]
      exact h5

/-- **C97** Whatever callers do with the slices they passed, and however the append buffer grows: the text of a
table made by `NewPieceTable` is the text of its history of calls, each with the bytes its text had when it
was made. -/
theorem C97_history (m : Memory) (src : Bytes) (closable : Bool) (n : Nat) (hn : n ≤ src.length) {ops : List Op} {w : World}
    (hh : Happens (World.new m src closable n) ops w) (t : Bytes) (ht : textRun (src.take n) ops = some t) :
    w.tab.string w.mem = .ok t := by
  obtain ⟨_, h2⟩ := happens_spec hh (new_safe m src closable n)
  have e : (World.new m src closable n).mem = m := rfl
  rw [e, new_seen] at h2
  obtain ⟨pt, h3, h4⟩ := C03_history_agrees src closable n hn ops t ht
  rw [h3] at h2
  cases h2
  exact h4

/-- **C97** Nothing but a call changes what `String` returns, or whether it panics. -/
theorem C97_only_calls (m : Memory) (src : Bytes) (closable : Bool) (n : Int) {ops : List Op} {w : World}
    (hh : Happens (World.new m src closable n) ops w) {w' : World} (hq : Happens w [] w') :
    w'.tab.string w'.mem = w.tab.string w.mem := by
  obtain ⟨h1, _⟩ := happens_spec hh (new_safe m src closable n)
  obtain ⟨_, h3⟩ := happens_spec hq h1
  have : w.tab.seen w.mem = w'.tab.seen w'.mem := by
    injection h3
  rw [MTable.string, MTable.string, this]

/-- **C97** Memory adds no panic: a call on such a table panics exactly if it does on a table that keeps its bytes
to itself. -/
theorem C97_no_new_panic (m : Memory) (src : Bytes) (closable : Bool) (n : Int) {ops : List Op} {w : World}
    (hh : Happens (World.new m src closable n) ops w) (a : Act) (ha : w.Allowed a) (e : Panic) :
    w.act a = .error e ↔ (newPieceTable src closable n).run (ops ++ w.call a) = .error e := by
  obtain ⟨h1, h2⟩ := happens_spec hh (new_safe m src closable n)
  have e0 : (World.new m src closable n).mem = m := rfl
  rw [e0, new_seen] at h2
  rw [run_append, h2]
  show _ ↔ (w.tab.seen w.mem).run (w.call a) = .error e
  rcases act_spec h1 a ha with ⟨e', h3, h4⟩ | ⟨w', h3, _, h4⟩
  · rw [h3, h4]
    constructor <;> (intro h; cases h; rfl)
  · rw [h3, h4]
    constructor <;> (intro h; cases h)

/-- **C97** The zero value is different. Its first `Insert` keeps the caller's slice: for every text, whatever the
caller then writes there is the text of the table. -/
theorem C97_zero_value (m : Memory) (text data : Bytes) (at_ : Int) (spare : Nat) (hl : data.length = text.length) :
    ∃ w w', World.act ⟨m ++ [text], mzero, []⟩ (.insert ⟨m.length, 0, text.length, text.length⟩ at_ spare) = .ok w ∧
      w.tab.string w.mem = .ok text ∧
      w.Allowed (.scribble m.length data) ∧ w.act (.scribble m.length data) = .ok w' ∧ w'.tab.string w'.mem = .ok data := by
  have r1 : Memory.read (m ++ [text]) ⟨m.length, 0, text.length, text.length⟩ = text := by simp [Memory.read]
  have r2 : Memory.read (m ++ [data]) ⟨m.length, 0, text.length, text.length⟩ = data := by simp [Memory.read, ← hl]
  have str : ∀ (m' : Memory) (d : Bytes), d.length = text.length → Memory.read m' ⟨m.length, 0, text.length, text.length⟩ = d →
      MTable.string m' { mzero with pieces := [{ length := text.length, offset := 0, reader := .slice ⟨m.length, 0, text.length, text.length⟩ }] } = .ok d := by
    intro m' d hd hr
    have := string_wf (pt := { orig := [], closable := false, closed := false, append := none, pieces := [{ length := d.length, offset := 0, reader := .mem d }] })
      ⟨rfl, AllWF.cons.2 ⟨⟨Int.natCast_nonneg _, Int.le_refl _, by simp [src]⟩, AllWF.nil⟩⟩
    simp only [MTable.string, MTable.seen, mzero, List.map_cons, List.map_nil, MPiece.seen, hr, Option.map_none]
    rw [hd] at this
    rw [this]
    simp [content, Piece.text, src, ← hd]
  refine ⟨⟨m ++ [text], { mzero with pieces := [{ length := text.length, offset := 0, reader := .slice ⟨m.length, 0, text.length, text.length⟩ }] }, []⟩,
    ⟨m ++ [data], { mzero with pieces := [{ length := text.length, offset := 0, reader := .slice ⟨m.length, 0, text.length, text.length⟩ }] }, []⟩, ?_, ?_, ?_, ?_, ?_⟩
  · simp [World.act, MTable.insert, mzero, r1]
  · exact str _ _ rfl r1
  · exact ⟨List.not_mem_nil, text, by simp, hl⟩
  · simp [World.act]
  · exact str _ _ hl r2

/-! ## A run -/

/-- The text `ab` is inserted from an array of the caller, which they then overwrite with `xy` and insert again;
the second time the bytes fit in the array of the append buffer. -/
def aliasActs : List Act := [.insert ⟨0, 0, 2, 2⟩ 0 62, .scribble 0 b!"xy", .insert ⟨0, 0, 2, 2⟩ 2 0, .scribble 0 b!"!!", .delete 1 1]

/-- Perform all of them. -/
def World.acts (w : World) : List Act → M World
  | [] => .ok w
  | a :: as => match w.act a with
    | .error e => .error e
    | .ok w' => w'.acts as

/-- The calls among them. -/
def World.calls (w : World) : List Act → List Op
  | [] => []
  | a :: as => match w.act a with
    | .error _ => []
    | .ok w' => w.call a ++ w'.calls as

/-- All of them are allowed. -/
def World.allAllowed (w : World) : List Act → Prop
  | [] => True
  | a :: as => w.Allowed a ∧ match w.act a with
    | .error _ => False
    | .ok w' => w'.allAllowed as

theorem happens_of_acts : ∀ (as : List Act) (w w' : World), w.allAllowed as → w.acts as = .ok w' → Happens w (w.calls as) w' := by
  intro as
  induction as with
  | nil => intro w w' _ h; cases h; exact .nil
  | cons a as ih =>
    intro w w' hall h
    simp only [World.acts] at h
    simp only [World.allAllowed] at hall
    simp only [World.calls]
    cases hw : w.act a with
    | error e => rw [hw] at h; cases h
    | ok w1 =>
      rw [hw] at h hall
      exact .step hall.1 hw (ih w1 w' hall.2 h)

/-- The caller's array and the table after it all. -/
def aliasWorld : World :=
  ⟨[b!"!!", b!"abxy" ++ List.replicate 60 0],
   { orig := b!"hello", closable := false, closed := false, buf := some ⟨1, 0, 4, 64⟩
     pieces := [⟨0, 0, .orig⟩, ⟨1, 0, .slice ⟨1, 0, 2, 64⟩⟩, ⟨0, 2, .slice ⟨1, 0, 2, 64⟩⟩, ⟨2, 2, .slice ⟨1, 0, 4, 64⟩⟩, ⟨0, 2, .slice ⟨1, 0, 2, 64⟩⟩, ⟨5, 0, .orig⟩] }, [1]⟩

example : (World.new [b!"ab"] b!"hello" false 5).acts aliasActs = .ok aliasWorld := by rfl

theorem alias_happens : Happens (World.new [b!"ab"] b!"hello" false 5) [.insert b!"ab" 0, .insert b!"xy" 2, .delete 1 1] aliasWorld :=
  happens_of_acts aliasActs _ _ ⟨trivial, ⟨by decide, _, rfl, rfl⟩, trivial, ⟨by decide, _, rfl, rfl⟩, trivial, trivial⟩ rfl

example : aliasWorld.tab.string aliasWorld.mem = .ok b!"axyhello" :=
  C97_history _ _ _ 5 (by decide) alias_happens _ (by decide)

example : (aliasWorld.tab.seen aliasWorld.mem).string = (aliasWorld.tab.seen [b!"??", b!"abxy" ++ List.replicate 60 0]).string :=
  (C97_only_calls _ _ _ 5 alias_happens (w' := { aliasWorld with mem := [b!"??", b!"abxy" ++ List.replicate 60 0] })
    (.step (a := .scribble 0 b!"??") (ops := []) ⟨by decide, _, rfl, rfl⟩ rfl .nil)).symm

example : aliasWorld.act (.insert ⟨0, 0, 2, 2⟩ 9 0) = .error .explicit :=
  (C97_no_new_panic _ _ _ 5 alias_happens (.insert ⟨0, 0, 2, 2⟩ 9 0) trivial .explicit).2 rfl

example : ∃ w w', World.act ⟨[] ++ [b!"ab"], mzero, []⟩ (.insert ⟨0, 0, 2, 2⟩ 0 0) = .ok w ∧ w.tab.string w.mem = .ok b!"ab" ∧
    w.Allowed (.scribble 0 b!"xy") ∧ w.act (.scribble 0 b!"xy") = .ok w' ∧ w'.tab.string w'.mem = .ok b!"xy" :=
  C97_zero_value [] b!"ab" b!"xy" 0 0 rfl

end Txt
