import Verif.Txt.Props

/-!
# The file of a piece table is changed by somebody else (C123)

`NewPieceTable` keeps the reader; the original text is read again for every `String()` (piece_table.go:63, 93). With an
`os.File` (ed.go:85-97) that is the file as it is then.
-/

namespace Txt
open Go

/-! ## Specification -/

/-- Where a byte of the text comes from: a place of the file, or a call of `Insert`. -/
inductive Origin where
  | file (i : Nat)
  | typed (b : UInt8)
  deriving DecidableEq, Repr

/-- The text at first: the first `n` bytes of the file. -/
def fileText (n : Nat) : List Origin := (List.range n).map .file

/-- A call, on the origins of the bytes; `none` if it is out of range. -/
def Op.onOrigins (t : List Origin) : Op → Option (List Origin)
  | .insert x a => if 0 ≤ a ∧ a ≤ t.length then some (t.take a.toNat ++ x.map .typed ++ t.drop a.toNat) else none
  | .delete n a => if 0 ≤ n ∧ 0 ≤ a ∧ a + n ≤ t.length then some (t.take a.toNat ++ t.drop (a.toNat + n.toNat)) else none

/-- The byte that is read now; `none` if the file has become too short. -/
def Origin.now (file : Bytes) : Origin → Option UInt8
  | .file i => file[i]?
  | .typed b => some b

/-- Reading the text now: the bytes, or a panic if one cannot be read. -/
def readNow (f : Bytes) (t : List Origin) : M Bytes :=
  match t.mapM (Origin.now f) with
  | some b => .ok b
  | none => .error .explicit

/-- What can happen: a call, or somebody changes the file in place. -/
inductive Event where
  | call (o : Op)
  | change (file : Bytes)
  deriving Repr

/-- The origins and the file after some events. -/
def history (t : List Origin) (file : Bytes) : List Event → Option (List Origin × Bytes)
  | [] => some (t, file)
  | .call o :: es => (o.onOrigins t).bind (history · file es)
  | .change f :: es => history t f es

/-! ## Model -/

/-- The table when its file (the reader of piece_table.go:14, 33) has been given other contents. -/
def PieceTable.withSource (pt : PieceTable) (file : Bytes) : PieceTable := { pt with orig := file }

/-- Events on a table. -/
def PieceTable.live (pt : PieceTable) : List Event → M PieceTable
  | [] => .ok pt
  | .call o :: es => do (← pt.apply o).live es
  | .change f :: es => (pt.withSource f).live es

/-! ## Proofs -/

/-- The origins of the bytes of a piece. -/
def Piece.origins (p : Piece) : List Origin :=
  match p.reader with
  | .orig => (List.range' p.offset.toNat p.length.toNat).map .file
  | .mem b => ((b.drop p.offset.toNat).take p.length.toNat).map .typed

/-- The bytes with something in place of those that cannot be read. -/
def Origin.look (u : Bytes) : Origin → UInt8
  | .file i => u.getD i 0
  | .typed b => b

theorem slice_range' (u : Bytes) : ∀ (k off : Nat), off + k ≤ u.length → (u.drop off).take k = (List.range' off k).map fun i => u.getD i 0 := by
  intro k
  induction k with
  | zero => simp
  | succ k ih =>
    intro off h
    rw [List.range'_succ, List.map_cons, ← ih (off + 1) (by omega), List.drop_eq_getElem_cons (by omega), List.take_succ_cons]
    simp [List.getElem?_eq_getElem (show off < u.length by omega)]

theorem text_look {u : Bytes} {p : Piece} (h : p.WF u) : p.text u = p.origins.map (Origin.look u) := by
  obtain ⟨h1, h2, h3⟩ := h
  cases hr : p.reader with
  | orig =>
    simp only [hr, src] at h3
    simp only [Piece.text, Piece.origins, hr, src, List.map_map]
    rw [slice_range' u _ _ (by omega)]
    rfl
  | mem b =>
    simp only [Piece.text, Piece.origins, hr, src, List.map_map]
    conv => lhs; rw [← List.map_id ((b.drop p.offset.toNat).take p.length.toNat)]
    rfl

theorem content_look {u : Bytes} {ps : List Piece} (h : AllWF u ps) : content u ps = (ps.flatMap Piece.origins).map (Origin.look u) := by
  induction ps with
  | nil => rfl
  | cons p ps ih =>
    rw [AllWF.cons] at h
    rw [content, List.flatMap_cons, List.map_append, ih h.2, text_look h.1]

theorem onText_look (u : Bytes) (t : List Origin) (o : Op) : o.onText (t.map (Origin.look u)) = (o.onOrigins t).map (List.map (Origin.look u)) := by
  have hx : ∀ x : Bytes, (x.map Origin.typed).map (Origin.look u) = x := by
    intro x; rw [List.map_map]; conv => rhs; rw [← List.map_id x]
    rfl
  cases o with
  | insert x a =>
    simp only [Op.onText, Op.onOrigins, List.length_map]
    split <;> simp [List.map_take, List.map_drop, hx]
  | delete n a =>
    simp only [Op.onText, Op.onOrigins, List.length_map]
    split <;> simp [List.map_take, List.map_drop]

theorem byte_other (b : UInt8) : b + 1 ≠ b := by
  intro h
  have := congrArg UInt8.toNat h
  rw [UInt8.toNat_add] at this
  have hb := b.toNat_lt
  simp at this
  omega

theorem origin_eq {n : Nat} {x y : Origin} (hx : ∀ i, x = .file i → i < n) (hy : ∀ i, y = .file i → i < n)
    (h : ∀ u : Bytes, u.length = n → x.look u = y.look u) : x = y := by
  cases x with
  | file i =>
    have hi := hx i rfl
    cases y with
    | file j =>
      have hj := hy j rfl
      by_cases e : i = j
      · rw [e]
      · exfalso
        have := h ((List.replicate n (0 : UInt8)).set i 1) (by simp)
        simp [Origin.look, hi, hj, List.getElem?_set, e] at this
    | typed b =>
      exfalso
      have := h (List.replicate n (b + 1)) (by simp)
      simp only [Origin.look, List.getD_eq_getElem?_getD, List.getElem?_replicate, hi, if_true, Option.getD_some] at this
      exact byte_other b this
  | typed b =>
    cases y with
    | file j =>
      exfalso
      have hj := hy j rfl
      have := h (List.replicate n (b + 1)) (by simp)
      simp only [Origin.look, List.getD_eq_getElem?_getD, List.getElem?_replicate, hj, if_true, Option.getD_some] at this
      exact byte_other b this.symm
    | typed c => exact congrArg _ (by have := h (List.replicate n 0) (by simp); exact this)

theorem origins_eq {n : Nat} {xs ys : List Origin} (hx : ∀ i, .file i ∈ xs → i < n) (hy : ∀ i, .file i ∈ ys → i < n)
    (h : ∀ u : Bytes, u.length = n → xs.map (Origin.look u) = ys.map (Origin.look u)) : xs = ys := by
  induction xs generalizing ys with
  | nil =>
    have := h (List.replicate n 0) (by simp)
    cases ys with
    | nil => rfl
    | cons y ys => simp at this
  | cons x xs ih =>
    cases ys with
    | nil => have := h (List.replicate n 0) (by simp); simp at this
    | cons y ys =>
      have e := origin_eq (n := n) (x := x) (y := y) (fun i hi => hx i (by simp [hi])) (fun i hi => hy i (by simp [hi]))
        (fun u hu => by have := h u hu; simp only [List.map_cons, List.cons.injEq] at this; exact this.1)
      rw [e, ih (ys := ys) (fun i hi => hx i (by simp [hi])) (fun i hi => hy i (by simp [hi]))
        (fun u hu => by have := h u hu; simp only [List.map_cons, List.cons.injEq] at this; exact this.2)]

/-! The file is looked at by `String` only. -/

theorem apply_source (pt : PieceTable) (f : Bytes) (o : Op) : (pt.withSource f).apply o = (pt.apply o).map (·.withSource f) := by
  cases o with
  | insert x a =>
    simp only [PieceTable.apply, PieceTable.insert, PieceTable.withSource]
    cases pt.pieces with
    | nil => rfl
    | cons p ps => dsimp only; cases insertLoop pt.append x a 0 (p :: ps) <;> rfl
  | delete n a => rfl

theorem withSource_twice (pt : PieceTable) (f g : Bytes) : (pt.withSource f).withSource g = pt.withSource g := rfl

/-- The calls among the events. -/
def calls : List Event → List Op
  | [] => []
  | .call o :: es => o :: calls es
  | .change _ :: es => calls es

/-- The file after the events. -/
def lastFile (f : Bytes) : List Event → Bytes
  | [] => f
  | .call _ :: es => lastFile f es
  | .change g :: es => lastFile g es

theorem run_source (os : List Op) : ∀ (pt : PieceTable) (f : Bytes), (pt.withSource f).run os = (pt.run os).map (·.withSource f) := by
  induction os with
  | nil => intro pt f; rfl
  | cons o os ih =>
    intro pt f
    simp only [PieceTable.run, apply_source]
    cases h : pt.apply o with
    | error p => rfl
    | ok q => exact ih q f

theorem live_run (es : List Event) : ∀ (pt : PieceTable) (f : Bytes),
    (pt.withSource f).live es = (pt.run (calls es)).map (·.withSource (lastFile f es)) := by
  induction es with
  | nil => intro pt f; rfl
  | cons e es ih =>
    intro pt f
    cases e with
    | call o =>
      simp only [PieceTable.live, calls, PieceTable.run, lastFile, apply_source]
      cases h : pt.apply o with
      | error p => rfl
      | ok q => exact ih q f
    | change g => exact ih pt g

/-- As C03, with the invariant. -/
theorem run_good (os : List Op) : ∀ (q : PieceTable) (y : Bytes), q.Good → textRun (content q.orig q.pieces) os = some y →
    ∃ q', q.run os = .ok q' ∧ q'.Good ∧ content q'.orig q'.pieces = y := by
  induction os with
  | nil => intro q y g h; cases h; exact ⟨q, rfl, g, rfl⟩
  | cons o os ih =>
    intro q y g ht
    cases o with
    | insert x a =>
      simp only [textRun, Op.onText] at ht
      split at ht
      · next hr =>
        obtain ⟨q', e, g', _, _, c⟩ := good_insert g x a hr.1 hr.2
        simp only [Option.bind_some] at ht
        rw [← c] at ht
        obtain ⟨pt, e', hs⟩ := ih q' y g' ht
        refine ⟨pt, ?_, hs⟩
        simp only [PieceTable.run, PieceTable.apply, e]
        exact e'
      · cases ht
    | delete k a =>
      simp only [textRun, Op.onText] at ht
      split at ht
      · next hr =>
        have hl := content_length g.pieces
        have hf : Fits q k a := .inr (by omega)
        obtain ⟨g', ho⟩ := good_delete g k a hr.1 hr.2.1 hf
        have c := (deleteLoop_ok q.orig k a hr.1 q.pieces 0 g.pieces hr.2.1).2.1 (by omega)
        simp only [Option.bind_some] at ht
        simp only [Int.sub_zero] at c
        rw [← c, ← delete_pieces hr.1 hr.2.1 hf, ← ho] at ht
        exact ih (q.delete k a) y g' ht
      · cases ht

theorem history_calls (es : List Event) : ∀ (t : List Origin) (f : Bytes) (r : List Origin × Bytes), history t f es = some r →
    r.2 = lastFile f es ∧ ∀ u, textRun (t.map (Origin.look u)) (calls es) = some (r.1.map (Origin.look u)) := by
  induction es with
  | nil => intro t f r h; cases h; exact ⟨rfl, fun _ => rfl⟩
  | cons e es ih =>
    intro t f r h
    cases e with
    | call o =>
      simp only [history] at h
      cases ho : o.onOrigins t with
      | none => rw [ho] at h; cases h
      | some t' =>
        rw [ho] at h
        obtain ⟨i1, i2⟩ := ih t' f r h
        refine ⟨i1, fun u => ?_⟩
        simp only [calls, textRun, onText_look, ho, Option.map_some, Option.bind_some]
        exact i2 u
    | change g => exact ih t g r h

theorem history_file (n : Nat) (es : List Event) : ∀ (t : List Origin) (f : Bytes) (r : List Origin × Bytes), history t f es = some r →
    (∀ i, .file i ∈ t → i < n) → ∀ i, .file i ∈ r.1 → i < n := by
  induction es with
  | nil => intro t f r h ht; cases h; exact ht
  | cons e es ih =>
    intro t f r h ht
    cases e with
    | call o =>
      simp only [history] at h
      cases ho : o.onOrigins t with
      | none => rw [ho] at h; cases h
      | some t' =>
        rw [ho] at h
        refine ih t' f r h fun i hi => ?_
        cases o with
        | insert x a =>
          simp only [Op.onOrigins] at ho
          split at ho
          · simp only [Option.some.injEq] at ho
            rw [← ho] at hi
            simp only [List.mem_append, List.mem_map] at hi
            rcases hi with (hi | ⟨_, _, hi⟩) | hi
            · exact ht i (List.mem_of_mem_take hi)
            · cases hi
            · exact ht i (List.mem_of_mem_drop hi)
          · cases ho
        | delete m a =>
          simp only [Op.onOrigins] at ho
          split at ho
          · simp only [Option.some.injEq] at ho
            rw [← ho] at hi
            simp only [List.mem_append] at hi
            rcases hi with hi | hi
            · exact ht i (List.mem_of_mem_take hi)
            · exact ht i (List.mem_of_mem_drop hi)
          · cases ho
    | change g => exact ih t g r h ht

/-! Reading when the file may be too short. -/

theorem mapM_range' (f : Bytes) : ∀ (k off : Nat), ((List.range' off k).map Origin.file).mapM (Origin.now f) =
    if k = 0 ∨ off + k ≤ f.length then some ((f.drop off).take k) else none := by
  intro k
  induction k with
  | zero => intro off; simp
  | succ k ih =>
    intro off
    simp only [List.range'_succ, List.map_cons, List.mapM_cons, Origin.now, ih (off + 1)]
    by_cases h : off < f.length
    · rw [List.getElem?_eq_getElem h]
      by_cases h2 : k = 0 ∨ off + 1 + k ≤ f.length
      · rw [if_pos h2, if_pos (by omega), List.drop_eq_getElem_cons h, List.take_succ_cons]
        rfl
      · rw [if_neg h2, if_neg (by omega)]
        rfl
    · have e : ¬(k + 1 = 0 ∨ off + (k + 1) ≤ f.length) := by omega
      rw [List.getElem?_eq_none (by omega), if_neg e]
      rfl

theorem mapM_typed (f : Bytes) (b : Bytes) : (b.map Origin.typed).mapM (Origin.now f) = some b := by
  induction b with
  | nil => rfl
  | cons c b ih => simp only [List.map_cons, List.mapM_cons, ih, Origin.now]; rfl

theorem piece_now {u f : Bytes} {p : Piece} (h : p.WF u) : p.origins.mapM (Origin.now f) =
    if p.length = 0 then some [] else readAt (some (src f p.reader)) p.length p.offset := by
  obtain ⟨h1, h2, h3⟩ := h
  cases hr : p.reader with
  | orig =>
    simp only [Piece.origins, hr, src, mapM_range']
    by_cases h0 : p.length = 0
    · simp [h0]
    · rw [if_neg h0]
      by_cases h4 : p.offset + p.length ≤ f.length
      · have e : p.length.toNat = 0 ∨ p.offset.toNat + p.length.toNat ≤ f.length := by omega
        rw [if_pos e, readAt, if_pos ⟨h2, h4⟩]
      · have e : ¬(p.length.toNat = 0 ∨ p.offset.toNat + p.length.toNat ≤ f.length) := by omega
        rw [if_neg e, readAt, if_neg (fun h => h4 h.2)]
  | mem b =>
    simp only [hr, src] at h3
    simp only [Piece.origins, hr, src, mapM_typed]
    split
    · next h0 => simp [h0]
    · rw [readAt, if_pos ⟨h2, h3⟩]

theorem readPieces_now {u : Bytes} (pt : PieceTable) (hc : pt.closed = false) (total : Int) (ps : List Piece) :
    ∀ idx, AllWF u ps → idx + totalLength ps ≤ total → pt.readPieces total idx ps = readNow pt.orig (ps.flatMap Piece.origins) := by
  induction ps with
  | nil => intro idx _ _; rfl
  | cons p ps ih =>
    intro idx h ht
    rw [AllWF.cons] at h
    have hn := totalLength_nonneg h.2
    simp only [totalLength] at ht
    simp only [PieceTable.readPieces]
    have hp := h.1.1
    have hs : pt.source p.reader = some (src pt.orig p.reader) := by cases hr : p.reader <;> simp [PieceTable.source, src, hc]
    have hm := piece_now (f := pt.orig) h.1
    simp only [readNow, List.flatMap_cons, List.mapM_append, hm]
    split
    · next h0 =>
      rw [ih _ h.2 (by omega)]
      cases h5 : (ps.flatMap Piece.origins).mapM (Origin.now pt.orig) <;> simp [readNow, h5] <;> rfl
    · rw [if_neg (by omega), if_neg (by omega), hs]
      cases h6 : readAt (some (src pt.orig p.reader)) p.length p.offset with
      | none => rfl
      | some b =>
        rw [ih _ h.2 (by omega)]
        cases h5 : (ps.flatMap Piece.origins).mapM (Origin.now pt.orig) <;> simp [readNow, h5] <;> rfl

/-- **C123** After any calls in range and any changes of the file by others, `String()` gives every byte that came from
the file as it is in the file now, in the place to which the calls have moved it, and every byte inserted as it was inserted; it
panics exactly if a byte that is still part of the text is no longer in the file. -/
theorem C123_follows_the_file (s : Bytes) (closable : Bool) (n : Nat) (hn : n ≤ s.length) (es : List Event) (t : List Origin) (f : Bytes)
    (h : history (fileText n) s es = some (t, f)) :
    ∃ pt, (newPieceTable s closable n).live es = .ok pt ∧ pt.string = readNow f t := by
  obtain ⟨h1, h2⟩ := history_calls es _ _ _ h
  have h3 := history_file n es _ _ _ h (by simp [fileText])
  simp only at h1 h2 h3
  have start : ∀ u : Bytes, u.length = n → (fileText n).map (Origin.look u) = u := by
    intro u hu
    have := slice_range' u n 0 (by omega)
    rw [List.drop_zero, List.take_of_length_le (by omega)] at this
    rw [fileText, List.map_map, List.range_eq_range', this]
    conv => rhs; rw [this]
    rfl
  -- the pieces are the same for every file
  have same : ∀ u : Bytes, u.length = n → ∃ q, (newPieceTable u closable n).run (calls es) = .ok q ∧ q.Good ∧
      content q.orig q.pieces = t.map (Origin.look u) := by
    intro u hu
    refine run_good _ _ _ (good_new u closable n (by omega)) ?_
    rw [content_new, List.take_of_length_le (by omega)]
    have := h2 u
    rwa [start u hu] at this
  obtain ⟨pt, hp, hg, -⟩ := same (s.take n) (by simp; omega)
  have src_of : ∀ u : Bytes, u.length = n → AllWF u pt.pieces ∧ content u pt.pieces = t.map (Origin.look u) := by
    intro u hu
    obtain ⟨q, q1, q2, q3⟩ := same u hu
    have e : newPieceTable u closable n = (newPieceTable (s.take n) closable n).withSource u := rfl
    rw [e, run_source, hp] at q1
    cases q1
    exact ⟨q2.pieces, q3⟩
  have eqo : t = pt.pieces.flatMap Piece.origins := by
    refine origins_eq (n := n) h3 ?_ ?_
    · intro i hi
      obtain ⟨p, hp1, hp2⟩ := List.mem_flatMap.mp hi
      obtain ⟨w1, w2, w3⟩ := (src_of (s.take n) (by simp; omega)).1 p hp1
      simp only [Piece.origins] at hp2
      cases hr : p.reader with
      | orig =>
        rw [hr] at hp2
        simp only [hr, src, List.length_take] at w3
        simp only [List.mem_map, List.mem_range'_1, Origin.file.injEq] at hp2
        obtain ⟨a, ha, rfl⟩ := hp2
        omega
      | mem b =>
        rw [hr] at hp2
        obtain ⟨a, -, ha⟩ := List.mem_map.mp hp2
        cases ha
    · intro u hu
      obtain ⟨g, c⟩ := src_of u hu
      rw [← c, content_look g]
  refine ⟨pt.withSource f, ?_, ?_⟩
  · have e : newPieceTable s closable n = (newPieceTable (s.take n) closable n).withSource s := rfl
    rw [e, live_run, hp, h1]
    rfl
  · have w := (src_of (s.take n) (by simp; omega)).1
    have := totalLength_nonneg w
    have k := readPieces_now (u := s.take n) (pt.withSource f) hg.isOpen (totalLength pt.pieces) pt.pieces 0 w (by omega)
    rw [eqo]
    show (if totalLength pt.pieces < 0 then _ else _) = _
    rw [if_neg (by omega)]
    exact k

theorem mapM_some_iff {f s : Bytes} {t : List Origin} {b : Bytes} (h : t.mapM (Origin.now s) = some b) :
    t.mapM (Origin.now f) = some b ↔ ∀ i, .file i ∈ t → f[i]? = s[i]? := by
  induction t generalizing b with
  | nil => simp at h; simp [h]
  | cons x t ih =>
    simp only [List.mapM_cons] at h
    cases hx : x.now s with
    | none => rw [hx] at h; cases h
    | some c =>
      cases ht : t.mapM (Origin.now s) with
      | none => rw [hx, ht] at h; cases h
      | some b' =>
        rw [hx, ht] at h
        cases h
        have ih := ih ht
        have e1 : List.mapM (Origin.now f) (x :: t) = some (c :: b') ↔ x.now f = some c ∧ t.mapM (Origin.now f) = some b' := by
          simp only [List.mapM_cons]
          cases x.now f <;> cases t.mapM (Origin.now f) <;> simp
        show List.mapM (Origin.now f) (x :: t) = some (c :: b') ↔ _
        rw [e1, ih]
        cases x with
        | file j =>
          simp only [Origin.now] at hx ⊢
          rw [← hx]
          simp only [List.mem_cons, Origin.file.injEq]
          constructor
          · rintro ⟨h1, h2⟩ i (rfl | hi)
            · exact h1
            · exact h2 i hi
          · intro h
            exact ⟨h j (.inl rfl), fun i hi => h i (.inr hi)⟩
        | typed b =>
          simp only [Origin.now] at hx ⊢
          cases hx
          simp

/-- **C123** So changes by others cannot be seen exactly if they leave those bytes alone that are still part of the text.
(Expected: the text changes only by calls, see `C123_counterexample`.) -/
theorem C123_unaffected_partial (s : Bytes) (closable : Bool) (n : Nat) (hn : n ≤ s.length) (es : List Event) (t : List Origin) (f : Bytes)
    (h : history (fileText n) s es = some (t, f)) :
    ∃ pt b, (newPieceTable s closable n).live es = .ok pt ∧ textRun (s.take n) (calls es) = some b ∧
      (pt.string = .ok b ↔ ∀ i, .file i ∈ t → f[i]? = s[i]?) := by
  obtain ⟨pt, h1, h2⟩ := C123_follows_the_file s closable n hn es t f h
  have hb : ∀ i, .file i ∈ t → i < n := history_file n es _ _ _ h (by simp [fileText])
  have e1 := (history_calls es _ _ _ h).2 (s.take n)
  have start : (fileText n).map (Origin.look (s.take n)) = s.take n := by
    have := slice_range' (s.take n) n 0 (by simp; omega)
    rw [List.drop_zero, List.take_of_length_le (by simp; omega)] at this
    rw [fileText, List.map_map, List.range_eq_range']
    conv => rhs; rw [this]
    rfl
  rw [start] at e1
  have e2 : ∀ t : List Origin, (∀ i, .file i ∈ t → i < n) → t.mapM (Origin.now s) = some (t.map (Origin.look (s.take n))) := by
    intro t
    induction t with
    | nil => intro _; rfl
    | cons x t ih =>
      intro hx
      have ih := ih fun i hi => hx i (by simp [hi])
      have : x.now s = some (x.look (s.take n)) := by
        cases x with
        | file i =>
          have hi := hx i (by simp)
          simp only [Origin.now, Origin.look, List.getD_eq_getElem?_getD, List.getElem?_take, if_pos hi]
          rw [List.getElem?_eq_getElem (by omega)]
          rfl
        | typed b => rfl
      simp only [List.mapM_cons, ih, this]
      rfl
  refine ⟨pt, _, h1, e1, ?_⟩
  rw [h2, readNow, ← mapM_some_iff (f := f) (e2 t hb)]
  cases t.mapM (Origin.now f) <;> simp

/-- A line is typed between the lines of a file; then somebody overwrites the file, and then cuts it off. -/
example : (∃ pt, (newPieceTable b!"ab\ncd\n" true 6).live [.call (.insert b!"x\n" 3), .change b!"AB\nCD\nEF\n"] = .ok pt ∧ pt.string = .ok b!"AB\nx\nCD\n") ∧
    (∃ pt, (newPieceTable b!"ab\ncd\n" true 6).live [.call (.insert b!"x\n" 3), .change b!"AB\n"] = .ok pt ∧ pt.string = .error .explicit) ∧
    (∃ pt, (newPieceTable b!"ab\ncd\n" true 6).live [.call (.insert b!"x\n" 3), .call (.delete 3 5), .change b!"AB\n"] = .ok pt ∧ pt.string = .ok b!"AB\nx\n") :=
  have k := fun es => C123_follows_the_file b!"ab\ncd\n" true 6 (by decide) es
  ⟨k [.call (.insert b!"x\n" 3), .change b!"AB\nCD\nEF\n"] _ _ rfl,
   k [.call (.insert b!"x\n" 3), .change b!"AB\n"] _ _ rfl,
   k [.call (.insert b!"x\n" 3), .call (.delete 3 5), .change b!"AB\n"] _ _ rfl⟩

/-- **C123** (refutation) The text can change without a call. -/
theorem C123_counterexample : ¬ ∀ (s : Bytes) (n : Nat), n ≤ s.length → ∀ (es : List Event) (pt : PieceTable) (b : Bytes),
    (newPieceTable s true n).live es = .ok pt → textRun (s.take n) (calls es) = some b → pt.string = .ok b := by
  intro h
  have := h b!"a" 1 (by decide) [.change b!"b"] _ b!"a" rfl (by decide)
  exact absurd this (by decide)

end Txt
