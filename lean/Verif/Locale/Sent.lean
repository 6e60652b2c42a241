import Verif.Locale.LexerStops
import Verif.Locale.CollateFile

/-!
# Which tokens the lexer sends (C121)

localedef.y has tokens for everything a locale file can contain. The lexer never sends some of them, whatever the file.
-/

namespace Locale
open Go

/-! ## Specification -/

open Tm in
/-- Tokens of the grammar that no file has: names of locales, of collating symbols and elements and of character classes,
`...`, `escape_char`, `comment_char`, `copy`, `UNDEFINED`, `IGNORE`, `-1`, `collating-symbol`, `collating-element`, `from`. -/
def neverSent : List Tm :=
  [LOC_NAME, COLLSYMBOL, COLLELEMENT, CHARCLASS, ELLIPSIS, ESCAPE_CHAR_STR, COMMENT_CHAR_STR, COPY_STR, UNDEFINED_STR, IGNORE_STR,
    NEGATIVE_ONE_STR, COLLATING_SYMBOL_STR, COLLATING_ELEMENT_STR, FROM_STR]

/-- The tokens of a file that is lexed to its end. -/
def FileTokens (toks : List Tok) : Prop := ∃ n input l, newLexer n input = .ok toks l

/-- A production with one of these tokens on its right side. -/
def Prod.unusable (p : Prod) : Bool := p.rhs.any fun s => neverSent.any fun x => s == .t x

/-- A derivation with productions of `g` only. -/
inductive DerivesBy (g : List Prod) : List Sym → List Tok → Def → List Bytes → Def → Prop
  | nil (d : Def) : DerivesBy g [] [] d [] d
  | tm (x : Tm) (v : Bytes) (ss : List Sym) (ts : List Tok) (d d' : Def) (vs : List Bytes)
    (h : DerivesBy g ss ts d vs d') : DerivesBy g (.t x :: ss) (⟨x.code, v⟩ :: ts) d (v :: vs) d'
  | nt (p : Prod) (hp : p ∈ g) (ts ts' : List Tok) (d d1 d2 d3 : Def) (ws : List Bytes) (v : Bytes)
    (ss : List Sym) (vs : List Bytes) (h : DerivesBy g p.rhs ts d ws d1) (hm : Means p.action ws d1 v d2)
    (h' : DerivesBy g ss ts' d2 vs d3) : DerivesBy g (.n p.lhs :: ss) (ts ++ ts') d (v :: vs) d3

/-! ## Reasoning about results, if there are any -/

/-- If the part returns from a state with `P`, then with `Q`. -/
def Pc {α : Type} (P : L → Prop) (m : Lx α) (Q : α → L → Prop) : Prop := ∀ l, P l → ∀ a l', m l = .ok a l' → Q a l'

theorem Pc.bind {α β : Type} {m : Lx α} {f : α → Lx β} {P : L → Prop} {Q : α → L → Prop} {R : β → L → Prop} (h : Pc P m Q)
    (h' : ∀ a, Pc (Q a) (f a) R) : Pc P (m >>= f) R := by
  intro l hl b l2 e
  have e : Lx.bind m f l = .ok b l2 := e
  simp only [Lx.bind] at e
  split at e
  · rename_i a l1 e1
    exact h' a l1 (h l hl a l1 e1) b l2 e
  · cases e
  · cases e

theorem Pc.pure {α : Type} {P : L → Prop} {a : α} {Q : α → L → Prop} (h : ∀ l, P l → Q a l) : Pc P (Pure.pure a : Lx α) Q := by
  intro l hl b l' e
  have e : Res.ok a l = .ok b l' := e
  cases e
  exact h l hl

theorem Pc.error {P : L → Prop} {Q : Unit → L → Prop} : Pc P error Q := by
  intro l _ a l' e
  cases e

theorem Pc.hang {α : Type} {P : L → Prop} {Q : α → L → Prop} : Pc P (fun _ => .hang) Q := by
  intro l _ a l' e
  cases e

theorem Pc.ite {α : Type} {c : Prop} [Decidable c] {P : L → Prop} {m m' : Lx α} {Q : α → L → Prop} (h : c → Pc P m Q) (h' : ¬c → Pc P m' Q) :
    Pc P (if c then m else m') Q := by
  by_cases hc : c
  · rw [if_pos hc]; exact h hc
  · rw [if_neg hc]; exact h' hc

theorem Pc.weaken {α : Type} {P P' : L → Prop} {m : Lx α} {Q Q' : α → L → Prop} (h : Pc P m Q) (hp : ∀ l, P' l → P l) (hq : ∀ a l, Q a l → Q' a l) :
    Pc P' m Q' := fun l hl a l' e => hq a l' (h l (hp l hl) a l' e)

/-- The codes that are sent. -/
def sentCodes : List Int := WHITESPACE :: (Tm.list.filter fun x => !neverSent.contains x).map Tm.code

/-- Only such codes have been sent. -/
def Sent (l : L) : Prop := ∀ t ∈ l.toks, t.code ∈ sentCodes

/-- The part sends only such codes. -/
def Keeps {α : Type} (m : Lx α) : Prop := Pc Sent m fun _ => Sent

theorem Keeps.bind {α β : Type} {m : Lx α} {f : α → Lx β} (h : Keeps m) (h' : ∀ a, Keeps (f a)) : Keeps (m >>= f) := Pc.bind h h'
theorem Keeps.pure {α : Type} {a : α} : Keeps (Pure.pure a : Lx α) := Pc.pure fun _ h => h
theorem Keeps.error : Keeps error := Pc.error
theorem Keeps.ite {α : Type} {c : Prop} [Decidable c] {m m' : Lx α} (h : Keeps m) (h' : Keeps m') : Keeps (if c then m else m') :=
  Pc.ite (fun _ => h) fun _ => h'

theorem Keeps.next : Keeps Locale.next := by
  intro l hl a l' e
  unfold Locale.next at e
  split at e <;> cases e <;> exact hl

theorem Keeps.rewind : Keeps Locale.rewind := by
  intro l hl a l' e
  unfold Locale.rewind at e
  split at e <;> cases e <;> exact hl

theorem Keeps.current : Keeps Locale.current := by
  intro l hl a l' e
  cases e
  exact hl

theorem Keeps.position : Keeps Locale.position := by
  intro l hl a l' e
  cases e
  exact hl

theorem Keeps.emit {code : Int} (h : code ∈ sentCodes) : Keeps (Locale.emit code) := by
  intro l hl a l' e
  cases e
  intro t ht
  rcases List.mem_append.mp ht with ht | ht
  · exact hl t ht
  · simp only [List.mem_cons, List.not_mem_nil, or_false] at ht
    subst ht
    exact h

theorem Keeps.emitTm {x : Tm} (h : neverSent.contains x = false) : Keeps (Locale.emit x.code) := by
  refine .emit (List.mem_cons_of_mem _ (List.mem_map.mpr ⟨x, ?_, rfl⟩))
  refine List.mem_filter.mpr ⟨?_, by rw [h]; rfl⟩
  cases x <;> decide

theorem Keeps.takeLoop (chars : Bytes) (n : Nat) : Keeps (Locale.takeLoop chars n) := by
  induction n with
  | zero => exact Pc.hang
  | succ n ih => exact .bind .next fun _ => .ite ih .rewind

theorem Keeps.take (chars : Bytes) : Keeps (Locale.take chars) := fun l hl a l' e => Keeps.takeLoop chars _ l hl a l' e

theorem Keeps.must {g : Lx Bool} (h : Keeps g) : Keeps (Locale.must g) := .bind h fun _ => .ite .pure .error

theorem Keeps.peek : Keeps Locale.peek := .bind .next fun _ => .bind .rewind fun _ => .pure

theorem Keeps.rewinds (n : Nat) : Keeps (Locale.rewinds n) := by
  induction n with
  | zero => exact .pure
  | succ n ih => exact .bind .rewind fun _ => ih

theorem Keeps.whitespace : Keeps grabWhitespace :=
  .bind (.take _) fun _ => .bind .current fun _ => .ite .pure (.bind (.emit (List.mem_cons_self ..)) fun _ => .pure)

theorem Keeps.newline : Keeps grabNewline :=
  .bind (.take _) fun _ => .bind .current fun _ => .ite .pure (.bind (.emitTm (by decide)) fun _ => .pure)

theorem Keeps.char : Keeps grabChar :=
  .bind .next fun _ => .ite (.bind .rewind fun _ => .pure) (.bind (.take _) fun _ => .bind .next fun _ =>
    .ite (.bind .current fun _ => .bind (.rewinds _) fun _ => .pure) (.bind (.emitTm (by decide)) fun _ => .pure))

theorem Keeps.list {g : Lx Bool} (h : Keeps g) (n : Nat) (ok : Bool) : Keeps (grabListLoop g n ok) := by
  induction n generalizing ok with
  | zero => exact Pc.hang
  | succ n ih =>
    exact .bind h fun _ => .ite (.bind .next fun _ => .ite (.bind (.emitTm (by decide)) fun _ => ih true) (.bind .rewind fun _ => .pure)) .pure

theorem Keeps.pair : Keeps grabCharPair :=
  .bind .next fun _ => .ite (.bind .rewind fun _ => .pure) (.bind (.emitTm (by decide)) fun _ => .bind .char fun _ => .ite .pure
    (.bind .next fun _ => .ite (.bind .rewind fun _ => .pure) (.bind (.emitTm (by decide)) fun _ => .bind .char fun _ => .ite .pure
      (.bind .next fun _ => .ite (.bind .rewind fun _ => .pure) (.bind (.emitTm (by decide)) fun _ => .pure)))))

theorem Keeps.int : Keeps grabInt :=
  .bind (.take _) fun _ => .bind .current fun _ => .ite .pure
    (.ite (.bind .error fun _ => .bind (.emitTm (by decide)) fun _ => .pure) (.bind (.emitTm (by decide)) fun _ => .pure))

theorem Keeps.escape (esc : Nat) : Keeps (grabEscapeInString esc) :=
  .bind .next fun _ => .ite (.bind (.emitTm (by decide)) fun _ => .pure) (.ite
    (.bind .next fun _ => .bind .next fun _ => .bind (.emitTm (by decide)) fun _ => .pure) (.ite
    (.bind .next fun _ => .bind .next fun _ => .bind .next fun _ => .ite (.bind (.emitTm (by decide)) fun _ => .pure) (.bind .rewind fun _ => .bind (.emitTm (by decide)) fun _ => .pure)) (.ite
    (.bind .next fun _ => .bind .next fun _ => .bind (.emitTm (by decide)) fun _ => .pure)
    (.bind .error fun _ => .pure))))

theorem Keeps.stringLoop (esc : Nat → Nat) (n : Nat) (e : Bool) : Keeps (Locale.stringLoop esc n e) := by
  induction n generalizing e with
  | zero => exact Pc.hang
  | succ n ih =>
    exact .bind .next fun _ => .ite (.bind .rewind fun _ => .bind .position fun _ => .bind (.escape _) fun _ => ih false) (.ite
      (.bind (.emitTm (by decide)) fun _ => .pure) (.ite (.bind .error fun _ => .pure) (.ite (ih true) (.bind (.emitTm (by decide)) fun _ => ih false))))

theorem Keeps.string (esc : Nat → Nat) (n : Nat) : Keeps (grabString esc n) :=
  .bind .peek fun _ => .ite .pure (.bind .next fun _ => .bind .peek fun _ => .ite
    (.bind .next fun _ => .bind (.emitTm (by decide)) fun _ => .pure) (.bind (.emitTm (by decide)) fun _ => .stringLoop _ _ _))

theorem Keeps.msgLoop (n : Nat) : Keeps (Locale.msgLoop n) := by
  induction n with
  | zero => exact Pc.hang
  | succ n ih => exact .bind .next fun _ => .ite ih .pure

theorem Keeps.msg (n : Nat) : Keeps (grabMsg n) :=
  .bind .next fun _ => .ite (.bind .rewind fun _ => .pure) (.bind (.emitTm (by decide)) fun _ => .bind (.msgLoop _) fun _ => .bind .rewind fun _ =>
    .bind (.emitTm (by decide)) fun _ => .bind .next fun _ => .bind (.emitTm (by decide)) fun _ => .pure)

theorem Keeps.grab (esc : Nat → Nat) (n : Nat) (g : Grab) : Keeps (g.run esc n) := by
  cases g
  · exact .list .char _ _
  · exact .list (.string _ _) _ _
  · exact .list .pair _ _
  · exact .string _ _
  · exact .int
  · exact .list .int _ _
  · exact .msg _

theorem Keeps.category : Keeps sCategory := by
  unfold sCategory
  refine .bind (.take _) fun _ => .bind .current fun header => ?_
  have h1 : ∀ (x : Tm) (st : St), neverSent.contains x = false →
      Keeps (do Locale.emit x.code; Locale.take whiteSpace; Locale.must grabNewline; Pure.pure (some st)) := fun x st hx =>
    .bind (.emitTm hx) fun _ => .bind (.take _) fun _ => .bind (.must .newline) fun _ => .pure
  dsimp only
  by_cases e1 : header = b!"LC_CTYPE"
  · simp only [e1]; exact h1 _ _ (by decide)
  by_cases e2 : header = b!"LC_COLLATE"
  · simp only [e1, e2, if_false, if_true]; exact h1 _ _ (by decide)
  by_cases e3 : header = b!"LC_MONETARY"
  · simp only [e1, e2, e3, if_false, if_true]; exact h1 _ _ (by decide)
  by_cases e4 : header = b!"LC_NUMERIC"
  · simp only [e1, e2, e3, e4, if_false, if_true]; exact h1 _ _ (by decide)
  by_cases e5 : header = b!"LC_TIME"
  · simp only [e1, e2, e3, e4, e5, if_false, if_true]; exact h1 _ _ (by decide)
  by_cases e6 : header = b!"LC_MESSAGES"
  · simp only [e1, e2, e3, e4, e5, e6, if_false, if_true]; exact h1 _ _ (by decide)
  simp only [e1, e2, e3, e4, e5, e6, if_false]
  exact .pure

theorem map_sent (c : Cat) : (c.map.all fun e => !neverSent.contains e.2.1) = true := by cases c <;> decide

theorem Keeps.generic (esc : Nat → Nat) (n : Nat) (c : Cat) : Keeps (sGeneric esc n c) := by
  unfold sGeneric
  refine .bind .whitespace fun _ => .bind (.take _) fun _ => .bind .current fun word => .ite ?_ ?_
  · refine .bind (.emitTm (by decide)) fun _ => .bind (.must .whitespace) fun _ => .bind (.take _) fun _ => .bind .current fun _ => ?_
    have k : Keeps (do Locale.emit c.tm.code; let _ ← grabWhitespace; Locale.must grabNewline; Pure.pure (some St.category)) :=
      .bind (.emitTm (by cases c <;> decide)) fun _ => .bind .whitespace fun _ => .bind (.must .newline) fun _ => .pure
    exact .ite (.bind .error fun _ => k) k
  · cases hf : c.map.find? (fun e => e.1 == word) with
    | none => exact .bind .error fun _ => .pure
    | some e =>
      have := List.all_eq_true.mp (map_sent c) e (List.mem_of_find?_eq_some hf)
      exact .bind (.emitTm (by simpa using this)) fun _ => .bind (.must .whitespace) fun _ => .bind (.must (.grab _ _ _)) fun _ => .bind (.must .newline) fun _ => .pure

theorem Keeps.orderStart : Keeps sOrderStart :=
  .bind .whitespace fun _ => .bind (.take _) fun _ => .bind .current fun _ => .ite (.bind (.must .newline) fun _ => .pure) (.ite
    (.bind (.emitTm (by decide)) fun _ => .pure) (.ite (.bind (.emitTm (by decide)) fun _ => .pure) (.ite (.bind (.emitTm (by decide)) fun _ => .pure) .pure)))

theorem Keeps.order : Keeps sOrder :=
  .bind .char fun _ => .ite (.bind (.take _) fun _ => .bind .current fun _ =>
    .ite (.bind .error fun _ => .bind (.emitTm (by decide)) fun _ => .bind (.must .newline) fun _ => .pure)
      (.bind (.emitTm (by decide)) fun _ => .bind (.must .newline) fun _ => .pure)) (.bind (.must .newline) fun _ => .pure)

/-! ## A word has only the characters that are taken -/

theorem current_drop {l l' : L} (h1 : l'.source = l.source) (h2 : l'.start = l.start) (h3 : l'.pos ≤ max l.start l.pos) :
    ∀ b ∈ l'.current, b ∈ l.current := by
  intro b hb
  unfold L.current at hb ⊢
  rw [h1, h2] at hb
  by_cases hp : l'.pos ≤ l.start
  · have : (l.source.take l'.pos).drop l.start = [] := List.drop_eq_nil_iff.mpr (by simp; omega)
    rw [this] at hb
    cases hb
  · have : l.source.take l'.pos = (l.source.take l.pos).take l'.pos := by rw [List.take_take]; congr 1; omega
    rw [this, List.drop_take] at hb
    exact List.mem_of_mem_take hb

theorem takeLoop_chars {chars : Bytes} (hch : ∀ b ∈ chars, b.toNat < 0x80) (n : Nat) :
    Pc (fun l => Sent l ∧ ∀ b ∈ l.current, b ∈ chars) (takeLoop chars n) fun _ l => Sent l ∧ ∀ b ∈ l.current, b ∈ chars := by
  induction n with
  | zero => exact Pc.hang
  | succ n ih =>
    rintro l ⟨hs, hl⟩ a l' e
    have e : Lx.bind next (fun r => if containsRune chars r then takeLoop chars n else rewind) l = .ok a l' := e
    simp only [Lx.bind, next] at e
    cases hd : l.source.drop l.pos with
    | nil =>
      rw [hd] at e
      simp only [containsRune, Bool.false_eq_true, if_false, rewind] at e
      cases e
      exact ⟨hs, hl⟩
    | cons b rest =>
      rw [hd] at e
      dsimp only at e
      split at e
      · rename_i hc
        refine ih { l with pos := l.pos + (decodeRune b rest).2, stack := some (decodeRune b rest).1 :: l.stack } ⟨hs, ?_⟩ _ _ e
        simp only [containsRune, List.any_eq_true, beq_iff_eq] at hc
        obtain ⟨c, hc1, hc2⟩ := hc
        have hw : decodeRune b rest = (c.toNat, 1) ∧ b = c := by
          rcases decode_valid b rest with h | ⟨r, tail, h1, h2, h3⟩
          · rw [h] at hc2
            have := hch c hc1
            simp only [runeError] at hc2
            omega
          · rw [h3] at hc2 ⊢
            dsimp only at hc2
            subst hc2
            rw [(encode1 (hch c hc1)).2] at h2 ⊢
            simp only [List.cons_append, List.nil_append, List.cons.injEq] at h2
            exact ⟨rfl, h2.1⟩
        intro x hx
        rw [hw.1] at hx
        simp only [L.current] at hx
        have e2 : l.source.take (l.pos + 1) = l.source.take l.pos ++ [b] := by
          rw [List.take_add, hd]; rfl
        rw [e2, List.drop_append] at hx
        rcases List.mem_append.mp hx with hx | hx
        · exact hl x hx
        · have := List.mem_of_mem_drop hx
          simp only [List.mem_cons, List.not_mem_nil, or_false] at this
          rw [this, hw.2]
          exact hc1
      · simp only [rewind] at e
        cases e
        refine ⟨hs, fun x hx => hl x (current_drop (l' := { l with pos := max l.start (l.pos + (decodeRune b rest).2 - (encodeRune (decodeRune b rest).1).length) }) (l := l) rfl rfl ?_ x hx)⟩
        dsimp only
        have : (decodeRune b rest).2 ≤ (encodeRune (decodeRune b rest).1).length := by
          rcases decode_valid b rest with h | ⟨r, tail, h1, h2, h3⟩
          · rw [h]; decide
          · rw [h3]; exact Nat.le_refl _
        omega

theorem take_chars {chars : Bytes} (hch : ∀ b ∈ chars, b.toNat < 0x80) :
    Pc (fun l => Sent l ∧ l.current = []) (take chars) fun _ l => Sent l ∧ ∀ b ∈ l.current, b ∈ chars :=
  fun l hl a l' e => takeLoop_chars hch _ l ⟨hl.1, by rw [hl.2]; simp⟩ a l' e

theorem whitespace_fresh : Pc Sent grabWhitespace fun _ l => Sent l ∧ l.current = [] := by
  refine Pc.bind (Keeps.take _) fun _ => ?_
  intro l hl a l' e
  have e : (if l.current = [] then (Pure.pure false : Lx Bool) l else (do emit WHITESPACE; Pure.pure true : Lx Bool) l) = .ok a l' := by
    rw [← e]
    show _ = Lx.bind current _ l
    simp only [Lx.bind, current]
    split <;> rfl
  split at e
  · rename_i hc
    cases e
    exact ⟨hl, hc⟩
  · have hs := (Keeps.bind (Keeps.emit (List.mem_cons_self ..)) fun _ => Keeps.pure) l hl a l' e
    cases e
    refine ⟨hs, ?_⟩
    simp only [L.current]
    exact List.drop_eq_nil_iff.mpr (by simp; omega)

theorem Keeps.collate (esc : Nat → Nat) (n : Nat) : Keeps (sCollate esc n) := by
  unfold sCollate
  refine Pc.bind whitespace_fresh fun _ => Pc.bind (take_chars (by decide)) fun _ => ?_
  refine Pc.bind (Q := fun w l => Sent l ∧ ∀ b ∈ w, b ∈ upperChars ++ lowerChars ++ b!"_") ?_ fun word => ?_
  · rintro l ⟨h1, h2⟩ a l' e
    cases e
    exact ⟨h1, h2⟩
  have go : ∀ {m : Lx (Option St)}, Keeps m → Pc (fun l => Sent l ∧ ∀ b ∈ word, b ∈ upperChars ++ lowerChars ++ b!"_") m fun _ => Sent := fun h =>
    Pc.weaken h (fun l hl => hl.1) fun _ _ h => h
  refine Pc.ite (fun _ => go ?_) fun _ => Pc.ite (fun _ => go ?_) fun _ => Pc.ite (fun hw => ?_) fun _ => Pc.ite (fun hw => ?_) fun _ => go .pure
  · exact .bind (.emitTm (by decide)) fun _ => .bind (.must .whitespace) fun _ => .bind (.take _) fun _ => .bind .current fun _ =>
      .ite (.bind .error fun _ => .bind (.emitTm (by decide)) fun _ => .bind .newline fun _ => .pure)
        (.bind (.emitTm (by decide)) fun _ => .bind .newline fun _ => .pure)
  · exact .bind (.emitTm (by decide)) fun _ => .pure
  · rintro l ⟨-, hl⟩
    rw [hw] at hl
    exact absurd (hl 45 (by decide)) (by decide)
  · rintro l ⟨-, hl⟩
    rw [hw] at hl
    exact absurd (hl 45 (by decide)) (by decide)

theorem Keeps.call (esc : Nat → Nat) (n : Nat) (st : St) : Keeps (st.call esc n) := by
  cases st
  · exact .category
  · exact .generic _ _ _
  · exact .collate _ _
  · exact .orderStart
  · exact .order

theorem Keeps.runLoop (esc : Nat → Nat) (n k : Nat) (st : St) : Keeps (Locale.runLoop esc n k st) := by
  induction k generalizing st with
  | zero => exact Pc.hang
  | succ k ih =>
    refine .bind (.call _ _ _) fun a => ?_
    cases a with
    | none => exact .pure
    | some st => exact ih st

theorem lexText_sent {esc : Nat → Nat} {n : Nat} {src : Bytes} {u l} (h : lexText esc n src = .ok u l) : Sent l :=
  Keeps.runLoop esc n n .category _ (by intro t ht; cases ht) u l h

theorem sent_code_table : (Tm.list.all fun x => Tm.list.all fun y => x == y || x.code != y.code) = true := by decide +kernel

theorem sent_code_inj {x y : Tm} (h : x.code = y.code) : x = y := by
  have mem : ∀ z : Tm, z ∈ Tm.list := by intro z; cases z <;> decide
  have := List.all_eq_true.mp (List.all_eq_true.mp sent_code_table x (mem x)) y (mem y)
  simpa [h] using this

theorem FileTokens.sent {toks : List Tok} (h : FileTokens toks) : ∀ t ∈ toks, t.code ∈ sentCodes := by
  obtain ⟨n, input, l, h⟩ := h
  unfold newLexer at h
  split at h
  · cases h
  · rename_i text esc _
    split at h
    · rename_i u l' e
      cases h
      intro t ht
      exact lexText_sent e t (List.mem_filter.mp ht).1
    · cases h
    · cases h

/-- **C121** (the property is false) Whatever the file, none of these tokens is sent. -/
theorem C121_never_sent (toks : List Tok) (h : FileTokens toks) (t : Tok) (ht : t ∈ toks) (x : Tm) (hx : x ∈ neverSent) : t.code ≠ x.code := by
  intro e
  have := h.sent t ht
  rw [e] at this
  simp only [sentCodes, List.mem_cons, List.mem_map, List.mem_filter] at this
  rcases this with h | ⟨y, ⟨-, hy⟩, he⟩
  · exact absurd h (by cases x <;> decide)
  · rw [sent_code_inj he] at hy
    simp [hx] at hy

theorem by_usable {ss : List Sym} {ts : List Tok} {d d' : Def} {vs : List Bytes} (h : Derives ss ts d vs d')
    (hs : ∀ t ∈ ts, ∀ x ∈ neverSent, t.code ≠ x.code) :
    DerivesBy (grammar.filter fun p => !p.unusable) ss ts d vs d' ∧ ∀ x ∈ neverSent, Sym.t x ∉ ss := by
  induction h with
  | nil d => exact ⟨.nil d, by simp⟩
  | tm x v ss ts d d' vs _ ih =>
    obtain ⟨h1, h2⟩ := ih fun t ht => hs t (by simp [ht])
    refine ⟨.tm x v ss ts d d' vs h1, ?_⟩
    intro y hy hm
    rcases List.mem_cons.mp hm with e | hm
    · simp only [Sym.t.injEq] at e
      exact hs ⟨x.code, v⟩ (by simp) y hy (by rw [e])
    · exact h2 y hy hm
  | nt p hp ts ts' d d1 d2 d3 ws v ss vs _ hm _ ih ih' =>
    obtain ⟨h1, h2⟩ := ih fun t ht => hs t (by simp [ht])
    obtain ⟨h3, h4⟩ := ih' fun t ht => hs t (by simp [ht])
    refine ⟨.nt p ?_ ts ts' d d1 d2 d3 ws v ss vs h1 hm h3, ?_⟩
    · refine List.mem_filter.mpr ⟨hp, ?_⟩
      by_cases hu : p.unusable = true
      · simp only [Prod.unusable, List.any_eq_true, beq_iff_eq] at hu
        obtain ⟨s, hs1, x, hx, rfl⟩ := hu
        exact absurd hs1 (h2 x hx)
      · simp [hu]
    · intro x hx hm
      rcases List.mem_cons.mp hm with e | hm
      · cases e
      · exact h4 x hx hm

/-- **C121** If a file is accepted, it is derived without the productions that have such a token: no `copy`, no range, no
`UNDEFINED` and `IGNORE`, no collating elements and symbols, no classes of its own. -/
theorem C121_productions (toks : List Tok) (h : FileTokens toks) (handler : Bool) (d d' : Def) (ha : parse handler toks d = .ok (0, d')) :
    ∃ v, DerivesBy (grammar.filter fun p => !p.unusable) [.n .locale_definition] toks d [v] d' := by
  have hp : ∀ t ∈ toks, 0 < t.code := by
    intro t ht
    have := h.sent t ht
    simp only [sentCodes, List.mem_cons, List.mem_map] at this
    rcases this with h | ⟨y, -, he⟩
    · rw [h]; decide
    · rw [← he]; exact (yylex1_code y).2
  obtain ⟨v, hv⟩ := (C57_exact handler toks hp d d').mp ha
  exact ⟨v, (by_usable hv fun t ht x hx => C121_never_sent toks h t ht x hx).1⟩

/-- The productions that cannot be used. -/
example : (grammar.filter fun p => p.unusable).length = 31 := by decide +kernel

/-! ## All other tokens are sent -/

/-- Values with every kind of token. -/
def someVals : Grab → List Val
  | .charList => [.chars [b!"a", b!"b"]]
  | .charPairList => [.pairs [(b!"a", b!"A")]]
  | .stringList => [.strs [[97]]]
  | .string => [.str [97, 92, 49, 50, 51, 92, 100, 49, 50, 92, 120, 52, 49], .str []]
  | .int => [.int 1]
  | .intList => [.ints [3, 3]]
  | .msg => [.msg [121]]

/-- A section with every keyword. -/
def fullSection (c : Cat) : Section :=
  { cat := c, stmts := c.keywords.flatMap fun e => (someVals e.2).map fun v => { word := e.1, val := v } }

/-- A file with everything. -/
def fullFile : List Part :=
  .collate { gap := b!" ", dir := some .forward, names := [(b!"a", 0)] } :: .collate { gap := b!" ", dir := some .backward, names := [(b!"a", 0)] } ::
    .collate { gap := b!" ", dir := some .position, names := [(b!"a", 0)] } ::
    [Cat.ctype, .monetary, .numeric, .time, .messages].map fun c => .plain (fullSection c)

theorem someVals_ok (g : Grab) : ∀ v ∈ someVals g, v.grab = g ∧ v.WF := by
  intro v hv
  cases g <;> simp only [someVals, List.mem_cons, List.not_mem_nil, or_false] at hv
  · subst hv; exact ⟨rfl, by simp, by decide⟩
  · subst hv; exact ⟨rfl, by simp, by decide⟩
  · subst hv; exact ⟨rfl, by simp, by decide⟩
  · rcases hv with rfl | rfl
    · exact ⟨rfl, by show strOk _ = true; decide⟩
    · exact ⟨rfl, by show strOk _ = true; decide⟩
  · subst hv; exact ⟨rfl, trivial⟩
  · subst hv; exact ⟨rfl, by simp [Val.WF]⟩
  · subst hv
    refine ⟨rfl, ?_⟩
    intro r hr
    simp only [List.mem_cons, List.not_mem_nil, or_false] at hr
    subst hr
    refine ⟨by unfold ValidRune; omega, by decide, by decide⟩

theorem fullFile_wf : ∀ p ∈ fullFile, p.WF := by
  intro p hp
  simp only [fullFile, List.mem_cons, List.mem_map] at hp
  rcases hp with rfl | rfl | rfl | ⟨c, -, rfl⟩
  · exact ⟨by decide, by decide, by decide, by decide, by decide, by decide, by decide, by decide⟩
  · exact ⟨by decide, by decide, by decide, by decide, by decide, by decide, by decide, by decide⟩
  · exact ⟨by decide, by decide, by decide, by decide, by decide, by decide, by decide, by decide⟩
  · refine ⟨?_, show Blank [] by decide, show Blank b!" " by decide, show b!" " ≠ [] by decide, show Blank [] by decide⟩
    intro x hx
    simp only [fullSection, List.mem_flatMap, List.mem_map] at hx
    obtain ⟨e, he, v, hv, rfl⟩ := hx
    obtain ⟨h1, h2⟩ := someVals_ok _ v hv
    refine ⟨show Blank [] by decide, ?_, show Blank b!" " by decide, show b!" " ≠ [] by decide, h2⟩
    show (e.1, v.grab) ∈ _
    rw [h1]
    exact he

/-- **C121** All other tokens occur: the list is exact. -/
theorem C121_sent (x : Tm) (hx : x ∉ neverSent) : ∃ toks, FileTokens toks ∧ ∃ t ∈ toks, t.code = x.code := by
  have hl : ∀ l ∈ fullFile.flatMap Part.lines ++ [b!"x"], PlainLine l ∧ isComment l = false := by
    intro l hl
    rcases List.mem_append.mp hl with hl | hl
    · obtain ⟨p, hp, hl⟩ := List.mem_flatMap.mp hl
      exact part_lines_plain (fullFile_wf p hp) l hl
    · simp only [List.mem_cons, List.not_mem_nil, or_false] at hl
      subst hl
      exact ⟨⟨by decide, by decide, by decide, .inr (Solid.ends ⟨[], 120, rfl, by decide, by decide⟩)⟩, rfl⟩
  have hst := strip_comments (fullFile.flatMap Part.lines ++ [b!"x"]) fun l h => (hl l h).1
  have hf : (fullFile.flatMap Part.lines ++ [b!"x"]).filter (fun l => !isComment l) = fullFile.flatMap Part.lines ++ [b!"x"] :=
    List.filter_eq_self.mpr fun l h => by rw [(hl l h).2]; rfl
  rw [hf, unlines_append, ← parts_text_lines, List.append_assoc] at hst
  obtain ⟨N, hN⟩ := parts_whole fullFile fullFile_wf _ ⟨[], b!"x\n\n", rfl, by decide, ⟨by decide, by decide⟩, ⟨by decide, by decide⟩, by decide⟩ _ hst
  obtain ⟨l, h⟩ := hN N (Nat.le_refl _)
  refine ⟨_, ⟨N, _, l, h⟩, ?_⟩
  have tab : (Tm.list.all fun x => neverSent.contains x || (fullFile.flatMap Part.toks).any fun t => t.code == x.code) = true := by decide +kernel
  have := List.all_eq_true.mp tab x (by cases x <;> decide)
  rw [show neverSent.contains x = false by simpa using hx, Bool.false_or, List.any_eq_true] at this
  obtain ⟨t, h1, h2⟩ := this
  exact ⟨t, h1, by simpa using h2⟩

end Locale
