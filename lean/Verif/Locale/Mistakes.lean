import Verif.Locale.EndToEnd
import Verif.Locale.ErrorPlace

/-!
# Mistakes in a locale file (C119)

The lexer reports what it does not understand with `l.Error` (localelex.go:174, 279, 310, 342, 471, 483), and `NewLexer`
(localelex.go:544-552) sets no handler: go-lexer then panics, in the goroutine of the lexer, which nobody can recover.
This file describes mistakes in statements and proves that each of them ends the process.
-/

namespace Locale
open Go

/-! ## Specification -/

/-- The first characters of a value. -/
def Grab.first : Grab → Bytes
  | .charList => b!"<"
  | .charPairList => b!"("
  | .stringList | .string | .msg => b!"\""
  | .int | .intList => b!"-0123456789"

/-- A keyword with strings. -/
def Grab.strings (g : Grab) : Prop := g = .string ∨ g = .stringList

/-- A keyword with numbers. -/
def Grab.numbers (g : Grab) : Prop := g = .int ∨ g = .intList

/-- What can follow a backslash in a string. -/
def escapable (c : Nat) : Prop := c ∈ [44, 59, 60, 62, 92, 100, 120] ∨ 48 ≤ c ∧ c ≤ 57

/-- Texts, up to the end of the file, that do not begin with a value. -/
inductive BadValue : Grab → Bytes → Prop
  /-- It does not begin as a value does: `int_curr_symbol EUR`. -/
  | start {g b rest} : b.toNat < 0x80 → b ∉ g.first → BadValue g (b :: rest)
  /-- A string with a backslash and a character that cannot follow it: `"a\"b"`, `"\n"`. -/
  | escape {g s c rest} : g.strings → strOk s = true → ValidRune c → ¬ escapable c →
    BadValue g (34 :: (ofRunes s ++ 92 :: (encodeRune c ++ rest)))
  /-- A string without closing quote: `"EUR`. -/
  | unclosed {g s rest} : g.strings → strOk s = true → BadValue g (34 :: (ofRunes s ++ nl :: rest))
  /-- A sign without digits, or a sign inside a number of three characters or more: `-`, `1-2`. -/
  | number {g x rest} : g.numbers → (∀ b ∈ x, b ∈ b!"-0123456789") → x = b!"-" ∨ x.length > 2 ∧ 45 ∈ x.drop 1 →
    Stops b!"-0123456789" rest → BadValue g (x ++ rest)

/-- Texts, up to the end of the file, that begin with a statement with a mistake, in a section of a category. -/
inductive Mistake (c : Cat) : Bytes → Prop
  /-- A word that is no keyword of the category, or no word at all: `copy "POSIX"`, `1`. -/
  | keyword {lead word rest} : Blank lead → (∀ b ∈ word, b ∈ wordChars) → word ≠ b!"END" → (∀ g, (word, g) ∉ c.keywords) →
    Stops wordChars rest → Stops whiteSpace (word ++ rest) → Mistake c (lead ++ (word ++ rest))
  /-- A keyword without a blank after it. -/
  | glued {lead word g rest} : Blank lead → (word, g) ∈ c.keywords → Stops wordChars rest → Stops whiteSpace rest →
    Mistake c (lead ++ (word ++ rest))
  /-- A value that is none. -/
  | value {lead word g gap rest} : Blank lead → (word, g) ∈ c.keywords → Blank gap → gap ≠ [] → Stops whiteSpace rest → BadValue g rest →
    Mistake c (lead ++ (word ++ (gap ++ rest)))
  /-- Something after the value, for example a blank. -/
  | after {lead word gap rest} {v : Val} : Blank lead → (word, v.grab) ∈ c.keywords → Blank gap → gap ≠ [] → v.WF → Stops b!";" rest →
    Stops b!"-1234567890" rest → Stops newLine rest → Mistake c (lead ++ (word ++ (gap ++ (v.text ++ rest))))
  /-- After a semicolon in a list of names something that is no name: `<a>;...;<z>`. -/
  | item {lead word gap ns b rest} : Blank lead → (word, .charList) ∈ c.keywords → Blank gap → gap ≠ [] → (Val.chars ns).WF →
    b.toNat < 0x80 → b ≠ 60 → newLine.contains b = false → Mistake c (lead ++ (word ++ (gap ++ ((Val.chars ns).text ++ 59 :: b :: rest))))
  /-- The end of another category. -/
  | ending {lead gap name rest} : Blank lead → Blank gap → gap ≠ [] → (∀ b ∈ name, b ∈ upperChars) → name ≠ c.name →
    Stops upperChars rest → Stops whiteSpace (name ++ rest) → Mistake c (lead ++ (b!"END" ++ (gap ++ (name ++ rest))))

/-- The lines of a section as far as it is read: its header and statements. -/
def openLines (c : Cat) (k : Ends) (ss : List Stmt) : List Bytes := withEnds c.name k ++ ss.flatMap Stmt.lines

/-! ## Steps to a panic -/

/-- It panics. -/
def Panics {α : Type} (m : Lx α) (l : L) : Prop := ∃ p, m l = .panic p

theorem Runs.seq {α β : Type} {m : Lx α} {f : α → Lx β} {l : L} {a : α} {P : L → Prop} {Z : Res β → Prop}
    (h : Runs m l a P) (h' : ∀ l', P l' → Z (f a l')) : Z ((m >>= f) l) := by
  obtain ⟨l', h1, h2⟩ := h
  have := h' l' h2
  show Z (Lx.bind m f l)
  simp only [Lx.bind, h1]
  exact this

theorem Runs.panics {α β : Type} {m : Lx α} {f : α → Lx β} {l : L} {a : α} {P : L → Prop}
    (h : Runs m l a P) (h' : ∀ l', P l' → Panics (f a) l') : Panics (m >>= f) l := by
  obtain ⟨l', h1, h2⟩ := h
  obtain ⟨p, hp⟩ := h' l' h2
  exact ⟨p, by show Lx.bind m f l = _; simp only [Lx.bind, h1, hp]⟩

theorem Panics.bind {α β : Type} {m : Lx α} {f : α → Lx β} {l : L} (h : Panics m l) : Panics (m >>= f) l := by
  obtain ⟨p, hp⟩ := h
  exact ⟨p, by show Lx.bind m f l = _; simp only [Lx.bind, hp]⟩

theorem error_panics (l : L) : Panics error l := ⟨_, rfl⟩

theorem must_panics {g : Lx Bool} {l : L} {P : L → Prop} (h : Runs g l false P) : Panics (must g) l := by
  unfold must
  refine h.panics fun l1 _ => ?_
  rw [if_neg (by simp)]
  exact error_panics _

theorem Panics.must {g : Lx Bool} {l : L} (h : Panics g l) : Panics (Locale.must g) l := by
  unfold Locale.must
  exact h.bind

/-! ## Strings -/

theorem stringLoop_escape_then {c : Nat} (hc : ValidRune c) {n : Nat} {pre rest t l} {Z : Res Bool → Prop}
    (h : Pos pre [] (92 :: (encodeRune c ++ rest)) t l)
    (hk : ∀ l1, Pos pre [92] (encodeRune c ++ rest) t l1 →
      Z ((grabEscapeInString 92 >>= fun _ => stringLoop backslash n false) l1)) :
    Z (stringLoop backslash (n + 2) false l) := by
  simp only [stringLoop]
  refine (next_ascii (b := 92) (by decide) h).seq fun l1 h1 => ?_
  rw [if_neg (by simp), if_neg (by decide), if_neg (by decide), if_pos (by decide)]
  refine (next_rune hc h1.1).seq fun l2 h2 => ?_
  rw [if_pos trivial]
  refine (rewind_rune h2.1 h2.2).seq fun l3 h3 => ?_
  refine (position_spec h3.1).seq fun l4 h4 => ?_
  exact hk l4 h4

theorem stringLoop_then {rs : List Nat} {ts : List Tok} (hr : Content rs ts) {n : Nat} (hn : rs.length < n)
    {b : UInt8} (hb : b.toNat < 0x80) (hd : ¬ digitRune b.toNat) {Z : Res Bool → Prop}
    {pre rest t l} (h : Pos pre [] (ofRunes rs ++ b :: rest) t l)
    (hk : ∀ m l', n ≤ m + rs.length → Pos (pre ++ ofRunes rs) [] (b :: rest) (t ++ ts) l' → Z (stringLoop backslash m false l')) :
    Z (stringLoop backslash n false l) := by
  have e92 : encodeRune 92 = [92] := by decide
  induction hr generalizing n pre t l with
  | nil => exact hk n l (by simp) (by simpa [ofRunes] using h)
  | @plain r rs ts h1 _ ih =>
    cases n with
    | zero => simp at hn
    | succ n =>
      obtain ⟨v, e1, e2, e3⟩ := h1
      rw [ofRunes_cons, List.append_assoc] at h
      simp only [stringLoop]
      refine (next_rune v h).seq fun l1 h1 => ?_
      rw [if_neg (by simp), if_neg (by simpa using e1), if_neg (by simpa using e2), if_neg (by simpa using e3)]
      refine (emit_spec h1.1 _).seq fun l2 h2 => ?_
      refine ih (n := n) (by simp at hn; omega) h2 fun m l' hm h' => hk m l' (by simp; omega) ?_
      simpa [ofRunes] using h'
  | @quoted c rs ts hc _ ih =>
    obtain ⟨n, rfl⟩ : ∃ m, n = m + 2 := ⟨n - 2, by simp at hn; omega⟩
    refine stringLoop_escape_then (c := c) (by unfold ValidRune; omega) (rest := ofRunes rs ++ b :: rest) (by simpa [ofRunes, e92] using h) fun l1 k1 => ?_
    refine (grabEscape_quoted hc k1).seq fun l2 k2 => ?_
    refine ih (n := n) (by simp at hn; omega) k2 fun m l' hm h' => hk m l' (by simp; omega) ?_
    simpa [ofRunes] using h'
  | @octal c a a' rs ts hc ha hb _ ih =>
    obtain ⟨n, rfl⟩ : ∃ m, n = m + 2 := ⟨n - 2, by simp at hn; omega⟩
    refine stringLoop_escape_then (c := c) (digit_valid hc) (rest := encodeRune a ++ (encodeRune a' ++ (ofRunes rs ++ b :: rest)))
      (by simpa [ofRunes, e92] using h) fun l1 k1 => ?_
    refine (grabEscape_octal hc ha.1 hb.1 k1).seq fun l2 k2 => ?_
    refine ih (n := n) (by simp at hn; omega) k2 fun m l' hm h' => hk m l' (by simp; omega) ?_
    simpa [ofRunes] using h'
  | @hex a a' rs ts ha hb _ ih =>
    obtain ⟨n, rfl⟩ : ∃ m, n = m + 2 := ⟨n - 2, by simp at hn; omega⟩
    refine stringLoop_escape_then (c := 120) (by decide) (rest := encodeRune a ++ (encodeRune a' ++ (ofRunes rs ++ b :: rest)))
      (by simpa [ofRunes, e92] using h) fun l1 k1 => ?_
    refine (grabEscape_hex ha.1 hb.1 k1).seq fun l2 k2 => ?_
    refine ih (n := n) (by simp at hn; omega) k2 fun m l' hm h' => hk m l' (by simp; omega) ?_
    simpa [ofRunes] using h'
  | @dec3 a a' d rs ts ha hb hd' _ ih =>
    obtain ⟨n, rfl⟩ : ∃ m, n = m + 2 := ⟨n - 2, by simp at hn; omega⟩
    refine stringLoop_escape_then (c := 100) (by decide) (rest := encodeRune a ++ (encodeRune a' ++ (encodeRune d ++ (ofRunes rs ++ b :: rest))))
      (by simpa [ofRunes, e92] using h) fun l1 k1 => ?_
    refine (grabEscape_dec ha.1 hb.1 (digit_valid hd') k1).seq fun l2 k2 => ?_
    rw [if_pos hd'] at k2
    refine ih (n := n) (by simp at hn; omega) k2 fun m l' hm h' => hk m l' (by simp; omega) ?_
    simpa [ofRunes] using h'
  | @dec2 a a' rs ts ha hb' hd' hc ih =>
    obtain ⟨n, rfl⟩ : ∃ m, n = m + 2 := ⟨n - 2, by simp at hn; omega⟩
    obtain ⟨d, tl, v, k, e⟩ : ∃ d tl, ValidRune d ∧ ¬ digitRune d ∧ ofRunes rs ++ b :: rest = encodeRune d ++ tl := by
      cases rs with
      | nil => exact ⟨b.toNat, rest, (encode1 hb).1, hd, by rw [encode_ascii hb]; rfl⟩
      | cons d ds => exact ⟨d, _, (hc.runes d (by simp)).1, hd' d ds rfl, by rw [ofRunes_cons, List.append_assoc]⟩
    refine stringLoop_escape_then (c := 100) (by decide) (rest := encodeRune a ++ (encodeRune a' ++ (encodeRune d ++ tl)))
      (by simpa [ofRunes, e92, ← e] using h) fun l1 k1 => ?_
    refine (grabEscape_dec ha.1 hb'.1 v k1).seq fun l2 k2 => ?_
    rw [if_neg k, ← e] at k2
    refine ih (n := n) (by simp at hn; omega) k2 fun m l' hm h' => hk m l' (by simp; omega) ?_
    simpa [ofRunes] using h'

theorem grabString_then {rs : List Nat} {n : Nat} (hn : rs.length < n) (hr : strOk rs = true)
    {b : UInt8} (hb : b.toNat < 0x80) (hd : ¬ digitRune b.toNat) (hq : b ≠ 34) {Z : Res Bool → Prop}
    {pre rest t l} (h : Pos pre [] (34 :: (ofRunes rs ++ b :: rest)) t l)
    (hk : ∀ m pre' t' l', n ≤ m + rs.length → Pos pre' [] (b :: rest) t' l' → Z (stringLoop backslash m false l')) :
    Z (grabString backslash n l) := by
  unfold grabString
  refine (peek_ascii (b := 34) (by decide) h).seq fun l1 h1 => ?_
  rw [if_neg (by decide)]
  refine (next_ascii (b := 34) (by decide) h1).seq fun l2 h2 => ?_
  obtain ⟨d, tl, v, k, e⟩ : ∃ d tl, ValidRune d ∧ d ≠ 34 ∧ ofRunes rs ++ b :: rest = encodeRune d ++ tl := by
    cases rs with
    | nil =>
      refine ⟨b.toNat, rest, (encode1 hb).1, fun e => hq (UInt8.toNat_inj.mp e), by rw [encode_ascii hb]; rfl⟩
    | cons d ds => exact ⟨d, _, ((content_of_ok hr).runes d (by simp)).1, (content_of_ok hr).head, by rw [ofRunes_cons, List.append_assoc]⟩
  have h2 := h2.1
  rw [e] at h2
  refine (peek_rune v h2).seq fun l3 h3 => ?_
  rw [if_neg (by simpa using k)]
  refine (emit_spec h3 _).seq fun l4 h4 => ?_
  rw [← e] at h4
  exact stringLoop_then (content_of_ok hr) hn hb hd h4 fun m l' hm h' => hk m _ _ l' hm h'

theorem grabString_bad_escape {rs : List Nat} {n : Nat} (hn : rs.length + 1 < n) (hr : strOk rs = true) {c : Nat} (hc : ValidRune c)
    (he : ¬ escapable c) {pre rest t l} (h : Pos pre [] (34 :: (ofRunes rs ++ 92 :: (encodeRune c ++ rest))) t l) :
    Panics (grabString backslash n) l := by
  refine grabString_then (Z := fun r => ∃ p, r = .panic p) (by omega) hr (by decide) (by decide) (by decide) h fun m pre' t' l' hm h' => ?_
  obtain ⟨m, rfl⟩ : ∃ k, m = k + 2 := ⟨m - 2, by omega⟩
  refine stringLoop_escape_then (Z := fun r => ∃ p, r = .panic p) hc h' fun l1 k1 => ?_
  have : Panics (grabEscapeInString 92) l1 := by
    unfold escapable at he
    simp only [List.mem_cons, List.not_mem_nil, or_false] at he
    unfold grabEscapeInString
    refine (next_rune hc k1).panics fun l2 k2 => ?_
    rw [if_neg (by simp only [Option.some.injEq]; omega),
      if_neg (fun k => he (.inr (containsRune_digits.mp k))),
      if_neg (by simp only [Option.some.injEq]; omega), if_neg (by simp only [Option.some.injEq]; omega)]
    exact (error_panics _).bind
  exact this.bind

theorem grabString_unclosed {rs : List Nat} {n : Nat} (hn : rs.length + 1 < n) (hr : strOk rs = true)
    {pre rest t l} (h : Pos pre [] (34 :: (ofRunes rs ++ nl :: rest)) t l) : Panics (grabString backslash n) l := by
  refine grabString_then (Z := fun r => ∃ p, r = .panic p) (by omega) hr (by decide) (by decide) (by decide) h fun m pre' t' l' hm h' => ?_
  obtain ⟨m, rfl⟩ : ∃ k, m = k + 1 := ⟨m - 1, by omega⟩
  show Panics (stringLoop backslash (m + 1) false) l'
  simp only [stringLoop]
  refine (next_ascii (b := nl) (by decide) h').panics fun l1 h1 => ?_
  rw [if_neg (by simp), if_neg (by decide), if_pos (by decide)]
  exact (error_panics _).bind

/-! ## Values -/

theorem grabList_false {g : Lx Bool} {n : Nat} (hn : 0 < n) {l : L} {P : L → Prop} (h : Runs g l false P) :
    Runs (grabListLoop g n false) l false P := by
  obtain ⟨n, rfl⟩ : ∃ m, n = m + 1 := ⟨n - 1, by omega⟩
  simp only [grabListLoop]
  refine h.bind fun l1 h1 => ?_
  rw [if_neg (by simp)]
  exact Runs.pure h1

theorem grabList_panics {g : Lx Bool} {n : Nat} (hn : 0 < n) {l : L} (h : Panics g l) : Panics (grabListLoop g n false) l := by
  obtain ⟨n, rfl⟩ : ∃ m, n = m + 1 := ⟨n - 1, by omega⟩
  simp only [grabListLoop]
  exact h.bind

theorem ne_some {b c : UInt8} (h : b ≠ c) : some b.toNat ≠ some c.toNat := by
  simp only [ne_eq, Option.some.injEq]
  exact fun e => h (UInt8.toNat_inj.mp e)

theorem grabChar_not {b : UInt8} (hb : b.toNat < 0x80) (hne : b ≠ 60) {pre rest t l} (h : Pos pre [] (b :: rest) t l) :
    Runs grabChar l false (Pos pre [] (b :: rest) t) := by
  unfold grabChar
  refine (next_ascii hb h).bind fun l1 h1 => ?_
  rw [if_pos (show some b.toNat ≠ some 60 from ne_some (c := 60) hne)]
  refine (rewind_ascii hb h1.1 h1.2).bind fun l2 h2 => ?_
  exact Runs.pure h2

theorem grabCharPair_not {b : UInt8} (hb : b.toNat < 0x80) (hne : b ≠ 40) {pre rest t l} (h : Pos pre [] (b :: rest) t l) :
    Runs grabCharPair l false (Pos pre [] (b :: rest) t) := by
  unfold grabCharPair
  refine (next_ascii hb h).bind fun l1 h1 => ?_
  rw [if_pos (show some b.toNat ≠ some 40 from ne_some (c := 40) hne)]
  refine (rewind_ascii hb h1.1 h1.2).bind fun l2 h2 => ?_
  exact Runs.pure h2

theorem grabString_not {b : UInt8} (hb : b.toNat < 0x80) (hne : b ≠ 34) {n : Nat} {pre rest t l} (h : Pos pre [] (b :: rest) t l) :
    Runs (grabString backslash n) l false (Pos pre [] (b :: rest) t) := by
  unfold grabString
  refine (peek_ascii hb h).bind fun l1 h1 => ?_
  rw [if_pos (show some b.toNat ≠ some 34 from ne_some (c := 34) hne)]
  exact Runs.pure h1

theorem grabMsg_not {b : UInt8} (hb : b.toNat < 0x80) (hne : b ≠ 34) {n : Nat} {pre rest t l} (h : Pos pre [] (b :: rest) t l) :
    Runs (grabMsg n) l false (Pos pre [] (b :: rest) t) := by
  unfold grabMsg
  refine (next_ascii hb h).bind fun l1 h1 => ?_
  rw [if_pos (show some b.toNat ≠ some 34 from ne_some (c := 34) hne)]
  refine (rewind_ascii hb h1.1 h1.2).bind fun l2 h2 => ?_
  exact Runs.pure h2

theorem intChars_same (b : UInt8) : b ∈ b!"-0123456789" ↔ b ∈ b!"-1234567890" := by
  simp only [List.mem_cons, List.not_mem_nil, or_false]
  constructor <;> grind

theorem intChars_stops {rest : Bytes} (h : Stops b!"-0123456789" rest) : Stops b!"-1234567890" rest := by
  cases rest with
  | nil => trivial
  | cons b rest =>
    refine ⟨h.1, ?_⟩
    have := h.2
    simp only [List.contains_eq_mem, decide_eq_false_iff_not] at this ⊢
    exact fun k => this ((intChars_same b).mpr k)

theorem grabInt_not {b : UInt8} (hb : b.toNat < 0x80) (hne : b ∉ b!"-0123456789") {pre rest t l} (h : Pos pre [] (b :: rest) t l) :
    Runs grabInt l false (Pos pre [] (b :: rest) t) := by
  unfold grabInt
  refine (take_spec (x := []) intChars_ascii (by simp) (intChars_stops (rest := b :: rest) ⟨hb, by simpa using hne⟩) h).bind fun l1 k1 => ?_
  refine (current_spec k1).bind fun l2 k2 => ?_
  rw [if_pos (by simp)]
  exact Runs.pure k2

theorem grabInt_panics {x rest pre t l} (hx : ∀ b ∈ x, b ∈ b!"-0123456789") (hb : x = b!"-" ∨ x.length > 2 ∧ 45 ∈ x.drop 1)
    (hs : Stops b!"-0123456789" rest) (h : Pos pre [] (x ++ rest) t l) : Panics grabInt l := by
  unfold grabInt
  refine (take_spec intChars_ascii (fun b h => (intChars_same b).mp (hx b h)) (intChars_stops hs) h).panics fun l1 k1 => ?_
  refine (current_spec k1).panics fun l2 k2 => ?_
  have hne : x ≠ [] := by
    rcases hb with rfl | hb
    · simp
    · rintro rfl; simp at hb
  rw [if_neg (by simpa using hne), if_pos (by simpa using hb)]
  exact (error_panics _).bind

theorem badValue_panics {g : Grab} {text : Bytes} (hb : BadValue g text) : ∃ N, ∀ n, N ≤ n → ∀ pre t l, Pos pre [] text t l →
    Panics (must (g.run backslash n)) l := by
  cases hb with
  | @start b rest h1 h2 =>
    refine ⟨1, fun n hn pre t l h => ?_⟩
    have hn : 0 < n := hn
    cases g with
    | charList => exact must_panics (grabList_false hn (grabChar_not h1 (by simpa [Grab.first] using h2) h))
    | stringList => exact must_panics (grabList_false hn (grabString_not h1 (by simpa [Grab.first] using h2) h))
    | charPairList => exact must_panics (grabList_false hn (grabCharPair_not h1 (by simpa [Grab.first] using h2) h))
    | string => exact must_panics (grabString_not h1 (by simpa [Grab.first] using h2) h)
    | int => exact must_panics (grabInt_not h1 h2 h)
    | intList => exact must_panics (grabList_false hn (grabInt_not h1 h2 h))
    | msg => exact must_panics (grabMsg_not h1 (by simpa [Grab.first] using h2) h)
  | @escape s c rest hg h1 h2 h3 =>
    refine ⟨s.length + 2, fun n hn pre t l h => ?_⟩
    have := grabString_bad_escape (n := n) (by omega) h1 h2 h3 h
    rcases hg with rfl | rfl
    · exact this.must
    · exact (grabList_panics (by omega) this).must
  | @unclosed s rest hg h1 =>
    refine ⟨s.length + 2, fun n hn pre t l h => ?_⟩
    have := grabString_unclosed (n := n) (by omega) h1 h
    rcases hg with rfl | rfl
    · exact this.must
    · exact (grabList_panics (by omega) this).must
  | @number x rest hg h1 h2 h3 =>
    refine ⟨1, fun n hn pre t l h => ?_⟩
    have := grabInt_panics h1 h2 h3 h
    rcases hg with rfl | rfl
    · exact this.must
    · exact (grabList_panics hn this).must

theorem grabNewline_none {pre rest t l} (hs : Stops newLine rest)
    (h : Pos pre [] rest t l) : Runs grabNewline l false (Pos pre [] rest t) := by
  unfold grabNewline
  refine (take_spec (x := []) newLine_ascii (by simp) hs h).bind fun l1 h1 => ?_
  refine (current_spec h1).bind fun l2 h2 => ?_
  rw [if_pos (by simp)]
  exact Runs.pure h2

theorem charList_open {b : UInt8} (hb : b.toNat < 0x80) (hne : b ≠ 60) (ns : List Bytes) (hne' : ns ≠ [])
    (hs : ∀ x ∈ ns, ∀ b ∈ x, b ∈ nameChars) {n : Nat} (hn : ns.length < n) (ok : Bool) {pre rest t l}
    (h : Pos pre [] (semiText (ns.map charText) ++ 59 :: b :: rest) t l) :
    Runs (grabListLoop grabChar n ok) l true fun l' => ∃ pre' t', Pos pre' [] (b :: rest) t' l' := by
  induction ns generalizing n ok pre t l with
  | nil => exact absurd rfl hne'
  | cons x ns ih =>
    obtain ⟨n, rfl⟩ : ∃ m, n = m + 1 := ⟨n - 1, by omega⟩
    simp only [grabListLoop]
    cases ns with
    | nil =>
      obtain ⟨n, rfl⟩ : ∃ m, n = m + 1 := ⟨n - 1, by simp at hn; omega⟩
      refine (grabChar_spec (hs x (by simp)) (by simpa [semiText, charText] using h)).bind fun l1 h1 => ?_
      rw [if_pos rfl]
      refine (next_ascii (b := 59) (by decide) h1).bind fun l2 h2 => ?_
      rw [if_pos (by decide)]
      refine (emit_spec h2.1 _).bind fun l3 h3 => ?_
      simp only [grabListLoop]
      refine (grabChar_not hb hne h3).bind fun l4 h4 => ?_
      rw [if_neg (by simp)]
      exact Runs.pure ⟨_, _, h4⟩
    | cons y ns =>
      refine (grabChar_spec (rest := 59 :: (semiText ((y :: ns).map charText) ++ 59 :: b :: rest)) (hs x (by simp))
        (by simpa [semiText, charText] using h)).bind fun l1 h1 => ?_
      rw [if_pos rfl]
      refine (next_ascii (b := 59) (by decide) h1).bind fun l2 h2 => ?_
      rw [if_pos (by decide)]
      refine (emit_spec h2.1 _).bind fun l3 h3 => ?_
      exact ih (by simp) (fun z hz => hs z (by simp [hz])) (n := n) (by simp at hn ⊢; omega) true h3

/-! ## Statements -/

theorem keyword_mem {c : Cat} {word : Bytes} {g : Grab} (h : (word, g) ∈ c.keywords) : (∀ b ∈ word, b ∈ wordChars) ∧ word ≠ b!"END" ∧ word ≠ [] ∧
    ∃ e ∈ c.map, e.2.2 = g ∧ c.map.find? (fun x => x.1 == word) = some e := by
  have := List.all_eq_true.mp (keywords_table c) _ h
  simp only [List.any_eq_true, decide_eq_true_eq] at this
  obtain ⟨m, hm, h1, h2, -⟩ := this
  have hm' := List.all_eq_true.mp (map_ok c) _ hm
  simp only [decide_eq_true_eq] at hm'
  obtain ⟨m1, m2, m3, m4⟩ := hm'
  rw [← h1]
  exact ⟨m1, m2, m3, m, hm, h2, m4⟩

theorem unknown_word {c : Cat} {word : Bytes} (h : ∀ g, (word, g) ∉ c.keywords) : c.map.find? (fun x => x.1 == word) = none := by
  rw [List.find?_eq_none]
  intro e he
  have key : ∀ c : Cat, (c.map.all fun e => c.keywords.contains (e.1, e.2.2)) = true := by intro c; cases c <;> decide +kernel
  have := List.all_eq_true.mp (key c) e he
  intro k
  have k : e.1 = word := by simpa using k
  rw [List.contains_iff_mem, k] at this
  exact h _ this

/-- The beginning of a statement. -/
theorem sGeneric_word {c : Cat} {lead word rest : Bytes} (h1 : Blank lead) (h2 : ∀ b ∈ word, b ∈ wordChars) (h3 : Stops wordChars rest)
    (h4 : Stops whiteSpace (word ++ rest)) {n : Nat} {pre t l} (h : Pos pre [] (lead ++ (word ++ rest)) t l)
    {Z : Res (Option St) → Prop} (hk : ∀ pre' t' l', Pos pre' word rest t' l' → Z ((if word = b!"END" then do
        emit Tm.END_STR.code
        must grabWhitespace
        take upperChars
        let cur ← current
        if cur ≠ c.name then error else pure ()
        emit c.tm.code
        let _ ← grabWhitespace
        must grabNewline
        pure (some .category)
      else
        match c.map.find? (fun e => e.1 == word) with
        | some e => do
          emit e.2.1.code
          must grabWhitespace
          must (e.2.2.run backslash n)
          must grabNewline
          pure (some (.generic c))
        | none => do
          error
          pure (some (.generic c)) : Lx (Option St)) l')) :
    Z (sGeneric backslash n c l) := by
  unfold sGeneric
  obtain ⟨b, hb⟩ := grabWhitespace_any h1 h4 h
  refine hb.seq fun l1 k1 => ?_
  refine (take_spec (chars := wordChars) wordChars_ascii h2 h3 k1).seq fun l2 k2 => ?_
  refine (current_spec k2).seq fun l3 k3 => ?_
  exact hk _ _ l3 k3

theorem keyword_stops {c : Cat} {word : Bytes} {g : Grab} (h : (word, g) ∈ c.keywords) (x : Bytes) : Stops whiteSpace (word ++ x) := by
  obtain ⟨m1, -, m3, -⟩ := keyword_mem h
  exact (lettered_stops (lettered_of_word m1 m3).append).1

/-- The beginning of a statement with a keyword. -/
theorem sGeneric_keyword {c : Cat} {lead word rest : Bytes} {g : Grab} (h1 : Blank lead) (h2 : (word, g) ∈ c.keywords) (h3 : Stops wordChars rest)
    {n : Nat} {pre t l} (h : Pos pre [] (lead ++ (word ++ rest)) t l)
    (hk : ∀ pre' t' l', Pos pre' [] rest t' l' → Panics (must grabWhitespace >>= fun _ => must (g.run backslash n) >>= fun _ =>
      must grabNewline >>= fun _ => pure (some (St.generic c))) l') :
    Panics (sGeneric backslash n c) l := by
  obtain ⟨m1, m2, m3, e, he, rfl, hf⟩ := keyword_mem h2
  refine sGeneric_word (Z := fun r => ∃ p, r = .panic p) h1 m1 h3 (keyword_stops h2 _) h fun pre' t' l' h' => ?_
  rw [if_neg m2, hf]
  show Panics (_ >>= _) l'
  refine (emit_spec h' _).panics fun l1 k1 => ?_
  exact hk _ _ l1 k1

theorem mistake_panics {c : Cat} {text : Bytes} (hm : Mistake c text) : ∃ N, ∀ n, N ≤ n → ∀ pre t l, Pos pre [] text t l →
    Panics (sGeneric backslash n c) l := by
  cases hm with
  | @keyword lead word rest h1 h2 h3 h4 h5 h6 =>
    refine ⟨0, fun n _ pre t l h => ?_⟩
    refine sGeneric_word (Z := fun r => ∃ p, r = .panic p) h1 h2 h5 h6 h fun pre' t' l' h' => ?_
    rw [if_neg h3, unknown_word h4]
    exact (error_panics _).bind
  | @glued lead word g rest h1 h2 h3 h4 =>
    refine ⟨0, fun n _ pre t l h => ?_⟩
    refine sGeneric_keyword h1 h2 h3 h fun pre' t' l' h' => ?_
    exact (must_panics (grabWhitespace_none h4 h')).bind
  | @value lead word g gap rest h1 h2 h3 h4 h5 h6 =>
    obtain ⟨N, hN⟩ := badValue_panics h6
    refine ⟨N, fun n hn pre t l h => ?_⟩
    refine sGeneric_keyword h1 h2 (blank_stops h3 h4 _ (by decide)) h fun pre' t' l' h' => ?_
    refine (must_spec (grabWhitespace_some h3 h4 h5 h')).panics fun l1 k1 => ?_
    exact (hN n hn _ _ l1 k1).bind
  | @after lead word gap rest v h1 h2 h3 h4 h5 h6 h7 h8 =>
    refine ⟨v.size, fun n hn pre t l h => ?_⟩
    refine sGeneric_keyword h1 h2 (blank_stops h3 h4 _ (by decide)) h fun pre' t' l' h' => ?_
    refine (must_spec (grabWhitespace_some h3 h4 (val_starts h5 _) h')).panics fun l1 k1 => ?_
    refine (must_spec (val_lex h5 hn h6 h7 k1)).panics fun l2 k2 => ?_
    exact (must_panics (grabNewline_none h8 k2)).bind
  | @item lead word gap ns b rest h1 h2 h3 h4 h5 h6 h7 h8 =>
    refine ⟨ns.length + 1, fun n hn pre t l h => ?_⟩
    refine sGeneric_keyword h1 h2 (blank_stops h3 h4 _ (by decide)) h fun pre' t' l' h' => ?_
    refine (must_spec (grabWhitespace_some h3 h4 (val_starts h5 _) h')).panics fun l1 k1 => ?_
    refine (must_spec (charList_open h6 h7 ns h5.1 h5.2 hn false k1)).panics fun l2 k2 => ?_
    obtain ⟨pre2, t2, k2⟩ := k2
    exact (must_panics (grabNewline_none (rest := b :: rest) ⟨h6, h8⟩ k2)).bind
  | @ending lead gap name rest h1 h2 h3 h4 h5 h6 h7 =>
    refine ⟨0, fun n _ pre t l h => ?_⟩
    refine sGeneric_word (Z := fun r => ∃ p, r = .panic p) h1 (word := b!"END") (by decide) (blank_stops h2 h3 _ (by decide))
      ⟨by decide, by decide⟩ h fun pre' t' l' h' => ?_
    rw [if_pos rfl]
    show Panics (_ >>= _) l'
    refine (emit_spec h' _).panics fun l1 k1 => ?_
    refine (must_spec (grabWhitespace_some h2 h3 h7 k1)).panics fun l2 k2 => ?_
    refine (take_spec upperChars_ascii h4 h6 k2).panics fun l3 k3 => ?_
    refine (current_spec k3).panics fun l4 k4 => ?_
    rw [if_pos (by simpa using h5)]
    exact (error_panics _).bind

/-! ## Files -/

theorem stmts_then {c : Cat} {ss : List Stmt} (hs : ∀ s ∈ ss, s.WF c) {n : Nat} (hn : ∀ s ∈ ss, s.val.size ≤ n)
    {k : Nat} {pre rest t l} {Z : Res Unit → Prop} (hrest : Stops newLine rest)
    (h : Pos pre [] (ss.flatMap Stmt.text ++ rest) t l)
    (hk : ∀ l', Pos (pre ++ ss.flatMap Stmt.text) [] rest (t ++ ss.flatMap Stmt.sent) l' → Z (runLoop backslash n k (.generic c) l')) :
    Z (runLoop backslash n (ss.length + k) (.generic c) l) := by
  induction ss generalizing pre t l with
  | nil =>
    simp only [List.length_nil, Nat.zero_add]
    exact hk l (by simpa using h)
  | cons s ss ih =>
    rw [show (s :: ss).length + k = (ss.length + k) + 1 by simp; omega]
    simp only [runLoop, St.call]
    simp only [List.flatMap_cons, List.append_assoc] at h
    have hst : Stops newLine (ss.flatMap Stmt.text ++ rest) := by
      cases ss with
      | nil => exact hrest
      | cons s' ss' =>
        have w1 := (hs s' (by simp)).1
        have hm := List.all_eq_true.mp (map_ok c) _ (hs s' (by simp)).mem
        simp only [decide_eq_true_eq] at hm
        simp only [List.flatMap_cons, Stmt.text, Stmt.line, List.append_assoc]
        exact lead_stops w1 (lettered_of_word hm.1 hm.2.2.1).append
    refine (stmt_lex (hs s (by simp)) (hn s (by simp)) hst h).seq fun l1 k1 => ?_
    refine ih (fun x hx => hs x (by simp [hx])) (fun x hx => hn x (by simp [hx])) k1 (fun l' hl' => hk l' ?_)
    simpa using hl'

theorem stmts_stops {c : Cat} {ss : List Stmt} (hs : ∀ s ∈ ss, s.WF c) {rest : Bytes} (hrest : Stops newLine rest) :
    Stops newLine (ss.flatMap Stmt.text ++ rest) := by
  cases hss : ss with
  | nil => exact hrest
  | cons s' ss' =>
    have w1 := (hs s' (by simp [hss])).1
    have hm := List.all_eq_true.mp (map_ok c) _ (hs s' (by simp [hss])).mem
    simp only [decide_eq_true_eq] at hm
    simp only [List.flatMap_cons, Stmt.text, Stmt.line, List.append_assoc]
    exact lead_stops w1 (lettered_of_word hm.1 hm.2.2.1).append

theorem section_then {s : Section} (hs : s.WF) {n : Nat} (hn : ∀ x ∈ s.stmts, x.val.size ≤ n)
    {k : Nat} {pre rest t l} {Z : Res Unit → Prop} (hrest : Stops newLine rest) (h : Pos pre [] (s.text ++ rest) t l)
    (hk : ∀ l', Pos (pre ++ s.text) [] rest (t ++ s.sent) l' → Z (runLoop backslash n k .category l')) :
    Z (runLoop backslash n (s.stmts.length + (k + 1) + 1) .category l) := by
  rw [runLoop]
  simp only [St.call]
  simp only [Section.text, List.append_assoc] at h
  have hend : Stops newLine (s.endLine ++ (lineEnd s.endAfter ++ rest)) := by
    simp only [Section.endLine, List.append_assoc]
    exact lead_stops hs.2.1 (by show (69 : UInt8) ∈ wordChars; decide)
  refine (header_lex (stmts_stops hs.1 hend) h).seq fun l1 k1 => ?_
  refine stmts_then hs.1 hn hend k1 fun l2 k2 => ?_
  rw [runLoop]
  simp only [St.call]
  refine (end_lex hs hrest (by simpa using k2)).seq fun l3 k3 => ?_
  refine hk l3 ?_
  simpa [Section.text, Section.sent] using k3

theorem name_stops (c : Cat) (x : Bytes) : Stops newLine (c.name ++ x) := by
  have hl : Lettered c.name := by cases c <;> (simp only [Cat.name, Lettered]; decide)
  exact (lettered_stops hl.append).2

theorem file_then (f : List Section) (hf : ∀ s ∈ f, s.WF) (n : Nat) (hn : ∀ s ∈ f, ∀ x ∈ s.stmts, x.val.size ≤ n)
    {rest : Bytes} (hr : Stops newLine rest) {k pre t l} (h : Pos pre [] (fileText f ++ rest) t l) {Z : Res Unit → Prop}
    (hk : ∀ pre' t' l', Pos pre' [] rest t' l' → Z (runLoop backslash n k .category l')) :
    Z (runLoop backslash n (fileRounds f + k) .category l) := by
  induction f generalizing pre t l with
  | nil =>
    simp only [fileRounds, List.map_nil, List.sum_nil, Nat.zero_add]
    exact hk _ _ l (by simpa [fileText] using h)
  | cons s f ih =>
    have e : fileRounds (s :: f) + k = s.stmts.length + ((fileRounds f + k) + 1) + 1 := by
      simp [fileRounds]; omega
    rw [e]
    simp only [fileText, List.flatMap_cons, List.append_assoc] at h
    have hst : Stops newLine (fileText f ++ rest) := by
      cases f with
      | nil => exact hr
      | cons s' f =>
        simp only [fileText, List.flatMap_cons, Section.text, List.append_assoc]
        exact name_stops _ _
    refine section_then (hf s (by simp)) (hn s (by simp)) hst h fun l' h' => ?_
    exact ih (fun x hx => hf x (by simp [hx])) (fun x hx => hn x (by simp [hx])) h'

/-- **C119** (the property is false) A mistake in a statement ends the process: whatever complete sections and correct
statements come before it and whatever comes after it, the goroutine of the lexer panics. -/
theorem C119_crash (f : List Section) (hf : ∀ s ∈ f, s.WF) (c : Cat) (k : Ends) (ss : List Stmt) (hs : ∀ s ∈ ss, s.WF c)
    (line : Bytes) (more : List Bytes) (hm : Mistake c (unlines (line :: more) ++ [nl])) (hst : Stops newLine (unlines (line :: more) ++ [nl]))
    (lines : List Bytes) (hc : ∀ l ∈ lines, isComment l = true ∨ l ∈ line :: more → PlainLine l)
    (hl : lines.filter (fun l => !isComment l) = fileLines f ++ (openLines c k ss ++ line :: more)) :
    ∃ N, ∀ n, N ≤ n → ∃ p, newLexer n (unlines lines) = .panic p := by
  have wf : Section.WF { cat := c, after := k, stmts := ss } := ⟨hs, (by intro b hb; cases hb), (show Blank b!" " by decide), (show b!" " ≠ [] by decide), (by intro b hb; cases hb)⟩
  have hall : ∀ l ∈ lines, PlainLine l := by
    intro l hm
    by_cases hcl : isComment l = true
    · exact hc l hm (.inl hcl)
    · have : l ∈ fileLines f ++ (openLines c k ss ++ line :: more) := by rw [← hl]; simp [hm, hcl]
      rcases List.mem_append.mp this with h | h
      · exact (file_lines_plain hf l h).1
      rcases List.mem_append.mp h with h | h
      · refine (file_lines_plain (f := [{ cat := c, after := k, stmts := ss }]) (by simpa using wf) l ?_).1
        simp only [fileLines, List.flatMap_cons, List.flatMap_nil, List.append_nil, Section.lines, openLines, List.mem_append] at h ⊢
        rcases h with h | h
        · exact .inl h
        · exact .inr (.inl h)
      · exact hc l hm (.inr h)
  have hst' := strip_comments lines hall
  have e : unlines (openLines c k ss) = c.name ++ (lineEnd k ++ ss.flatMap Stmt.text) := by
    have st : ∀ s : Stmt, s.text = unlines s.lines := by
      intro s
      rw [Stmt.lines, unlines_ends, Stmt.text]
    have sts : ∀ ss : List Stmt, ss.flatMap Stmt.text = unlines (ss.flatMap Stmt.lines) := by
      intro ss
      induction ss with
      | nil => rfl
      | cons s ss ih => simp only [List.flatMap_cons, unlines_append, ← st, ih]
    rw [sts]
    simp [openLines, unlines_ends, unlines_append]
  rw [hl, unlines_append, unlines_append, ← fileText_lines, e] at hst'
  obtain ⟨N, hN⟩ := mistake_panics hm
  have hsz : ∃ M, (∀ s ∈ f, ∀ x ∈ s.stmts, x.val.size ≤ M) ∧ ∀ x ∈ ss, x.val.size ≤ M := by
    refine ⟨(f.map fun s => (s.stmts.map fun x => x.val.size).sum).sum + (ss.map fun x => x.val.size).sum, ?_, ?_⟩
    · intro s hs x hx
      have h1 := mem_sum_le (xs := s.stmts.map fun x => x.val.size) (List.mem_map.mpr ⟨x, hx, rfl⟩)
      have h2 := mem_sum_le (xs := f.map fun s => (s.stmts.map fun x => x.val.size).sum) (List.mem_map.mpr ⟨s, hs, rfl⟩)
      omega
    · intro x hx
      have h1 := mem_sum_le (xs := ss.map fun x => x.val.size) (List.mem_map.mpr ⟨x, hx, rfl⟩)
      omega
  obtain ⟨M, hM1, hM2⟩ := hsz
  refine ⟨N + M + (fileRounds f + (ss.length + 2)), fun n hn => ?_⟩
  obtain ⟨j, hj⟩ : ∃ j, n = fileRounds f + ((ss.length + (j + 1)) + 1) := ⟨n - fileRounds f - ss.length - 2, by omega⟩
  unfold newLexer
  rw [hst']
  simp only [lexText]
  have key : Panics (runLoop backslash n (fileRounds f + ((ss.length + (j + 1)) + 1)) .category)
      { source := fileText f ++ (c.name ++ (lineEnd k ++ ss.flatMap Stmt.text) ++ unlines (line :: more)) ++ [nl] } := by
    refine file_then (Z := fun r => ∃ p, r = .panic p) f hf n (fun s hs x hx => Nat.le_trans (hM1 s hs x hx) (by omega))
      (rest := c.name ++ (lineEnd k ++ (ss.flatMap Stmt.text ++ (unlines (line :: more) ++ [nl])))) (name_stops _ _)
      (pre := []) (t := []) ⟨by simp, rfl, rfl, rfl⟩ fun pre' t' l' h' => ?_
    rw [runLoop]
    simp only [St.call]
    show Panics (_ >>= _) l'
    refine (header_lex (stmts_stops hs hst) h').panics fun l1 k1 => ?_
    refine stmts_then (Z := fun r => ∃ p, r = .panic p) hs (fun x hx => Nat.le_trans (hM2 x hx) (by omega)) hst k1 fun l2 k2 => ?_
    rw [runLoop]
    simp only [St.call]
    show Panics (_ >>= _) l2
    exact (hN n (by omega) _ _ l2 k2).bind
  rw [← hj] at key
  obtain ⟨p, hp⟩ := key
  exact ⟨p, by rw [show (fun _ => 92) = backslash from rfl, hp]⟩

/-! ## What is reported -/

/-- The numbers in the statement fit an `int`. -/
def Val.Fits : Val → Prop
  | .int i => FitsInt i
  | .ints is => ∀ i ∈ is, FitsInt i
  | _ => True

theorem val_numbers {v : Val} (h : v.Fits) : ∀ t ∈ v.toks, t.code = Tm.NUMBER.code → ∃ i, atoi? t.val = some i := by
  have semi : ∀ xs : List (List Tok), (∀ x ∈ xs, ∀ t ∈ x, t.code = Tm.NUMBER.code → ∃ i, atoi? t.val = some i) →
      ∀ t ∈ semiToks xs, t.code = Tm.NUMBER.code → ∃ i, atoi? t.val = some i := by
    intro xs h
    induction xs with
    | nil => simp [semiToks]
    | cons x xs ih =>
      cases xs with
      | nil => exact h x (by simp)
      | cons y ys =>
        intro t ht
        simp only [semiToks, List.mem_append, List.mem_cons] at ht
        rcases ht with ht | rfl | ht
        · exact h x (by simp) t ht
        · intro hc; exact absurd hc (by decide)
        · exact ih (fun z hz => h z (by simp [hz])) t ht
  have str : ∀ s : List Nat, ∀ t ∈ strToks s, t.code = Tm.NUMBER.code → ∃ i, atoi? t.val = some i := by
    intro s t ht hc
    exfalso
    unfold strToks at ht
    split at ht
    · simp only [List.mem_cons, List.not_mem_nil, or_false] at ht
      rw [ht] at hc; exact absurd hc (by decide)
    · simp only [List.mem_cons, List.mem_append, List.not_mem_nil, or_false] at ht
      rcases ht with rfl | ht | rfl
      · exact absurd hc (by decide)
      · rcases charToks_code s t ht with e | e | e | e <;> (rw [e] at hc; exact absurd hc (by decide))
      · exact absurd hc (by decide)
  cases v with
  | chars ns =>
    refine semi _ ?_
    intro x hx
    obtain ⟨y, -, rfl⟩ := List.mem_map.mp hx
    intro t ht hc
    simp only [List.mem_cons, List.not_mem_nil, or_false] at ht
    subst ht
    exact absurd hc (by dsimp only; decide)
  | pairs ps =>
    refine semi _ ?_
    intro x hx
    obtain ⟨y, -, rfl⟩ := List.mem_map.mp hx
    intro t ht hc
    simp only [pairToks, List.mem_cons, List.not_mem_nil, or_false] at ht
    rcases ht with rfl | rfl | rfl | rfl | rfl <;> exact absurd hc (by dsimp only; decide)
  | strs ss =>
    refine semi _ ?_
    intro x hx
    obtain ⟨y, -, rfl⟩ := List.mem_map.mp hx
    exact str y
  | str s => exact str s
  | int i =>
    intro t ht _
    simp only [Val.toks, List.mem_cons, List.not_mem_nil, or_false] at ht
    subst ht
    exact ⟨i, atoi?_itoa h⟩
  | ints is =>
    refine semi _ ?_
    intro x hx
    obtain ⟨y, hy, rfl⟩ := List.mem_map.mp hx
    intro t ht _
    simp only [List.mem_cons, List.not_mem_nil, or_false] at ht
    subst ht
    exact ⟨y, atoi?_itoa (h y hy)⟩
  | msg s =>
    intro t ht hc
    simp only [Val.toks, List.mem_cons, List.not_mem_nil, or_false] at ht
    rcases ht with rfl | rfl | rfl <;> exact absurd hc (by dsimp only; decide)

theorem section_toks_ok {s : Section} (hs : s.WF) (hn : ∀ x ∈ s.stmts, x.val.Fits) :
    (∀ t ∈ s.toks, 0 < t.code) ∧ NumbersOK s.toks := by
  have kw : ∀ (c : Cat) (x : Stmt), x.WF c → x.tm.code ≠ Tm.NUMBER.code := by
    intro c x hx
    have := List.all_eq_true.mp (kw_table c) _ hx.mem
    simp only [decide_eq_true_eq] at this
    exact this.1
  have key : ∀ t ∈ s.toks, (∃ x : Tm, t.code = x.code) ∧ (t.code = Tm.NUMBER.code → (∃ i, atoi? t.val = some i) ∧ 59 ∉ t.val) := by
    intro t ht
    have fixed : ∀ (x : Tm) v, x.code ≠ Tm.NUMBER.code → t = ⟨x.code, v⟩ →
        (∃ x : Tm, t.code = x.code) ∧ (t.code = Tm.NUMBER.code → (∃ i, atoi? t.val = some i) ∧ 59 ∉ t.val) := by
      rintro x v h rfl
      exact ⟨⟨x, rfl⟩, fun hc => absurd hc h⟩
    simp only [Section.toks, List.mem_cons, List.mem_append, List.mem_flatMap, List.not_mem_nil, or_false] at ht
    rcases ht with h | h | ⟨x, hx, h⟩ | h | h | h
    · exact fixed _ _ (by cases s.cat <;> decide) h
    · exact fixed .EOL _ (by decide) h
    · simp only [Stmt.toks, List.mem_cons, List.mem_append, List.not_mem_nil, or_false] at h
      rcases h with h | h | h
      · exact fixed _ _ (kw _ x (hs.1 x hx)) h
      · exact ⟨(val_toks_ok x.val).1 t h, fun hc => ⟨val_numbers (hn x hx) t h hc, (val_toks_ok x.val).2.2 t h hc⟩⟩
      · exact fixed .EOL _ (by decide) h
    · exact fixed .END_STR _ (by decide) h
    · exact fixed _ _ (by cases s.cat <;> decide) h
    · exact fixed .EOL _ (by decide) h
  refine ⟨fun t ht => ?_, fun t ht => (key t ht).2⟩
  obtain ⟨x, hx⟩ := (key t ht).1
  rw [hx]
  exact (yylex1_code x).2

/-- **C119** (partial) If every statement has a keyword of its section and a value of the right kind, nothing panics:
`Parse` with a handler returns 0 or 1, and it returns 1 exactly when it has reported a syntax error, which it does exactly
when the tokens are no locale definition. -/
theorem C119_reported_partial (f : List Section) (hne : f ≠ []) (hf : ∀ s ∈ f, s.WF) (hn : ∀ s ∈ f, ∀ x ∈ s.stmts, x.val.Fits)
    (lines : List Bytes) (hc : ∀ l ∈ lines, isComment l = true → PlainLine l)
    (hl : lines.filter (fun l => !isComment l) = fileLines f) (d : Def) :
    ∃ N, ∀ n, N ≤ n → ∃ toks l, newLexer n (unlines lines) = .ok toks l ∧
      ((Whole toks ∧ ∃ d', parse true toks d = .ok (0, d')) ∨ ((∃ k, ErrorAt toks d k ∧ FirstWrong toks k) ∧ ∃ d', parse true toks d = .ok (1, d'))) := by
  have hall : ∀ l ∈ lines, PlainLine l := by
    intro l hm
    by_cases hcl : isComment l = true
    · exact hc l hm hcl
    · refine (file_lines_plain hf l ?_).1
      rw [← hl]
      simp [hm, hcl]
  have hst := strip_comments lines hall
  rw [hl, ← fileText_lines] at hst
  obtain ⟨g, s, rfl⟩ : ∃ g s, f = g ++ [s] := ⟨f.dropLast, f.getLast hne, (List.dropLast_concat_getLast hne).symm⟩
  have e : fileText (g ++ [s]) ++ [nl] = fileText (g ++ [{ s with endAfter := s.endAfter.more }]) ++ [] := by
    simp [fileText, Section.text, lineEnd_more, Section.endLine]
  rw [e] at hst
  have hf' : ∀ x ∈ g ++ [{ s with endAfter := s.endAfter.more }], x.WF ∧ ∀ y ∈ x.stmts, y.val.Fits := by
    intro x hx
    rcases List.mem_append.mp hx with hx | hx
    · exact ⟨hf x (by simp [hx]), hn x (by simp [hx])⟩
    · simp only [List.mem_cons, List.not_mem_nil, or_false] at hx
      subst hx
      exact ⟨hf s (by simp), hn s (by simp)⟩
  obtain ⟨N, hN⟩ := file_whole _ (fun x hx => (hf' x hx).1) [] foreign_nil (unlines lines) hst
  refine ⟨N, fun n hn => ?_⟩
  obtain ⟨l, h1⟩ := hN n hn
  refine ⟨_, l, h1, ?_⟩
  generalize hT : (g ++ [{ s with endAfter := s.endAfter.more }]).flatMap Section.toks = T at *
  have hp : ∀ t ∈ T, 0 < t.code := by
    intro t ht
    rw [← hT] at ht
    obtain ⟨x, hx, ht⟩ := List.mem_flatMap.mp ht
    exact (section_toks_ok (hf' x hx).1 (hf' x hx).2).1 t ht
  have hnum : NumbersOK T := by
    intro t ht
    rw [← hT] at ht
    obtain ⟨x, hx, ht⟩ := List.mem_flatMap.mp ht
    exact (section_toks_ok (hf' x hx).1 (hf' x hx).2).2 t ht
  obtain ⟨x1, x2⟩ := C117_exact T hp hnum d
  have x3 := (C117_result T hp d).1
  by_cases hw : Whole T
  · refine .inl ⟨hw, ?_⟩
    have no : ¬∃ d', parse true T d = .ok (1, d') := by
      intro h
      obtain ⟨k, hk⟩ := x3.mp h
      exact x2.mp ⟨k, (x1 k).mp hk⟩ hw
    obtain ⟨r, hr, h2⟩ := C58_stops true T d
    have hpar := parse_eq hr
    rcases h2 with ⟨d', rfl⟩ | ⟨d', rfl, -⟩ | rfl
    · exact ⟨d', hpar⟩
    · exact absurd ⟨d', hpar⟩ no
    · exact absurd hpar (no_panic hp hnum d)
  · obtain ⟨k, hk⟩ := x2.mpr hw
    exact .inr ⟨⟨k, (x1 k).mpr hk, hk⟩, x3.mpr ⟨k, (x1 k).mpr hk⟩⟩

/-! ## The hypotheses can be met -/

instance (chars : Bytes) : (x : Bytes) → Decidable (Stops chars x)
  | [] => .isTrue trivial
  | b :: _ => inferInstanceAs (Decidable (b.toNat < 0x80 ∧ chars.contains b = false))

theorem no_keyword {c : Cat} {w : Bytes} (h : (c.keywords.all fun e => decide (e.1 ≠ w)) = true) : ∀ g, (w, g) ∉ c.keywords := by
  intro g hg
  have := List.all_eq_true.mp h _ hg
  simp at this

/-- `copy "POSIX"` -/
example : Mistake .ctype (unlines [b!"copy \"POSIX\"", b!"END LC_CTYPE"] ++ [nl]) :=
  .keyword (lead := []) (word := b!"copy") (rest := b!" \"POSIX\"\nEND LC_CTYPE\n\n") (by decide) (by decide) (by decide)
    (no_keyword (by decide +kernel)) (by decide) (by decide)

/-- A line of blanks. -/
example : Mistake .ctype (unlines [b!"  ", b!"END LC_CTYPE"] ++ [nl]) :=
  .keyword (lead := b!"  ") (word := []) (rest := b!"\nEND LC_CTYPE\n\n") (by decide) (by decide) (by decide)
    (no_keyword (by decide +kernel)) (by decide) (by decide)

/-- The ranges of POSIX: `lower <a>;...;<z>` -/
example : Mistake .ctype (unlines [b!"lower <a>;...;<z>"] ++ [nl]) :=
  .item (lead := []) (word := b!"lower") (gap := b!" ") (ns := [b!"a"]) (b := 46) (rest := b!"..;<z>\n\n") (by decide) (by decide)
    (by decide) (by decide) ⟨by simp, by decide⟩ (by decide) (by decide) (by decide)

/-- A quote in a string: `int_curr_symbol "a\"b"` -/
example : Mistake .monetary (unlines [b!"int_curr_symbol \"a\\\"b\""] ++ [nl]) :=
  .value (lead := []) (word := b!"int_curr_symbol") (g := .string) (gap := b!" ") (by decide) (by decide) (by decide) (by decide) (by decide)
    (.escape (s := [97]) (c := 34) (rest := b!"b\"\n\n") (.inl rfl) (by decide) (by unfold ValidRune; omega) (by unfold escapable; decide))

/-- No quotes: `int_curr_symbol EUR` -/
example : Mistake .monetary (unlines [b!"int_curr_symbol EUR"] ++ [nl]) :=
  .value (lead := []) (word := b!"int_curr_symbol") (g := .string) (gap := b!" ") (by decide) (by decide) (by decide) (by decide) (by decide)
    (.start (b := 69) (by decide) (by decide))

/-- A string without end. -/
example : Mistake .time (unlines [b!"abday \"Su", b!"END LC_TIME"] ++ [nl]) :=
  .value (lead := []) (word := b!"abday") (g := .stringList) (gap := b!" ") (by decide) (by decide) (by decide) (by decide) (by decide)
    (.unclosed (s := [83, 117]) (rest := b!"END LC_TIME\n\n") (.inr rfl) (by decide))

/-- `mon_grouping -` -/
example : Mistake .monetary (unlines [b!"mon_grouping -"] ++ [nl]) :=
  .value (lead := []) (word := b!"mon_grouping") (g := .intList) (gap := b!" ") (by decide) (by decide) (by decide) (by decide) (by decide)
    (.number (x := b!"-") (rest := b!"\n\n") (.inr rfl) (by decide) (.inl rfl) (by decide))

/-- A blank after the value. -/
example : Mistake .numeric (unlines [b!"decimal_point \".\" "] ++ [nl]) :=
  .after (lead := []) (word := b!"decimal_point") (v := .str [46]) (gap := b!" ") (rest := b!" \n\n") (by decide) (by decide) (by decide) (by decide)
    (by show strOk [46] = true; decide) (by decide) (by decide) (by decide)

/-- A keyword without value. -/
example : Mistake .messages (unlines [b!"yesexpr"] ++ [nl]) :=
  .glued (lead := []) (word := b!"yesexpr") (g := .msg) (rest := b!"\n\n") (by decide) (by decide) (by decide) (by decide)

/-- The end of another section. -/
example : Mistake .ctype (unlines [b!"END LC_TIME"] ++ [nl]) :=
  .ending (lead := []) (gap := b!" ") (name := b!"LC_TIME") (rest := b!"\n\n") (by decide) (by decide) (by decide) (by decide) (by decide)
    (by decide) (by decide)

/-- A file with a mistake after a section and a statement without one. -/
example : ∃ N, ∀ n, N ≤ n → ∃ p, newLexer n (b!"LC_MONETARY\nint_curr_symbol \"EÜR\\;\\x20\"\n  mon_grouping\t3;-1\n\nEND LC_MONETARY\n" ++
      b!"LC_TIME\nabday \"S\";\"Mo\"\nEND LC_TIME \nLC_CTYPE\nlower <a>;<b>\nlower <a>;...;<z>\n") = .panic p := by
  have h := C119_crash sampleFile sampleFile_ok.1 .ctype 0 [{ word := b!"lower", val := .chars [b!"a", b!"b"] }] (by
      intro s hs
      simp only [List.mem_cons, List.not_mem_nil, or_false] at hs
      subst hs
      exact ⟨by decide, by decide, by decide, by decide, by simp, by decide⟩)
    b!"lower <a>;...;<z>" [] (.item (lead := []) (word := b!"lower") (gap := b!" ") (ns := [b!"a"]) (b := 46) (rest := b!"..;<z>\n\n") (by decide)
      (by decide) (by decide) (by decide) ⟨by simp, by decide⟩ (by decide) (by decide) (by decide)) (by decide)
    [b!"LC_MONETARY", b!"int_curr_symbol \"EÜR\\;\\x20\"", b!"  mon_grouping\t3;-1", [], b!"END LC_MONETARY",
      b!"LC_TIME", b!"abday \"S\";\"Mo\"", b!"END LC_TIME ", b!"LC_CTYPE", b!"lower <a>;<b>", b!"lower <a>;...;<z>"] ?_ (by decide +kernel)
  · exact h
  · intro l hl hc
    simp only [List.mem_cons, List.not_mem_nil, or_false] at hl
    rcases hl with rfl | rfl | rfl | rfl | rfl | rfl | rfl | rfl | rfl | rfl | rfl <;> try (exact absurd hc (by decide +kernel))
    exact ⟨by decide, by decide, by decide, .inr (Solid.ends ⟨b!"lower <a>;...;<z", 62, rfl, by decide, by decide⟩)⟩

/-- A section without statements: it is reported. -/
def emptySection : List Section := [{ cat := .time, stmts := [] }]

/-- The hypotheses of `C119_reported_partial` are met. -/
example (d : Def) : ∃ N, ∀ n, N ≤ n → ∃ toks l, newLexer n b!"LC_TIME\n#\nEND LC_TIME\n" = .ok toks l ∧
      ((Whole toks ∧ ∃ d', parse true toks d = .ok (0, d')) ∨ ((∃ k, ErrorAt toks d k ∧ FirstWrong toks k) ∧ ∃ d', parse true toks d = .ok (1, d'))) := by
  refine C119_reported_partial emptySection (by simp [emptySection]) ?_ ?_ [b!"LC_TIME", b!"#", b!"END LC_TIME"] ?_ (by decide +kernel) d
  · intro s hs
    simp only [emptySection, List.mem_cons, List.not_mem_nil, or_false] at hs
    subst hs
    exact ⟨by simp, by decide, by decide, by decide, by decide⟩
  · intro s hs
    simp only [emptySection, List.mem_cons, List.not_mem_nil, or_false] at hs
    subst hs
    simp
  · intro l hl hc
    simp only [List.mem_cons, List.not_mem_nil, or_false] at hl
    rcases hl with rfl | rfl | rfl <;> try (exact absurd hc (by decide +kernel))
    exact ⟨by decide, by decide, by decide, .inr (Solid.ends ⟨[], 35, rfl, by decide, by decide⟩)⟩

end Locale
