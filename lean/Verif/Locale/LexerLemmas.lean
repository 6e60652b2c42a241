import Verif.Locale.Lexer

/-! # The lexer on well-formed text: lemmas -/

namespace Locale
open Go

/-- The part gives `a` and a state with `P`. -/
def Runs {α : Type} (m : Lx α) (l : L) (a : α) (P : L → Prop) : Prop := ∃ l', m l = .ok a l' ∧ P l'

theorem Runs.bind {α β : Type} {m : Lx α} {f : α → Lx β} {l : L} {a : α} {b : β} {P Q : L → Prop}
    (h : Runs m l a P) (h' : ∀ l', P l' → Runs (f a) l' b Q) : Runs (m >>= f) l b Q := by
  obtain ⟨l', h1, h2⟩ := h
  obtain ⟨l'', h3, h4⟩ := h' l' h2
  refine ⟨l'', ?_, h4⟩
  show Lx.bind m f l = _
  simp only [Lx.bind, h1]
  exact h3

theorem Runs.pure {α : Type} {l : L} {a : α} {P : L → Prop} (h : P l) : Runs (Pure.pure a : Lx α) l a P := ⟨l, rfl, h⟩

theorem Runs.mono {α : Type} {m : Lx α} {l : L} {a : α} {P Q : L → Prop} (h : Runs m l a P) (h' : ∀ l', P l' → Q l') :
    Runs m l a Q := by
  obtain ⟨l', h1, h2⟩ := h
  exact ⟨l', h1, h' l' h2⟩

/-- The lexer has dealt with `pre`, the current token is `w`, `rest` is ahead, and `t` has been sent. -/
structure Pos (pre w rest : Bytes) (t : List Tok) (l : L) : Prop where
  source : l.source = pre ++ (w ++ rest)
  start : l.start = pre.length
  pos : l.pos = pre.length + w.length
  toks : l.toks = t

theorem Pos.ahead {pre w rest t l} (h : Pos pre w rest t l) : l.source.drop l.pos = rest := by
  rw [h.source, h.pos, ← List.append_assoc, ← List.length_append, List.drop_left']
  rfl

theorem Pos.current {pre w rest t l} (h : Pos pre w rest t l) : l.current = w := by
  unfold L.current
  rw [h.source, h.pos, h.start, ← List.append_assoc, ← List.length_append, List.take_left' rfl, List.drop_left' rfl]

theorem next_rune {pre w rest t l} {r : Nat} (hr : ValidRune r) (h : Pos pre w (encodeRune r ++ rest) t l) :
    Runs next l (some r) fun l' => Pos pre (w ++ encodeRune r) rest t l' ∧ l'.stack = some r :: l.stack := by
  have ha := h.ahead
  obtain ⟨b, bs, e, hd⟩ := decode_encode r hr rest
  rw [e, List.cons_append] at ha
  refine ⟨{ l with pos := l.pos + (encodeRune r).length, stack := some r :: l.stack }, ?_, ⟨?_, h.start, ?_, h.toks⟩, rfl⟩
  · unfold next
    rw [ha]
    simp only [hd, e, List.length_cons]
  · rw [h.source]; simp
  · simp only [h.pos, List.length_append]; omega

theorem next_eof {pre w t l} (h : Pos pre w [] t l) :
    Runs next l none fun l' => Pos pre w [] t l' ∧ l'.stack = none :: l.stack := by
  refine ⟨{ l with stack := none :: l.stack }, ?_, ⟨h.source, h.start, h.pos, h.toks⟩, rfl⟩
  unfold next
  rw [h.ahead]

theorem rewind_rune {pre w rest t l} {r : Nat} {st} (h : Pos pre (w ++ encodeRune r) rest t l) (hs : l.stack = some r :: st) :
    Runs rewind l () fun l' => Pos pre w (encodeRune r ++ rest) t l' ∧ l'.stack = st := by
  refine ⟨{ l with pos := max l.start (l.pos - (encodeRune r).length), stack := st }, ?_, ⟨?_, h.start, ?_, h.toks⟩, rfl⟩
  · unfold rewind
    rw [hs]
  · rw [h.source]; simp
  · simp only [h.pos, h.start, List.length_append]; omega

theorem rewind_eof {pre w rest t l} {st} (h : Pos pre w rest t l) (hs : l.stack = none :: st) :
    Runs rewind l () fun l' => Pos pre w rest t l' ∧ l'.stack = st := by
  refine ⟨{ l with stack := st }, ?_, ⟨h.source, h.start, h.pos, h.toks⟩, rfl⟩
  unfold rewind
  rw [hs]

theorem emit_spec {pre w rest t l} (h : Pos pre w rest t l) (c : Int) :
    Runs (emit c) l () (Pos (pre ++ w) [] rest (t ++ [⟨c, w⟩])) := by
  refine ⟨_, rfl, ⟨?_, ?_, ?_, ?_⟩⟩
  · simp [h.source]
  · simp [h.pos]
  · simp [h.pos]
  · simp [h.toks, h.current]

theorem current_spec {pre w rest t l} (h : Pos pre w rest t l) : Runs current l w (Pos pre w rest t) :=
  ⟨l, by simp [Locale.current, h.current], h⟩

theorem encode_ascii {b : UInt8} (h : b.toNat < 0x80) : encodeRune b.toNat = [b] := (encode1 h).2

theorem next_ascii {pre w rest t l} {b : UInt8} (hb : b.toNat < 0x80) (h : Pos pre w (b :: rest) t l) :
    Runs next l (some b.toNat) fun l' => Pos pre (w ++ [b]) rest t l' ∧ l'.stack = some b.toNat :: l.stack := by
  have := next_rune (rest := rest) (w := w) (encode1 hb).1 (by rw [encode_ascii hb]; exact h)
  rwa [encode_ascii hb] at this

theorem rewind_ascii {pre w rest t l} {b : UInt8} {st} (hb : b.toNat < 0x80) (h : Pos pre (w ++ [b]) rest t l)
    (hs : l.stack = some b.toNat :: st) : Runs rewind l () (Pos pre w (b :: rest) t) := by
  have := rewind_rune (r := b.toNat) (rest := rest) (w := w) (by rw [encode_ascii hb]; exact h) hs
  rw [encode_ascii hb] at this
  exact this.mono fun _ h => h.1

theorem containsRune_byte (chars : Bytes) (b : UInt8) : containsRune chars (some b.toNat) = chars.contains b := by
  simp only [containsRune]
  induction chars with
  | nil => rfl
  | cons c cs ih =>
    simp only [List.any_cons, List.contains_cons, ih]
    congr 1
    rw [Bool.eq_iff_iff]
    simp only [beq_iff_eq]
    constructor
    · intro h; exact (UInt8.toNat_inj.mp h).symm
    · rintro rfl; rfl

/-- The text is empty or begins with another (ASCII) character. -/
def Stops (chars : Bytes) : Bytes → Prop
  | [] => True
  | b :: _ => b.toNat < 0x80 ∧ chars.contains b = false

theorem takeLoop_spec {chars : Bytes} (hch : ∀ b ∈ chars, b.toNat < 0x80) {x pre w rest t l} {n : Nat} (hn : x.length < n)
    (hx : ∀ b ∈ x, b ∈ chars) (hs : Stops chars rest) (h : Pos pre w (x ++ rest) t l) :
    Runs (takeLoop chars n) l () (Pos pre (w ++ x) rest t) := by
  induction x generalizing w l n with
  | nil =>
    cases n with
    | zero => simp at hn
    | succ n =>
      simp only [takeLoop]
      cases rest with
      | nil =>
        refine (next_eof h).bind fun l1 h1 => ?_
        rw [if_neg (by simp [containsRune]), List.append_nil]
        exact (rewind_eof h1.1 h1.2).mono fun _ h => h.1
      | cons b rest =>
        refine (next_ascii hs.1 h).bind fun l1 h1 => ?_
        rw [if_neg (by rw [containsRune_byte, hs.2]; simp), List.append_nil]
        exact rewind_ascii hs.1 h1.1 h1.2
  | cons b x ih =>
    cases n with
    | zero => simp at hn
    | succ n =>
      simp only [takeLoop]
      have hb := hx b (by simp)
      refine (next_ascii (hch b hb) h).bind fun l1 h1 => ?_
      rw [if_pos (by rw [containsRune_byte]; simpa using hb)]
      rw [show w ++ b :: x = (w ++ [b]) ++ x by simp]
      exact ih (by simp at hn; omega) (fun c hc => hx c (by simp [hc])) h1.1

theorem take_spec {chars : Bytes} (hch : ∀ b ∈ chars, b.toNat < 0x80) {x pre w rest t l}
    (hx : ∀ b ∈ x, b ∈ chars) (hs : Stops chars rest) (h : Pos pre w (x ++ rest) t l) :
    Runs (take chars) l () (Pos pre (w ++ x) rest t) := by
  unfold take
  obtain ⟨l', h1, h2⟩ := takeLoop_spec hch (n := l.source.length - l.pos + 1) (by
    have := congrArg List.length h.ahead
    simp only [List.length_drop, List.length_append] at this
    omega) hx hs h
  exact ⟨l', h1, h2⟩

/-! ## The grab functions -/

theorem whiteSpace_ascii : ∀ b ∈ whiteSpace, b.toNat < 0x80 := by decide
theorem newLine_ascii : ∀ b ∈ newLine, b.toNat < 0x80 := by decide

/-- Blanks and tabs. -/
def Blank (w : Bytes) : Prop := ∀ b ∈ w, b ∈ whiteSpace

theorem grabWhitespace_some {x pre rest t l} (hx : Blank x) (hne : x ≠ []) (hs : Stops whiteSpace rest)
    (h : Pos pre [] (x ++ rest) t l) : Runs grabWhitespace l true (Pos (pre ++ x) [] rest (t ++ [⟨WHITESPACE, x⟩])) := by
  unfold grabWhitespace
  refine (take_spec whiteSpace_ascii hx hs h).bind fun l1 h1 => ?_
  refine (current_spec h1).bind fun l2 h2 => ?_
  rw [if_neg (by simpa using hne)]
  refine (emit_spec h2 _).bind fun l3 h3 => ?_
  exact Runs.pure h3

theorem grabWhitespace_none {pre rest t l} (hs : Stops whiteSpace rest)
    (h : Pos pre [] rest t l) : Runs grabWhitespace l false (Pos pre [] rest t) := by
  unfold grabWhitespace
  refine (take_spec (x := []) whiteSpace_ascii (by simp) hs h).bind fun l1 h1 => ?_
  refine (current_spec h1).bind fun l2 h2 => ?_
  rw [if_pos (by simp)]
  exact Runs.pure h2

/-- The token of blanks, if there are any. -/
def wsTok (x : Bytes) : List Tok := if x = [] then [] else [⟨WHITESPACE, x⟩]

theorem grabWhitespace_any {x pre rest t l} (hx : Blank x) (hs : Stops whiteSpace rest)
    (h : Pos pre [] (x ++ rest) t l) : ∃ b, Runs grabWhitespace l b (Pos (pre ++ x) [] rest (t ++ wsTok x)) := by
  by_cases hne : x = []
  · subst hne
    refine ⟨false, ?_⟩
    have := grabWhitespace_none hs (by simpa using h)
    simpa [wsTok] using this
  · refine ⟨true, ?_⟩
    have := grabWhitespace_some hx hne hs h
    simpa [wsTok, hne] using this

theorem must_spec {g : Lx Bool} {l : L} {P : L → Prop} (h : Runs g l true P) : Runs (must g) l () P := by
  unfold must
  refine h.bind fun l1 h1 => ?_
  rw [if_pos rfl]
  exact Runs.pure h1

theorem grabNewline_spec {x pre rest t l} (hx : ∀ b ∈ x, b ∈ newLine) (hne : x ≠ []) (hs : Stops newLine rest)
    (h : Pos pre [] (x ++ rest) t l) :
    Runs grabNewline l true (Pos (pre ++ x) [] rest (t ++ [⟨Tm.EOL.code, x⟩])) := by
  unfold grabNewline
  refine (take_spec newLine_ascii hx hs h).bind fun l1 h1 => ?_
  refine (current_spec h1).bind fun l2 h2 => ?_
  rw [if_neg (by simpa using hne)]
  refine (emit_spec h2 _).bind fun l3 h3 => ?_
  exact Runs.pure h3

/-- The characters in the name of a character. -/
def nameChars : Bytes := upperChars ++ lowerChars ++ b!"-" ++ b!"_" ++ digits

theorem nameChars_ascii : ∀ b ∈ nameChars, b.toNat < 0x80 := by decide

theorem grabChar_spec {x pre rest t l} (hx : ∀ b ∈ x, b ∈ nameChars) (h : Pos pre [] (60 :: (x ++ 62 :: rest)) t l) :
    Runs grabChar l true (Pos (pre ++ (60 :: (x ++ [62]))) [] rest (t ++ [⟨Tm.CHARSYMBOL.code, 60 :: (x ++ [62])⟩])) := by
  unfold grabChar
  refine (next_ascii (b := 60) (by decide) h).bind fun l1 h1 => ?_
  rw [if_neg (by decide)]
  refine (take_spec (chars := nameChars) nameChars_ascii hx (by constructor <;> decide) h1.1).bind fun l2 h2 => ?_
  refine (next_ascii (b := 62) (by decide) h2).bind fun l3 h3 => ?_
  rw [if_neg (by decide)]
  refine (emit_spec h3.1 _).bind fun l4 h4 => ?_
  exact Runs.pure (by simpa using h4)

theorem grabCharPair_spec {x y pre rest t l} (hx : ∀ b ∈ x, b ∈ nameChars) (hy : ∀ b ∈ y, b ∈ nameChars)
    (h : Pos pre [] (40 :: 60 :: (x ++ 62 :: 44 :: 60 :: (y ++ 62 :: 41 :: rest))) t l) :
    Runs grabCharPair l true (Pos (pre ++ (40 :: 60 :: (x ++ 62 :: 44 :: 60 :: (y ++ [62, 41])))) [] rest
      (t ++ [⟨Tm.LPAREN.code, [40]⟩, ⟨Tm.CHARSYMBOL.code, 60 :: (x ++ [62])⟩, ⟨Tm.COMMA.code, [44]⟩,
        ⟨Tm.CHARSYMBOL.code, 60 :: (y ++ [62])⟩, ⟨Tm.RPAREN.code, [41]⟩])) := by
  unfold grabCharPair
  refine (next_ascii (b := 40) (by decide) h).bind fun l1 h1 => ?_
  rw [if_neg (by decide)]
  refine (emit_spec h1.1 _).bind fun l2 h2 => ?_
  refine (grabChar_spec hx h2).bind fun l3 h3 => ?_
  rw [if_neg (by decide)]
  refine (next_ascii (b := 44) (by decide) h3).bind fun l4 h4 => ?_
  rw [if_neg (by decide)]
  refine (emit_spec h4.1 _).bind fun l5 h5 => ?_
  refine (grabChar_spec hy h5).bind fun l6 h6 => ?_
  rw [if_neg (by decide)]
  refine (next_ascii (b := 41) (by decide) h6).bind fun l7 h7 => ?_
  rw [if_neg (by decide)]
  refine (emit_spec h7.1 _).bind fun l8 h8 => ?_
  exact Runs.pure (by simpa using h8)

/-- Texts with semicolons between. -/
def semiText : List Bytes → Bytes
  | [] => []
  | [x] => x
  | x :: y :: r => x ++ 59 :: semiText (y :: r)

/-- Token lists with semicolons between. -/
def semiToks : List (List Tok) → List Tok
  | [] => []
  | [x] => x
  | x :: y :: r => x ++ ⟨Tm.SEMI.code, b!";"⟩ :: semiToks (y :: r)

theorem grabList_spec {g : Lx Bool} {stop : Bytes → Prop} (hsemi : ∀ r, stop (59 :: r))
    (items : List (Bytes × List Tok))
    (hg : ∀ i ∈ items, ∀ pre rest t l, stop rest → Pos pre [] (i.1 ++ rest) t l →
      Runs g l true (Pos (pre ++ i.1) [] rest (t ++ i.2)))
    {n : Nat} (hn : items.length ≤ n) (hne : items ≠ []) {pre rest t l} (hstop : stop rest)
    (hs : Stops b!";" rest) (ok : Bool)
    (h : Pos pre [] (semiText (items.map (·.1)) ++ rest) t l) :
    Runs (grabListLoop g n ok) l true
      (Pos (pre ++ semiText (items.map (·.1))) [] rest (t ++ semiToks (items.map (·.2)))) := by
  induction items generalizing n pre t l ok with
  | nil => exact absurd rfl hne
  | cons i items ih =>
    cases n with
    | zero => simp at hn
    | succ n =>
      simp only [grabListLoop]
      cases items with
      | nil =>
        refine (hg i (by simp) pre rest t l hstop h).bind fun l1 h1 => ?_
        rw [if_pos rfl]
        cases rest with
        | nil =>
          refine (next_eof h1).bind fun l2 h2 => ?_
          rw [if_neg (by simp)]
          refine (rewind_eof h2.1 h2.2).bind fun l3 h3 => ?_
          exact Runs.pure h3.1
        | cons b rest =>
          refine (next_ascii hs.1 h1).bind fun l2 h2 => ?_
          have hb : b ≠ 59 := by rintro rfl; exact absurd hs.2 (by decide)
          rw [if_neg (by
            simp only [Option.some.injEq]
            intro e
            exact hb (UInt8.toNat_inj.mp e))]
          refine (rewind_ascii hs.1 h2.1 h2.2).bind fun l3 h3 => ?_
          exact Runs.pure h3
      | cons j items =>
        simp only [List.map_cons, semiText, List.append_assoc, List.cons_append] at h
        refine (hg i (by simp) pre _ t l (hsemi _) h).bind fun l1 h1 => ?_
        rw [if_pos rfl]
        refine (next_ascii (b := 59) (by decide) h1).bind fun l2 h2 => ?_
        rw [if_pos (by decide)]
        refine (emit_spec h2.1 _).bind fun l3 h3 => ?_
        have := ih (fun k hk => hg k (List.mem_cons_of_mem _ hk)) (n := n) (by simp at hn ⊢; omega) (by simp) true h3
        simpa [semiText, semiToks] using this

theorem intChars_ascii : ∀ b ∈ b!"-1234567890", b.toNat < 0x80 := by decide

theorem grabInt_spec {x pre rest t l} (hx : ∀ b ∈ x, b ∈ b!"-1234567890") (hne : x ≠ []) (h1 : x ≠ b!"-")
    (h2 : 45 ∉ x.drop 1) (hs : Stops b!"-1234567890" rest) (h : Pos pre [] (x ++ rest) t l) :
    Runs grabInt l true (Pos (pre ++ x) [] rest (t ++ [⟨Tm.NUMBER.code, x⟩])) := by
  unfold grabInt
  refine (take_spec intChars_ascii hx hs h).bind fun l1 k1 => ?_
  refine (current_spec k1).bind fun l2 k2 => ?_
  rw [if_neg (by simpa using hne)]
  rw [if_neg (by
    simp only [List.nil_append]
    rintro (e | e)
    · exact h1 e
    · exact h2 e.2)]
  refine (emit_spec k2 _).bind fun l4 k4 => ?_
  exact Runs.pure k4

/-- The characters between the quotes that stand for themselves. -/
def strChar (r : Nat) : Prop := ValidRune r ∧ r ≠ 34 ∧ r ≠ 10 ∧ r ≠ 92

instance (r : Nat) : Decidable (strChar r) := by unfold strChar ValidRune; infer_instance

/-- A decimal digit. -/
def digitRune (r : Nat) : Prop := 48 ≤ r ∧ r ≤ 57

instance (r : Nat) : Decidable (digitRune r) := by unfold digitRune; infer_instance

/-- What is between the quotes: characters that stand for themselves, `\,` `\;` `\<` `\>`, and a backslash with a number:
`\101` (octal), `\d65` or `\d065` (decimal), `\x41` (hexadecimal); nobody looks whether the two characters after the
first are digits. (`\\` depends on the escape character of the file and is not here.) -/
def strOk : List Nat → Bool
  | [] => true
  | r :: rs =>
    if r = 92 then
      match rs with
      | [] => false
      | c :: rs =>
        if c = 44 ∨ c = 59 ∨ c = 60 ∨ c = 62 ∨ c = 92 then strOk rs
        else if digitRune c ∨ c = 100 ∨ c = 120 then
          match rs with
          | a :: b :: rs => decide (strChar a) && decide (strChar b) && strOk rs
          | _ => false
        else false
    else decide (strChar r) && strOk rs

/-- The tokens between the quotes: each has the text as it is written. -/
def charToks : List Nat → List Tok
  | [] => []
  | r :: rs =>
    if r = 92 then
      match rs with
      | [] => []
      | c :: rs =>
        if c = 44 ∨ c = 59 ∨ c = 60 ∨ c = 62 ∨ c = 92 then ⟨Tm.CHAR.code, ofRunes [92, c]⟩ :: charToks rs
        else
          match rs with
          | a :: b :: rs =>
            if c = 120 then ⟨Tm.HEX_CHAR.code, ofRunes [92, c, a, b]⟩ :: charToks rs
            else if c = 100 then
              match rs with
              | [] => [⟨Tm.DECIMAL_CHAR.code, ofRunes [92, c, a, b]⟩]
              | d :: rs =>
                if digitRune d then ⟨Tm.DECIMAL_CHAR.code, ofRunes [92, c, a, b, d]⟩ :: charToks rs
                else ⟨Tm.DECIMAL_CHAR.code, ofRunes [92, c, a, b]⟩ :: charToks (d :: rs)
            else ⟨Tm.OCTAL_CHAR.code, ofRunes [92, c, a, b]⟩ :: charToks rs
          | _ => []
    else ⟨Tm.CHAR.code, encodeRune r⟩ :: charToks rs

/-- What can be between the quotes and its tokens. -/
inductive Content : List Nat → List Tok → Prop
  | nil : Content [] []
  | plain {r rs ts} : strChar r → Content rs ts → Content (r :: rs) (⟨Tm.CHAR.code, encodeRune r⟩ :: ts)
  | quoted {c rs ts} : c = 44 ∨ c = 59 ∨ c = 60 ∨ c = 62 ∨ c = 92 → Content rs ts →
    Content (92 :: c :: rs) (⟨Tm.CHAR.code, ofRunes [92, c]⟩ :: ts)
  | octal {c a b rs ts} : digitRune c → strChar a → strChar b → Content rs ts →
    Content (92 :: c :: a :: b :: rs) (⟨Tm.OCTAL_CHAR.code, ofRunes [92, c, a, b]⟩ :: ts)
  | hex {a b rs ts} : strChar a → strChar b → Content rs ts →
    Content (92 :: 120 :: a :: b :: rs) (⟨Tm.HEX_CHAR.code, ofRunes [92, 120, a, b]⟩ :: ts)
  | dec2 {a b rs ts} : strChar a → strChar b → (∀ d ds, rs = d :: ds → ¬ digitRune d) → Content rs ts →
    Content (92 :: 100 :: a :: b :: rs) (⟨Tm.DECIMAL_CHAR.code, ofRunes [92, 100, a, b]⟩ :: ts)
  | dec3 {a b d rs ts} : strChar a → strChar b → digitRune d → Content rs ts →
    Content (92 :: 100 :: a :: b :: d :: rs) (⟨Tm.DECIMAL_CHAR.code, ofRunes [92, 100, a, b, d]⟩ :: ts)

theorem content_of_ok {rs : List Nat} (h : strOk rs = true) : Content rs (charToks rs) := by
  fun_induction charToks rs with
  | case1 => exact .nil
  | case2 => simp [strOk] at h
  | case3 c rs hc ih =>
    rw [strOk.eq_def] at h
    simp only [if_true, if_pos hc] at h
    exact .quoted hc (ih h)
  | case4 a b rs hc ih =>
    simp [strOk] at h
    exact .hex h.1.1 h.1.2 (ih h.2)
  | case5 a b hc hd =>
    simp [strOk] at h
    exact .dec2 h.1 h.2 (by simp) .nil
  | case6 a b d rs hd hc hx ih =>
    simp [strOk] at h
    have hs : strOk rs = true := by
      have h3 := h.2
      have : d ≠ 92 := by unfold digitRune at hd; omega
      rw [strOk.eq_def] at h3
      simp only [this, if_false, Bool.and_eq_true] at h3
      exact h3.2
    exact .dec3 h.1.1 h.1.2 hd (ih hs)
  | case7 a b d rs hd hc hx ih =>
    simp [strOk] at h
    exact .dec2 h.1.1 h.1.2 (by rintro x y e; simp only [List.cons.injEq] at e; rw [← e.1]; exact hd) (ih h.2)
  | case8 c hc a b rs hx hd ih =>
    rw [strOk, if_pos rfl] at h
    rw [if_neg hc] at h
    split at h
    · simp at h
      exact .octal (by grind) h.1.1 h.1.2 (ih h.2)
    · simp at h
  | case9 c hc rs hd =>
    simp [strOk] at h
    grind
  | case10 r rs hr ih =>
    rw [strOk.eq_def] at h
    simp [hr] at h
    exact .plain h.1 (ih h.2)

theorem Content.flat {rs ts} (h : Content rs ts) : (ts.map Tok.val).flatten = ofRunes rs := by
  induction h <;> simp_all [ofRunes]

theorem Content.runes {rs ts} (h : Content rs ts) : ∀ r ∈ rs, ValidRune r ∧ r ≠ 10 := by
  have dg : ∀ r, digitRune r → ValidRune r ∧ r ≠ 10 := by
    intro r h
    unfold digitRune at h
    unfold ValidRune
    omega
  have k : ∀ r ∈ [92, 44, 59, 60, 62, 100, 120], ValidRune r ∧ r ≠ 10 := by decide
  induction h with
  | nil => simp
  | plain h1 _ ih => exact List.forall_mem_cons.mpr ⟨⟨h1.1, h1.2.2.1⟩, ih⟩
  | quoted h1 _ ih => exact List.forall_mem_cons.mpr ⟨k _ (by simp), List.forall_mem_cons.mpr ⟨k _ (by grind), ih⟩⟩
  | octal h1 h2 h3 _ ih => 
    simp only [List.forall_mem_cons]
    exact ⟨k _ (by simp), dg _ h1, ⟨h2.1, h2.2.2.1⟩, ⟨h3.1, h3.2.2.1⟩, ih⟩
  | hex h2 h3 _ ih => 
    simp only [List.forall_mem_cons]
    exact ⟨k _ (by simp), k _ (by simp), ⟨h2.1, h2.2.2.1⟩, ⟨h3.1, h3.2.2.1⟩, ih⟩
  | dec2 h2 h3 _ _ ih => 
    simp only [List.forall_mem_cons]
    exact ⟨k _ (by simp), k _ (by simp), ⟨h2.1, h2.2.2.1⟩, ⟨h3.1, h3.2.2.1⟩, ih⟩
  | dec3 h2 h3 h4 _ ih => 
    simp only [List.forall_mem_cons]
    exact ⟨k _ (by simp), k _ (by simp), ⟨h2.1, h2.2.2.1⟩, ⟨h3.1, h3.2.2.1⟩, dg _ h4, ih⟩

/-- The codes of what is between the quotes. -/
theorem charToks_code (rs : List Nat) : ∀ t ∈ charToks rs, t.code = Tm.CHAR.code ∨ t.code = Tm.OCTAL_CHAR.code ∨
    t.code = Tm.HEX_CHAR.code ∨ t.code = Tm.DECIMAL_CHAR.code := by
  fun_induction charToks rs <;> simp_all

theorem Content.ne {rs ts} (h : Content rs ts) (hne : rs ≠ []) : ts ≠ [] := by
  cases h <;> simp_all

theorem containsRune_digits {r : Nat} : containsRune digits (some r) = true ↔ digitRune r := by
  unfold containsRune digits digitRune
  constructor
  · intro h
    simp only [List.any_eq_true, beq_iff_eq] at h
    obtain ⟨b, hb, rfl⟩ := h
    have : ∀ b ∈ b!"0123456789", 48 ≤ b.toNat ∧ b.toNat ≤ 57 := by decide
    exact this b hb
  · intro h
    have : ∀ r < 58, 48 ≤ r → (b!"0123456789".any fun c => c.toNat == r) = true := by decide
    exact this r (by omega) (by omega)

theorem position_spec {pre w rest t l} (h : Pos pre w rest t l) : Runs position l l.pos (Pos pre w rest t) := ⟨l, rfl, h⟩

/-- The value of `escapeChar` at every position if no line sets it: a backslash. -/
abbrev backslash : Nat → Nat := fun _ => 92

theorem stringLoop_escape {c : Nat} (hc : ValidRune c) {n : Nat} {pre rest t l} {Q : L → Prop}
    (h : Pos pre [] (92 :: (encodeRune c ++ rest)) t l)
    (hk : ∀ l1, Pos pre [92] (encodeRune c ++ rest) t l1 →
      Runs (grabEscapeInString 92 >>= fun _ => stringLoop backslash n false) l1 true Q) :
    Runs (stringLoop backslash (n + 2) false) l true Q := by
  simp only [stringLoop]
  refine (next_ascii (b := 92) (by decide) h).bind fun l1 h1 => ?_
  rw [if_neg (by simp), if_neg (by decide), if_neg (by decide), if_pos (by decide)]
  refine (next_rune hc h1.1).bind fun l2 h2 => ?_
  rw [if_pos trivial]
  refine (rewind_rune h2.1 h2.2).bind fun l3 h3 => ?_
  refine (position_spec h3.1).bind fun l4 h4 => ?_
  exact hk l4 h4

theorem digit_valid {r : Nat} (h : digitRune r) : ValidRune r := by
  unfold digitRune at h
  unfold ValidRune
  omega

theorem grabEscape_quoted {c : Nat} (hc : c = 44 ∨ c = 59 ∨ c = 60 ∨ c = 62 ∨ c = 92) {pre rest t l}
    (h : Pos pre [92] (encodeRune c ++ rest) t l) :
    Runs (grabEscapeInString 92) l true (Pos (pre ++ ofRunes [92, c]) [] rest (t ++ [⟨Tm.CHAR.code, ofRunes [92, c]⟩])) := by
  unfold grabEscapeInString
  refine (next_rune (by unfold ValidRune; omega) h).bind fun l1 h1 => ?_
  rw [if_pos (by simp only [Option.some.injEq]; omega)]
  refine (emit_spec h1.1 _).bind fun l2 h2 => ?_
  exact Runs.pure (by simpa [ofRunes, encodeRune] using h2)

theorem grabEscape_octal {c a b : Nat} (hc : digitRune c) (ha : ValidRune a) (hb : ValidRune b) {pre rest t l}
    (h : Pos pre [92] (encodeRune c ++ (encodeRune a ++ (encodeRune b ++ rest))) t l) :
    Runs (grabEscapeInString 92) l true (Pos (pre ++ ofRunes [92, c, a, b]) [] rest (t ++ [⟨Tm.OCTAL_CHAR.code, ofRunes [92, c, a, b]⟩])) := by
  unfold grabEscapeInString
  refine (next_rune (digit_valid hc) h).bind fun l1 h1 => ?_
  rw [if_neg (by simp only [Option.some.injEq]; unfold digitRune at hc; omega), if_pos (containsRune_digits.mpr hc)]
  refine (next_rune ha h1.1).bind fun l2 h2 => ?_
  refine (next_rune hb h2.1).bind fun l3 h3 => ?_
  refine (emit_spec h3.1 _).bind fun l4 h4 => ?_
  exact Runs.pure (by simpa [ofRunes, encodeRune] using h4)

theorem grabEscape_hex {a b : Nat} (ha : ValidRune a) (hb : ValidRune b) {pre rest t l}
    (h : Pos pre [92] (encodeRune 120 ++ (encodeRune a ++ (encodeRune b ++ rest))) t l) :
    Runs (grabEscapeInString 92) l true (Pos (pre ++ ofRunes [92, 120, a, b]) [] rest (t ++ [⟨Tm.HEX_CHAR.code, ofRunes [92, 120, a, b]⟩])) := by
  unfold grabEscapeInString
  refine (next_rune (by decide) h).bind fun l1 h1 => ?_
  rw [if_neg (by decide), if_neg (by decide), if_neg (by decide), if_pos rfl]
  refine (next_rune ha h1.1).bind fun l2 h2 => ?_
  refine (next_rune hb h2.1).bind fun l3 h3 => ?_
  refine (emit_spec h3.1 _).bind fun l4 h4 => ?_
  exact Runs.pure (by simpa [ofRunes, encodeRune] using h4)

theorem grabEscape_dec {a b d : Nat} (ha : ValidRune a) (hb : ValidRune b) (hd : ValidRune d) {pre rest t l}
    (h : Pos pre [92] (encodeRune 100 ++ (encodeRune a ++ (encodeRune b ++ (encodeRune d ++ rest)))) t l) :
    Runs (grabEscapeInString 92) l true (if digitRune d
      then Pos (pre ++ ofRunes [92, 100, a, b, d]) [] rest (t ++ [⟨Tm.DECIMAL_CHAR.code, ofRunes [92, 100, a, b, d]⟩])
      else Pos (pre ++ ofRunes [92, 100, a, b]) [] (encodeRune d ++ rest) (t ++ [⟨Tm.DECIMAL_CHAR.code, ofRunes [92, 100, a, b]⟩])) := by
  unfold grabEscapeInString
  refine (next_rune (by decide) h).bind fun l1 h1 => ?_
  rw [if_neg (by decide), if_neg (by decide), if_pos rfl]
  refine (next_rune ha h1.1).bind fun l2 h2 => ?_
  refine (next_rune hb h2.1).bind fun l3 h3 => ?_
  refine (next_rune hd h3.1).bind fun l4 h4 => ?_
  by_cases k : digitRune d
  · rw [if_pos (containsRune_digits.mpr k), if_pos k]
    refine (emit_spec h4.1 _).bind fun l6 h6 => ?_
    exact Runs.pure (by simpa [ofRunes, encodeRune] using h6)
  · rw [if_neg (fun c => k (containsRune_digits.mp c)), if_neg k]
    refine (rewind_rune h4.1 h4.2).bind fun l5 h5 => ?_
    refine (emit_spec h5.1 _).bind fun l6 h6 => ?_
    exact Runs.pure (by simpa [ofRunes, encodeRune] using h6)

theorem ofRunes_cons (r : Nat) (rs : List Nat) : ofRunes (r :: rs) = encodeRune r ++ ofRunes rs := rfl

theorem stringLoop_spec {rs : List Nat} {ts : List Tok} (hr : Content rs ts) {n : Nat} (hn : rs.length < n)
    {pre rest t l} (h : Pos pre [] (ofRunes rs ++ 34 :: rest) t l) :
    Runs (stringLoop backslash n false) l true
      (Pos (pre ++ (ofRunes rs ++ [34])) [] rest (t ++ (ts ++ [⟨Tm.DQUOTE.code, [34]⟩]))) := by
  have e92 : encodeRune 92 = [92] := by decide
  induction hr generalizing n pre t l with
  | nil =>
    cases n with
    | zero => simp at hn
    | succ n =>
      simp only [stringLoop]
      refine (next_ascii (b := 34) (by decide) h).bind fun l1 h1 => ?_
      rw [if_neg (by simp), if_pos (by decide)]
      refine (emit_spec h1.1 _).bind fun l2 h2 => ?_
      exact Runs.pure (by simpa [ofRunes] using h2)
  | @plain r rs ts h1 _ ih =>
    cases n with
    | zero => simp at hn
    | succ n =>
      obtain ⟨v, e1, e2, e3⟩ := h1
      rw [ofRunes_cons, List.append_assoc] at h
      simp only [stringLoop]
      refine (next_rune v h).bind fun l1 h1 => ?_
      rw [if_neg (by simp), if_neg (by simpa using e1), if_neg (by simpa using e2), if_neg (by simpa using e3)]
      refine (emit_spec h1.1 _).bind fun l2 h2 => ?_
      have := ih (n := n) (by simp at hn; omega) h2
      simpa [ofRunes] using this
  | @quoted c rs ts hc _ ih =>
    obtain ⟨n, rfl⟩ : ∃ m, n = m + 2 := ⟨n - 2, by simp at hn; omega⟩
    refine stringLoop_escape (c := c) (by unfold ValidRune; omega) (rest := ofRunes rs ++ 34 :: rest) (by simpa [ofRunes, e92] using h) fun l1 k1 => ?_
    refine (grabEscape_quoted hc k1).bind fun l2 k2 => ?_
    have := ih (n := n) (by simp at hn; omega) k2
    simpa [ofRunes] using this
  | @octal c a b rs ts hc ha hb _ ih =>
    obtain ⟨n, rfl⟩ : ∃ m, n = m + 2 := ⟨n - 2, by simp at hn; omega⟩
    refine stringLoop_escape (c := c) (digit_valid hc) (rest := encodeRune a ++ (encodeRune b ++ (ofRunes rs ++ 34 :: rest)))
      (by simpa [ofRunes, e92] using h) fun l1 k1 => ?_
    refine (grabEscape_octal hc ha.1 hb.1 k1).bind fun l2 k2 => ?_
    have := ih (n := n) (by simp at hn; omega) k2
    simpa [ofRunes] using this
  | @hex a b rs ts ha hb _ ih =>
    obtain ⟨n, rfl⟩ : ∃ m, n = m + 2 := ⟨n - 2, by simp at hn; omega⟩
    refine stringLoop_escape (c := 120) (by decide) (rest := encodeRune a ++ (encodeRune b ++ (ofRunes rs ++ 34 :: rest)))
      (by simpa [ofRunes, e92] using h) fun l1 k1 => ?_
    refine (grabEscape_hex ha.1 hb.1 k1).bind fun l2 k2 => ?_
    have := ih (n := n) (by simp at hn; omega) k2
    simpa [ofRunes] using this
  | @dec3 a b d rs ts ha hb hd _ ih =>
    obtain ⟨n, rfl⟩ : ∃ m, n = m + 2 := ⟨n - 2, by simp at hn; omega⟩
    refine stringLoop_escape (c := 100) (by decide) (rest := encodeRune a ++ (encodeRune b ++ (encodeRune d ++ (ofRunes rs ++ 34 :: rest))))
      (by simpa [ofRunes, e92] using h) fun l1 k1 => ?_
    refine (grabEscape_dec ha.1 hb.1 (digit_valid hd) k1).bind fun l2 k2 => ?_
    rw [if_pos hd] at k2
    have := ih (n := n) (by simp at hn; omega) k2
    simpa [ofRunes] using this
  | @dec2 a b rs ts ha hb hd hc ih =>
    obtain ⟨n, rfl⟩ : ∃ m, n = m + 2 := ⟨n - 2, by simp at hn; omega⟩
    obtain ⟨d, tl, v, k, e⟩ : ∃ d tl, ValidRune d ∧ ¬ digitRune d ∧ ofRunes rs ++ 34 :: rest = encodeRune d ++ tl := by
      cases rs with
      | nil => exact ⟨34, rest, by decide, by decide, by rfl⟩
      | cons d ds => exact ⟨d, _, (hc.runes d (by simp)).1, hd d ds rfl, by rw [ofRunes_cons, List.append_assoc]⟩
    refine stringLoop_escape (c := 100) (by decide) (rest := encodeRune a ++ (encodeRune b ++ (encodeRune d ++ tl)))
      (by simpa [ofRunes, e92, ← e] using h) fun l1 k1 => ?_
    refine (grabEscape_dec ha.1 hb.1 v k1).bind fun l2 k2 => ?_
    rw [if_neg k, ← e] at k2
    have := ih (n := n) (by simp at hn; omega) k2
    simpa [ofRunes] using this

/-- The text of a string. -/
def strText (rs : List Nat) : Bytes := 34 :: (ofRunes rs ++ [34])

/-- The tokens of a string. -/
def strToks (rs : List Nat) : List Tok :=
  if rs = [] then [⟨Tm.TWO_DOUBLE_QUOTE_STR.code, [34, 34]⟩]
  else ⟨Tm.DQUOTE.code, [34]⟩ :: (charToks rs ++ [⟨Tm.DQUOTE.code, [34]⟩])

theorem peek_rune {pre w rest t l} {r : Nat} (hr : ValidRune r) (h : Pos pre w (encodeRune r ++ rest) t l) :
    Runs peek l (some r) (Pos pre w (encodeRune r ++ rest) t) := by
  unfold peek
  refine (next_rune hr h).bind fun l1 h1 => ?_
  refine (rewind_rune h1.1 h1.2).bind fun l2 h2 => ?_
  exact Runs.pure h2.1

theorem peek_ascii {pre w rest t l} {b : UInt8} (hb : b.toNat < 0x80) (h : Pos pre w (b :: rest) t l) :
    Runs peek l (some b.toNat) (Pos pre w (b :: rest) t) := by
  have := peek_rune (rest := rest) (encode1 hb).1 (by rw [encode_ascii hb]; exact h)
  rwa [encode_ascii hb] at this

theorem Content.head {r rs ts} (h : Content (r :: rs) ts) : r ≠ 34 := by
  cases h with
  | plain h1 => exact h1.2.1
  | _ => decide

theorem grabString_spec {rs : List Nat} {n : Nat} (hn : rs.length < n) (hr : strOk rs = true) {pre rest t l}
    (h : Pos pre [] (strText rs ++ rest) t l) :
    Runs (grabString backslash n) l true (Pos (pre ++ strText rs) [] rest (t ++ strToks rs)) := by
  unfold grabString
  simp only [strText, List.cons_append, List.append_assoc, List.nil_append] at h
  refine (peek_ascii (b := 34) (by decide) h).bind fun l1 h1 => ?_
  rw [if_neg (by decide)]
  refine (next_ascii (b := 34) (by decide) h1).bind fun l2 h2 => ?_
  cases rs with
  | nil =>
    simp only [ofRunes, List.flatMap_nil, List.nil_append] at h2
    refine (peek_ascii (b := 34) (by decide) h2.1).bind fun l3 h3 => ?_
    rw [if_pos (by decide)]
    refine (next_ascii (b := 34) (by decide) h3).bind fun l4 h4 => ?_
    refine (emit_spec h4.1 _).bind fun l5 h5 => ?_
    exact Runs.pure (by simpa [strText, strToks, ofRunes] using h5)
  | cons r rs =>
    have v := ((content_of_ok hr).runes r (by simp)).1
    have e1 : r ≠ 34 := (content_of_ok hr).head
    have h2 := h2.1
    rw [show ofRunes (r :: rs) ++ 34 :: rest = encodeRune r ++ (ofRunes rs ++ 34 :: rest) by simp [ofRunes]] at h2
    refine (peek_rune v h2).bind fun l3 h3 => ?_
    rw [if_neg (by simpa using e1)]
    refine (emit_spec h3 _).bind fun l4 h4 => ?_
    rw [show encodeRune r ++ (ofRunes rs ++ 34 :: rest) = ofRunes (r :: rs) ++ 34 :: rest by simp [ofRunes]] at h4
    have := stringLoop_spec (content_of_ok hr) hn h4
    simpa [strText, strToks] using this

theorem msgLoop_spec {rs : List Nat} {n : Nat} (hn : rs.length < n) (hr : ∀ r ∈ rs, ValidRune r ∧ r ≠ 34) {pre w rest t l}
    (h : Pos pre w (ofRunes rs ++ 34 :: rest) t l) :
    Runs (msgLoop n) l () fun l' => Pos pre (w ++ ofRunes rs ++ [34]) rest t l' ∧ ∃ st, l'.stack = some 34 :: st := by
  induction rs generalizing n w l with
  | nil =>
    cases n with
    | zero => simp at hn
    | succ n =>
      simp only [msgLoop]
      refine (next_ascii (b := 34) (by decide) h).bind fun l1 h1 => ?_
      rw [if_neg (by decide)]
      exact Runs.pure ⟨by simpa [ofRunes] using h1.1, _, h1.2⟩
  | cons r rs ih =>
    cases n with
    | zero => simp at hn
    | succ n =>
      obtain ⟨v, e1⟩ := hr r (by simp)
      rw [show ofRunes (r :: rs) ++ 34 :: rest = encodeRune r ++ (ofRunes rs ++ 34 :: rest) by simp [ofRunes]] at h
      simp only [msgLoop]
      refine (next_rune v h).bind fun l1 h1 => ?_
      rw [if_pos (by simpa using e1)]
      have := ih (n := n) (by simp at hn; omega) (fun x hx => hr x (by simp [hx])) h1.1
      simpa [ofRunes] using this

theorem grabMsg_spec {rs : List Nat} {n : Nat} (hn : rs.length < n) (hr : ∀ r ∈ rs, ValidRune r ∧ r ≠ 34) {pre rest t l}
    (h : Pos pre [] (strText rs ++ rest) t l) :
    Runs (grabMsg n) l true (Pos (pre ++ strText rs) [] rest
      (t ++ [⟨Tm.DQUOTE.code, [34]⟩, ⟨Tm.EXTENDED_REG_EXP.code, ofRunes rs⟩, ⟨Tm.DQUOTE.code, [34]⟩])) := by
  unfold grabMsg
  simp only [strText, List.cons_append, List.append_assoc, List.nil_append] at h
  refine (next_ascii (b := 34) (by decide) h).bind fun l1 h1 => ?_
  rw [if_neg (by decide)]
  refine (emit_spec h1.1 _).bind fun l2 h2 => ?_
  refine (msgLoop_spec hn hr h2).bind fun l3 h3 => ?_
  obtain ⟨h3, st, hst⟩ := h3
  refine (rewind_ascii (b := 34) (by decide) h3 hst).bind fun l4 h4 => ?_
  refine (emit_spec h4 _).bind fun l5 h5 => ?_
  refine (next_ascii (b := 34) (by decide) h5).bind fun l6 h6 => ?_
  refine (emit_spec h6.1 _).bind fun l7 h7 => ?_
  exact Runs.pure (by simpa [strText] using h7)

end Locale
