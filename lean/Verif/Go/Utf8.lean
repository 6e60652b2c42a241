import Verif.Go.Lines

/-!
# UTF-8 decoding, unicode spaces and `bufio.ScanWords`

`decodeRune` follows the table in the documentation of `unicode/utf8` (`utf8.DecodeRune`): invalid or
truncated sequences give U+FFFD with width 1.
-/

namespace Go

/-- A continuation byte in the given range. -/
def inRange (lo hi : UInt8) (b : UInt8) : Bool := lo ≤ b && b ≤ hi

/-- `utf8.RuneError`. -/
abbrev runeError : Nat := 0xFFFD

/-- `utf8.DecodeRune` on a non-empty string given by its first byte and the rest: the rune and its
width. -/
def decodeRune (b0 : UInt8) (rest : Bytes) : Nat × Nat :=
  let two (lo hi : UInt8) : Option (Nat × Nat) := match rest with
    | b1 :: _ => if inRange lo hi b1 then
        some ((b0.toNat % 32) * 64 + b1.toNat % 64, 2) else none
    | _ => none
  let three (lo hi : UInt8) : Option (Nat × Nat) := match rest with
    | b1 :: b2 :: _ => if inRange lo hi b1 && inRange 0x80 0xBF b2 then
        some ((b0.toNat % 16) * 4096 + (b1.toNat % 64) * 64 + b2.toNat % 64, 3) else none
    | _ => none
  let four (lo hi : UInt8) : Option (Nat × Nat) := match rest with
    | b1 :: b2 :: b3 :: _ =>
      if inRange lo hi b1 && inRange 0x80 0xBF b2 && inRange 0x80 0xBF b3 then
        some ((b0.toNat % 8) * 262144 + (b1.toNat % 64) * 4096 + (b2.toNat % 64) * 64 + b3.toNat % 64, 4)
      else none
    | _ => none
  let r : Option (Nat × Nat) :=
    if b0 < 0x80 then some (b0.toNat, 1)
    else if inRange 0xC2 0xDF b0 then two 0x80 0xBF
    else if b0 = 0xE0 then three 0xA0 0xBF
    else if inRange 0xE1 0xEC b0 || inRange 0xEE 0xEF b0 then three 0x80 0xBF
    else if b0 = 0xED then three 0x80 0x9F
    else if b0 = 0xF0 then four 0x90 0xBF
    else if inRange 0xF1 0xF3 b0 then four 0x80 0xBF
    else if b0 = 0xF4 then four 0x80 0x8F
    else none
  r.getD (runeError, 1)

/-- The runes of a string with the bytes each came from, as a `range` loop or `[]rune(s)` sees them.
`skip` counts bytes belonging to the rune already reported. -/
def chunksAux : Nat → Bytes → List (Nat × Bytes)
  | _, [] => []
  | skip + 1, _ :: bs => chunksAux skip bs
  | 0, b :: bs =>
    let d := decodeRune b bs
    (d.1, (b :: bs).take d.2) :: chunksAux (d.2 - 1) bs

/-- Runes with their bytes. -/
def chunks (s : Bytes) : List (Nat × Bytes) := chunksAux 0 s

/-- `[]rune(s)`. -/
def runes (s : Bytes) : List Nat := (chunks s).map (·.1)

/-- `utf8.EncodeRune` / `string(rune)`. -/
def encodeRune (r : Nat) : Bytes :=
  if r < 0x80 then [UInt8.ofNat r]
  else if r < 0x800 then [UInt8.ofNat (0xC0 + r / 64), UInt8.ofNat (0x80 + r % 64)]
  else if (0xD800 ≤ r ∧ r ≤ 0xDFFF) ∨ 0x10FFFF < r then [0xEF, 0xBF, 0xBD]
  else if r < 0x10000 then
    [UInt8.ofNat (0xE0 + r / 4096), UInt8.ofNat (0x80 + r / 64 % 64), UInt8.ofNat (0x80 + r % 64)]
  else
    [UInt8.ofNat (0xF0 + r / 262144), UInt8.ofNat (0x80 + r / 4096 % 64),
      UInt8.ofNat (0x80 + r / 64 % 64), UInt8.ofNat (0x80 + r % 64)]

/-- `string([]rune)`. -/
def ofRunes (rs : List Nat) : Bytes := rs.flatMap encodeRune

/-- bufio's `isSpace` (same set as `unicode.IsSpace`). -/
def isSpace (r : Nat) : Bool :=
  r = 32 || (9 ≤ r && r ≤ 13) || r = 0x85 || r = 0xA0 || r = 0x1680 || (0x2000 ≤ r && r ≤ 0x200a) ||
    r = 0x2028 || r = 0x2029 || r = 0x202f || r = 0x205f || r = 0x3000

/-- Words of a list of runes; `cur` is the word being collected. -/
def wordsAux (cur : Bytes) : List (Nat × Bytes) → List Bytes
  | [] => if cur = [] then [] else [cur]
  | (r, bs) :: rest =>
    if isSpace r then (if cur = [] then wordsAux [] rest else cur :: wordsAux [] rest)
    else wordsAux (cur ++ bs) rest

/-- Space-separated words, as `strings.Fields` and (up to its size limit) `bufio.ScanWords`. -/
def fields (s : Bytes) : List Bytes := wordsAux [] (chunks s)

/-- The words together with how much more than the word a scanner must hold to deliver it: the white space after it, or, at
the end of the input, room for one more byte. -/
def wordsRoom (cur : Bytes) : List (Nat × Bytes) → List (Bytes × Nat)
  | [] => if cur = [] then [] else [(cur, 1)]
  | (r, bs) :: rest =>
    if isSpace r then (if cur = [] then wordsRoom [] rest else (cur, bs.length) :: wordsRoom [] rest)
    else wordsRoom (cur ++ bs) rest

/-- Words a scanner delivers before its buffer overflows, and whether it does. -/
def scanWordTokens : List (Bytes × Nat) → List Bytes × Bool
  | [] => ([], false)
  | (w, k) :: ws =>
    if w.length + k ≤ maxToken then
      let r := scanWordTokens ws
      (w :: r.1, r.2)
    else ([], true)

/-- A `bufio.Scanner` with `ScanWords` run to its end: the words and whether it stopped at an
overlong one. -/
def scanWords (s : Bytes) : List Bytes × Bool := scanWordTokens (wordsRoom [] (chunks s))

/-! ## Facts -/

theorem decodeRune_ascii (b : UInt8) (rest : Bytes) (h : b < 0x80) : decodeRune b rest = (b.toNat, 1) := by
  simp [decodeRune, h]

theorem chunks_cons_ascii (b : UInt8) (rest : Bytes) (h : b < 0x80) :
    chunks (b :: rest) = (b.toNat, [b]) :: chunks rest := by
  simp [chunks, chunksAux, decodeRune_ascii b rest h]

theorem chunks_ascii (s rest : Bytes) (h : ∀ b ∈ s, b < 0x80) :
    chunks (s ++ rest) = s.map (fun b => (b.toNat, [b])) ++ chunks rest := by
  induction s with
  | nil => rfl
  | cons b s ih =>
    simp only [List.cons_append, List.map_cons]
    rw [chunks_cons_ascii b _ (h b (by simp)), ih (fun c hc => h c (by simp [hc]))]

/-- A printable ASCII byte. -/
def isGraph (b : UInt8) : Bool := 0x21 ≤ b && b ≤ 0x7E

theorem isGraph_lt {b : UInt8} (h : isGraph b = true) : b < 0x80 := by
  simp [isGraph] at h
  exact UInt8.lt_of_le_of_lt h.2 (by decide)

theorem isGraph_not_space {b : UInt8} (h : isGraph b = true) : isSpace b.toNat = false := by
  simp only [isGraph, Bool.and_eq_true, decide_eq_true_eq, UInt8.le_iff_toNat_le] at h
  have h1 : 33 ≤ b.toNat := h.1
  have h2 : b.toNat ≤ 126 := h.2
  simp only [isSpace, Bool.or_eq_false_iff, Bool.and_eq_false_iff, decide_eq_false_iff_not]
  omega

theorem wordsAux_word (w cur : Bytes) (rest : List (Nat × Bytes)) (h : ∀ b ∈ w, isGraph b = true) :
    wordsAux cur (w.map (fun b => (b.toNat, [b])) ++ rest) = wordsAux (cur ++ w) rest := by
  induction w generalizing cur with
  | nil => simp
  | cons b w ih =>
    simp only [List.map_cons, List.cons_append, wordsAux, isGraph_not_space (h b (by simp))]
    rw [if_neg (by simp), ih _ (fun c hc => h c (by simp [hc]))]
    simp

/-- Printable words separated by single blanks or newlines are read back as such. -/
theorem fields_words (ws : List Bytes) (sep : UInt8) (hs : sep = 32 ∨ sep = 10)
    (h : ∀ w ∈ ws, w ≠ [] ∧ ∀ b ∈ w, isGraph b = true) :
    fields (ws.flatMap (fun w => w ++ [sep])) = ws := by
  unfold fields
  induction ws with
  | nil => rfl
  | cons w ws ih =>
    obtain ⟨h1, h2⟩ := h w (by simp)
    have hsp : sep < 0x80 ∧ isSpace sep.toNat = true := by rcases hs with rfl | rfl <;> decide
    simp only [List.flatMap_cons, List.append_assoc, List.cons_append, List.nil_append]
    rw [chunks_ascii w _ (fun b hb => isGraph_lt (h2 b hb)), wordsAux_word w _ _ h2,
      chunks_cons_ascii sep _ hsp.1]
    simp only [List.nil_append, wordsAux, hsp.2, if_true]
    rw [if_neg h1, ih (fun v hv => h v (by simp [hv]))]

end Go
