import Verif.Go.Utf8Last

/-!
# `strconv.Quote`

From the source of Go's package strconv (quote.go: `quoteWith`, `appendQuotedWith`, `appendEscapedRune`). The table of
printable characters outside ASCII (`strconv.IsPrint`) is a parameter.
-/

namespace Go

/-- A hexadecimal digit (`lowerhex`). -/
def hexDigit (v : Nat) : UInt8 := if v < 10 then UInt8.ofNat (48 + v) else UInt8.ofNat (87 + v)

/-- The last `n` hexadecimal digits of `v`. -/
def hex : Nat → Nat → Bytes
  | 0, _ => []
  | n + 1, v => hex n (v / 16) ++ [hexDigit (v % 16)]

/-- `strconv.IsPrint`, given its values outside ASCII. -/
def isPrint (p : Nat → Bool) (r : Nat) : Bool := if r < 0x80 then decide (32 ≤ r ∧ r ≤ 126) else p r

/-- `appendEscapedRune` with the quote `"`, neither ASCII only nor graphic only, for valid runes. (Older versions of Go write
U+007F as `\u007f`.) -/
def escapeRune (p : Nat → Bool) (r : Nat) : Bytes :=
  if r = 34 ∨ r = 92 then [92, UInt8.ofNat r]
  else if isPrint p r then encodeRune r
  else if r = 7 then [92, 97]
  else if r = 8 then [92, 98]
  else if r = 12 then [92, 102]
  else if r = 10 then [92, 110]
  else if r = 13 then [92, 114]
  else if r = 9 then [92, 116]
  else if r = 11 then [92, 118]
  else if r < 32 ∨ r = 127 then [92, 120] ++ hex 2 r
  else if r < 0x10000 then [92, 117] ++ hex 4 r
  else [92, 85] ++ hex 8 r

/-- The loop of `appendQuotedWith`: a byte that starts no character is written in hexadecimal. -/
def quoteChunk (p : Nat → Bool) (c : Nat × Bytes) : Bytes :=
  if c.1 = runeError ∧ c.2.length = 1 then [92, 120] ++ hex 2 (c.2.headD 0).toNat else escapeRune p c.1

/-- `strconv.Quote`. -/
def quote (p : Nat → Bool) (s : Bytes) : Bytes := 34 :: ((chunks s).flatMap (quoteChunk p) ++ [34])

end Go
