import Verif.Go.Words

/-!
# bufio.Scanner and the readers it reads from

The code under verification reads its input through a `bufio.Scanner` (cmd/head/main.go:66, cmd/diff/main.go:89,
cmd/tsort/main.go:19, pkg/ed/ed.go:214). `scanLines` and `scanWords` say what such a scanner delivers as a function of the
bytes of the input. Here the scanner is modelled as it is written in package bufio: a buffer that is shifted and
doubled, filled by `Read` calls that return as much or as little as they like, and an error that is remembered.
`ScannerProps` proves that the tokens do not depend on any of that.

Part of the trusted modelling of the standard library (Go 1.x, bufio/scan.go).
-/

namespace Go

/-- An `io.Reader`: the pieces in which its bytes arrive, and what the call after the last of them returns: `none` is
`io.EOF`, `some e` another error with text `e`. Simplification: no call returns zero bytes without an error, or an error
together with bytes (files, pipes and terminals behave like that, and so does `io.MultiReader` over them). -/
structure Source where
  chunks : List Bytes
  err : Option Bytes := none
  deriving DecidableEq, Repr

/-- All its bytes. -/
def Source.bytes (r : Source) : Bytes := r.chunks.flatten

/-- No call returns zero bytes without an error. -/
def Source.Lively (r : Source) : Prop := ∀ c ∈ r.chunks, c ≠ []

/-- What the field `err` of a scanner can hold. -/
inductive ScanErr
  | eof
  | tooLong
  | read (e : Bytes)
  deriving DecidableEq, Repr

/-- What the reader returns at its end. -/
def Source.ending (r : Source) : ScanErr :=
  match r.err with
  | none => .eof
  | some e => .read e

/-- One call `Read(buf)` with `len(buf) = k`: at most `k` bytes of the next piece, or the error. -/
def Source.read (r : Source) (k : Nat) : Bytes × Option ScanErr × Source :=
  match r.chunks with
  | [] => ([], some r.ending, r)
  | c :: cs =>
    if c.length ≤ k then (c, none, { r with chunks := cs })
    else (c.take k, none, { r with chunks := c.drop k :: cs })

/-- The state of a scanner: its reader, `len(buf)`, `start`, the bytes `buf[start:end]`, and `err`. -/
structure Scanner where
  src : Source
  cap : Nat := 0
  start : Nat := 0
  held : Bytes := []
  err : Option ScanErr := none
  deriving DecidableEq, Repr

/-- `bufio.NewScanner`. -/
def newScanner (r : Source) : Scanner := { src := r }

/-- A `bufio.SplitFunc` that reports no errors: from the data and `atEOF`, the advance and the token. -/
abbrev Split := Bytes → Bool → Nat × Option Bytes

/-- `bufio.ScanLines`. -/
def splitLines : Split := fun data atEOF =>
  if atEOF ∧ data = [] then (0, none)
  else if nl ∈ data then ((data.takeWhile (· ≠ nl)).length + 1, some (dropCR (data.takeWhile (· ≠ nl))))
  else if atEOF then (data.length, some (dropCR data))
  else (0, none)

/-- The first loop of `bufio.ScanWords`: the length of the white space at the beginning. -/
def leading : List (Nat × Bytes) → Nat
  | [] => 0
  | (r, bs) :: rest => if isSpace r then bs.length + leading rest else 0

/-- The second loop of `bufio.ScanWords`: the length of what comes before the first white space and the length of that
white space. -/
def firstSpace : List (Nat × Bytes) → Option (Nat × Nat)
  | [] => none
  | (r, bs) :: rest =>
    if isSpace r then some (0, bs.length)
    else match firstSpace rest with
      | none => none
      | some (i, k) => some (bs.length + i, k)

/-- `bufio.ScanWords`. -/
def splitWords : Split := fun data atEOF =>
  let start := leading (chunks data)
  match firstSpace (chunks (data.drop start)) with
  | some (i, k) => (start + i + k, some ((data.drop start).take i))
  | none => if atEOF ∧ start < data.length then (data.length, some (data.drop start)) else (start, none)

/-- The first half of a round of `Scan`: try to get a token from what is held. -/
def Scanner.attempt (split : Split) (s : Scanner) : Option Bytes × Scanner :=
  if s.held ≠ [] ∨ s.err ≠ none then
    let r := split s.held s.err.isSome
    (r.2, { s with start := s.start + r.1, held := s.held.drop r.1 })
  else (none, s)

/-- `Scan`: move the data to the beginning of the buffer if it is at its end or the first half of it is free. -/
def Scanner.shift (s : Scanner) : Scanner :=
  if 0 < s.start ∧ (s.start + s.held.length = s.cap ∨ s.cap / 2 < s.start) then { s with start := 0 } else s

/-- `Scan`: a full buffer is doubled, from 4096 bytes (`startBufSize`) to at most 65536; if that is its size already the
error is `ErrTooLong`. -/
def Scanner.grow (s : Scanner) : Scanner × Bool :=
  if s.start + s.held.length = s.cap then
    if maxToken ≤ s.cap then ({ s with err := some .tooLong }, false)
    else ({ s with cap := min (if s.cap * 2 = 0 then 4096 else s.cap * 2) maxToken, start := 0 }, true)
  else (s, true)

/-- `Scan`: fill the rest of the buffer with one call of `Read`. -/
def Scanner.fill (s : Scanner) : Scanner :=
  let r := s.src.read (s.cap - (s.start + s.held.length))
  { s with src := r.2.2, held := s.held ++ r.1, err := r.2.1 }

/-- The loop of `Scan`, with the number of rounds as a bound: the token, or `none` if `Scan` returns false. -/
def Scanner.rounds (split : Split) : Nat → Scanner → Option Bytes × Scanner
  | 0, s => (none, s)
  | n + 1, s =>
    match s.attempt split with
    | (some t, s1) => (some t, s1)
    | (none, s1) =>
      if s1.err ≠ none then (none, { s1 with start := 0, held := [] })
      else
        match s1.shift.grow with
        | (s2, false) => (none, s2)
        | (s2, true) => Scanner.rounds split n s2.fill

/-- `(*Scanner).Scan` and `Text`. Every round that does not end the call reads a byte or the error at the end, so the bound
is never reached (this is part of what `ScannerProps` proves). -/
def Scanner.scan (split : Split) (s : Scanner) : Option Bytes × Scanner :=
  Scanner.rounds split (s.src.bytes.length + 2) s

/-- `(*Scanner).Err`: the end of the input is no error. -/
def Scanner.failure (s : Scanner) : Option ScanErr := if s.err = some .eof then none else s.err

/-- The text of an error. -/
def ScanErr.text : ScanErr → Bytes
  | .eof => b!"EOF"
  | .tooLong => b!"bufio.Scanner: token too long"
  | .read e => e

/-- `for s.Scan() { … s.Text() … }`: all the tokens and the scanner afterwards, with a bound on their number. -/
def Scanner.allUpTo (split : Split) : Nat → Scanner → List Bytes × Scanner
  | 0, s => ([], s)
  | n + 1, s =>
    match s.scan split with
    | (none, s1) => ([], s1)
    | (some t, s1) => let r := Scanner.allUpTo split n s1; (t :: r.1, r.2)

/-- All the tokens: each takes up at least one byte. -/
def Scanner.all (split : Split) (s : Scanner) : List Bytes × Scanner :=
  Scanner.allUpTo split (s.held.length + s.src.bytes.length + 1) s

example : (newScanner { chunks := [b!"a\nb", b!"c\n\n", b!"d"] }).all splitLines =
    ([b!"a", b!"bc", b!"", b!"d"], { src := { chunks := [] }, cap := 4096, start := 0, held := [], err := some .eof }) := by
  decide +kernel

example : ((newScanner { chunks := [[32, 65, 0xE3], [0x80], [0x80, 66, 0xE3, 0x80]], err := some b!"x" }).all splitWords).1 =
    [[65], [66, 0xE3, 0x80]] := by decide +kernel

end Go
