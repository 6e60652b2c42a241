import Verif.Go.Utf8

/-!
# pkg/flag/flag.go, pkg/flag/parse.go

Destination pointers are numbers; the memory they point to is a `Store`. `strconv.ParseInt(s, 0, 64)`
is a parameter (`none` stands for an error). `Input` is given explicitly (parse.go:22-24 would take it
from `os.Args` when nil).
-/

namespace Flag
open Go

/-- The variables flags write to (flag.go:10-20: `boolFlag`, `intFlag`, `stringFlag` hold pointers). -/
structure Store where
  bool : Nat → Bool
  int : Nat → Int
  str : Nat → Bytes

/-- parse.go:9-14 `Parser`: the three maps from runes to destinations. -/
structure Parser where
  bools : Nat → Option Nat := fun _ => none
  strings : Nat → Option Nat := fun _ => none
  ints : Nat → Option Nat := fun _ => none

/-- parse.go:85-90 `BoolVar`. -/
def Parser.boolVar (p : Parser) (addr : Nat) (name : Nat) : Parser :=
  { p with bools := fun c => if c = name then some addr else p.bools c }

/-- parse.go:93-98 `IntVar`. -/
def Parser.intVar (p : Parser) (addr : Nat) (name : Nat) : Parser :=
  { p with ints := fun c => if c = name then some addr else p.ints c }

/-- parse.go:101-106 `StringVar`. -/
def Parser.stringVar (p : Parser) (addr : Nat) (name : Nat) : Parser :=
  { p with strings := fun c => if c = name then some addr else p.strings c }

/-- How `Parse` (parse.go:21-82) can fail. -/
inductive Err where
  /-- flag.go:31 `ErrNonInt` -/
  | nonInt
  /-- parse.go:63 -/
  | unknown
  /-- a run-time panic (parse.go:49) -/
  | panic (p : Panic)
  deriving DecidableEq, Repr

/-- flag.go:25-27 `boolFlag.execute`. -/
def Store.setBool (s : Store) (a : Nat) : Store := { s with bool := fun b => if b = a then true else s.bool b }
/-- flag.go:37-39 `stringFlag.execute`. -/
def Store.setStr (s : Store) (a : Nat) (v : Bytes) : Store := { s with str := fun b => if b = a then v else s.str b }
/-- flag.go:33: the assignment of `intFlag.execute`. -/
def Store.setInt (s : Store) (a : Nat) (v : Int) : Store := { s with int := fun b => if b = a then v else s.int b }

/-- parse.go:38, 46: the letters of a bundle with `arg[j+2:]`, the bytes after the letter's first
byte. -/
def lettersAux : Nat → Bytes → List (Nat × Bytes)
  | _, [] => []
  | skip + 1, _ :: bs => lettersAux skip bs
  | 0, b :: bs =>
    let d := decodeRune b bs
    (d.1, bs) :: lettersAux (d.2 - 1) bs

/-- parse.go:38: `range arg[1:]`. -/
def letters (s : Bytes) : List (Nat × Bytes) := lettersAux 0 s

/-- parse.go:21: a result of `Parse` together with the memory as it is left. -/
structure Res (α : Type) where
  val : Except Err α
  store : Store

/-- parse.go:46-50: the value of a flag and the arguments left after it. -/
def valueOf (value : Bytes) (rest : List Bytes) : Option (Bytes × List Bytes) :=
  if value.length = 0 then
    match rest with
    | [] => none
    | v :: rest => some (v, rest)
  else some (value, rest)

/-- parse.go:52-63: a letter that is not a boolean flag, with its value. -/
def assign (p : Parser) (parseInt : Bytes → Option Int) (c : Nat) (v : Bytes) (st : Store) : Res Unit :=
  match p.strings c with
  | some a => ⟨.ok (), st.setStr a v⟩
  | none =>
    match p.ints c with
    | some a =>
      match parseInt v with
      | some x => ⟨.ok (), st.setInt a x⟩
      | none => ⟨.error .nonInt, st⟩
    | none => ⟨.error .unknown, st⟩

/-- parse.go:38-79: the loop over the letters of one argument. `rest` are the arguments after it; the
result is what is left of them. -/
def bundle (p : Parser) (parseInt : Bytes → Option Int) :
    List (Nat × Bytes) → (rest : List Bytes) → Store → Res (List Bytes)
  | [], rest, st => ⟨.ok rest, st⟩
  | (c, value) :: ls, rest, st =>
    match p.bools c with
    | some a => bundle p parseInt ls rest (st.setBool a)
    | none =>
      match valueOf value rest with
      | none => ⟨.error (.panic .index), st⟩
      | some (v, rest') =>
        match assign p parseInt c v st with
        | ⟨.ok (), st'⟩ => bundle p parseInt ls rest' st'
        | ⟨.error e, st'⟩ => ⟨.error e, st'⟩

theorem bundle_rest {p parseInt} (ls : List (Nat × Bytes)) : ∀ {rest st rest'},
    (bundle p parseInt ls rest st).val = .ok rest' → rest'.length ≤ rest.length := by
  induction ls with
  | nil => intro rest st rest' h; simp [bundle] at h; simp [h]
  | cons l ls ih =>
    intro rest st rest' h
    obtain ⟨c, value⟩ := l
    simp only [bundle] at h
    split at h
    · exact ih h
    · split at h
      · cases h
      · next v rest1 hv =>
        have hlen : rest1.length ≤ rest.length := by
          unfold valueOf at hv
          split at hv
          · split at hv
            · cases hv
            · cases hv; simp
          · cases hv; simp
        split at h
        · exact Nat.le_trans (ih h) hlen
        · cases h

/-- parse.go:21-82 `Parse`: the positional arguments or the error, and the variables. -/
def parse (p : Parser) (parseInt : Bytes → Option Int) (input : List Bytes) (st : Store) : Res (List Bytes) :=
  match input with
  | [] => ⟨.ok [], st⟩
  | arg :: rest =>
    if arg.length = 0 ∨ arg.head? ≠ some 45 ∨ arg = b!"-" then ⟨.ok (arg :: rest), st⟩
    else if arg = b!"--" then ⟨.ok rest, st⟩
    else
      match h : (bundle p parseInt (letters arg.tail) rest st).val with
      | .error e => ⟨.error e, (bundle p parseInt (letters arg.tail) rest st).store⟩
      | .ok rest' => parse p parseInt rest' (bundle p parseInt (letters arg.tail) rest st).store
termination_by input.length
decreasing_by
  have := bundle_rest _ h
  simp
  omega

end Flag
