import Verif.Ed.OtherCommands
import Verif.Ed.BlockProps
import Verif.Ed.TypedRun

/-!
# What the editor does not carry out (C88, C89)

The executor answers every command it does not implement with a message and leaves everything as it is. Marks and
backward searches are parsed, but evaluating one ends the program.
-/

namespace Ed
open Go

/-! ## Specification: the lines -/

/-- A command line for something the editor does not do. -/
inductive NotDone where
  /-- `h`, `H`, `P`, `Q`, `u` -/
  | bare (letter : UInt8) (w : Bytes)
  /-- `E name`, `f name` -/
  | named (letter : UInt8) (ws name : Bytes)
  /-- `E`, `f` -/
  | noName (letter : UInt8)
  /-- `j`, `l` -/
  | ranged (r : RangeSyn) (letter : UInt8) (w : Bytes)
  /-- `kx` -/
  | mark (r : RangeSyn) (x : UInt8) (w : Bytes)
  /-- `mA`, `tA` -/
  | dest (r : RangeSyn) (letter : UInt8) (a : AddrSyn) (w : Bytes)
  /-- `r name` -/
  | read (r : RangeSyn) (ws name : Bytes)
  /-- `!text` -/
  | shell (text : Bytes)
  deriving DecidableEq, Repr

/-- The line. -/
def NotDone.bytes : NotDone → Bytes
  | .bare l w => l :: w
  | .named l ws name => l :: (ws ++ name)
  | .noName l => [l]
  | .ranged r l w => r.bytes ++ l :: w
  | .mark r x w => r.bytes ++ 107 :: x :: w
  | .dest r l a w => r.bytes ++ l :: (a.bytes ++ w)
  | .read r ws name => r.bytes ++ 114 :: (ws ++ name)
  | .shell text => 33 :: text

/-- Well-formed. -/
def NotDone.OK : NotDone → Prop
  | .bare l w => l ∈ b!"hHPQu" ∧ Blanks w
  | .named l ws name => l ∈ b!"Ef" ∧ Blanks ws ∧ ws ≠ [] ∧ NameOK name
  | .noName l => l ∈ b!"Ef"
  | .ranged r l w => r.OK ∧ l ∈ b!"jl" ∧ Blanks w
  | .mark r x w => r.OK ∧ r.Simple ∧ 97 ≤ x ∧ x ≤ 122 ∧ Blanks w
  | .dest r l a w => r.OK ∧ l ∈ b!"mt" ∧ a.OK ∧ Blanks w
  | .read r ws name => r.OK ∧ r.Simple ∧ Blanks ws ∧ ws ≠ [] ∧ NameOK name
  | .shell text => text ≠ [] ∧ (∀ c ∈ text, c < 0x80) ∧ 10 ∉ text

/-! ## Lemmas -/

/-- A command type the executor has no case for. -/
def CmdType.Todo (t : CmdType) : Prop :=
  t ∈ [CmdType.editForce, .filename, .help, .helpMode, .join, .mark, .list, .move, .prompt, .quitForce, .read, .copy, .undo, .shell]

instance (t : CmdType) : Decidable t.Todo := inferInstanceAs (Decidable (_ ∈ _))

theorem todo_nyi (env : Env) (s : State) (c : Command) (h : c.typ.Todo) : processCommand env s c = .ok (s, b!"? (NYI)") := by
  have ht := typ_setDefault c
  simp only [CmdType.Todo, List.mem_cons, List.not_mem_nil, or_false] at h
  rcases h with h | h | h | h | h | h | h | h | h | h | h | h | h | h <;> rw [h] at ht <;> simp only [processCommand, ht]

theorem notDone_parse (n : NotDone) (h : n.OK) : ∃ c, parseCommands (n.bytes ++ [nl]) = some [c] ∧ c.typ.Todo := by
  cases n with
  | bare l w =>
    obtain ⟨hl, hw⟩ := h
    simp at hl
    have key : ∀ typ, (l, typ) ∈ bareCommands → parseCommands (l :: w ++ [nl]) = some [{ typ := typ }] := by
      intro typ ht
      have := C67_bare [] w blanks_nil hw l typ ht
      simpa using this
    rcases hl with rfl | rfl | rfl | rfl | rfl
    · exact ⟨_, key .help (by decide), by simp [CmdType.Todo]⟩
    · exact ⟨_, key .helpMode (by decide), by simp [CmdType.Todo]⟩
    · exact ⟨_, key .prompt (by decide), by simp [CmdType.Todo]⟩
    · exact ⟨_, key .quitForce (by decide), by simp [CmdType.Todo]⟩
    · exact ⟨_, key .undo (by decide), by simp [CmdType.Todo]⟩
  | named l ws name =>
    obtain ⟨hl, hw, hne, hn⟩ := h
    simp at hl
    have key : ∀ typ, (l, typ) ∈ nameCommands → parseCommands (l :: (ws ++ name) ++ [nl]) = some [{ typ := typ, params := [name] }] := by
      intro typ ht
      have := C67_names [] ws blanks_nil hw hne name hn l typ ht
      simpa using this
    rcases hl with rfl | rfl
    · exact ⟨_, key .editForce (by decide), by simp [CmdType.Todo]⟩
    · exact ⟨_, key .filename (by decide), by simp [CmdType.Todo]⟩
  | noName l =>
    simp [NotDone.OK] at h
    rcases h with rfl | rfl
    · exact ⟨_, C67_noName [] blanks_nil 69 .editForce (by decide), by simp [CmdType.Todo]⟩
    · exact ⟨_, C67_noName [] blanks_nil 102 .filename (by decide), by simp [CmdType.Todo]⟩
  | ranged r l w =>
    obtain ⟨hr, hl, hw⟩ := h
    simp at hl
    have key : ∀ typ, (l, typ) ∈ rangeCommands →
        parseCommands (r.bytes ++ l :: w ++ [nl]) = some [{ typ := typ, start := r.start, end_ := r.end_ }] := by
      intro typ ht
      have := C67_range_commands [] w blanks_nil hw r hr l typ ht
      simpa using this
    rcases hl with rfl | rfl
    · exact ⟨_, key .join (by decide), by simp [CmdType.Todo]⟩
    · exact ⟨_, key .list (by decide), by simp [CmdType.Todo]⟩
  | mark r x w =>
    obtain ⟨hr, hs, h1, h2, hw⟩ := h
    have := C67_mark [] w blanks_nil hw r hr hs x h1 h2
    exact ⟨_, by simpa [NotDone.bytes] using this, by simp [CmdType.Todo]⟩
  | dest r l a w =>
    obtain ⟨hr, hl, ha, hw⟩ := h
    simp at hl
    have key : ∀ typ, (l, typ) ∈ destCommands →
        parseCommands (r.bytes ++ l :: (a.bytes ++ w) ++ [nl]) = some [{ typ := typ, start := r.start, end_ := r.end_, dest := a.address }] := by
      intro typ ht
      have := C67_dest [] w blanks_nil hw r hr a ha l typ ht
      simpa using this
    rcases hl with rfl | rfl
    · exact ⟨_, key .move (by decide), show CmdType.Todo .move by decide⟩
    · exact ⟨_, key .copy (by decide), show CmdType.Todo .copy by decide⟩
  | read r ws name =>
    obtain ⟨hr, hs, hw, hne, hn⟩ := h
    have := C67_read [] blanks_nil r hr hs ws name hw hne hn
    exact ⟨_, by simpa [NotDone.bytes] using this, by simp [CmdType.Todo]⟩
  | shell text =>
    obtain ⟨hne, ha, hn⟩ := h
    have := C67_shell [] blanks_nil text hne ha hn
    exact ⟨_, by simpa [NotDone.bytes] using this, by simp [CmdType.Todo]⟩

/-- The bytes a line that starts a text block consists of. -/
def startByte (c : UInt8) : Bool := isS c || isA c || c == 44 || c == 97 || c == 105 || c == 99

theorem isStart_bytes (l : Bytes) (h : isStart l = true) : ∀ c ∈ l, startByte c = true := by
  have star : ∀ (p : UInt8 → Bool) (k : Bytes → Bool), (∀ c, p c = true → startByte c = true) →
      (∀ l, k l = true → ∀ c ∈ l, startByte c = true) → ∀ l, starK p k l = true → ∀ c ∈ l, startByte c = true := by
    intro p k hp hk l
    induction l with
    | nil => intro _ c hc; cases hc
    | cons d l ih =>
      intro h c hc
      simp only [starK, Bool.or_eq_true, Bool.and_eq_true] at h
      rcases h with h | ⟨h1, h2⟩
      · exact hk _ h c hc
      · rcases List.mem_cons.1 hc with rfl | hc
        · exact hp _ h1
        · exact ih h2 c hc
  have hS : ∀ c, isS c = true → startByte c = true := fun c h => by simp [startByte, h]
  have hA : ∀ c, isA c = true → startByte c = true := fun c h => by simp [startByte, h]
  have hE : ∀ l : Bytes, l.isEmpty = true → ∀ c ∈ l, startByte c = true := by
    intro l h c hc; cases l with
    | nil => cases hc
    | cons => cases h
  have hL : ∀ l, letterK (starK isS List.isEmpty) l = true → ∀ c ∈ l, startByte c = true := by
    intro l h c hc
    cases l with
    | nil => cases hc
    | cons d l =>
      simp only [letterK, Bool.and_eq_true, Bool.or_eq_true, beq_iff_eq] at h
      rcases List.mem_cons.1 hc with rfl | hc
      · rcases h.1 with (h | h) | h <;> simp [startByte, h]
      · exact star _ _ hS hE l h.2 c hc
  have h1 := star _ _ hS (star _ _ hA (star _ _ hS hL))
  have hC : ∀ l, optComma (starK isS (starK isA (starK isS (letterK (starK isS List.isEmpty))))) l = true →
      ∀ c ∈ l, startByte c = true := by
    intro l h c hc
    cases l with
    | nil => cases hc
    | cons d l =>
      simp only [optComma, Bool.or_eq_true, Bool.and_eq_true, beq_iff_eq] at h
      rcases h with ⟨rfl, h⟩ | h
      · rcases List.mem_cons.1 hc with rfl | hc
        · decide
        · exact h1 l h c hc
      · exact h1 _ h c hc
  exact star _ _ hS (star _ _ hA (star _ _ hS hC)) l h

theorem notDone_not_start (n : NotDone) (h : n.OK) : isStart n.bytes = false := by
  cases hi : isStart n.bytes with
  | false => rfl
  | true =>
    exfalso
    have hb := isStart_bytes _ hi
    cases n with
    | bare l w =>
      have hl := h.1
      simp at hl
      have := hb l (by simp [NotDone.bytes])
      rcases hl with rfl | rfl | rfl | rfl | rfl <;> revert this <;> decide
    | named l ws name =>
      have hl := h.1
      simp at hl
      have := hb l (by simp [NotDone.bytes])
      rcases hl with rfl | rfl <;> revert this <;> decide
    | noName l =>
      simp [NotDone.OK] at h
      have := hb l (by simp [NotDone.bytes])
      rcases h with rfl | rfl <;> revert this <;> decide
    | ranged r l w =>
      have hl := h.2.1
      simp at hl
      have := hb l (by simp [NotDone.bytes])
      rcases hl with rfl | rfl <;> revert this <;> decide
    | mark r x w =>
      have := hb 107 (by simp [NotDone.bytes])
      revert this; decide
    | dest r l a w =>
      have hl := h.2.1
      simp at hl
      have := hb l (by simp [NotDone.bytes])
      rcases hl with rfl | rfl <;> revert this <;> decide
    | read r ws name =>
      have := hb 114 (by simp [NotDone.bytes])
      revert this; decide
    | shell text =>
      have := hb 33 (by simp [NotDone.bytes])
      revert this; decide

/-! ## C88 -/

/-- **C88** A command line for something the editor does not do is one command; executed in any state, whatever the
outside world does, it is answered with `? (NYI)`, and the buffer, the current line, the file name and every file
are as before. -/
theorem C88_one (n : NotDone) (h : n.OK) : ∃ c, parseCommands (n.bytes ++ [nl]) = some [c] ∧ c.typ ≠ .quit ∧
    ∀ env s, processCommand env s c = .ok (s, b!"? (NYI)") := by
  obtain ⟨c, hc, ht⟩ := notDone_parse n h
  refine ⟨c, hc, ?_, fun env s => todo_nyi env s c ht⟩
  intro e; rw [e] at ht; revert ht; decide

/-- **C88** Any number of such lines, typed at an editor in any state: for every schedule of its goroutines, when it
has stopped it has stopped because of the end of the input, the state and all files are as before, every line was
answered with `? (NYI)`, and there is no error message. -/
theorem C88_changes_nothing (env : Env) (errText : Bytes → Bytes) (s0 : State) (ns : List NotDone) (hns : ∀ n ∈ ns, n.OK)
    (hp : ∀ n ∈ ns, PlainLine n.bytes) (st : Sys) (how : End)
    (hs : Steps env (initial errText s0 (unlines (ns.map NotDone.bytes))) st) (he : st.cons.ended = some how) :
    how = .finished ∧ st.ed = s0 ∧ results st.out = List.replicate ns.length b!"? (NYI)\n" ∧ errors st.out = [] := by
  have prog : ∀ ns : List NotDone, (∀ n ∈ ns, n.OK) → ∃ cs : List Command, cs.length = ns.length ∧ (∀ c ∈ cs, c.typ.Todo) ∧
      (groups none (ns.map NotDone.bytes)).flatMap (eventsOf errText) = cs.flatMap evs := by
    intro ns
    induction ns with
    | nil => intro _; exact ⟨[], rfl, by simp, rfl⟩
    | cons n ns ih =>
      intro h
      obtain ⟨cs, h1, h2, h3⟩ := ih (fun m hm => h m (by simp [hm]))
      obtain ⟨c, hc, ht⟩ := notDone_parse n (h n (by simp))
      refine ⟨c :: cs, by simp [h1], ?_, ?_⟩
      · intro d hd
        rcases List.mem_cons.1 hd with rfl | hd
        · exact ht
        · exact h2 d hd
      · rw [List.map_cons, groups, if_neg (by rw [notDone_not_start n (h n (by simp))]; decide), List.flatMap_cons, h3]
        rw [eventsOf_some hc]; simp
  obtain ⟨cs, hlen, htodo, hev⟩ := prog ns hns
  have hscan : scanLines (unlines (ns.map NotDone.bytes)) = (ns.map NotDone.bytes, false) := by
    refine scanLines_unlines _ ?_
    intro l hl
    obtain ⟨n, hn, rfl⟩ := List.mem_map.1 hl
    exact hp n hn
  have hprog : program errText (unlines (ns.map NotDone.bytes)) = cs.flatMap evs := by
    rw [program, texts_short (by rw [hscan]), hscan]
    simp only [hev]
    simp [scanError]
  obtain ⟨h1, h2, -⟩ := C69_schedule_independent env errText s0 _ st how hs he
  rw [hprog, sends_evs] at h1
  rw [hprog, reports_evs] at h2
  have seqs : ∀ cs : List Command, (∀ c ∈ cs, c.typ.Todo) →
      sequential env s0 cs = (.finished, s0, List.replicate cs.length b!"? (NYI)\n") := by
    intro cs
    induction cs with
    | nil => intro _; rfl
    | cons c cs ih =>
      intro h
      have ht := h c (by simp)
      have hq : c.typ ≠ .quit := by intro e; rw [e] at ht; revert ht; decide
      rw [sequential, if_neg hq]
      simp only [todo_nyi env s0 c ht, ih (fun d hd => h d (by simp [hd])), List.length_cons, List.replicate_succ]
      rfl
  rw [seqs cs htodo] at h1
  simp only [Prod.mk.injEq] at h1
  obtain ⟨rfl, rfl, h1⟩ := h1
  exact ⟨rfl, rfl, by rw [← h1, hlen], by simpa using h2⟩

/-- One line of each kind. -/
def demoNotDone : List NotDone :=
  [.bare 117 b!" ", .named 102 b!" " b!"other", .noName 69, .ranged (.all false) 106 [], .mark (.one .dot []) 97 [],
   .dest (.both false (.lit b!"1") [] [] (.lit b!"2") []) 109 .dollar [], .read (.one .dollar []) b!" " b!"notes", .shell b!"rm *"]

example : unlines (demoNotDone.map NotDone.bytes) = b!"u \nf other\nE\n,j\n.ka\n1,2m$\n$r notes\n!rm *\n" := by decide

example (env : Env) (errText : Bytes → Bytes) (s0 : State) (st : Sys) (how : End)
    (hs : Steps env (initial errText s0 b!"u \nf other\nE\n,j\n.ka\n1,2m$\n$r notes\n!rm *\n") st) (he : st.cons.ended = some how) :
    st.ed = s0 := by
  have e : b!"u \nf other\nE\n,j\n.ka\n1,2m$\n$r notes\n!rm *\n" = unlines (demoNotDone.map NotDone.bytes) := by decide
  rw [e] at hs
  have nm : ∀ name : Bytes, name ≠ [] → (∀ c ∈ name, c < 0x80) → 10 ∉ name → (name.head?.any fun c => c == 32 || c == 9) = false → NameOK name := by
    intro name h1 h2 h3 h4
    refine ⟨h1, h2, h3, ?_⟩
    rintro c cs rfl
    simpa using h4
  refine (C88_changes_nothing env errText s0 demoNotDone ?_ ?_ st how hs he).2.1
  · intro n hn
    simp only [demoNotDone, List.mem_cons, List.not_mem_nil, or_false] at hn
    rcases hn with rfl | rfl | rfl | rfl | rfl | rfl | rfl | rfl
    · exact ⟨by decide, by simp [Blanks]⟩
    · exact ⟨by decide, by simp [Blanks], by decide, nm _ (by decide) (by decide) (by decide) (by decide)⟩
    · exact show (69 : UInt8) ∈ b!"Ef" by decide
    · exact ⟨trivial, by decide, blanks_nil⟩
    · exact ⟨⟨trivial, blanks_nil⟩, trivial, by decide, by decide, blanks_nil⟩
    · exact ⟨⟨⟨by decide, by decide⟩, ⟨by decide, by decide⟩, blanks_nil, blanks_nil, blanks_nil⟩, by decide, trivial, blanks_nil⟩
    · exact ⟨⟨trivial, blanks_nil⟩, trivial, by simp [Blanks], by decide, nm _ (by decide) (by decide) (by decide) (by decide)⟩
    · exact ⟨by decide, by decide, by decide⟩
  · intro n hn
    refine plain_ascii _ ?_ ?_ ?_
    all_goals
      simp only [demoNotDone, List.mem_cons, List.not_mem_nil, or_false] at hn
      rcases hn with rfl | rfl | rfl | rfl | rfl | rfl | rfl | rfl <;> decide

/-! ## C89 -/

/-- A mark or a backward search, perhaps with an offset. -/
def AddrSyn.Missing : AddrSyn → Prop
  | .mark _ | .back _ => True
  | .off a _ _ => a.Missing
  | _ => False

theorem missing_panics (env : Env) (s : State) (a : AddrSyn) (h : a.Missing) (o : Int) (t : Bytes) :
    addrLine env s { typ := a.typ, text := t, offset := o } = .error (.panic .explicit) := by
  induction a with
  | mark c => rfl
  | back body => rfl
  | off a m ds ih => exact ih h
  | lit | dot | dollar | re => exact h.elim

/-- The commands that look at their first address. -/
def CmdType.Looks (t : CmdType) : Prop :=
  t ∈ [CmdType.print, .number, .null, .delete, .append, .insert, .change, .lineNumber]

instance (t : CmdType) : Decidable t.Looks := inferInstanceAs (Decidable (_ ∈ _))

/-- **C89** A command whose first address is a mark or a backward search ends the program if the editor carries the
command out at all, in every state. -/
theorem C89_crashes (env : Env) (s : State) (a : AddrSyn) (h : a.Missing) (c : Command) (hc : c.typ.Looks)
    (hs : ∃ t, c.start = { a.address with text := t }) : processCommand env s c = .error (.panic .explicit) := by
  obtain ⟨t, hs⟩ := hs
  have hne : c.start.typ ≠ .null := by rw [hs]; exact address_typ_ne a
  have hd := setDefault_given c hne
  have ha : addrLine env s c.start = .error (.panic .explicit) := by rw [hs]; exact missing_panics env s a h 0 t
  simp only [CmdType.Looks, List.mem_cons, List.not_mem_nil, or_false] at hc
  rcases hc with hc | hc | hc | hc | hc | hc | hc | hc <;> simp only [processCommand, hd, hc, ha, bind, Except.bind]

/-- **C89** As typed: `'xp`, `?re?d` and the like, also with an offset and a second address. -/
theorem C89_crashes_typed (env : Env) (s : State) (w0 w9 : Bytes) (hw0 : Blanks w0) (hw9 : Blanks w9) (r : RangeSyn) (hr : r.OK)
    (a : AddrSyn) (h : a.Missing) (ha : r.start = a.address) (letter : UInt8) (hl : letter ∈ b!"pnd") :
    ∃ c, parseCommands (w0 ++ (r.bytes ++ [letter]) ++ w9 ++ [10]) = some [c] ∧ processCommand env s c = .error (.panic .explicit) := by
  simp at hl
  rcases hl with rfl | rfl | rfl
  · exact ⟨_, C67_range_commands w0 w9 hw0 hw9 r hr 112 .print (by decide),
      C89_crashes env s a h _ (show CmdType.Looks .print by decide) ⟨_, ha⟩⟩
  · exact ⟨_, C67_range_commands w0 w9 hw0 hw9 r hr 110 .number (by decide),
      C89_crashes env s a h _ (show CmdType.Looks .number by decide) ⟨_, ha⟩⟩
  · exact ⟨_, C67_range_commands w0 w9 hw0 hw9 r hr 100 .delete (by decide),
      C89_crashes env s a h _ (show CmdType.Looks .delete by decide) ⟨_, ha⟩⟩

/-- Addresses as the parser delivers them, and the lines they stand for. -/
structure Stands (env : Env) (s : State) (c : Command) (a b : Nat) : Prop where
  first : addrLine env s (setDefaultAddresses c).start = .ok a
  last : addrLine env s (setDefaultAddresses c).end_ = .ok b
  small : a < 2 ^ 63 ∧ b < 2 ^ 63

/-- Lines `a` to `b`, empty where there is none. -/
def paddedLines (ls : List Bytes) (a b : Nat) : List Bytes := (List.range' a (b + 1 - a)).map fun i => ls.getD (i - 1) []

theorem paddedLines_slice (ls : List Bytes) (k a b : Nat) (h1 : 1 ≤ a) (h : b ≤ ls.length + k) :
    ((ls ++ List.replicate k []).take b).drop (a - 1) = paddedLines ls a b := by
  unfold paddedLines
  apply List.ext_getElem?
  intro i
  rw [List.getElem?_drop, List.getElem?_map]
  by_cases hi : i < b + 1 - a
  · rw [List.getElem?_range' hi, List.getElem?_take_of_lt (by omega)]
    simp only [Option.map_some, Nat.one_mul]
    rw [show a + i - 1 = a - 1 + i by omega]
    by_cases hl : a - 1 + i < ls.length
    · rw [List.getElem?_append_left hl, List.getD_eq_getElem?_getD, List.getElem?_eq_getElem hl]; rfl
    · rw [List.getElem?_append_right (by omega), List.getElem?_replicate, if_pos (by omega), List.getD_eq_getElem?_getD,
        List.getElem?_eq_none (by omega)]
      rfl
  · rw [List.getElem?_eq_none (by simp; omega), List.getElem?_eq_none (by simp; omega)]
    rfl

/-- **C89** (partial: expected is an answer to every command; this says exactly when `p` and `n` with addresses that
stand for lines `a` and `b` answer, and what) `p` answers iff 1 ≤ a ≤ b+1 and `b` is at most the number of lines or,
unless there are none, the capacity the line table happens to have, with empty lines for those that do not exist; `n`
answers iff a > b or 1 ≤ a and `b` is at most the number of lines. Otherwise the program ends with an index error. -/
theorem C89_print_number_partial (env : Env) {s : State} {ls : List Bytes} (h : Shows s ls) (hc : Clean ls) (c : Command) (a b : Nat)
    (hs : Stands env s c a b) :
    (c.typ = .print →
      ((1 ≤ a ∧ a ≤ b + 1 ∧ (b ≤ ls.length ∨ ls ≠ [] ∧ b ≤ env.cap ls.length)) →
        processCommand env s c = .ok (s, join [nl] (paddedLines ls a b))) ∧
      (¬ (1 ≤ a ∧ a ≤ b + 1 ∧ (b ≤ ls.length ∨ ls ≠ [] ∧ b ≤ env.cap ls.length)) →
        processCommand env s c = .error (.panic .index))) ∧
    (c.typ = .number →
      ((b < a ∨ (1 ≤ a ∧ b ≤ ls.length)) → processCommand env s c = .ok (s, numbered a (paddedLines ls a b))) ∧
      (¬ (b < a ∨ (1 ≤ a ∧ b ≤ ls.length)) → processCommand env s c = .error (.panic .index))) := by
  have hroom : (b ≤ ls.length ∨ ls ≠ [] ∧ b ≤ env.cap ls.length) ↔ b ≤ room env ls.length := by
    unfold room
    cases ls with
    | nil => simp
    | cons l ls =>
      rw [if_neg (by simp)]
      simp only [ne_eq, reduceCtorEq, not_false_eq_true, true_and]
      omega
  rw [hroom]
  obtain ⟨ha, hb, hsm⟩ := hs
  have hn : (b < a ∨ (1 ≤ a ∧ b ≤ ls.length)) → number s a b = .ok (numbered a (paddedLines ls a b)) := by
    intro hr
    simp only [number, getLines_shows h hc.plain, dropBlank_clean hc.lastNe]
    by_cases hab : b < a
    · rw [if_pos (by omega)]
      have : b + 1 - a = 0 := by omega
      simp [paddedLines, this, numbered]
    · rw [if_neg (by omega), if_neg (by omega)]
      have : ((a : Int) - 1).toNat = a - 1 := by omega
      rw [this, numberLoop_ok b (ls.drop (a - 1)) a (by simp; omega)]
      have e := paddedLines_slice ls 0 a b (by omega) (by omega)
      simp only [List.replicate_zero, List.append_nil] at e
      rw [← e, List.drop_take, show b - (a - 1) = b + 1 - a by omega]
  have hn' : ¬ (b < a ∨ (1 ≤ a ∧ b ≤ ls.length)) → number s a b = .error .index := by
    intro hr
    simp only [number, getLines_shows h hc.plain, dropBlank_clean hc.lastNe]
    rw [if_neg (by omega)]
    by_cases h1 : 1 ≤ a
    · rw [if_neg (by omega)]
      have : ((a : Int) - 1).toNat = a - 1 := by omega
      rw [this]
      have loop : ∀ (xs : List Bytes) (i : Nat), i + xs.length ≤ b → numberLoop b i xs = .error .index := by
        intro xs
        induction xs with
        | nil => intro i hi; simp only [List.length_nil] at hi; rw [numberLoop, if_neg (by omega)]
        | cons x xs ih =>
          intro i hi
          simp only [List.length_cons] at hi
          rw [numberLoop, if_neg (by omega)]
          have := ih (i + 1) (by omega)
          have e : ((i + 1 : Nat) : Int) = (i : Int) + 1 := by omega
          rw [e] at this
          rw [this]
      by_cases ha' : a - 1 ≤ ls.length
      · exact loop _ _ (by simp; omega)
      · exact loop _ _ (by simp; omega)
    · rw [if_pos (by omega)]
  have hp : (1 ≤ a ∧ a ≤ b + 1 ∧ b ≤ room env ls.length) → print env s a b = .ok (join [nl] (paddedLines ls a b)) := by
    intro ⟨h1, h2, h3⟩
    simp only [print, scanned_shows h hc.plain, dropBlank_clean hc.lastNe]
    rw [wrap64_id (by omega) (by omega)]
    have : ((a : Int) - 1) = ((a - 1 : Nat) : Int) := by omega
    rw [this, slice_ok _ _ _ (by omega) (by simp; omega), paddedLines_slice _ _ _ _ h1 (by omega)]
  have hp' : ¬ (1 ≤ a ∧ a ≤ b + 1 ∧ b ≤ room env ls.length) → print env s a b = .error .index := by
    intro hr
    simp only [print, scanned_shows h hc.plain, dropBlank_clean hc.lastNe]
    rw [wrap64_id (by omega) (by omega), slice, if_neg]
    simp only [List.length_append, List.length_replicate]
    have hl : ls.length ≤ room env ls.length := by
      rw [room]; split <;> omega
    omega
  refine ⟨fun ht => ⟨fun hr => ?_, fun hr => ?_⟩, fun ht => ⟨fun hr => ?_, fun hr => ?_⟩⟩
  · simp only [processCommand, typ_setDefault, ht, ha, hb, bind, Except.bind, hp hr, lift]
    rfl
  · simp only [processCommand, typ_setDefault, ht, ha, hb, bind, Except.bind, hp' hr, lift]
  · simp only [processCommand, typ_setDefault, ht, ha, hb, bind, Except.bind, hn hr, lift]
    rfl
  · simp only [processCommand, typ_setDefault, ht, ha, hb, bind, Except.bind, hn' hr, lift]

/-- `0p` ends the program. -/
example : processCommand demoEnv (opened demoLines 4) { typ := .print, start := numAddr 0, end_ := numAddr 0 } = .error (.panic .index) :=
  ((C89_print_number_partial demoEnv (opened_shows demoLines 4) demo_clean
    { typ := .print, start := numAddr 0, end_ := numAddr 0 } 0 0
    ⟨addrLine_denotes demoEnv (st := ⟨demoLines, 4⟩) (opened_shows demoLines 4) demo_clean rfl (numAddr_denotes 0) (by decide),
     addrLine_denotes demoEnv (st := ⟨demoLines, 4⟩) (opened_shows demoLines 4) demo_clean rfl (numAddr_denotes 0) (by decide),
     by decide⟩).1 rfl).2 (by decide)

/-- **C89** `a` and `i` accept any line number: the text goes after line min(a, n) respectively before line
min(a, n+1) (line 0 counting as line 1), without a message. -/
theorem C89_add_anywhere (env : Env) {s : State} {ls : List Bytes} (h : Shows s ls) (hc : Clean ls) (c : Command) (a : Nat)
    (ha : addrLine env s (setDefaultAddresses c).start = .ok a) (hs : a < 2 ^ 62) (t : List Bytes) (ht : TextOK t) (htext : c.text = join [nl] t) :
    (c.typ = .append → ∃ s', processCommand env s c = .ok (s', []) ∧ Shows s' (ls.take a ++ t ++ ls.drop a)) ∧
    (c.typ = .insert → ∃ s', processCommand env s c = .ok (s', []) ∧ Shows s' (ls.take (a - 1) ++ t ++ ls.drop (a - 1))) := by
  have cut : ∀ k : Nat, ls.take (min k ls.length) ++ t ++ ls.drop (min k ls.length) = ls.take k ++ t ++ ls.drop k := by
    intro k
    by_cases hk : k ≤ ls.length
    · rw [Nat.min_eq_left hk]
    · rw [Nat.min_eq_right (by omega), List.take_of_length_le (by omega), List.take_of_length_le (by omega),
        List.drop_of_length_le (by omega), List.drop_of_length_le (by omega)]
  constructor
  · intro hty
    obtain ⟨pt', e, sh⟩ := insert_shows h hc.plain ((a : Int) + 1) (by omega) (by omega) t ht.ne
    have hi : index ls ((a : Int) + 1) = min a ls.length := by
      have := index_clean hc.lastNe (a + 1)
      simpa using this
    rw [hi, cut] at sh
    refine ⟨{ s with pt := pt', currentLine := wrap64 (wrap64 ((a : Int) + 1) + linesIn c.text) }, ?_, ⟨sh.reach, sh.text⟩⟩
    simp only [processCommand, typ_setDefault, hty, ha, bind, Except.bind, text_setDefault, htext]
    rw [wrap64_id (i := (a : Int) + 1) (by omega) (by omega), e]
    rfl
  · intro hty
    obtain ⟨pt', e, sh⟩ := insert_shows h hc.plain (a : Int) (by omega) (by omega) t ht.ne
    rw [index_clean hc.lastNe a, cut] at sh
    refine ⟨{ s with pt := pt' }, ?_, sh⟩
    simp only [processCommand, typ_setDefault, hty, ha, bind, Except.bind, text_setDefault, htext, e]
    rfl

/-- `99a` in a buffer of four lines. -/
example : ∃ s', processCommand demoEnv (opened demoLines 4) { typ := .append, start := numAddr 99, text := b!"x" } = .ok (s', []) ∧
    Shows s' (demoLines ++ [b!"x"]) :=
  (C89_add_anywhere demoEnv (opened_shows demoLines 4) demo_clean { typ := .append, start := numAddr 99, text := b!"x" } 99
    (addrLine_denotes demoEnv (st := ⟨demoLines, 4⟩) (opened_shows demoLines 4) demo_clean rfl (numAddr_denotes 99) (by decide))
    (by decide) [b!"x"] ⟨by decide, by intro l hl; simp at hl; subst hl; exact plain_ascii _ (by decide) (by decide) (by decide)⟩ rfl).1 rfl

/-- **C89** A search that finds nothing, or whose expression is not well formed, is no error either: `/re/=` answers -1, `/re/a` and `/re/i` put the text before the
first line, all without a message, and `/re/p`, `/re/n` and `/re/` end the program. -/
theorem C89_failed_search (env : Env) {s : State} {ls : List Bytes} (h : Shows s ls) (hc : Clean ls) (cur : Nat)
    (hcur : s.currentLine = cur) (h1 : 1 ≤ cur) (h2 : cur ≤ ls.length) (re : Bytes) (hre : (AddrSyn.re re).OK) (hrl : re.getLast? ≠ some 47)
    (hno : ∀ m, env.compile re = some m → ∀ l ∈ ls, m l = false) (c : Command) (hs : c.start = (AddrSyn.re re).address)
    (t : List Bytes) (ht : TextOK t) (htext : c.text = join [nl] t) :
    (c.typ ∈ [CmdType.print, .number] → c.end_ = (AddrSyn.re re).address → processCommand env s c = .error (.panic .index)) ∧
    (c.typ = .null → processCommand env s c = .error (.panic .index)) ∧
    (c.typ = .lineNumber → processCommand env s c = .ok (s, b!"-1")) ∧
    (c.typ ∈ [CmdType.append, .insert] → ∃ s', processCommand env s c = .ok (s', []) ∧ Shows s' (t ++ ls)) := by
  have hr : addrLine env s (AddrSyn.re re).address = .ok (-1) := by
    rw [addrLine_regex env s re hre hrl]
    cases hm : env.compile re with
    | none => rw [C64_bad_expression env h hc.plain re hm]; rfl
    | some m => rw [(C64_forward_search env h hc cur hcur h1 h2 re m hm).2 (hno m hm)]; rfl
  have hne : c.start.typ ≠ .null := by rw [hs]; exact address_typ_ne _
  have hd := setDefault_given c hne
  have i0 : index ls (-1) = 0 := by simp [index]
  have i1 : index ls 0 = 0 := by simp [index]
  have pr : ∀ s' : State, s'.pt = s.pt → print env s' (-1) (-1) = .error .index := by
    intro s' hs'
    have : scanned s' = scanned s := by simp only [scanned, hs']
    simp only [print, this, scanned_shows h hc.plain, dropBlank_clean hc.lastNe]
    rw [wrap64_id (by omega) (by omega), slice, if_neg]
    omega
  refine ⟨?_, ?_, ?_, ?_⟩
  · intro hty he
    simp only [List.mem_cons, List.not_mem_nil, or_false] at hty
    rcases hty with hty | hty
    · simp only [processCommand, hd, hty, hs, he, hr, bind, Except.bind, pr s rfl, lift]
    · have : number s (-1) (-1) = .error .index := by
        simp only [number, getLines_shows h hc.plain, dropBlank_clean hc.lastNe]
        rw [if_neg (by omega), if_pos (by omega)]
      simp only [processCommand, hd, hty, hs, he, hr, bind, Except.bind, this, lift]
  · intro hty
    simp only [processCommand, hd, hty, hs, hr, bind, Except.bind, pr { s with currentLine := -1 } rfl, lift]
  · intro hty
    simp only [processCommand, hd, hty, hs, hr, bind, Except.bind]; rfl
  · intro hty
    simp only [List.mem_cons, List.not_mem_nil, or_false] at hty
    rcases hty with hty | hty
    · obtain ⟨pt', e, sh⟩ := insert_shows h hc.plain 0 (by omega) (by omega) t ht.ne
      rw [i1] at sh
      refine ⟨{ s with pt := pt', currentLine := wrap64 (wrap64 (-1 + 1) + linesIn c.text) }, ?_, ⟨sh.reach, sh.text⟩⟩
      have e0 : wrap64 (-1 + 1) = 0 := by decide
      simp only [processCommand, hd, hty, hs, hr, bind, Except.bind, htext, e0, e, lift]
      rfl
    · obtain ⟨pt', e, sh⟩ := insert_shows h hc.plain (-1) (by omega) (by omega) t ht.ne
      rw [i0] at sh
      refine ⟨{ s with pt := pt' }, ?_, sh⟩
      simp only [processCommand, hd, hty, hs, hr, bind, Except.bind, htext, e, lift]
      rfl

/-- `/[/=` with an expression that is not well formed. -/
example : processCommand { demoEnv with compile := fun _ => none } (opened demoLines 4) { typ := .lineNumber, start := (AddrSyn.re b!"[").address } = .ok (opened demoLines 4, b!"-1") :=
  (C89_failed_search { demoEnv with compile := fun _ => none } (opened_shows demoLines 4) demo_clean 4 rfl (by decide) (by decide) b!"[" (.plain (by decide) (by decide)) (by decide)
    (by intro m hm; exact absurd hm (by simp)) { typ := .lineNumber, start := (AddrSyn.re b!"[").address } rfl [[]]
    ⟨by decide, by intro l hl; simp at hl; subst hl; exact plain_ascii _ (by decide) (by decide) (by decide)⟩ rfl).2.2.1 rfl

/-- `/z/a` in the demonstration buffer. -/
example : ∃ s', processCommand demoEnv (opened demoLines 4) { typ := .append, start := (AddrSyn.re b!"z").address, text := b!"x" } = .ok (s', []) ∧
    Shows s' (b!"x" :: demoLines) :=
  (C89_failed_search demoEnv (opened_shows demoLines 4) demo_clean 4 rfl (by decide) (by decide) b!"z" (.plain (by decide) (by decide)) (by decide) (by intro m hm; cases hm; decide)
    { typ := .append, start := (AddrSyn.re b!"z").address, text := b!"x" } rfl [b!"x"]
    ⟨by decide, by intro l hl; simp at hl; subst hl; exact plain_ascii _ (by decide) (by decide) (by decide)⟩ rfl).2.2.2 (by decide)

/-- **C89** A search that finds nothing while the current line is not one of the lines (after `a` at the end of the buffer, or
before any file was opened) never comes back, whatever the command; in an empty buffer it ends the program. -/
theorem C89_failed_search_outside (env : Env) {s : State} {ls : List Bytes} (h : Shows s ls) (hc : Clean ls) (cur : Nat)
    (hcur : s.currentLine = cur) (hout : cur = 0 ∨ ls.length < cur) (re : Bytes) (hre : (AddrSyn.re re).OK) (hrl : re.getLast? ≠ some 47)
    (m : Bytes → Bool) (hm : env.compile re = some m) (hno : ∀ l ∈ ls, m l = false) (c : Command) (hs : c.start = (AddrSyn.re re).address)
    (hty : c.typ.Looks) :
    processCommand env s c = .error (if ls = [] then .panic .divZero else .hang) := by
  have hne : c.start.typ ≠ .null := by rw [hs]; exact address_typ_ne _
  have hd := setDefault_given c hne
  have ha : addrLine env s c.start = .error (if ls = [] then .panic .divZero else .hang) := by
    rw [hs, addrLine_regex env s re hre hrl]
    by_cases h0 : ls = []
    · subst h0
      rw [C64_search_empty env h re m hm]
      rfl
    · rw [(C64_search_diverges env h hc h0 cur hcur hout re m hm hno).1, if_neg h0]
      rfl
  simp only [CmdType.Looks, List.mem_cons, List.not_mem_nil, or_false] at hty
  rcases hty with hc | hc | hc | hc | hc | hc | hc | hc <;> simp only [processCommand, hd, hc, ha, bind, Except.bind]

/-- `/z/p` after a text was appended to four lines. -/
example : processCommand demoEnv (opened demoLines 5) { typ := .print, start := (AddrSyn.re b!"z").address } = .error .hang :=
  C89_failed_search_outside demoEnv (opened_shows demoLines 5) demo_clean 5 rfl (by decide) b!"z" (.plain (by decide) (by decide)) (by decide)
    _ rfl (by decide) { typ := .print, start := (AddrSyn.re b!"z").address } rfl (by decide)

/-- **C89** The expected statement is false: `ed f` given `'ap`, `9p` or `/zz/p` and then `w` (the file having the lines
`one` and `two`) ends with a panic before the `w`, for every schedule. -/
theorem C89_counterexample (errText : Bytes → Bytes) (l : Bytes) (hl : l ∈ [b!"'ap", b!"9p", b!"/zz/p"]) (st : Sys) (how : End)
    (hs : Steps demoEnv (initial errText fresh (mainInput (some b!"f") (unlines [l, b!"w"]))) st) (he : st.cons.ended = some how) :
    ∃ p, how = .crashed (.panic p) := by
  obtain ⟨h1, -, -⟩ := C69_schedule_independent demoEnv errText fresh _ st how hs he
  rw [C87_order] at h1
  have key : ∀ x ∈ [b!"'ap", b!"9p", b!"/zz/p"],
      (sequential demoEnv fresh (sends (program (fun _ => []) (mainInput (some b!"f") (unlines [x, b!"w"]))))).1 =
        .crashed (.panic (if x = b!"'ap" then .explicit else .index)) := by decide +kernel
  have k := key l hl
  rw [C87_order, h1] at k
  exact ⟨_, k⟩

end Ed
