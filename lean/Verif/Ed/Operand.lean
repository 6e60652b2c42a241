import Verif.Ed.Confined
import Verif.Ed.NonAscii

/-! # C140: the operand of ed

`ed NAME` should open the file NAME. What it does instead, for every NAME. -/

namespace Ed
open Go

/-! ## Specification -/

/-- What stands before the first newline. -/
def firstLine (name : Bytes) : Bytes := name.takeWhile (· != nl)

/-- What stands after it, as lines. -/
def otherLines (name : Bytes) : Bytes := ((name ++ [nl]).dropWhile (· != nl)).drop 1

/-- A space or a tab. -/
def aBlank (c : UInt8) : Bool := c == 32 || c == 9

/-- A line without a carriage return at its end and without blanks at its beginning. -/
def trimmed (l : Bytes) : Bytes := (dropCR l).dropWhile aBlank

/-- The command `e` with a line after it. -/
def askFor (l : Bytes) : Command :=
  if trimmed l = [] then { typ := .edit } else { typ := .edit, params := [cutShort (trimmed l)] }

/-! ## Lines -/

theorem takeWhile_all {p : UInt8 → Bool} {l : Bytes} {c : UInt8} (h : c ∈ l.takeWhile p) : p c = true := by
  have := List.all_takeWhile (p := p) (l := l)
  exact List.all_eq_true.1 this c h

theorem takeWhile_self {p : UInt8 → Bool} {l : Bytes} (h : ∀ c ∈ l, p c = true) : l.takeWhile p = l := by
  induction l with
  | nil => rfl
  | cons c cs ih => rw [List.takeWhile_cons, if_pos (h c (by simp)), ih (fun d hd => h d (by simp [hd]))]

theorem texts_line (l more : Bytes) (hn : nl ∉ l) (hl : l.length < maxToken) (hs : isStart (dropCR l) = false) :
    texts (l ++ nl :: more) = dropCR l :: texts more := by
  have hr : scanLines (l ++ nl :: more) = (dropCR l :: (scanLines more).1, (scanLines more).2) := by
    unfold scanLines
    rw [rawLines_cons_line l hn, scanTokens, if_pos hl]
  have hq : resumed (l ++ nl :: more) = resumed more := by
    unfold resumed
    rw [rawLines_cons_line l hn, List.find?_cons, decide_eq_false (by omega), hr]
    simp only [inBlock, hs]
  rw [texts, texts, hr, hq]
  simp only [groups, hs, Bool.false_eq_true, if_false, List.cons_append]

theorem scan_line (l more : Bytes) (hn : nl ∉ l) (hl : l.length < maxToken) : (scanLines (l ++ nl :: more)).2 = (scanLines more).2 := by
  unfold scanLines
  rw [rawLines_cons_line l hn, scanTokens, if_pos hl]

theorem program_line (errText : Bytes → Bytes) (l more : Bytes) (hn : nl ∉ l) (hl : l.length < maxToken) (hs : isStart (dropCR l) = false) :
    program errText (l ++ nl :: more) = eventsOf errText (dropCR l) ++ program errText more := by
  rw [program, program, texts_line l more hn hl hs, scan_line l more hn hl]
  simp

theorem program_long (errText : Bytes → Bytes) (l more : Bytes) (hn : nl ∉ l) (hl : maxToken ≤ l.length) :
    sends (program errText (l ++ nl :: more)) = [] := by
  have hr : scanLines (l ++ nl :: more) = ([], true) := by
    unfold scanLines
    rw [rawLines_cons_line l hn, scanTokens, if_neg (by omega)]
  have hq : resumed (l ++ nl :: more) = [] := by
    unfold resumed
    rw [hr]
    split
    · rfl
    · rfl
  rw [program, texts, hq, hr]
  rfl

theorem split_operand (name stdin : Bytes) : mainInput (some name) stdin = (b!"e " ++ firstLine name) ++ nl :: (otherLines name ++ stdin) := by
  have key : ∀ name : Bytes, name ++ [nl] = firstLine name ++ nl :: otherLines name := by
    intro name
    induction name with
    | nil => rfl
    | cons c cs ih =>
      by_cases h : c = nl
      · subst h; simp [firstLine, otherLines]
      · have h' : (c != nl) = true := by simpa using h
        simp only [firstLine, otherLines, List.takeWhile_cons, List.cons_append, List.dropWhile_cons, h', if_true] at ih ⊢
        rw [← ih]
  show b!"e " ++ name ++ [nl] ++ stdin = _
  rw [List.append_assoc (b!"e "), key]
  simp

theorem firstLine_no (name : Bytes) : nl ∉ firstLine name := by
  intro h
  have := takeWhile_all h
  simp at this

theorem firstLine_le (name : Bytes) : (firstLine name).length ≤ name.length := (List.takeWhile_prefix _).length_le

theorem dropCR_edit (l : Bytes) : dropCR (b!"e " ++ l) = b!"e " ++ dropCR l := by
  unfold dropCR
  cases l with
  | nil => rfl
  | cons c cs =>
    have h1 : (b!"e " ++ c :: cs).getLast? = (c :: cs).getLast? := by
      rw [List.getLast?_append]
      cases h : (c :: cs).getLast? with
      | none => simp at h
      | some d => rfl
    rw [h1]
    split
    · rw [List.dropLast_append_of_ne_nil (by simp)]
    · rfl

theorem dropCR_mem {l : Bytes} {c : UInt8} (h : c ∈ dropCR l) : c ∈ l := by
  unfold dropCR at h
  split at h
  · exact List.dropLast_subset l h
  · exact h

theorem dropCR_le (l : Bytes) : (dropCR l).length ≤ l.length := by
  unfold dropCR
  split
  · simp
  · exact Nat.le_refl _

theorem blanks_take (l : Bytes) : Blanks (l.takeWhile aBlank) := by
  intro c hc
  have := takeWhile_all hc
  simpa [aBlank] using this

theorem parse_edit (l : Bytes) (hn : nl ∉ l) : parseCommands (b!"e " ++ dropCR l ++ [nl]) = some [askFor l] := by
  have hsplit : dropCR l = (dropCR l).takeWhile aBlank ++ trimmed l := List.takeWhile_append_dropWhile.symm
  have hb := blanks_take (dropCR l)
  generalize hw : (dropCR l).takeWhile aBlank = ws at hsplit hb
  have hb' : Blanks (32 :: ws) := by
    intro c hc
    rcases List.mem_cons.1 hc with h | h
    · exact .inl h
    · exact hb c h
  unfold askFor
  by_cases ht : trimmed l = []
  · rw [if_pos ht, hsplit, ht, List.append_nil]
    have ha : ∀ c ∈ b!"e " ++ ws ++ [nl], c < 0x80 := by
      intro c hc
      simp only [List.mem_append, List.mem_cons, List.not_mem_nil, or_false] at hc
      rcases hc with ((h | h) | h) | h
      · subst h; decide
      · subst h; decide
      · rcases hb c h with h | h <;> subst h <;> decide
      · subst h; decide
    have hr : Reads ([] ++ [101] ++ (32 :: ws)) { typ := .edit } := .unnamed (by intro c hc; cases hc) hb' (by decide)
    exact parse_of_script ha (by simpa using Script.cons hr .nil)
  · rw [if_neg ht]
    have hname : AnyName (trimmed l) := by
      refine ⟨ht, ?_, ?_⟩
      · intro h
        have h1 : (10 : UInt8) ∈ dropCR l := by rw [hsplit]; simp [h]
        exact hn (dropCR_mem h1)
      · have : ∀ c, (trimmed l).head? = some c → aBlank c = false := by
          intro c hc
          have := List.head?_dropWhile_not aBlank (dropCR l)
          unfold trimmed at hc
          rw [hc] at this
          simpa using this
        constructor
        · intro h; simpa [aBlank] using this _ h
        · intro h; simpa [aBlank] using this _ h
    have := C92_names [] (32 :: ws) (by intro c hc; cases hc) hb' (by simp) (trimmed l) hname 101 .edit (by decide)
    rw [hsplit]
    simpa using this

/-! ## Theorems -/

/-- **C140** What `ed NAME` does, for every string of bytes: the first line of NAME, without blanks in front and a carriage return
at the end, cut short if it has characters of more than one byte, is the name of the file it opens; the other lines of NAME are
taken for commands, before those on standard input. -/
theorem C140_operand (errText : Bytes → Bytes) (name stdin : Bytes) (hl : (firstLine name).length < 65534) :
    sends (program errText (mainInput (some name) stdin)) = askFor (firstLine name) :: sends (program errText (otherLines name ++ stdin)) := by
  have hno := firstLine_no name
  have hn : nl ∉ b!"e " ++ firstLine name := by
    intro h
    rcases List.mem_append.1 h with h | h
    · revert h; decide
    · exact hno h
  rw [split_operand, program_line errText _ _ hn (by simp [maxToken]; omega) (by rw [dropCR_edit]; exact edit_not_start _), sends_append, dropCR_edit,
    eventsOf_some (parse_edit _ hno), sends_evs]
  rfl

/-- **C140** If the first line of NAME is too long nothing is opened and no command is run. -/
theorem C140_too_long (errText : Bytes → Bytes) (name stdin : Bytes) (hl : 65534 ≤ (firstLine name).length) :
    sends (program errText (mainInput (some name) stdin)) = [] := by
  have hno := firstLine_no name
  have hn : nl ∉ b!"e " ++ firstLine name := by
    intro h
    rcases List.mem_append.1 h with h | h
    · revert h; decide
    · exact hno h
  rw [split_operand]
  exact program_long errText _ _ hn (by simp [maxToken]; omega)

theorem firstLine_eq (name : Bytes) : firstLine name = name ↔ nl ∉ name := by
  constructor
  · intro h; rw [← h]; exact firstLine_no name
  · intro h
    unfold firstLine
    refine takeWhile_self ?_
    intro c hc
    have : c ≠ nl := fun e => h (e ▸ hc)
    simpa using this

theorem dropCR_eq (l : Bytes) : dropCR l = l ↔ l.getLast? ≠ some cr := by
  unfold dropCR
  constructor
  · intro h e
    rw [if_pos e] at h
    have := congrArg List.length h
    simp only [List.length_dropLast] at this
    have hne : l ≠ [] := by rintro rfl; cases e
    have := List.length_pos_iff.2 hne
    omega
  · intro h; rw [if_neg h]

theorem trimmed_eq (l : Bytes) (hc : l.getLast? ≠ some cr) : trimmed l = l ↔ l.head? ≠ some 32 ∧ l.head? ≠ some 9 := by
  unfold trimmed
  rw [(dropCR_eq l).2 hc]
  cases l with
  | nil => simp
  | cons c cs =>
    constructor
    · intro h
      by_cases hb : aBlank c = true
      · rw [List.dropWhile_cons, if_pos hb] at h
        have h1 := congrArg List.length h
        have h2 := (List.dropWhile_suffix aBlank (l := cs)).length_le
        simp only [List.length_cons] at h1
        omega
      · simpa [aBlank] using hb
    · intro h
      rw [List.dropWhile_cons, if_neg (by simpa [aBlank] using h)]

/-- **C140** (partial: expected for every name a file can have) `ed NAME` opens NAME exactly if NAME is not empty, has no newline, does
not begin with a blank or end with a carriage return, has only characters of one byte, and is shorter than 65534 bytes. -/
theorem C140_opens_iff_partial (errText : Bytes → Bytes) (name stdin : Bytes) :
    (sends (program errText (mainInput (some name) stdin))).head? = some { typ := .edit, params := [name] } ↔
      name ≠ [] ∧ nl ∉ name ∧ name.head? ≠ some 32 ∧ name.head? ≠ some 9 ∧ name.getLast? ≠ some cr ∧ OneByte name ∧ name.length < 65534 := by
  constructor
  · intro h
    by_cases hl : (firstLine name).length < 65534
    · rw [C140_operand errText name stdin hl, List.head?_cons, Option.some.injEq, askFor] at h
      split at h
      · cases h
      · next ht =>
        have hp : [cutShort (trimmed (firstLine name))] = [name] := congrArg Command.params h
        have hp : cutShort (trimmed (firstLine name)) = name := by simpa using hp
        have l1 : (cutShort (trimmed (firstLine name))).length ≤ (trimmed (firstLine name)).length := by
          unfold cutShort; rw [List.length_take]; omega
        have l2 : (trimmed (firstLine name)).length ≤ (dropCR (firstLine name)).length := (List.dropWhile_suffix aBlank).length_le
        have l3 := dropCR_le (firstLine name)
        have l4 := firstLine_le name
        have l0 := congrArg List.length hp
        have e4 : firstLine name = name := (List.takeWhile_prefix _).eq_of_length (by unfold firstLine at *; omega)
        rw [e4] at hp l1 l2 l3 ht
        have hcr : name.getLast? ≠ some cr := by
          rw [← dropCR_eq]
          unfold dropCR at l2 l3 ⊢
          split
          · next hlast =>
            rw [if_pos hlast, List.length_dropLast] at l2
            have hne : name ≠ [] := by rintro rfl; cases hlast
            have := List.length_pos_iff.2 hne
            rw [e4] at l0
            omega
          · rfl
        have e2 : trimmed name = name := by
          have hs : trimmed name <:+ name := by
            have := List.dropWhile_suffix aBlank (l := dropCR name)
            rw [(dropCR_eq name).2 hcr] at this
            unfold trimmed
            rw [(dropCR_eq name).2 hcr]
            exact this
          exact hs.eq_of_length (by rw [e4] at l0; have := hs.length_le; omega)
        rw [e2] at hp ht
        have hh := (trimmed_eq name hcr).1 e2
        exact ⟨ht, (firstLine_eq name).1 e4, hh.1, hh.2, hcr, (C92_survives_iff name).1 hp, by rw [← e4]; exact hl⟩
    · rw [C140_too_long errText name stdin (by omega)] at h
      cases h
  · rintro ⟨hne, hn, h1, h2, hcr, ho, hl⟩
    have e4 := (firstLine_eq name).2 hn
    rw [C140_operand errText name stdin (by rw [e4]; exact hl), e4, askFor, (trimmed_eq name hcr).2 ⟨h1, h2⟩, if_neg hne,
      (C92_survives_iff name).2 ho]
    rfl

/-- **C140** A name with a newline is commands: `ed` with such an operand is `ed` with its first line as operand and the others typed. -/
theorem C140_injected (first others stdin : Bytes) :
    mainInput (some (first ++ [nl] ++ others)) stdin = mainInput (some first) (others ++ [nl] ++ stdin) := by
  simp [mainInput]

/-- What happens with the operand `f`, newline, `1d`, newline, `w`, with nothing typed. -/
theorem C140_counterexample (errText : Bytes → Bytes) (st : Sys) (how : End)
    (hs : Steps demoEnv (initial errText fresh (mainInput (some b!"f\n1d\nw") [])) st) (he : st.cons.ended = some how) :
    how = .finished ∧ fresh.fs b!"f" = some b!"one\ntwo\n" ∧ st.ed.fs b!"f" = some b!"two\n" := by
  have h0 : program errText (mainInput (some b!"f\n1d\nw") []) = program (fun _ => []) (mainInput (some b!"f\n1d\nw") []) := by
    have g : texts (mainInput (some b!"f\n1d\nw") []) = [b!"e f", b!"1d", b!"w"] := by decide +kernel
    have p1 : ∃ cs, parseCommands (b!"e f" ++ [nl]) = some cs := Option.isSome_iff_exists.1 (by decide +kernel)
    have p2 : ∃ cs, parseCommands (b!"1d" ++ [nl]) = some cs := Option.isSome_iff_exists.1 (by decide +kernel)
    have p3 : ∃ cs, parseCommands (b!"w" ++ [nl]) = some cs := Option.isSome_iff_exists.1 (by decide +kernel)
    obtain ⟨_, p1⟩ := p1
    obtain ⟨_, p2⟩ := p2
    obtain ⟨_, p3⟩ := p3
    simp only [program, g, List.flatMap_cons, List.flatMap_nil, eventsOf_some p1, eventsOf_some p2, eventsOf_some p3]
  obtain ⟨h1, -, -⟩ := C69_schedule_independent _ _ _ _ _ _ hs he
  rw [h0] at h1
  have hk : ((sequential demoEnv fresh (sends (program (fun _ => []) (mainInput (some b!"f\n1d\nw") [])))).1 = .finished ∧
      (sequential demoEnv fresh (sends (program (fun _ => []) (mainInput (some b!"f\n1d\nw") [])))).2.1.fs b!"f" = some b!"two\n") := by
    decide +kernel
  rw [h1] at hk
  exact ⟨hk.1, rfl, hk.2⟩

example (errText : Bytes → Bytes) (stdin : Bytes) :
    (sends (program errText (mainInput (some b!"my notes.txt") stdin))).head? = some { typ := .edit, params := [b!"my notes.txt"] } := by
  refine (C140_opens_iff_partial errText b!"my notes.txt" stdin).2 ⟨by decide, by decide, by decide, by decide, by decide, ?_, by decide⟩
  exact (C92_survives_iff _).1 (by decide +kernel)

-- blanks in front are lost, and a name of two characters in three bytes loses the last byte
example : askFor b!"  f" = { typ := .edit, params := [b!"f"] } ∧ askFor ([0xC3, 0xA9] ++ b!"t") = { typ := .edit, params := [[0xC3, 0xA9]] } ∧
    askFor [] = { typ := .edit } ∧ otherLines b!"f\n1d\nw" = b!"1d\nw\n" := by decide +kernel

end Ed
