import Verif.Ed.BlockProps
import Verif.Ed.OtherCommands

/-!
# Text outside ASCII (C92)

The parser works on the characters of its input and cuts the pieces it keeps out of the bytes of the input with
positions counted in characters.
-/

namespace Ed
open Go

/-! ## Specification -/

/-- Lines that can be typed as a text: at least one, without newlines, none after the first beginning with a dot. Any
bytes are allowed. -/
structure AnyBlock (ls : List Bytes) : Prop where
  ne : ls ≠ []
  noNl : ∀ l ∈ ls, 10 ∉ l
  noDot : ∀ l ∈ ls.tail, l.head? ≠ some 46

/-- What is left of a text: as many bytes as it has characters (a byte that is not part of a character counts as one). -/
def cutShort (s : Bytes) : Bytes := s.take (runes s).length

/-! ## Proofs -/

theorem runes_prefix (a b : Bytes) (h : ∀ c ∈ a, c < 0x80) : runes (a ++ b) = rn a ++ runes b := by
  simp only [runes, chunks_ascii a b h, rn, List.map_append, List.map_map]
  simp [Function.comp_def]

theorem runes_length_le (s : Bytes) : ∀ n, s.length ≤ n → (runes s).length ≤ s.length := by
  intro n
  induction n generalizing s with
  | zero =>
    intro h
    have : s = [] := List.length_eq_zero_iff.1 (by omega)
    subst this
    simp [runes, chunks, chunksAux]
  | succ n ih =>
    intro h
    cases s with
    | nil => simp [runes, chunks, chunksAux]
    | cons b bs =>
      rcases runes_cases b bs with ⟨-, e⟩ | ⟨r, tail, hr, e⟩
      · rw [e]
        have := ih bs (by simpa using h)
        simpa using this
      · rw [e, runes_encode r hr tail]
        have hl : 0 < (encodeRune r).length := List.length_pos_iff.2 (encode_ne_nil r)
        have e' := congrArg List.length e
        simp only [List.length_append, List.length_cons] at e' h ⊢
        have := ih tail (by omega)
        omega

theorem parse_runes {buffer : Bytes} {n : Nat} {t : List Tok}
    (h : e 0 (runes buffer) = some (n, [], t)) (hne : runes buffer ≠ []) : parseCommands buffer = some (execute buffer {} (t ++ [.act 0])) := by
  have h2 : star e 0 (runes buffer) = some (n, [], t) := by
    obtain ⟨m, hm⟩ : ∃ m, (runes buffer).length + 1 = m + 1 + 1 := by
      cases hb : runes buffer with
      | nil => exact absurd hb hne
      | cons c cs => exact ⟨cs.length, by simp⟩
    have he : e n [] = none := rfl
    simp only [star]
    rw [hm]
    simp [starAux, h, he]
  have h3 := seq_some h2 (seq_some (p := notP dot) (pos1 := n) (rs1 := []) (t1 := []) rfl (act_some 0))
  simp only [parseCommands, parse, first]
  rw [h3]
  rfl

theorem e_runes {w0 : Bytes} (hw0 : Blanks w0) {body : List Nat} {n : Nat} {t : List Tok} (hb : Stops isBlank (body ++ [10]))
    (hc : cmd w0.length (body ++ [10]) = some (n, [10], t)) : e 0 (rn w0 ++ body ++ [10]) = some (n + 1, [], t ++ [.act 1]) := by
  have h1 := star_sp (rn w0) (body ++ [10]) 0 hw0.rn hb
  have h2 := star_sp [] [10] n (by simp) (Stops.cons (by decide))
  simp only [rn, List.length_map, Nat.zero_add, List.length_nil, Nat.add_zero, List.nil_append] at h1 h2
  have := seq_some h1 (seq_some hc (seq_some h2 (seq_some (p := newLine) chr_some (act_some 1))))
  simpa [e, List.append_assoc] using this

theorem runes_head {l : Bytes} {c : Nat} (hc : c < 128) (h : (runes l).head? = some c) : l.head? = some (UInt8.ofNat c) := by
  cases l with
  | nil => simp [runes, chunks, chunksAux] at h
  | cons b bs =>
    rcases runes_cases b bs with ⟨-, e⟩ | ⟨r, tail, hr, e⟩
    · rw [e] at h
      simp [runeError] at h
      omega
    · rw [e, runes_encode r hr tail] at h
      simp only [List.head?_cons, Option.some.injEq] at h
      subst h
      rw [e]
      simp [encodeRune, hc]

theorem no_term (ls : List Bytes) (h : AnyBlock ls) : ¬ [10, 46] <:+: runes (join [10] ls) ++ [10] := by
  intro hi
  have e1 : runes (join [10] ls) ++ [10] = runeLines (ls.map runes) := by
    rw [← runes_join ls h.ne]
    have := runes_nl [] _ (join [nl] ls) (Nat.le_refl _)
    rw [show nl = 10 from rfl] at this ⊢
    rw [this]
    simp [runes, chunks, chunksAux]
  obtain ⟨t, rest, e2⟩ := hi
  have hmem : 10 ∈ 46 :: rest := by
    have e3 : t ++ [10] ++ (46 :: rest) = runes (join [10] ls) ++ [10] := by rw [← e2]; simp
    have h1 := congrArg List.getLast? e3
    rw [List.getLast?_append, List.getLast?_append] at h1
    have h2 : (46 :: rest).getLast? = some 10 := by
      cases hg : (46 :: rest).getLast? with
      | none => simp at hg
      | some x => rw [hg] at h1; simpa using h1
    exact List.mem_of_getLast? h2
  obtain ⟨x, r, e4, hx⟩ := List.eq_append_cons_of_mem hmem
  have hxh : x.head? = some 46 := by
    cases x with
    | nil => simp at e4
    | cons a x => simp at e4; simp [e4.1]
  have e5 : runeLines (ls.map runes) = t ++ 10 :: (x ++ 10 :: r) := by
    rw [← e1, ← e2, ← e4]; simp
  obtain ⟨L1, L2, e6, hne, -⟩ := later_line (ls.map runes) t x r (by
    intro l hl
    obtain ⟨b, hb, rfl⟩ := List.mem_map.1 hl
    exact runes_no_nl _ b (Nat.le_refl _) (h.noNl b hb)) hx e5
  have hxt : x ∈ ls.tail.map runes := by
    rw [List.map_tail, e6]
    cases L1 with
    | nil => exact absurd rfl hne
    | cons a L1 => simp
  obtain ⟨l, hl, rfl⟩ := List.mem_map.1 hxt
  exact h.noDot l hl (by simpa using runes_head (by decide) hxh)

theorem range_letter_runes {w0 : Bytes} (hw0 : Blanks w0) (r : RangeSyn) (hr : r.OK) (letter : UInt8) (hl : letter < 0x80) (ls : List Bytes)
    (hne : ls ≠ []) : runes (w0 ++ r.bytes ++ [letter, 10] ++ block ls) =
      rn w0 ++ (rn r.bytes ++ letter.toNat :: 10 :: (runes (join [10] ls) ++ 10 :: 46 :: [])) ++ [10] := by
  rw [block_eq ls hne]
  have e : w0 ++ r.bytes ++ [letter, 10] ++ join [10] ls ++ [10, 46] ++ [10] =
      (w0 ++ r.bytes ++ [letter, 10]) ++ (join [10] ls ++ nl :: [46, 10]) := by simp [nl]
  rw [e, runes_prefix, runes_nl _ _ _ (Nat.le_refl _)]
  · have : runes [46, 10] = [46, 10] := by decide
    rw [this]
    simp [rn]
  · intro c hc
    simp only [List.mem_append, List.mem_cons, List.not_mem_nil, or_false] at hc
    rcases hc with (hc | hc) | rfl | rfl
    · exact blanks_ascii hw0 c hc
    · exact range_ascii hr c hc
    · exact hl
    · decide

theorem at_cut {w0 : Bytes} (r : RangeSyn) (letter : UInt8) (ls : List Bytes) (hne : ls ≠ []) :
    At (w0 ++ r.bytes ++ [letter, 10] ++ block ls) (w0.length + r.bytes.length + 2) (cutShort (join [10] ls)) :=
  ⟨w0 ++ r.bytes ++ [letter, 10], (join [10] ls).drop (runes (join [10] ls)).length ++ ([10, 46] ++ [10]), by
    rw [block_eq ls hne, cutShort]
    have := List.take_append_drop (runes (join [10] ls)).length (join [10] ls)
    generalize (join [10] ls).take (runes (join [10] ls)).length = x at *
    generalize (join [10] ls).drop (runes (join [10] ls)).length = y at *
    rw [← this]
    simp, by simp; omega⟩

theorem cutShort_length (s : Bytes) : (cutShort s).length = (runes s).length := by
  simp only [cutShort, List.length_take]
  have := runes_length_le s _ (Nat.le_refl _)
  omega

/-- **C92** Whatever bytes are typed as the text of `a` or `i`, it is one command, and its text is what was typed cut
short: as many bytes as there are characters. -/
theorem C92_append_insert (w0 : Bytes) (hw0 : Blanks w0) (r : RangeSyn) (hr : r.OK) (hs : r.Simple) (ls : List Bytes) (hb : AnyBlock ls) :
    parseCommands (w0 ++ r.bytes ++ b!"a\n" ++ block ls) = some [{ typ := .append, start := r.start, text := cutShort (join [10] ls) }] ∧
    parseCommands (w0 ++ r.bytes ++ b!"i\n" ++ block ls) = some [{ typ := .insert, start := r.start, text := cutShort (join [10] ls) }] := by
  have key : ∀ (letter : UInt8) (n : Nat), letter < 0x80 → isBlank letter.toNat = false →
      ((letter.toNat, n) = (97, 38) ∨ (letter.toNat, n) = (105, 39)) →
      parseCommands (w0 ++ r.bytes ++ [letter, 10] ++ block ls) = some (execute (w0 ++ r.bytes ++ [letter, 10] ++ block ls) {}
        (r.toks1 w0.length ++ ([.act n, .pegText (w0.length + r.bytes.length + 2) (w0.length + r.bytes.length + 2 + (cutShort (join [10] ls)).length),
          .act 8] ++ [.act 1, .act 0]))) := by
    intro letter n hl hbl hx
    have hc := cmd_add r hr hs (letter.toNat, n) hx (runes (join [10] ls)) (no_term ls hb) [10] w0.length
    have he := e_runes hw0 (body := rn r.bytes ++ letter.toNat :: 10 :: (runes (join [10] ls) ++ 10 :: 46 :: []))
      (by simpa using range_not_blank r hr letter.toNat hbl _) (by simpa using hc)
    rw [← range_letter_runes hw0 r hr letter hl ls hb.ne] at he
    have := parse_runes he (by rw [range_letter_runes hw0 r hr letter hl ls hb.ne]; simp)
    rw [this, cutShort_length]
    simp [List.append_assoc]
  have fin : ∀ (letter : UInt8) (n : Nat) (typ : CmdType), (∀ buffer (s : Exec), s.step buffer n = { s with cmd := { s.cmd with typ := typ } }) →
      n ≠ 1 → execute (w0 ++ r.bytes ++ [letter, 10] ++ block ls) {}
        (r.toks1 w0.length ++ ([.act n, .pegText (w0.length + r.bytes.length + 2) (w0.length + r.bytes.length + 2 + (cutShort (join [10] ls)).length),
          .act 8] ++ [.act 1, .act 0])) = [{ typ := typ, start := r.start, text := cutShort (join [10] ls) }] := by
    intro letter n typ hstep hn
    have hat : At (w0 ++ r.bytes ++ [letter, 10] ++ block ls) w0.length r.bytes := ⟨w0, [letter, 10] ++ block ls, by simp, rfl⟩
    have hsl := (at_cut (w0 := w0) r letter ls hb.ne).slice
    generalize w0 ++ r.bytes ++ [letter, 10] ++ block ls = buffer at hat hsl
    obtain ⟨b', e', h⟩ := exec_range1 _ r hs _ hat ([.act n, .pegText (w0.length + r.bytes.length + 2)
      (w0.length + r.bytes.length + 2 + (cutShort (join [10] ls)).length), .act 8] ++ [.act 1, .act 0])
    rw [h]
    simp only [List.cons_append, List.nil_append]
    rw [exec_act _ _ _ _ hn, hstep]
    simp only [execute, Exec.step, hsl]
    rfl
  have ea := key 97 38 (by decide) (by decide) (Or.inl rfl)
  have ei := key 105 39 (by decide) (by decide) (Or.inr rfl)
  rw [fin 97 38 .append (fun _ _ => rfl) (by decide)] at ea
  rw [fin 105 39 .insert (fun _ _ => rfl) (by decide)] at ei
  exact ⟨ea, ei⟩

/-- **C92** The same for `c`. -/
theorem C92_change (w0 : Bytes) (hw0 : Blanks w0) (r : RangeSyn) (hr : r.OK) (ls : List Bytes) (hb : AnyBlock ls) :
    parseCommands (w0 ++ r.bytes ++ b!"c\n" ++ block ls) =
      some [{ typ := .change, start := r.start, end_ := r.end_, text := cutShort (join [10] ls) }] := by
  have hc := cmd_change r hr (runes (join [10] ls)) (no_term ls hb) [10] w0.length
  have he := e_runes hw0 (body := rn r.bytes ++ (99 : UInt8).toNat :: 10 :: (runes (join [10] ls) ++ 10 :: 46 :: []))
      (by simpa using range_not_blank r hr 99 (by decide) _) (by simpa using hc)
  rw [← range_letter_runes hw0 r hr 99 (by decide) ls hb.ne] at he
  have hp := parse_runes he (by rw [range_letter_runes hw0 r hr 99 (by decide) ls hb.ne]; simp)
  refine hp.trans (congrArg some ?_)
  have hat : At (w0 ++ r.bytes ++ [99, 10] ++ block ls) w0.length r.bytes := ⟨w0, [99, 10] ++ block ls, by simp, rfl⟩
  have hsl := (at_cut (w0 := w0) r 99 ls hb.ne).slice
  rw [cutShort_length] at hsl
  generalize w0 ++ r.bytes ++ [99, 10] ++ block ls = buffer at hat hsl
  obtain ⟨b', e', h⟩ := exec_range _ r _ hat ([.act 37, .pegText (w0.length + r.bytes.length + 2)
    (w0.length + r.bytes.length + 2 + (runes (join [10] ls)).length), .act 8] ++ [.act 1, .act 0])
  rw [List.append_assoc, List.append_assoc]
  refine Eq.trans (b := _) ?_ (h.trans ?_)
  · simp [List.append_assoc]
  · simp only [List.cons_append, List.nil_append, execute, Exec.step, hsl]
    rfl

/-! ## Names -/

theorem cmd_paramRunes (x : Nat × Nat × CmdType) (hx : x ∈ paramLetter) (ws : Bytes) (name : List Nat) (hw : Blanks ws) (hwn : ws ≠ [])
    (hn : name ≠ []) (hnl : 10 ∉ name) (hb : Stops isBlank name) (rest : List Nat) (pos : Nat) :
    cmd pos (x.1 :: (rn ws ++ (name ++ 10 :: rest))) = some (pos + 1 + ws.length + name.length, 10 :: rest,
      [.act x.2.1, .pegText (pos + 1 + ws.length) (pos + 1 + ws.length + name.length), .act 32]) := by
  have hbare : bareCmd pos (x.1 :: (rn ws ++ (name ++ 10 :: rest))) = none := by
    refine bareCmd_fail _ (Stops.cons ?_)
    simp only [paramLetter, List.mem_cons, List.not_mem_nil, or_false] at hx
    rcases hx with rfl | rfl | rfl <;> rfl
  have hl : paramC pos (x.1 :: (rn ws ++ (name ++ 10 :: rest))) = some (pos + 1, rn ws ++ (name ++ 10 :: rest), [.act x.2.1]) := by
    simp only [paramLetter, List.mem_cons, List.not_mem_nil, or_false] at hx
    rcases hx with rfl | rfl | rfl <;> rfl
  have hb' : Stops isBlank (name ++ 10 :: rest) := by
    cases name with
    | nil => exact absurd rfl hn
    | cons c cs => exact Stops.cons (hb c cs rfl)
  have h2 := sp_some (rn ws) (name ++ 10 :: rest) (pos + 1) (by simpa using hwn) hw.rn hb'
  have h3 := param_some name rest (pos + 1 + ws.length) hn hnl
  simp only [rn, List.length_map] at h2
  refine alt_skip hbare (alt_left (alt_left ?_))
  have := seq_some hl (seq_some h2 (seq_some (capture_some h3) (act_some 32)))
  simpa using this

/-- Any bytes without a newline, not beginning with a blank. -/
structure AnyName (name : Bytes) : Prop where
  ne : name ≠ []
  noNl : 10 ∉ name
  head : name.head? ≠ some 32 ∧ name.head? ≠ some 9

/-- **C92** The name after `e`, `E` or `f` is cut short in the same way. -/
theorem C92_names (w0 ws : Bytes) (hw0 : Blanks w0) (hws : Blanks ws) (hne : ws ≠ []) (name : Bytes) (hn : AnyName name)
    (letter : UInt8) (typ : CmdType) (hl : (letter, typ) ∈ nameCommands) :
    parseCommands (w0 ++ (letter :: (ws ++ name)) ++ [10]) = some [{ typ := typ, params := [cutShort name] }] := by
  have hrn : runes name ≠ [] := by
    cases name with
    | nil => exact absurd rfl hn.ne
    | cons b bs =>
      rcases runes_cases b bs with ⟨-, e⟩ | ⟨r, tail, hr, e⟩
      · rw [e]; simp
      · rw [e, runes_encode r hr tail]; simp
  have hblank : Stops isBlank (runes name) := by
    intro c cs e
    have h0 : (runes name).head? = some c := by rw [e]; rfl
    cases hb : isBlank c with
    | false => rfl
    | true =>
      have : c = 32 ∨ c = 9 := by simpa [isBlank] using hb
      rcases this with rfl | rfl
      · exact absurd (runes_head (by decide) h0) hn.head.1
      · exact absurd (runes_head (by decide) h0) hn.head.2
  have hru : ∀ c : UInt8, c < 0x80 → runes (w0 ++ (c :: (ws ++ name)) ++ [10]) = rn w0 ++ (c.toNat :: (rn ws ++ runes name)) ++ [10] := by
    intro c hc
    have e : w0 ++ (c :: (ws ++ name)) ++ [10] = (w0 ++ c :: ws) ++ (name ++ nl :: []) := by simp [nl]
    rw [e, runes_prefix, runes_nl _ _ _ (Nat.le_refl _)]
    · simp [rn, runes, chunks, chunksAux]
    · intro d hd
      simp only [List.mem_append, List.mem_cons] at hd
      rcases hd with hd | rfl | hd
      · exact blanks_ascii hw0 d hd
      · exact hc
      · exact blanks_ascii hws d hd
  have hat : At (w0 ++ (letter :: (ws ++ name)) ++ [10]) (w0.length + 1 + ws.length) (cutShort name) :=
    ⟨w0 ++ [letter] ++ ws, name.drop (runes name).length ++ [10], by
      rw [cutShort]
      have := List.take_append_drop (runes name).length name
      generalize name.take (runes name).length = x at *
      generalize name.drop (runes name).length = y at *
      rw [← this]
      simp, by simp; omega⟩
  have hsl := hat.slice
  rw [cutShort_length] at hsl
  have key : ∀ (n : Nat), (letter.toNat, n, typ) ∈ paramLetter → isBlank letter.toNat = false → letter < 0x80 →
      parseCommands (w0 ++ (letter :: (ws ++ name)) ++ [10]) =
        some (execute (w0 ++ (letter :: (ws ++ name)) ++ [10]) {} [.act n,
          .pegText (w0.length + 1 + ws.length) (w0.length + 1 + ws.length + (runes name).length), .act 32, .act 1, .act 0]) := by
    intro n hx hb ha
    have hc := cmd_paramRunes _ hx ws (runes name) hws hne hrn (runes_no_nl _ name (Nat.le_refl _) hn.noNl) hblank [] w0.length
    have he := e_runes hw0 (body := letter.toNat :: (rn ws ++ runes name)) (Stops.cons hb) (by simpa using hc)
    rw [← hru letter ha] at he
    have := parse_runes he (by rw [hru letter ha]; simp)
    simpa using this
  simp only [nameCommands, List.mem_cons, Prod.mk.injEq, List.not_mem_nil, or_false] at hl
  rcases hl with ⟨rfl, rfl⟩ | ⟨rfl, rfl⟩ | ⟨rfl, rfl⟩
  · rw [key 33 (by decide) (by decide) (by decide)]; simp only [execute, Exec.step, hsl]; rfl
  · rw [key 34 (by decide) (by decide) (by decide)]; simp only [execute, Exec.step, hsl]; rfl
  · rw [key 35 (by decide) (by decide) (by decide)]; simp only [execute, Exec.step, hsl]; rfl

/-! ## What survives -/

/-- Every character is one byte: an ASCII character or a byte at which no character begins. -/
inductive OneByte : Bytes → Prop where
  | nil : OneByte []
  | ascii (c : UInt8) (cs : Bytes) : c < 0x80 → OneByte cs → OneByte (c :: cs)
  | stray (c : UInt8) (cs : Bytes) : (∀ r tail, ValidRune r → c :: cs ≠ encodeRune r ++ tail) → OneByte cs → OneByte (c :: cs)

theorem encode_long (r : Nat) (hr : ValidRune r) (h : 128 ≤ r) : 2 ≤ (encodeRune r).length := by
  rw [encodeRune, if_neg (by omega)]
  repeat' split
  all_goals simp

/-- **C92** A text is stored as typed exactly if every character in it is one byte. -/
theorem C92_survives_iff (s : Bytes) : cutShort s = s ↔ OneByte s := by
  have len : ∀ s, cutShort s = s ↔ (runes s).length = s.length := by
    intro s
    constructor
    · intro h
      rw [← cutShort_length, h]
    · intro h
      rw [cutShort, h, List.take_length]
  rw [len]
  suffices h : ∀ n, ∀ s : Bytes, s.length ≤ n → ((runes s).length = s.length ↔ OneByte s) from h _ s (Nat.le_refl _)
  intro n
  induction n with
  | zero =>
    intro s hs
    have : s = [] := List.length_eq_zero_iff.1 (by omega)
    subst this
    exact ⟨fun _ => .nil, fun _ => rfl⟩
  | succ n ih =>
    intro s hs
    cases s with
    | nil => exact ⟨fun _ => .nil, fun _ => rfl⟩
    | cons b bs =>
      have hbs : bs.length ≤ n := by simpa using hs
      have hle := runes_length_le bs _ (Nat.le_refl _)
      rcases runes_cases b bs with ⟨hd, e⟩ | ⟨r, tail, hr, e⟩
      · rw [e]
        simp only [List.length_cons, Nat.add_right_cancel_iff]
        rw [ih bs hbs]
        constructor
        · intro h
          refine .stray b bs ?_ h
          intro r tail hr e2
          have e3 := runes_encode r hr tail
          rw [← e2, e] at e3
          have hr' : r = runeError := by simpa using (List.cons.inj e3).1.symm
          subst hr'
          obtain ⟨b', bs', e4, hd'⟩ := decode_encode runeError hr tail
          rw [e4] at e2
          simp only [List.cons_append, List.cons.injEq] at e2
          obtain ⟨rfl, rfl⟩ := e2
          rw [hd] at hd'
          have h1 := congrArg Prod.snd hd'
          have h2 := encode_long runeError hr (by decide)
          rw [e4] at h2
          simp at h1 h2
          rw [← List.length_eq_zero_iff] at h1
          omega
        · intro h
          cases h with
          | ascii _ _ _ h => exact h
          | stray _ _ _ h => exact h
      · by_cases hlt : r < 128
        · have e4 : encodeRune r = [UInt8.ofNat r] := by simp [encodeRune, hlt]
          rw [e4] at e
          simp only [List.cons_append, List.nil_append, List.cons.injEq] at e
          obtain ⟨rfl, rfl⟩ := e
          have e5 := runes_encode r hr bs
          rw [e4] at e5
          simp only [List.cons_append, List.nil_append] at e5
          rw [e5]
          simp only [List.length_cons, Nat.add_right_cancel_iff]
          rw [ih bs hbs]
          constructor
          · intro h
            refine .ascii _ bs ?_ h
            rw [UInt8.lt_iff_toNat_lt]
            have : (128 : UInt8).toNat = 128 := rfl
            rw [this, UInt8.toNat_ofNat']
            omega
          · intro h
            cases h with
            | ascii _ _ _ h => exact h
            | stray _ _ hs h => exact h
        · have h2 := encode_long r hr (by omega)
          constructor
          · intro h
            exfalso
            rw [e, runes_encode r hr tail] at h
            have := runes_length_le tail _ (Nat.le_refl _)
            simp only [List.length_cons, List.length_append] at h
            omega
          · intro h
            exfalso
            cases h with
            | ascii _ _ hb _ =>
              obtain ⟨b', bs', e4, hd'⟩ := decode_encode r hr tail
              have e' := e
              rw [e4] at e'
              simp only [List.cons_append, List.cons.injEq] at e'
              obtain ⟨rfl, rfl⟩ := e'
              have hda : decodeRune b (bs' ++ tail) = (b.toNat, 1) := by
                simp only [decodeRune, if_pos hb]; rfl
              rw [hda] at hd'
              have h1 := congrArg Prod.snd hd'
              simp at h1
              rw [e4] at h2
              simp [h1.symm] at h2
              simp_all
            | stray _ _ hs _ => exact hs r tail hr e

/-- **C92** (partial: expected for all texts) Text in which every character is one byte is stored as typed. -/
theorem C92_stored_partial (w0 : Bytes) (hw0 : Blanks w0) (r : RangeSyn) (hr : r.OK) (ls : List Bytes) (hb : AnyBlock ls)
    (h1 : OneByte (join [10] ls)) :
    parseCommands (w0 ++ r.bytes ++ b!"c\n" ++ block ls) =
      some [{ typ := .change, start := r.start, end_ := r.end_, text := join [10] ls }] ∧
    (r.Simple →
      parseCommands (w0 ++ r.bytes ++ b!"a\n" ++ block ls) = some [{ typ := .append, start := r.start, text := join [10] ls }] ∧
      parseCommands (w0 ++ r.bytes ++ b!"i\n" ++ block ls) = some [{ typ := .insert, start := r.start, text := join [10] ls }]) := by
  have e := (C92_survives_iff _).2 h1
  constructor
  · rw [C92_change w0 hw0 r hr ls hb, e]
  · intro hs
    have := C92_append_insert w0 hw0 r hr hs ls hb
    rwa [e] at this

/-- Text in Latin 1 survives. -/
example : parseCommands [49, 44, 50, 99, 10, 99, 97, 102, 0xE9, 10, 46, 10] =
    some [{ typ := .change, start := ⟨.num, b!"1", 0⟩, end_ := ⟨.num, b!"2", 0⟩, text := [99, 97, 102, 0xE9] }] :=
  (C92_stored_partial [] blanks_nil (.both false (.lit b!"1") [] [] (.lit b!"2") [])
    ⟨⟨by decide, by decide⟩, ⟨by decide, by decide⟩, blanks_nil, blanks_nil, blanks_nil⟩ [[99, 97, 102, 0xE9]]
    ⟨by decide, by decide, by decide⟩ ((C92_survives_iff _).1 (by decide))).1

/-- A name with two accents. -/
example : parseCommands (b!"e " ++ [0xC3, 0xA9, 0xC3, 0xA9] ++ b!"\n") = some [{ typ := .edit, params := [[0xC3, 0xA9]] }] :=
  C92_names [] b!" " blanks_nil (by simp [Blanks]) (by decide) [0xC3, 0xA9, 0xC3, 0xA9] ⟨by decide, by decide, by decide⟩ 101 .edit (by decide)

/-- `a`, `caf\u00e9`, `au lait`, `.`, `w` at an editor whose file has one line. -/
def demoAccent : Bytes := b!"$a\ncaf" ++ [0xC3, 0xA9] ++ b!"\nau lait\n.\nw\n"

/-- **C92** The expected statement is false: the last letter typed is missing in the buffer and in the file, for every
schedule, and there is no message. -/
theorem C92_counterexample (errText : Bytes → Bytes) (st : Sys) (hs : Steps demoEnv (initial errText (opened [b!"one"] 1) demoAccent) st)
    (he : st.cons.ended = some .finished) :
    errors st.out = [] ∧ results st.out = [b!"\n", b!"\n"] ∧ st.ed.pt.string = .ok (b!"one\ncaf" ++ [0xC3, 0xA9] ++ b!"\nau lai\n") ∧
      st.ed.fs b!"f" = some (b!"one\ncaf" ++ [0xC3, 0xA9] ++ b!"\nau lai\n") := by
  obtain ⟨h1, -, h3⟩ := C69_schedule_independent demoEnv errText (opened [b!"one"] 1) demoAccent st .finished hs he
  have h0 : program errText demoAccent = program (fun _ => []) demoAccent := by
    have g : texts demoAccent = [b!"$a\ncaf" ++ [0xC3, 0xA9] ++ b!"\nau lait\n.", b!"w"] := by decide +kernel
    have p1 : ∃ cs, parseCommands ((b!"$a\ncaf" ++ [0xC3, 0xA9] ++ b!"\nau lait\n.") ++ [nl]) = some cs :=
      Option.isSome_iff_exists.1 (by decide +kernel)
    have p2 : ∃ cs, parseCommands (b!"w" ++ [nl]) = some cs := Option.isSome_iff_exists.1 (by decide +kernel)
    obtain ⟨cs, p1⟩ := p1
    obtain ⟨cs2, p2⟩ := p2
    simp only [program, g, List.flatMap_cons, List.flatMap_nil, eventsOf_some p1, eventsOf_some p2]
  rw [h0] at h1 h3
  refine ⟨(h3 rfl).trans (by decide +kernel), ?_, ?_, ?_⟩
  · have := congrArg (fun r => r.2.2) h1
    simp only at this
    rw [← this]
    decide +kernel
  · have := congrArg (fun r => r.2.1.pt.string) h1
    simp only at this
    rw [← this]
    decide +kernel
  · have := congrArg (fun r => r.2.1.fs b!"f") h1
    simp only at this
    rw [← this]
    decide +kernel

end Ed
