import Verif.Ed.LineSound

/-!
# The command language of `ed`, written down on its own (C105)

`Reads u c`: the text `u` (without the newline at its end) is a command that means `c`. `Script s cs`: the text `s`
is the commands `cs`, one after the other. Nothing here refers to the parser.
-/

namespace Ed
open Go

/-- A text block ends at the first newline followed by a dot: there is none in `t` or at its end. -/
def BlockText (t : Bytes) : Prop := (∀ c ∈ t, c < 0x80) ∧ ¬ [10, 46] <:+: t ++ [10]

/-- The commands of `ed` and what they mean. Blanks may stand before the command, after an address, and, except after
a file name, at the end. (Address forms: `RangeSyn` and `AddrSyn`; their meaning: `RangeSyn.start`, `RangeSyn.end_` and
`AddrSyn.address`.) -/
inductive Reads : Bytes → Command → Prop
  /-- `d`, `j`, `l`, `n`, `p`: two addresses. -/
  | range {w0 ws w9 r letter typ} : Blanks w0 → Blanks ws → Blanks w9 → RangeSyn.OK r → (letter, typ) ∈ rangeCommands →
      Reads (w0 ++ (r.bytes ++ (ws ++ [letter])) ++ w9) { typ := typ, start := r.start, end_ := r.end_ }
  /-- `=`: one address, which is kept with the blanks after it. -/
  | number {w0 w9 r} : Blanks w0 → Blanks w9 → RangeSyn.OK r → r.Simple →
      Reads (w0 ++ (r.bytes ++ [61]) ++ w9) { typ := .lineNumber, start := { r.start with text := r.bytes } }
  /-- An address alone, or nothing. -/
  | null {w0 r} : Blanks w0 → RangeSyn.OK r → r.Simple → Reads (w0 ++ r.bytes ++ []) { start := r.start }
  /-- `h`, `H`, `P`, `q`, `Q`, `u`: nothing else. -/
  | bare {w0 w9 letter typ} : Blanks w0 → Blanks w9 → (letter, typ) ∈ bareCommands → Reads (w0 ++ [letter] ++ w9) { typ := typ }
  /-- `e`, `E`, `f` without a name. -/
  | unnamed {w0 w9 letter typ} : Blanks w0 → Blanks w9 → (letter, typ) ∈ nameCommands → Reads (w0 ++ [letter] ++ w9) { typ := typ }
  /-- `e`, `E`, `f` with a name, which goes up to the end of the line. -/
  | named {w0 ws name letter typ} : Blanks w0 → Blanks ws → ws ≠ [] → NameOK name → (letter, typ) ∈ nameCommands →
      Reads (w0 ++ (letter :: (ws ++ name)) ++ []) { typ := typ, params := [name] }
  /-- `w` without a name. -/
  | write {w0 w9 r} : Blanks w0 → Blanks w9 → RangeSyn.OK r →
      Reads (w0 ++ (r.bytes ++ [119]) ++ w9) { typ := .write, start := r.start, end_ := r.end_ }
  /-- `w` with a name. -/
  | writeNamed {w0 ws name r} : Blanks w0 → Blanks ws → ws ≠ [] → NameOK name → RangeSyn.OK r →
      Reads (w0 ++ (r.bytes ++ 119 :: (ws ++ name)) ++ []) { typ := .write, start := r.start, end_ := r.end_, text := name }
  /-- `k`: one address, and a lower-case letter right after the `k`. -/
  | mark {w0 w9 r x} : Blanks w0 → Blanks w9 → RangeSyn.OK r → r.Simple → 97 ≤ x → x ≤ 122 →
      Reads (w0 ++ (r.bytes ++ [107, x]) ++ w9) { typ := .mark, start := r.start, params := [[x]] }
  /-- `m`, `t`: two addresses, and another right after the letter. -/
  | dest {w0 w9 r a letter typ} : Blanks w0 → Blanks w9 → RangeSyn.OK r → AddrSyn.OK a → (letter, typ) ∈ destCommands →
      Reads (w0 ++ (r.bytes ++ letter :: a.bytes) ++ w9) { typ := typ, start := r.start, end_ := r.end_, dest := a.address }
  /-- `r`: one address and a name. -/
  | read {w0 ws name r} : Blanks w0 → Blanks ws → ws ≠ [] → NameOK name → RangeSyn.OK r → r.Simple →
      Reads (w0 ++ (r.bytes ++ 114 :: (ws ++ name)) ++ []) { typ := .read, start := r.start, text := name }
  /-- `!`: the rest of the line. -/
  | shell {w0 text} : Blanks w0 → text ≠ [] → (∀ c ∈ text, c < 0x80) → 10 ∉ text →
      Reads (w0 ++ (33 :: text) ++ []) { typ := .shell, text := text }
  /-- `a`, `i`: one address, and a text block from the next line. -/
  | add {w0 w9 r letter typ t} : Blanks w0 → Blanks w9 → RangeSyn.OK r → r.Simple → (letter, typ) ∈ [((97 : UInt8), CmdType.append), (105, .insert)] →
      BlockText t → Reads (w0 ++ (r.bytes ++ letter :: 10 :: (t ++ [10, 46])) ++ w9) { typ := typ, start := r.start, text := t }
  /-- `c`: two addresses, and a text block from the next line. -/
  | change {w0 w9 r t} : Blanks w0 → Blanks w9 → RangeSyn.OK r → BlockText t →
      Reads (w0 ++ (r.bytes ++ 99 :: 10 :: (t ++ [10, 46])) ++ w9) { typ := .change, start := r.start, end_ := r.end_, text := t }

/-- A text that is commands, each with a newline after it. -/
inductive Script : Bytes → List Command → Prop
  | nil : Script [] []
  | cons {u c s cs} : Reads u c → Script s cs → Script (u ++ 10 :: s) (c :: cs)

/-! ## What is accepted has these forms -/

theorem snd_text : Snd text (fun z _ => ∃ t, BlockText t ∧ z = t ++ [10, 46]) := by
  have inv : ∀ (fuel pos : Nat) (s : Bytes), s.length ≤ fuel → ∃ x s2, s = x ++ s2 ∧
      (starAux (notP textTerm ⬝ dot) fuel pos (rn s)).2.1 = rn s2 ∧ ∀ a b, x = a ++ b → b ≠ [] → ¬ [10, 46] <+: b ++ s2 := by
    intro fuel
    induction fuel with
    | zero =>
      intro pos s h
      obtain rfl : s = [] := List.length_eq_zero_iff.1 (by omega)
      exact ⟨[], [], rfl, rfl, by intro a b h hb; simp at h; exact absurd h.2 hb⟩
    | succ fuel ih =>
      intro pos s hf
      cases hi : (notP textTerm ⬝ dot) pos (rn s) with
      | none => exact ⟨[], s, rfl, by simp only [starAux, hi], by intro a b h hb; simp at h; exact absurd h.2 hb⟩
      | some y =>
        obtain ⟨pos1, rs1, t1⟩ := y
        cases s with
        | nil => simp [seq, notP, textTerm, chr, cls, dot] at hi
        | cons c s =>
          have hn : textTerm pos (rn (c :: s)) = none := by
            cases h : textTerm pos (rn (c :: s)) with
            | none => rfl
            | some _ => simp only [seq, notP, h] at hi; cases hi
          obtain rfl : rs1 = rn s := by
            have : notP textTerm pos (rn (c :: s)) = some (pos, rn (c :: s), []) := by simp only [notP, hn]
            simp only [seq, this] at hi
            simp only [dot, rn, List.map_cons, cls, if_true, Option.some.injEq, Prod.mk.injEq] at hi
            exact hi.2.1.symm
          obtain ⟨x, s2, rfl, e, h⟩ := ih pos1 s (by simp at hf; omega)
          refine ⟨c :: x, s2, rfl, by simp only [starAux, hi]; exact e, ?_⟩
          intro a b hab hb
          cases a with
          | nil =>
            simp only [List.nil_append] at hab
            rintro ⟨r, hr⟩
            rw [← hab] at hr
            rw [show c :: (x ++ s2) = c :: x ++ s2 from rfl, ← hr] at hn
            exact absurd hn (by simp [textTerm, seq, chr, cls])
          | cons y a =>
            simp only [List.cons_append, List.cons.injEq] at hab
            exact h a b hab.2 hb
  have st : Snd (star (notP textTerm ⬝ dot)) (fun x s2 => ∀ a b, x = a ++ b → b ≠ [] → ¬ [10, 46] <+: b ++ s2) := by
    intro pos s pos2 rs2 t ha h
    obtain ⟨x, s2, e1, e2, h'⟩ := inv ((rn s).length + 1) pos s (by simp)
    simp only [star, Option.some.injEq] at h
    rw [h] at e2
    exact ⟨x, s2, e1, e2, h'⟩
  have term : Snd textTerm (fun z _ => z = [10, 46]) :=
    ((Snd.chr 10 10 rfl).seq (Snd.chr 46 46 rfl)).mono (by rintro x r _ ⟨a, b, rfl, rfl, rfl⟩; rfl)
  refine (st.capture.seq (term.seq (Snd.act 8))).mono ?_
  rintro x r hx ⟨t, b, rfl, h, c, d, rfl, rfl, rfl⟩
  refine ⟨t, ⟨fun c hc => hx c (by simp [hc]), ?_⟩, by simp⟩
  rintro ⟨a, b, hab⟩
  have e : a ++ [10, 46] ++ b = t ++ [10] := hab
  have hlen : a.length < t.length := by have := congrArg List.length e; simp at this; omega
  obtain ⟨b', rfl⟩ : ∃ b', t = a ++ b' := by
    have : a <+: t ++ [10] := ⟨[10, 46] ++ b, by rw [← e]; simp⟩
    exact (List.prefix_of_prefix_length_le this ⟨[10], rfl⟩ (by omega)).imp fun _ h => h.symm
  refine h a b' rfl (by rintro rfl; simp at hlen) ?_
  have e' : [10, 46] ++ b = b' ++ [10] := by
    have : a ++ ([10, 46] ++ b) = a ++ (b' ++ [10]) := by simpa using e
    exact List.append_cancel_left this
  exact ⟨b ++ ([46] ++ r), by rw [show b' ++ ([10, 46] ++ [] ++ r) = b' ++ [10] ++ ([46] ++ r) by simp, ← e']; simp⟩

theorem Blanks.append {x y : Bytes} (hx : Blanks x) (hy : Blanks y) : Blanks (x ++ y) := by
  intro c hc
  rcases List.mem_append.1 hc with h | h
  · exact hx c h
  · exact hy c h

/-- With blanks before it and blanks and a newline after it, a command. -/
def CmdForm (z r : Bytes) : Prop :=
  ∀ w0 w9 : Bytes, Blanks w0 → Blanks w9 → (∃ r', r = w9 ++ 10 :: r') → ∃ c, Reads (w0 ++ z ++ w9) c

theorem reads_eq {u v : Bytes} {c : Command} (h : Reads u c) (e : u = v) : ∃ c, Reads v c := ⟨c, e ▸ h⟩

theorem snd_letter (x : UInt8) (n k : Nat) (h : x.toNat = n) : Snd (chr n ⬝ act k) (fun z _ => z = [x]) :=
  ((Snd.chr x n h).seq (Snd.act k)).mono (by rintro z r _ ⟨a, b, rfl, rfl, rfl⟩; rfl)

theorem snd_bareCmd : Snd bareCmd CmdForm := by
  refine ((snd_letter 104 104 26 rfl).alt ((snd_letter 72 72 27 rfl).alt ((snd_letter 80 80 28 rfl).alt ((snd_letter 113 113 29 rfl).alt
    ((snd_letter 81 81 30 rfl).alt (snd_letter 117 117 31 rfl)))))).mono ?_
  rintro x r _ (rfl | rfl | rfl | rfl | rfl | rfl) w0 w9 h0 h9 -
  · exact ⟨_, .bare (typ := .help) h0 h9 (by decide)⟩
  · exact ⟨_, .bare (typ := .helpMode) h0 h9 (by decide)⟩
  · exact ⟨_, .bare (typ := .prompt) h0 h9 (by decide)⟩
  · exact ⟨_, .bare (typ := .quit) h0 h9 (by decide)⟩
  · exact ⟨_, .bare (typ := .quitForce) h0 h9 (by decide)⟩
  · exact ⟨_, .bare (typ := .undo) h0 h9 (by decide)⟩

theorem snd_paramC : Snd paramC (fun z _ => ∃ letter typ, (letter, typ) ∈ nameCommands ∧ z = [letter]) := by
  refine ((snd_letter 101 101 33 rfl).alt ((snd_letter 69 69 34 rfl).alt (snd_letter 102 102 35 rfl))).mono ?_
  rintro x r _ (rfl | rfl | rfl)
  · exact ⟨101, .edit, by decide, rfl⟩
  · exact ⟨69, .editForce, by decide, rfl⟩
  · exact ⟨102, .filename, by decide, rfl⟩

theorem snd_rangeC : Snd rangeC (fun z _ => ∃ letter typ, (letter, typ) ∈ rangeCommands ∧ z = [letter]) := by
  refine ((snd_letter 100 100 40 rfl).alt ((snd_letter 106 106 41 rfl).alt ((snd_letter 108 108 42 rfl).alt ((snd_letter 110 110 43 rfl).alt
    (snd_letter 112 112 44 rfl))))).mono ?_
  rintro x r _ (rfl | rfl | rfl | rfl | rfl)
  · exact ⟨100, .delete, by decide, rfl⟩
  · exact ⟨106, .join, by decide, rfl⟩
  · exact ⟨108, .list, by decide, rfl⟩
  · exact ⟨110, .number, by decide, rfl⟩
  · exact ⟨112, .print, by decide, rfl⟩

theorem snd_destC : Snd destC (fun z _ => ∃ letter typ, (letter, typ) ∈ destCommands ∧ z = [letter]) := by
  refine ((snd_letter 109 109 45 rfl).alt (snd_letter 116 116 46 rfl)).mono ?_
  rintro x r _ (rfl | rfl)
  · exact ⟨109, .move, by decide, rfl⟩
  · exact ⟨116, .copy, by decide, rfl⟩

theorem snd_addTextC : Snd addTextC (fun z _ => ∃ letter typ, (letter, typ) ∈ [((97 : UInt8), CmdType.append), (105, .insert)] ∧ z = [letter]) := by
  refine ((snd_letter 97 97 38 rfl).alt (snd_letter 105 105 39 rfl)).mono ?_
  rintro x r _ (rfl | rfl)
  · exact ⟨97, .append, by decide, rfl⟩
  · exact ⟨105, .insert, by decide, rfl⟩

/-- Blanks and a name: what is left is the newline. -/
theorem snd_name (n : Nat) : Snd (sp ⬝ capture param ⬝ act n)
    (fun z r => ∃ ws name, Blanks ws ∧ ws ≠ [] ∧ NameOK name ∧ z = ws ++ name ∧ ∀ c r', r = c :: r' → c = 10) := by
  refine (snd_sp.seq (snd_param.capture.seq (Snd.act n))).mono ?_
  rintro x r hx ⟨ws, b, rfl, ⟨hne, hb, hnb⟩, name, d, rfl, ⟨h1, h2, h3⟩, rfl⟩
  refine ⟨ws, name, hb, hne, ⟨h1, fun c hc => hx c (by simp [hc]), h2, ?_⟩, by simp, h3⟩
  intro c cs e
  exact hnb c (cs ++ ([] ++ r)) (by simp [e])

theorem no_blanks_left {w9 r r' : Bytes} (h9 : Blanks w9) (h : ∀ c r', r = c :: r' → c = 10) (e : r = w9 ++ 10 :: r') : w9 = [] := by
  cases w9 with
  | nil => rfl
  | cons c w =>
    have h1 := h c _ e
    have h2 := h9 c (by simp)
    subst h1
    exact absurd h2 (by decide)

theorem snd_paramCmd : Snd paramCmd CmdForm := by
  refine ((snd_paramC.seq (snd_name 32)).alt snd_paramC).mono ?_
  rintro x r _ (⟨a, b, rfl, ⟨letter, typ, hl, rfl⟩, ws, name, h1, h2, h3, rfl, h4⟩ | ⟨letter, typ, hl, rfl⟩) w0 w9 h0 h9 ⟨r', e⟩
  · obtain rfl := no_blanks_left h9 h4 e
    exact reads_eq (.named h0 h1 h2 h3 hl) (by simp)
  · exact ⟨_, .unnamed h0 h9 hl⟩

theorem snd_rangeCmd : Snd rangeCmd CmdForm := by
  refine (snd_optRange.seq (snd_starSp.seq snd_rangeC)).mono ?_
  rintro x r _ ⟨a, b, rfl, ⟨w1, rg, h1, h2, rfl⟩, ws, d, rfl, ⟨h3, _⟩, letter, typ, hl, rfl⟩ w0 w9 h0 h9 -
  exact reads_eq (.range (h0.append h1) h3 h9 h2 hl) (by simp)

theorem snd_addrCmd : Snd addrCmd CmdForm := by
  have ac : Snd addrC (fun z _ => z = [61]) := snd_letter 61 61 36 rfl
  refine ((snd_startAddr.capture.seq (ac.seq (Snd.act 16))).alt ac).mono ?_
  rintro x r _ (⟨z, b, rfl, ⟨w1, a, w2, h1, h2, h3, rfl⟩, c, d, rfl, rfl, rfl⟩ | rfl) w0 w9 h0 h9 -
  · exact reads_eq (.number (r := .one a w2) (h0.append h1) h9 ⟨h2, h3⟩ trivial) (by simp [RangeSyn.bytes])
  · exact reads_eq (.number (r := .none) h0 h9 trivial trivial) (by simp [RangeSyn.bytes])

theorem snd_newLine : Snd newLine (fun z _ => z = [10]) := Snd.chr 10 10 rfl

theorem snd_changeTextCmd : Snd changeTextCmd CmdForm := by
  refine (snd_optRange.seq ((snd_letter 99 99 37 rfl).seq (snd_newLine.seq snd_text))).mono ?_
  rintro x r _ ⟨a, b, rfl, ⟨w1, rg, h1, h2, rfl⟩, c, d, rfl, rfl, f, g, rfl, rfl, t, ht, rfl⟩ w0 w9 h0 h9 -
  exact reads_eq (.change (h0.append h1) h9 h2 ht) (by simp)

theorem snd_addTextCmd : Snd addTextCmd CmdForm := by
  refine (snd_optStart.seq (snd_addTextC.seq (snd_newLine.seq snd_text))).mono ?_
  rintro x r _ ⟨a, b, rfl, ⟨w1, rg, h1, h2, h2', rfl⟩, c, d, rfl, ⟨letter, typ, hl, rfl⟩, f, g, rfl, rfl, t, ht, rfl⟩ w0 w9 h0 h9 -
  exact reads_eq (.add (h0.append h1) h9 h2 h2' hl ht) (by simp)

theorem snd_markCmd : Snd markCmd CmdForm := by
  refine (snd_optStart.seq ((Snd.chr 107 107 rfl).seq ((Snd.cls isLower).capture.seq (Snd.act 2)))).mono ?_
  rintro x r _ ⟨a, b, rfl, ⟨w1, rg, h1, h2, h2', rfl⟩, c, d, rfl, rfl, f, g, rfl, ⟨m, rfl, hm⟩, rfl⟩ w0 w9 h0 h9 -
  simp only [isLower, Bool.and_eq_true, decide_eq_true_eq] at hm
  exact reads_eq (.mark (x := m) (h0.append h1) h9 h2 h2' (UInt8.le_iff_toNat_le.2 hm.1) (UInt8.le_iff_toNat_le.2 hm.2)) (by simp)

theorem snd_destCmd : Snd destCmd CmdForm := by
  refine (snd_optRange.seq (snd_destC.seq (snd_addrO.capture.seq (Snd.act 3)))).mono ?_
  rintro x r _ ⟨a, b, rfl, ⟨w1, rg, h1, h2, rfl⟩, c, d, rfl, ⟨letter, typ, hl, rfl⟩, f, g, rfl, ⟨a', ha, rfl⟩, rfl⟩ w0 w9 h0 h9 -
  exact reads_eq (.dest (h0.append h1) h9 h2 ha hl) (by simp)

theorem snd_readCmd : Snd readCmd CmdForm := by
  refine (snd_optStart.seq ((Snd.chr 114 114 rfl).seq (snd_name 4))).mono ?_
  rintro x r _ ⟨a, b, rfl, ⟨w1, rg, h1, h2, h2', rfl⟩, c, d, rfl, rfl, ws, name, h3, h4, h5, rfl, h6⟩ w0 w9 h0 h9 ⟨r', e⟩
  obtain rfl := no_blanks_left h9 h6 e
  exact reads_eq (.read (h0.append h1) h3 h4 h5 h2 h2') (by simp)

theorem snd_writeCmd : Snd writeCmd CmdForm := by
  refine ((snd_optRange.seq ((Snd.chr 119 119 rfl).seq (snd_name 5))).alt (snd_optRange.seq (snd_letter 119 119 6 rfl))).mono ?_
  rintro x r _ (⟨a, b, rfl, ⟨w1, rg, h1, h2, rfl⟩, c, d, rfl, rfl, ws, name, h3, h4, h5, rfl, h6⟩ | ⟨a, b, rfl, ⟨w1, rg, h1, h2, rfl⟩, rfl⟩)
    w0 w9 h0 h9 ⟨r', e⟩
  · obtain rfl := no_blanks_left h9 h6 e
    exact reads_eq (.writeNamed (h0.append h1) h3 h4 h5 h2) (by simp)
  · exact reads_eq (.write (h0.append h1) h9 h2) (by simp)

theorem snd_shellCmd : Snd shellCmd CmdForm := by
  refine ((Snd.chr 33 33 rfl).seq (snd_param.capture.seq (Snd.act 7))).mono ?_
  rintro x r hx ⟨a, b, rfl, rfl, text, d, rfl, ⟨h1, h2, h3⟩, rfl⟩ w0 w9 h0 h9 ⟨r', e⟩
  obtain rfl := no_blanks_left h9 h3 e
  exact reads_eq (.shell h0 h1 (fun c hc => hx c (by simp [hc])) h2) (by simp)

theorem snd_nullCmd : Snd nullCmd CmdForm := by
  refine snd_startAddr.opt.mono ?_
  rintro x r _ (⟨w1, a, w2, h1, h2, h3, rfl⟩ | rfl) w0 w9 h0 h9 -
  · exact reads_eq (.null (r := .one a (w2 ++ w9)) (h0.append h1) ⟨h2, h3.append h9⟩ trivial) (by simp [RangeSyn.bytes])
  · exact reads_eq (.null (r := .none) (h0.append h9) trivial trivial) (by simp [RangeSyn.bytes])

theorem snd_cmd : Snd cmd CmdForm :=
  (snd_bareCmd.alt (snd_paramCmd.alt (snd_rangeCmd.alt (snd_addrCmd.alt (snd_changeTextCmd.alt (snd_addTextCmd.alt (snd_markCmd.alt
    (snd_destCmd.alt (snd_readCmd.alt (snd_writeCmd.alt (snd_shellCmd.alt snd_nullCmd))))))))))).mono (by
    rintro x r _ (h | h | h | h | h | h | h | h | h | h | h | h) <;> exact h)

theorem snd_e : Snd e (fun z _ => ∃ u c, Reads u c ∧ z = u ++ [10]) := by
  refine (snd_starSp.seq (snd_cmd.seq (snd_starSp.seq (snd_newLine.seq (Snd.act 1))))).mono ?_
  rintro x r _ ⟨w0, b, rfl, ⟨h0, _⟩, z, d, rfl, hz, w9, g, rfl, ⟨h9, _⟩, i, j, rfl, rfl, rfl⟩
  obtain ⟨c, hc⟩ := hz w0 w9 h0 h9 ⟨r, by simp⟩
  exact ⟨_, c, hc, by simp⟩

/-- An accepted text is a script. -/
theorem script_of_parse (s : Bytes) (ha : ∀ c ∈ s, c < 0x80) (h : (parse s).isSome) : ∃ cs, Script s cs := by
  have key : ∀ (fuel pos : Nat) (s : Bytes), (∀ c ∈ s, c < 0x80) → (starAux e fuel pos (rn s)).2.1 = [] → ∃ cs, Script s cs := by
    intro fuel
    induction fuel with
    | zero =>
      intro pos s _ h
      simp only [starAux, List.map_eq_nil_iff] at h
      exact ⟨[], h ▸ .nil⟩
    | succ fuel ih =>
      intro pos s ha h
      cases he : e pos (rn s) with
      | none =>
        simp only [starAux, he, List.map_eq_nil_iff] at h
        exact ⟨[], h ▸ .nil⟩
      | some y =>
        obtain ⟨pos1, rs1, t1⟩ := y
        obtain ⟨x, s2, rfl, rfl, u, c, hu, rfl⟩ := snd_e pos s pos1 rs1 t1 ha he
        simp only [starAux, he] at h
        obtain ⟨cs, hcs⟩ := ih pos1 s2 (fun c hc => ha c (by simp [hc])) h
        exact ⟨c :: cs, by simpa using Script.cons hu hcs⟩
  simp only [parse, chunks_rn s ha, Option.isSome_map] at h
  refine key ((rn s).length + 1) 0 s ha ?_
  cases hr : (starAux e ((rn s).length + 1) 0 (rn s)).2.1 with
  | nil => rfl
  | cons c r =>
    exfalso
    have h1 : star e 0 (rn s) = some ((starAux e ((rn s).length + 1) 0 (rn s)).1, c :: r, (starAux e ((rn s).length + 1) 0 (rn s)).2.2) := by
      simp only [star, ← hr]
    have : first 0 (rn s) = none := seq_fail2 h1 (seq_fail1 rfl)
    rw [this] at h
    cases h

end Ed
