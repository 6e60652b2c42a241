import Verif.Locale.Remains
import Verif.Locale.SharedEscape
import Verif.Go.QuoteProps

/-! # C157: the lines before the first section of a locale file

A locale file may begin with `comment_char` and `escape_char` lines, comments and blank lines. -/

namespace Locale
open Go

/-! ## Specification -/

/-- The capital letters and underscores a line begins with. -/
def heading (l : Bytes) : Bytes := l.takeWhile fun c => (65 ≤ c && c ≤ 90) || c == 95

/-- The line begins a section of one of the six categories. -/
def OpensSection (l : Bytes) : Prop :=
  heading l ∈ [b!"LC_CTYPE", b!"LC_COLLATE", b!"LC_MONETARY", b!"LC_NUMERIC", b!"LC_TIME", b!"LC_MESSAGES"]

/-! ## Proofs -/

theorem upper_iff (c : UInt8) : ((65 ≤ c && c ≤ 90) || c == 95) = true ↔ c ∈ upperChars := by
  have h : ∀ n : Fin 256, ((65 ≤ UInt8.ofNat n.val && UInt8.ofNat n.val ≤ 90) || UInt8.ofNat n.val == 95) = true ↔ UInt8.ofNat n.val ∈ upperChars := by
    decide +kernel
  simpa using h ⟨c.toNat, c.toNat_lt⟩

/-- The text begins with a character that is none of these. -/
def Halts (chars : Bytes) (s : Bytes) : Prop := ∃ r s', ValidRune r ∧ s = encodeRune r ++ s' ∧ containsRune chars (some r) = false

theorem takeLoop_halts {chars : Bytes} (hch : ∀ b ∈ chars, b.toNat < 0x80) {x pre w rest t l} {n : Nat} (hn : x.length < n)
    (hx : ∀ b ∈ x, b ∈ chars) (hs : Halts chars rest) (h : Pos pre w (x ++ rest) t l) :
    Runs (takeLoop chars n) l () (Pos pre (w ++ x) rest t) := by
  induction x generalizing w l n with
  | nil =>
    cases n with
    | zero => simp at hn
    | succ n =>
      simp only [takeLoop]
      obtain ⟨r, s', hr, rfl, hc⟩ := hs
      refine (next_rune hr h).bind fun l1 h1 => ?_
      rw [if_neg (by rw [hc]; simp), List.append_nil]
      exact (rewind_rune h1.1 h1.2).mono fun _ h => h.1
  | cons b x ih =>
    cases n with
    | zero => simp at hn
    | succ n =>
      simp only [takeLoop]
      have hb := hx b (by simp)
      refine (next_ascii (hch b hb) h).bind fun l1 h1 => ?_
      rw [if_pos (by rw [containsRune_byte]; simpa using hb)]
      rw [show w ++ b :: x = (w ++ [b]) ++ x by simp]
      exact ih (by simp at hn; omega) (fun c hc => hx c (by simp [hc])) h1.1

theorem take_halts {chars : Bytes} (hch : ∀ b ∈ chars, b.toNat < 0x80) {x pre w rest t l}
    (hx : ∀ b ∈ x, b ∈ chars) (hs : Halts chars rest) (h : Pos pre w (x ++ rest) t l) :
    Runs (take chars) l () (Pos pre (w ++ x) rest t) := by
  unfold take
  obtain ⟨l', h1, h2⟩ := takeLoop_halts hch (n := l.source.length - l.pos + 1) (by
    have := congrArg List.length h.ahead
    simp only [List.length_drop, List.length_append] at this
    omega) hx hs h
  exact ⟨l', h1, h2⟩

theorem high_not_upper {r : Nat} (hr : 128 ≤ r) : containsRune (upperChars ++ b!"_") (some r) = false := by
  simp only [containsRune, List.any_eq_false, beq_iff_eq]
  intro c hc h
  have : ∀ c ∈ upperChars ++ b!"_", c.toNat < 128 := by decide
  have := this c hc
  omega

theorem heading_split (rs : List Nat) (out : Bytes) (hv : ∀ r ∈ rs, ValidRune r) :
    ∃ r, ofRunes rs ++ nl :: out = heading (ofRunes rs) ++ r ∧ (∀ b ∈ heading (ofRunes rs), b ∈ upperChars) ∧ Halts (upperChars ++ b!"_") r := by
  induction rs with
  | nil => exact ⟨nl :: out, rfl, by simp [heading, ofRunes], 10, out, by decide, rfl, by decide⟩
  | cons r rs ih =>
    obtain ⟨s, h1, h2, h3⟩ := ih fun x hx => hv x (by simp [hx])
    have hr := hv r (by simp)
    have e0 : ofRunes (r :: rs) = encodeRune r ++ ofRunes rs := rfl
    have stop : (∀ c cs, encodeRune r = c :: cs → ((65 ≤ c && c ≤ 90) || c == 95) = false) → containsRune (upperChars ++ b!"_") (some r) = false →
        ∃ x, ofRunes (r :: rs) ++ nl :: out = heading (ofRunes (r :: rs)) ++ x ∧ (∀ b ∈ heading (ofRunes (r :: rs)), b ∈ upperChars) ∧ Halts (upperChars ++ b!"_") x := by
      intro hh hc
      have e : heading (ofRunes (r :: rs)) = [] := by
        rw [e0]
        obtain ⟨b, bs, eb, -⟩ := decode_encode r hr []
        rw [eb]
        simp only [heading, List.cons_append, List.takeWhile_cons, hh b bs eb]
        rfl
      rw [e]
      exact ⟨ofRunes (r :: rs) ++ nl :: out, rfl, by simp, r, ofRunes rs ++ nl :: out, hr, by rw [e0, List.append_assoc], hc⟩
    by_cases hlow : r < 128
    · obtain ⟨c, rfl⟩ : ∃ c : UInt8, c.toNat = r := ⟨UInt8.ofNat r, byte_toNat r (by omega)⟩
      rw [encode_ascii hlow] at e0
      cases hc : ((65 ≤ c && c ≤ 90) || c == 95) with
      | true =>
        have e : heading (ofRunes (c.toNat :: rs)) = c :: heading (ofRunes rs) := by
          rw [e0]
          simp only [heading, List.cons_append, List.nil_append, List.takeWhile_cons, hc, if_true]
        rw [e]
        refine ⟨s, by rw [e0, List.cons_append, List.nil_append, List.cons_append, h1, List.cons_append], ?_, h3⟩
        intro b hb
        rcases List.mem_cons.1 hb with rfl | hb
        · exact (upper_iff _).1 hc
        · exact h2 b hb
      | false =>
        refine stop ?_ ?_
        · intro c' cs he
          rw [encode_ascii hlow] at he
          injection he with he _
          rw [← he]
          exact hc
        · rw [containsRune_byte, List.contains_eq_mem, decide_eq_false_iff_not]
          intro hm
          have : c ∈ upperChars := by
            rcases List.mem_append.1 hm with hm | hm
            · exact hm
            · simp only [List.mem_cons, List.not_mem_nil, or_false] at hm
              rw [hm]; decide
          rw [← upper_iff, hc] at this
          cases this
    · refine stop ?_ (high_not_upper (by omega))
      intro c cs he
      have := encode_high hr (by omega) c (by rw [he]; simp)
      cases hc : ((65 ≤ c && c ≤ 90) || c == 95) with
      | false => rfl
      | true =>
        have key : ∀ c ∈ upperChars, c.toNat < 128 := by decide
        have := key c ((upper_iff c).1 hc)
        omega

theorem unread {w r : Bytes} (h1 : ∀ b ∈ w, b ∈ upperChars) (h2 : Halts (upperChars ++ b!"_") r)
    (h4 : w ∉ [b!"LC_CTYPE", b!"LC_COLLATE", b!"LC_MONETARY", b!"LC_NUMERIC", b!"LC_TIME", b!"LC_MESSAGES"])
    {pre t l} (h : Pos pre [] (w ++ r) t l) : Runs sCategory l none fun l' => l'.toks = t := by
  unfold sCategory
  refine (take_halts (chars := upperChars ++ b!"_") headChars_ascii (fun b hb => by simp [h1 b hb]) h2 h).bind fun l1 k1 => ?_
  refine (current_spec k1).bind fun l2 k2 => ?_
  simp only [List.nil_append]
  simp only [List.mem_cons, List.not_mem_nil, or_false, not_or] at h4
  obtain ⟨a1, a2, a3, a4, a5, a6⟩ := h4
  rw [if_neg a1, if_neg a2, if_neg a3, if_neg a4, if_neg a5, if_neg a6]
  exact Runs.pure k2.toks

theorem hash_iff (l : Bytes) : (decodeFirst l).1 = 35 ↔ l.head? = some 35 := by
  constructor
  · intro h
    obtain ⟨r, tail, -, h2, h3⟩ := decodeFirst_valid (s := l) (by rw [h]; decide)
    rw [h3] at h
    simp only at h
    subst h
    rw [h2]
    rfl
  · intro h
    cases l with
    | nil => cases h
    | cons b l =>
      simp only [List.head?_cons, Option.some.injEq] at h
      subst h
      simp [decodeFirst, decodeRune_ascii]

/-- The line after the comments comes out of comment removal as it is. -/
theorem first_kept {cs : List Bytes} {l : Bytes} {rest : List Bytes} {out : Bytes} {e : Nat} (hcs : ∀ c ∈ cs, c.head? = some 35)
    (h1 : l.head? ≠ some 35) (h2 : ¬ b!"escape_char" <+: l) (h3 : l.getLast? ≠ some 92) (h : Cleaned 35 92 (cs ++ l :: rest) out e) :
    ∃ out', out = l ++ nl :: out' := by
  induction cs with
  | nil =>
    have joined : ∀ conts line, Joined 92 l conts line → line = l := by
      intro conts line hj
      cases hj with
      | empty => rfl
      | stop _ r h hne => rfl
      | more l' next t conts out h ht h' =>
        refine absurd ?_ h3
        rw [show encodeRune 92 = [92] from rfl, List.getLast?_concat]
    have hl : (decodeFirst l).1 ≠ 35 := fun h => h1 ((hash_iff l).1 h)
    generalize hk : [] ++ l :: rest = ls at h
    generalize hc : (35 : Nat) = c at h
    generalize he : (92 : Nat) = e0 at h
    cases h with
    | done => simp at hk
    | comment _ _ l' rest' _ _ hc' h => simp at hk; subst hc; exact absurd (hk.1 ▸ hc') hl
    | escape _ _ r l' rest' _ _ hc' hs h => simp at hk; exact absurd (hk.1 ▸ hs.1) h2
    | commentChar _ _ r l' conts rest' line out' _ hc' hs hj h =>
      simp at hk
      subst he
      rw [← hk.1] at hj
      exact ⟨out', by rw [joined _ _ hj]⟩
    | text _ _ l' conts rest' line out' _ hc' hs hj h =>
      simp at hk
      subst he
      rw [← hk.1] at hj
      exact ⟨out', by rw [joined _ _ hj]⟩
  | cons c cs ih =>
    refine ih (fun x hx => hcs x (by simp [hx])) ?_
    have hc0 := (hash_iff c).2 (hcs c (by simp))
    generalize hk : (c :: cs) ++ l :: rest = ls at h
    generalize hc : (35 : Nat) = cc at h hc0 ⊢
    cases h with
    | done => simp at hk
    | comment _ _ l' rest' _ _ hc' h => simp at hk; rw [hk.2]; exact h
    | escape _ _ r l' rest' _ _ hc' hs h => simp at hk; exact absurd (hk.1 ▸ hc0) hc'
    | commentChar _ _ r l' conts rest' line out' _ hc' hs hj h => simp at hk; exact absurd (hk.1 ▸ hc0) hc'
    | text _ _ l' conts rest' line out' _ hc' hs hj h => simp at hk; exact absurd (hk.1 ▸ hc0) hc'

/-! ## Theorems -/

/-- **C157** (the expectation fails) If the first line that is no comment does not begin a section, the lexer delivers nothing at all, whatever follows: after
a blank line, a `comment_char` line, or a section of another category. (Or it crashes, because a line cannot be decoded or continued.) -/
theorem C157_nothing_read (cs : List Bytes) (l : Bytes) (rest : List Bytes) (hnl : ∀ x ∈ cs ++ l :: rest, nl ∉ x) (hcs : ∀ c ∈ cs, c.head? = some 35)
    (h1 : l.head? ≠ some 35) (h2 : ¬ b!"escape_char" <+: l) (h3 : l.getLast? ≠ some 92) (hv : ∃ rs, (∀ r ∈ rs, ValidRune r) ∧ l = ofRunes rs) (ho : ¬ OpensSection l)
    (n : Nat) (hn : 1 ≤ n) :
    (∃ p, removeComments (join [nl] (cs ++ l :: rest)) = .error p ∧ newLexer n (join [nl] (cs ++ l :: rest)) = .panic p) ∨ ∃ s, newLexer n (join [nl] (cs ++ l :: rest)) = .ok [] s := by
  unfold newLexer
  cases hr : removeComments (join [nl] (cs ++ l :: rest)) with
  | error p => exact .inl ⟨p, rfl, rfl⟩
  | ok x =>
    obtain ⟨text, e⟩ := x
    right
    rw [C55_cleans, split_join_byte nl _ (by simp) hnl] at hr
    obtain ⟨out, rfl⟩ := first_kept hcs h1 h2 h3 hr
    obtain ⟨rs, hv, rfl⟩ := hv
    obtain ⟨r, k1, k2, k3⟩ := heading_split rs out hv
    obtain ⟨m, rfl⟩ : ∃ m, n = m + 1 := ⟨n - 1, by omega⟩
    have hrun : Runs (runLoop (fun _ => e) (m + 1) (m + 1) .category) { source := ofRunes rs ++ nl :: out } () fun l' => l'.toks = [] := by
      simp only [runLoop, St.call]
      exact (unread k2 k3 ho (pre := []) (t := []) ⟨by rw [k1]; rfl, rfl, rfl, rfl⟩).bind fun l' h' => Runs.pure h'
    obtain ⟨s, r1, r2⟩ := hrun
    refine ⟨s, ?_⟩
    simp only [lexText, r1, r2]
    rfl

set_option maxRecDepth 100000 in
/-- **C157** A file that delivers nothing is a syntax error. -/
theorem C157_nothing_rejected (d : Def) : parse false [] d = .error .explicit ∧ parse true [] d = .ok (1, d) := by
  constructor <;> with_unfolding_all rfl

/-- **C157** (what holds) A file may begin with an `escape_char` line: without backslashes, and if no line ends in the new escape character, it is read as
without that line. -/
theorem C157_escape_partial (first : Bytes) (e : Nat) (hfirst : Sets b!"escape_char" first e) (hnl : nl ∉ first) (lines : List Bytes) (hl : ∀ l ∈ lines, PlainLine l)
    (he : ∀ l ∈ lines, isComment l = false → ¬ EndsWith l e) (hb : ∀ l ∈ lines, isComment l = false → (92 : UInt8) ∉ l) (n : Nat) :
    newLexer n (unlines (first :: lines)) = newLexer n (unlines lines) := by
  have h2 := strip_comments lines hl
  have h1 : removeComments (unlines (first :: lines)) = .ok (unlines (lines.filter fun l => !isComment l) ++ [nl], e) := by
    have e1 : unlines (first :: lines) = join [nl] (first :: lines ++ [[]]) := by
      have h1 := join_nl first (lines ++ [[]])
      have h2 : unlines (first :: (lines ++ [[]])) = unlines (first :: lines) ++ [nl] := by
        rw [← List.cons_append, unlines_append]; rfl
      rw [h2] at h1
      exact (List.append_cancel_right h1).symm
    rw [e1, C55_cleans, split_join_byte nl _ (by simp) (by
      intro x hx
      simp only [List.cons_append, List.mem_cons, List.mem_append, List.not_mem_nil, or_false] at hx
      rcases hx with rfl | hx | rfl
      · exact hnl
      · exact (hl x hx).1
      · simp)]
    have hf : (decodeFirst first).1 ≠ 35 := by
      intro h
      obtain ⟨t, rfl⟩ := hfirst.1
      rw [hash_iff] at h
      revert h
      simp
    refine .escape 35 92 e first _ _ e hf hfirst ?_
    have step : ∀ ls : List Bytes, (∀ l ∈ ls, ¬ b!"comment_char" <+: l ∧ ¬ b!"escape_char" <+: l ∧ (isComment l = false → l = [] ∨ ∃ r, EndsWith l r ∧ r ≠ e)) →
        Cleaned 35 e ls (unlines (ls.filter fun l => !isComment l)) e := by
      intro ls
      induction ls with
      | nil => intro _; exact .done _ _
      | cons l ls ih =>
        intro h
        have ih := ih fun x hx => h x (by simp [hx])
        obtain ⟨p1, p2, p3⟩ := h l (by simp)
        cases hc : isComment l with
        | true =>
          rw [List.filter_cons_of_neg (by simp [hc])]
          refine .comment _ _ _ _ _ _ ((hash_iff l).2 ?_) ih
          unfold isComment at hc
          simpa using hc
        | false =>
          rw [List.filter_cons_of_pos (by simp [hc])]
          have hj : Joined e l [] l := by
            rcases p3 hc with rfl | ⟨r, k1, k2⟩
            · exact .empty
            · exact .stop l r k1 k2
          refine .text 35 e l [] ls l _ e (fun h => ?_) (fun r => ⟨fun h => p2 h.1, fun h => p1 h.1⟩) hj ih
          rw [hash_iff] at h
          simp [isComment, h] at hc
    have := step (lines ++ [[]]) ?_
    · rw [List.filter_append, unlines_append] at this
      exact this
    · intro l hm
      rcases List.mem_append.1 hm with hm | hm
      · obtain ⟨q1, q2, q3, q4⟩ := hl l hm
        refine ⟨q2, q3, fun hc => q4.imp id ?_⟩
        rintro ⟨r, k1, -⟩
        exact ⟨r, k1, fun h => he l hm hc (h ▸ k1)⟩
      · simp only [List.mem_cons, List.not_mem_nil, or_false] at hm
        subst hm
        exact ⟨by simp, by simp, fun _ => .inl rfl⟩
  have hb' : (92 : UInt8) ∉ unlines (lines.filter fun l => !isComment l) ++ [nl] := by
    have key : ∀ ls : List Bytes, (∀ l ∈ ls, (92 : UInt8) ∉ l) → (92 : UInt8) ∉ unlines ls := by
      intro ls h
      induction ls with
      | nil => simp [unlines]
      | cons l ls ih =>
        have := ih fun x hx => h x (by simp [hx])
        simp only [unlines, List.mem_append, List.mem_cons, not_or]
        exact ⟨h l (by simp), by decide, this⟩
    rw [List.mem_append, not_or]
    refine ⟨key _ fun l hm => ?_, by decide⟩
    have hm := List.mem_filter.1 hm
    exact hb l hm.1 (by simpa using hm.2)
  unfold newLexer
  rw [h1, h2]
  simp only
  rw [lexText_esc hb' (fun _ => e) (fun _ => 92) n]

/-- **C157** (refuted) A file with a `comment_char` line at the beginning, as the standard has it, is rejected, although it is accepted without that line. -/
theorem C157_counterexample (n : Nat) (hn : 1 ≤ n) (d : Def) :
    (∃ s, newLexer n b!"comment_char %\nLC_MONETARY\nmon_grouping 3\nEND LC_MONETARY\n" = .ok [] s) ∧
      ∃ N, ∀ n, N ≤ n → ∃ toks l, newLexer n b!"LC_MONETARY\nmon_grouping 3\nEND LC_MONETARY\n" = .ok toks l ∧ parse false toks d = .ok (0, { d with monGrouping := [3] }) := by
  constructor
  · rcases C157_nothing_read [] b!"comment_char %" [b!"LC_MONETARY", b!"mon_grouping 3", b!"END LC_MONETARY", []] (by decide) (by decide) (by decide) (by decide)
      (by decide) ⟨b!"comment_char %".map (·.toNat), by decide, by decide⟩ (by unfold OpensSection; decide) n hn with ⟨p, h, -⟩ | h
    · exfalso
      rw [show join [nl] ([] ++ b!"comment_char %" :: [b!"LC_MONETARY", b!"mon_grouping 3", b!"END LC_MONETARY", []]) =
        b!"comment_char %\nLC_MONETARY\nmon_grouping 3\nEND LC_MONETARY\n" by decide +kernel] at h
      rw [show removeComments b!"comment_char %\nLC_MONETARY\nmon_grouping 3\nEND LC_MONETARY\n" =
        .ok (b!"comment_char %\nLC_MONETARY\nmon_grouping 3\nEND LC_MONETARY\n\n", 92) by decide +kernel] at h
      cases h
    · rw [show join [nl] ([] ++ b!"comment_char %" :: [b!"LC_MONETARY", b!"mon_grouping 3", b!"END LC_MONETARY", []]) =
        b!"comment_char %\nLC_MONETARY\nmon_grouping 3\nEND LC_MONETARY\n" by decide +kernel] at h
      exact h
  · obtain ⟨N, h⟩ := C78_collate _ groupFile_ok.ne groupFile_ok.wf groupFile_ok.acc _ groupFile_ok.comments groupFile_ok.lines_ false d
    refine ⟨N, fun n hn => ?_⟩
    obtain ⟨toks, l, h1, h2⟩ := h n hn
    exact ⟨toks, l, by rw [← h1]; rfl, h2⟩

/-- **C157** A file that begins with a byte order mark is one of these, whatever its lines are. -/
theorem C157_byte_order_mark (rs : List Nat) (hv : ∀ r ∈ rs, ValidRune r) (rest : List Bytes) (hnl : ∀ x ∈ ofRunes (0xFEFF :: rs) :: rest, nl ∉ x)
    (h3 : (ofRunes (0xFEFF :: rs)).getLast? ≠ some 92) (n : Nat) (hn : 1 ≤ n) :
    (∃ p, removeComments (join [nl] (ofRunes (0xFEFF :: rs) :: rest)) = .error p ∧ newLexer n (join [nl] (ofRunes (0xFEFF :: rs) :: rest)) = .panic p) ∨
      ∃ s, newLexer n (join [nl] (ofRunes (0xFEFF :: rs) :: rest)) = .ok [] s := by
  have e : ofRunes (0xFEFF :: rs) = 0xEF :: 0xBB :: 0xBF :: ofRunes rs := rfl
  refine C157_nothing_read [] (ofRunes (0xFEFF :: rs)) rest hnl (by simp) (by rw [e]; simp) ?_ h3
    ⟨0xFEFF :: rs, by intro r hr; rcases List.mem_cons.1 hr with rfl | hr; exact (by decide); exact hv r hr, rfl⟩ ?_ n hn
  · rw [e]
    rintro ⟨t, ht⟩
    injection ht with ht _
    exact absurd ht (by decide)
  · unfold OpensSection
    rw [e]
    have : heading (0xEF :: 0xBB :: 0xBF :: ofRunes rs) = [] := by simp [heading, List.takeWhile_cons]
    rw [this]
    decide

/-- The hypotheses of `C157_escape_partial` are met. -/
example : Sets b!"escape_char" b!"escape_char /" 47 ∧ (∀ l ∈ [b!"LC_MONETARY", b!"mon_grouping 3", b!"END LC_MONETARY"], PlainLine l) ∧
    (∀ l ∈ [b!"LC_MONETARY", b!"mon_grouping 3", b!"END LC_MONETARY"], isComment l = false → ¬ EndsWith l 47) := by
  refine ⟨(sets_iff _ _ _).1 (by decide +kernel), ?_, ?_⟩
  · intro l hl
    simp only [List.mem_cons, List.not_mem_nil, or_false] at hl
    rcases hl with rfl | rfl | rfl
    · exact ⟨by decide, by decide, by decide, .inr ⟨89, (endsWith_iff _ _).mpr (by decide), by decide⟩⟩
    · exact ⟨by decide, by decide, by decide, .inr ⟨51, (endsWith_iff _ _).mpr (by decide), by decide⟩⟩
    · exact ⟨by decide, by decide, by decide, .inr ⟨89, (endsWith_iff _ _).mpr (by decide), by decide⟩⟩
  · intro l hl _ h
    rw [endsWith_iff] at h
    simp only [List.mem_cons, List.not_mem_nil, or_false] at hl
    rcases hl with rfl | rfl | rfl <;> revert h <;> decide

end Locale
