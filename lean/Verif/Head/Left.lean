import Verif.Head.Waiting
import Verif.Cat.Arrival

/-!
# C166: what head leaves of its input for the next reader

Two commands of a shell script may share one standard input, `head -n 1; cat` say, and so do two operands `-`.
-/

namespace Head
open Go

/-! ## Specification -/

/-- The lines as a terminal delivers them: one at a time. -/
def lineByLine (ls : List Bytes) (err : Option Bytes := none) : Source := ⟨ls.map (· ++ [nl]), err⟩

/-- main.go:49-76 and cmd/cat/main.go:34-55: `head` on its standard input, then `cat` on what is left of it. -/
def thenCat (n : Int) (stdin : Source) : Bytes :=
  (scanFrom n stdin).1 ++ (Cat.mainFrom (fun _ => .error []) (scanFrom n stdin).2.2 []).stdout

/-! ## Lemmas -/

/-- The scanner reads no piece after the one with the end of the line it is asked for. -/
theorem rounds_keeps : ∀ (n : Nat) (s : Scanner) (pre post : List Bytes), s.err = none → s.src.chunks = pre ++ post → nl ∈ s.held ++ pre.flatten →
    ∃ pre', (Scanner.rounds splitLines n s).2.src.chunks = pre' ++ post := by
  intro n
  induction n with
  | zero => intro s pre post _ hc _; exact ⟨pre, hc⟩
  | succ n ih =>
    intro s pre post he hc hn
    rw [rounds_succ]
    by_cases hnl : nl ∈ s.held
    · obtain ⟨l, rest, e, hl⟩ := split_at hnl
      have hne : s.held ≠ [] := by rw [e]; simp
      rw [attempt_open _ _ he hne, e, splitLines_line l rest hl]
      exact ⟨pre, hc⟩
    · rw [attempt_none _ _ he (fun _ => splitLines_more _ hnl)]
      simp only [he, ne_eq, not_true_eq_false, if_false]
      obtain ⟨a1, a2, a3, a4, -⟩ := shift_same s
      have hg := grow_src s
      have hgh : s.shift.grow.1.held = s.held := by
        unfold Scanner.grow
        split
        · split <;> exact a1
        · exact a1
      generalize hgr : s.shift.grow = g at hg hgh
      obtain ⟨s2, b⟩ := g
      cases b with
      | false => exact ⟨pre, by simp only; rw [show s2.src = s.src from hg]; exact hc⟩
      | true =>
        simp only at hg hgh ⊢
        rcases List.mem_append.1 hn with h | h
        · exact absurd h hnl
        · cases pre with
          | nil => simp at h
          | cons c cs =>
            have hc' : s2.src.chunks = c :: (cs ++ post) := by rw [hg, hc]; rfl
            have hfill : (s2.fill.err = none) ∧ ∃ pre', s2.fill.src.chunks = pre' ++ post ∧ s2.fill.held ++ pre'.flatten = s.held ++ (c :: cs).flatten := by
              unfold Scanner.fill Source.read
              rw [hc', hgh]
              simp only
              split
              · exact ⟨rfl, cs, rfl, by simp⟩
              · refine ⟨rfl, c.drop _ :: cs, rfl, ?_⟩
                rw [List.flatten_cons, List.flatten_cons, List.append_assoc, ← List.append_assoc (List.take _ c), List.take_append_drop]
            obtain ⟨h1, pre', h2, h3⟩ := hfill
            exact ih s2.fill pre' post h1 h2 (by rw [h3]; exact hn)

/-- The loop of `head`, with the pieces after the last line it looks at. -/
theorem loopFrom_keeps (n : Int) : ∀ (ls : List Bytes) (k : Nat) (s : Scanner) (j : Nat) (x : Bytes) (pre post : List Bytes), Fit ls → s.Sound →
    s.src.chunks = pre ++ post → s.held ++ pre.flatten = withNewlines ls ++ x → max n j < (ls.length : Int) + j → ls.length < k →
    ∃ s' pre', scanLoopFrom n k s j = (printed (ls.take (n - j).toNat), s') ∧ s'.Sound ∧ s'.src.err = s.src.err ∧ s'.src.chunks = pre' ++ post ∧
      s'.held ++ pre'.flatten = withNewlines (ls.drop ((n - j).toNat + 1)) ++ x := by
  intro ls
  induction ls with
  | nil => intro k s j x pre post _ _ _ _ h; simp at h; omega
  | cons l ls ih =>
    intro k s j x pre post hf hs hch hp hc hk
    obtain ⟨k, rfl⟩ : ∃ m, k = m + 1 := ⟨k - 1, by simp at hk; omega⟩
    rw [withNewlines_cons] at hp
    have hpend : s.pending = l ++ nl :: (withNewlines ls ++ x ++ post.flatten) := by
      rw [Scanner.pending, Source.bytes, hch, List.flatten_append, ← List.append_assoc, hp]; simp
    obtain ⟨e, a, b, d⟩ := (scan_lines s hs).line l _ hpend (hf l (by simp)).1 (hf l (by simp)).2
    obtain ⟨pre', hpre⟩ := rounds_keeps (s.src.bytes.length + 2) s pre post hs.open_ hch (by rw [hp]; simp)
    change (s.scan splitLines).2.src.chunks = pre' ++ post at hpre
    generalize hr : s.scan splitLines = r at e a b d hpre
    obtain ⟨t, s'⟩ := r
    simp only at e a b d hpre
    subst e
    have hrest : s'.held ++ pre'.flatten = withNewlines ls ++ x := by
      rw [Scanner.pending, Source.bytes, hpre, List.flatten_append, ← List.append_assoc] at b
      exact List.append_cancel_right b
    simp only [List.length_cons] at hc hk
    rw [scanLoopFrom, hr]
    simp only
    by_cases hj : (j : Int) < n
    · obtain ⟨s2, p2, e2, a2, d2, c2, f2⟩ := ih k s' (j + 1) x pre' post (fun x hx => hf x (by simp [hx])) a hpre hrest (by omega) (by omega)
      have : (n - (j : Int)).toNat = (n - ((j + 1 : Nat) : Int)).toNat + 1 := by omega
      refine ⟨s2, p2, ?_, a2, d2.trans d, c2, ?_⟩
      · rw [if_pos hj, e2, this, List.take_succ_cons, printed_cons]
      · rw [f2, this, List.drop_succ_cons]
    · have : (n - (j : Int)).toNat = 0 := by omega
      refine ⟨s', pre', ?_, a, d, hpre, ?_⟩
      · rw [if_neg hj, this]; rfl
      · rw [hrest, this]; rfl

/-- The loop of `head` on an input with too few lines. -/
theorem loopFrom_drains (n : Int) : ∀ (ls : List Bytes) (k : Nat) (s : Scanner) (j : Nat) (part : Bytes), Fit ls → s.Sound →
    s.pending = withNewlines ls ++ part → nl ∉ part → part.length < maxToken → (ls.length : Int) + j ≤ max n j → s.pending.length < k →
    (scanLoopFrom n k s j).2.src.chunks = [] := by
  intro ls
  induction ls with
  | nil =>
    intro k s j part _ hs hp hn hl _ hk
    obtain ⟨k, rfl⟩ : ∃ m, k = m + 1 := ⟨k - 1, by omega⟩
    have hp' : s.pending = part := by simpa [withNewlines] using hp
    have step := scan_lines s hs
    generalize hr : s.scan splitLines = r at step
    obtain ⟨t, s1⟩ := r
    rw [scanLoopFrom, hr]
    by_cases he : part = []
    · obtain ⟨a, b, c, d⟩ := step.done (by rw [hp', he])
      simp only at a c
      subst a
      exact c
    · obtain ⟨a, b, c, d⟩ := step.last (by rw [hp']; exact hn) (by rw [hp']; exact hl) (by rw [hp']; exact he)
      simp only at a b c d
      subst a
      simp only
      split
      · obtain ⟨k, rfl⟩ : ∃ m, k = m + 1 := ⟨k - 1, by
          have : part.length ≠ 0 := fun h => he (List.length_eq_zero_iff.1 h)
          rw [hp'] at hk; omega⟩
        rw [scanLoopFrom, scan_ended b d]
        exact c
      · exact c
  | cons l ls ih =>
    intro k s j part hf hs hp hn hl hc hk
    obtain ⟨k, rfl⟩ : ∃ m, k = m + 1 := ⟨k - 1, by omega⟩
    rw [withNewlines_cons] at hp
    obtain ⟨e, a, b, -⟩ := (scan_lines s hs).line l _ hp (hf l (by simp)).1 (hf l (by simp)).2
    generalize hr : s.scan splitLines = r at e a b
    obtain ⟨t, s'⟩ := r
    simp only at e a b
    subst e
    simp only [List.length_cons] at hc
    rw [scanLoopFrom, hr]
    simp only
    rw [if_pos (by omega)]
    refine ih k s' (j + 1) part (fun x hx => hf x (by simp [hx])) a b hn hl (by omega) ?_
    rw [b]; rw [hp] at hk; simp at hk ⊢; omega

theorem cat_rest (r : Source) (hl : r.Lively) (he : r.err = none) : (Cat.mainFrom (fun _ => .error []) r []).stdout = r.bytes := by
  rw [Cat.C113_cat _ (by intro f r h; cases h) r hl []]
  rw [Cat.whole, he, Cat.C46_no_operands .nil]

theorem lineByLine_lively (ls : List Bytes) (err : Option Bytes) : (lineByLine ls err).Lively := by
  intro c hc
  simp only [lineByLine, List.mem_map] at hc
  obtain ⟨a, -, rfl⟩ := hc
  simp

theorem lineByLine_bytes (ls : List Bytes) (err : Option Bytes) : (lineByLine ls err).bytes = withNewlines ls := rfl

/-! ## Theorems -/

/-- **C166** If more lines have arrived in some pieces of the input than `head` is to print, all the pieces after them are left
for the next reader; of those pieces themselves nothing is left but a part of what follows the first line that was not printed. -/
theorem C166_left (n : Int) (r : Source) (hl : r.Lively) (pre post ls : List Bytes) (x : Bytes) (hr : r.chunks = pre ++ post)
    (hf : Fit ls) (hp : pre.flatten = withNewlines ls ++ x) (hn : max n 0 < (ls.length : Int)) :
    ∃ pre', scanFrom n r = (printed (ls.take n.toNat), false, ⟨pre' ++ post, r.err⟩) ∧ (∀ c ∈ pre', c ≠ []) ∧
      pre'.flatten <:+ withNewlines (ls.drop (n.toNat + 1)) ++ x := by
  have h1 := withNewlines_length ls
  obtain ⟨s', pre', e, a, d, c, f⟩ := loopFrom_keeps n ls (r.bytes.length + 1) (newScanner r) 0 x pre post hf (new_sound hl) hr (by simpa [newScanner] using hp)
    (by simpa using hn) (by rw [Source.bytes, hr, List.flatten_append, hp]; simp; omega)
  refine ⟨pre', ?_, fun y hy => a.lively y (by rw [c]; simp [hy]), ?_⟩
  · rw [scanFrom, e]
    have : s'.src = ⟨pre' ++ post, r.err⟩ := by
      rw [← c, ← show s'.src.err = r.err from d]
    simp [failure_open a, this]
  · have : ((n - ((0 : Nat) : Int)).toNat + 1) = n.toNat + 1 := by simp
    rw [this] at f
    exact ⟨_, f⟩

/-- **C166** At a terminal: one line more is gone than was printed, and the others are left. -/
theorem C166_terminal_partial (n : Int) (ls : List Bytes) (err : Option Bytes) (hf : Fit ls) (hn : max n 0 < (ls.length : Int)) :
    scanFrom n (lineByLine ls err) = (printed (ls.take n.toNat), false, lineByLine (ls.drop (n.toNat + 1)) err) := by
  have hlen : (ls.take (n.toNat + 1)).length = n.toNat + 1 := by simp; omega
  obtain ⟨pre', e, h1, h2⟩ := C166_left n (lineByLine ls err) (lineByLine_lively ls err)
    ((ls.take (n.toNat + 1)).map (· ++ [nl])) ((ls.drop (n.toNat + 1)).map (· ++ [nl])) (ls.take (n.toNat + 1)) []
    (by simp only [lineByLine]; rw [← List.map_append, List.take_append_drop]) (fun l hl => hf l (List.mem_of_mem_take hl)) (by simp [withNewlines])
    (by rw [hlen]; omega)
  rw [List.drop_eq_nil_of_le (by omega)] at h2
  have hnil : pre' = [] := by
    cases pre' with
    | nil => rfl
    | cons c cs =>
      have h3 : (c :: cs).flatten = [] := List.suffix_nil.1 (by simpa only [withNewlines, List.map_nil, List.flatten_nil, List.append_nil] using h2)
      rw [List.flatten_cons] at h3
      exact absurd (List.append_eq_nil_iff.1 h3).1 (h1 c List.mem_cons_self)
  rw [e, hnil, List.take_take]
  simp [lineByLine, Nat.min_eq_left (Nat.le_succ _)]

/-- **C166** If no more complete lines come than `head` is to print, nothing is left. -/
theorem C166_nothing_left (n : Int) (r : Source) (hl : r.Lively) (ls : List Bytes) (part : Bytes) (hf : Fit ls) (hr : r.bytes = withNewlines ls ++ part)
    (hp : nl ∉ part) (hs : part.length < maxToken) (hn : (ls.length : Int) ≤ max n 0) : (scanFrom n r).2.2.chunks = [] := by
  exact loopFrom_drains n ls (r.bytes.length + 1) (newScanner r) 0 part hf (new_sound hl) hr hp hs (by simpa using hn) (by simp [newScanner, Scanner.pending])

/-- **C166** `head -n` and then `cat` at a terminal: all lines come out, except the one after those `head` has printed. (Carriage
returns at the ends of the lines that `head` prints are dropped.) -/
theorem C166_then_cat_partial (n : Int) (ls : List Bytes) (hf : Fit ls) (hn : max n 0 < (ls.length : Int)) :
    thenCat n (lineByLine ls) = printed (ls.take n.toNat) ++ withNewlines (ls.drop (n.toNat + 1)) := by
  rw [thenCat, C166_terminal_partial n ls none hf hn, cat_rest _ (lineByLine_lively _ _) rfl, lineByLine_bytes]

/-- **C166** Standard input named twice, at a terminal: the second operand begins one line later than the first one stopped. -/
theorem C166_twice_partial (files : Bytes → Option Source) (args : List Bytes) (s : Settings) (hs : parseSettings args = .ok s)
    (ho : s.filenames = [b!"-", b!"-"]) (ls : List Bytes) (hf : Fit ls) (hn : 2 * (max s.numLines 0 + 1) ≤ (ls.length : Int)) :
    mainFrom files (lineByLine ls) args = ⟨b!"==> - <==\n" ++ printed (ls.take s.numLines.toNat) ++ b!"\n==> - <==\n" ++
      printed ((ls.drop (s.numLines.toNat + 1)).take s.numLines.toNat), none⟩ := by
  have h1 := C166_terminal_partial s.numLines ls none hf (by omega)
  have h2 := C166_terminal_partial s.numLines (ls.drop (s.numLines.toNat + 1)) none (fun l hl => hf l (List.mem_of_mem_drop hl)) (by simp; omega)
  rw [mainFrom, hs]
  simp only [ho, processFrom, if_true, h1, h2]
  simp [banner]

/-- **C166** (the expectation fails) `head -n 1` and then `cat`: of three lines typed at a terminal the second is lost; of a file
everything is. -/
theorem C166_counterexample :
    thenCat 1 (lineByLine [b!"a", b!"b", b!"c"]) = b!"a\nc\n" ∧ thenCat 1 ⟨[b!"a\nb\nc\n"], none⟩ = b!"a\n" := by
  refine ⟨by decide +kernel, by decide +kernel⟩

/-- The hypotheses in a case: two lines printed of five, which arrive in three pieces. -/
example : scanFrom 2 ⟨[b!"a\nb", b!"\nc\nd", b!"\ne\n"], none⟩ = (b!"a\nb\n", false, ⟨[b!"\ne\n"], none⟩) ∧
    [b!"a\nb", b!"\nc\nd"].flatten = withNewlines [b!"a", b!"b", b!"c"] ++ b!"d" ∧ Fit [b!"a", b!"b", b!"c"] := by
  refine ⟨by decide +kernel, by decide +kernel, by unfold Fit; decide +kernel⟩

/-- `head -n 1 - -` at a terminal. -/
example : mainFrom (fun _ => none) (lineByLine [b!"a", b!"b", b!"c", b!"d"]) [b!"-n", b!"1", b!"-", b!"-"] =
    ⟨b!"==> - <==\na\n\n==> - <==\nc\n", none⟩ := by decide +kernel

end Head
