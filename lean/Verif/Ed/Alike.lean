import Verif.Ed.Blind

/-! # C179: a script sees of the lines only which of its expressions match them

Two files with the same number of lines, whose lines are matched by the same of the expressions the script searches for: the program does the same
with the lines of both, wherever the search takes it, and also crashes or hangs on both or on none. -/

namespace Ed
open Go

/-- Line for line the same of the expressions `es` match the lines of both files. -/
def SameHits (comp : Bytes → Option (Bytes → Bool)) (es : List Bytes) (ls ls' : List Bytes) : Prop :=
  ∀ e ∈ es, ∀ m, comp e = some m → ∀ (i : Nat) (l l' : Bytes), ls[i]? = some l → ls'[i]? = some l' → m l = m l'

/-- The knowledge which of the expressions `es` match which lines of a file. -/
def table (comp : Bytes → Option (Bytes → Bool)) (es ls : List Bytes) : Bytes → Option (Option (Nat ⊕ Bytes → Bool)) :=
  fun e => if e ∈ es then some ((comp e).map fun m x => m (lineFor ls x)) else none

theorem table_knows (comp : Bytes → Option (Bytes → Bool)) (es ls : List Bytes) : Knows comp (table comp es ls) := by
  intro e
  simp only [table]
  split
  · cases comp e with
    | none => exact ⟨fun _ => rfl, nofun⟩
    | some m => exact ⟨nofun, fun _ _ => ⟨m, rfl⟩⟩
  · exact ⟨nofun, nofun⟩

theorem table_matched {comp : Bytes → Option (Bytes → Bool)} {es ls ls' : List Bytes} (hlen : ls.length = ls'.length) (h : SameHits comp es ls ls')
    (typed : List Bytes) : Matched comp (table comp es ls) ls' typed := by
  intro e f hf m hm
  simp only [table] at hf
  split at hf
  · next he =>
    rw [hm] at hf
    simp only [Option.map_some, Option.some.injEq] at hf
    subst hf
    refine ⟨fun i l' hl' => ?_, fun l _ => rfl⟩
    have hi : i < ls.length := by
      have := (List.getElem?_eq_some_iff.1 hl').1
      omega
    have e1 : lineFor ls (.inl i) = ls[i] := by simp [lineFor, List.getElem?_eq_getElem hi]
    simp only [e1]
    exact h e he m hm i _ l' (List.getElem?_eq_getElem hi) hl'
  · cases hf

/-- **C179** What a script does to one file it does to every file whose lines are matched by the same of its expressions: what a trial with the
knowledge of the one file says comes true for the other, under every schedule. -/
theorem C179_alike (env : Env) (hsave : Saves env) (hmem : Memory env) (n : Nat) (bs : List Nat) (hfirm : firm (blankAt bs) (numbers n).lines)
    (es ls ls' : List Bytes) (hls : Fits n bs ls) (hls' : Fits n bs ls') (halike : SameHits env.compile es ls ls')
    (cs : List TCmd) (ht : ∀ c ∈ cs, c.WF ∧ c.Texts) (hp : ∀ l ∈ cs.flatMap TCmd.typed, PlainLine l)
    (d' : Trial (Nat ⊕ Bytes)) (os : List (Display (Nat ⊕ Bytes))) (x : Outlook)
    (htry : tryAll .inr (blankAt bs) (table env.compile es ls) (room env) cs (numbers n) = some (d', os, x))
    (hsz : (unlines ls').length + (unlines (cs.flatMap TCmd.text)).length < 2 ^ 61)
    (errText : Bytes → Bytes) (s0 : State) (name : Bytes) (hnm : NameOK name) (hnp : PlainLine (b!"e " ++ name)) (hfs : s0.fs name = some (unlines ls'))
    (quits : Bool) (st : Sys) (how : End)
    (hs : Steps env (initial errText s0 (mainInput (some name) (unlines (cs.flatMap TCmd.typed ++ lastLine quits)))) st)
    (he : st.cons.ended = some how) :
    x.ends quits how ∧ results st.out = ([] :: os.map (Display.read (lineFor ls'))).map (· ++ [nl]) ∧ errors st.out = [] ∧
    st.ed.fs name = some (d'.saved.elim (unlines ls') fun ms => unlines (ms.map (lineFor ls'))) :=
  C179_every_file env hsave hmem n bs hfirm (table env.compile es ls) (table_knows _ _ _) cs ht hp d' os x htry ls' hls'
    (table_matched (by rw [hls.len, hls'.len]) halike _) hsz errText s0 name hnm hnp hfs quits st how hs he

/-! ## A case -/

/-- `/b/`, `d`, `w` -/
def findScript : List TCmd := [⟨.one (.re b!"b") [], .null⟩, ⟨.none, .delete⟩, ⟨.none, .write⟩]

theorem find_trial : tryAll .inr (blankAt []) (table demoEnv.compile [b!"b"] [b!"a", b!"b", b!"c"]) (room demoEnv) findScript (numbers 3) =
    some (⟨[.inl 0, .inl 2], 2, some [.inl 0, .inl 2]⟩, [.lines [some (.inl 1)], .nothing, .nothing], .through) := by
  have hs : soughtMarkFor (table demoEnv.compile [b!"b"] [b!"a", b!"b", b!"c"]) (numbers 3).lines 3 (sansSlashes b!"b") = some (.line 2) := by
    decide +kernel
  have hr : (2 : Int) ≤ (room demoEnv 3 : Nat) := by rw [room, if_neg (by decide)]; omega
  have hn : numbers 3 = ⟨[.inl 0, .inl 1, .inl 2], 3, none⟩ := by simp [numbers, List.range_succ]
  rw [hn] at hs ⊢
  simp [tryAll, findScript, tryOut, TFate.with, RangeSyn.counted1, RangeSyn.counted2, AddrSyn.counted, firm, blankAt, hs, hr]

/-- Known from the file `a b c` for every file of three lines of which just the second has a `b`. -/
example (errText : Bytes → Bytes) (l1 l2 l3 : Bytes) (h1 : PlainLine l1) (h2 : PlainLine l2) (h3 : PlainLine l3) (n1 : l1 ≠ []) (n3 : l3 ≠ [])
    (b1 : l1.contains 98 = false) (b2 : l2.contains 98 = true) (b3 : l3.contains 98 = false)
    (s0 : State) (hfs : s0.fs b!"f" = some (unlines [l1, l2, l3])) (st : Sys) (how : End) (hs : Steps demoEnv (initial errText s0
      (mainInput (some b!"f") (unlines [b!"/b/", b!"d", b!"w", b!"q"]))) st) (he : st.cons.ended = some how) :
    how = .quit ∧ results st.out = [b!"\n", l2 ++ [nl], b!"\n", b!"\n"] ∧ st.ed.fs b!"f" = some (unlines [l1, l3]) := by
  have hsz : (unlines [l1, l2, l3]).length + (unlines []).length < 2 ^ 61 := by
    have e1 := h1.short
    have e2 := h2.short
    have e3 := h3.short
    simp only [maxToken] at e1 e2 e3
    simp [unlines]
    omega
  have n2 : l2 ≠ [] := by rintro rfl; simp at b2
  obtain ⟨g1, g2, -, g4⟩ := C179_alike demoEnv (fun _ => ⟨rfl, rfl, rfl⟩) demo_memory 3 [] (by decide) [b!"b"] [b!"a", b!"b", b!"c"] [l1, l2, l3]
    ⟨rfl, plain_of _ (by decide), (by
      intro i hi
      match i with
      | 0 | 1 | 2 => simp at hi
      | i + 3 => simp at hi)⟩
    ⟨rfl, (by intro l hl; simp only [List.mem_cons, List.not_mem_nil, or_false] at hl; rcases hl with rfl | rfl | rfl <;> assumption), (by
      intro i hi
      match i with
      | 0 => simp [n1] at hi
      | 1 => simp [n2] at hi
      | 2 => simp [n3] at hi
      | i + 3 => simp at hi)⟩
    (by
      intro e he m hm i l l' hl hl'
      simp only [List.mem_singleton] at he
      subst he
      have hm' : m = fun l => (b!"b").head?.any l.contains := (Option.some.inj hm).symm
      subst hm'
      match i with
      | 0 => simp at hl hl'; subst hl hl'; simpa using b1
      | 1 => simp at hl hl'; subst hl hl'; simpa using b2
      | 2 => simp at hl hl'; subst hl hl'; simpa using b3
      | i + 3 => simp at hl)
    findScript
    (by
      intro c hc
      simp only [findScript, List.mem_cons, List.not_mem_nil, or_false] at hc
      rcases hc with rfl | rfl | rfl
      · exact ⟨⟨⟨PatternOK.plain (by decide) (by decide), by intro c hc; cases hc⟩, trivial⟩, trivial⟩
      · exact ⟨⟨trivial, trivial⟩, trivial⟩
      · exact ⟨⟨trivial, trivial⟩, trivial⟩)
    (plain_of _ (by decide)) _ _ _ find_trial hsz errText s0 b!"f" ⟨by decide, by decide, by decide, by rintro c cs ⟨⟩; decide⟩
    (plain_ascii _ (by decide) (by decide) (by decide)) hfs true st how hs he
  refine ⟨g1, ?_, g4⟩
  rw [g2]
  simp [Display.read, lineFor, join, nl]

end Ed
