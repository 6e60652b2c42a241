import Verif.Tools.Together
import Verif.Cmp.Three
import Verif.Ed.TypedRun

/-!
# C161: the line `cmp` names, in `head` and in `ed`

The commands count lines in the same way: the line number in the message of `cmp` is the number of the first line that
`head` and `ed` show differently; `ed` prints the lines that `head` prints, and those that `cat` prints.
-/

namespace Tools
open Go

/-! ## Specification -/

/-- `ed f`, given these lines to read: whatever the order in which its goroutines run, when it has stopped it has
written these results after the one for opening the file, no error message, and has changed no file. -/
def EdSays (env : Ed.Env) (fs : FS) (f : Bytes) (typed : List Bytes) (out : List Bytes) : Prop :=
  ∀ (errText : Bytes → Bytes) (s0 : Ed.State) (st : Ed.Sys) (how : Ed.End), s0.fs = fs →
    Ed.Steps env (Ed.initial errText s0 (Ed.mainInput (some f) (unlines typed))) st → st.cons.ended = some how →
    how = .quit ∧ Ed.results st.out = [nl] :: out ∧ Ed.errors st.out = [] ∧ st.ed.fs = fs

/-- Files that `ed`, `head` and `cmp` can be asked about: a name that is not an option and is acceptable to `e`, lines that
the line scanner delivers as they are, the last one not blank. -/
structure Ready (fs : FS) (f : Bytes) (ls : List Bytes) : Prop where
  name : Name f
  edName : Ed.NameOK f
  edLine : PlainLine (b!"e " ++ f)
  reads : fs f = some (unlines ls)
  clean : Ed.Clean ls
  few : ls.length < 2 ^ 62

/-! ## Lemmas -/

theorem natToDec_atoi (n : Nat) (h : n < 2 ^ 63) : atoi (natToDec n) = ((n : Int), none) := by
  have := C72_atoi_itoa n (by omega) (by omega)
  simpa [itoa, show ¬ ((n : Int) < 0) by omega] using this

theorem decAux_short : ∀ (fuel n k : Nat) (acc : Bytes), n < 10 ^ (k + 1) → (decAux fuel n acc).length ≤ acc.length + (k + 1) := by
  intro fuel
  induction fuel with
  | zero => intro n k acc _; simp [decAux]
  | succ fuel ih =>
    intro n k acc h
    simp only [decAux]
    split
    · simp
    · rename_i h0
      cases k with
      | zero => simp at h; omega
      | succ k =>
        have : n / 10 < 10 ^ (k + 1) := by
          rw [Nat.pow_succ] at h
          omega
        have := ih (n / 10) k (UInt8.ofNat (48 + n % 10) :: acc) this
        rw [List.length_cons] at this
        omega

theorem natToDec_short (n : Nat) (h : n < 2 ^ 63) : (natToDec n).length ≤ 19 := by
  have := decAux_short (n + 1) n 18 [] (Nat.lt_trans h (by decide))
  simpa [natToDec] using this

theorem head_first {fs : FS} {f : Bytes} {ls : List Bytes} (r : Ready fs f ls) (stdin : Bytes) (n : Nat) (hn : n < 2 ^ 63) :
    Head.main (headWorld fs stdin) [b!"-n", natToDec n, f] = { stdout := unlines (ls.take n), panic := none } := by
  have := head_prints (n := (n : Int)) stdin (.inr ⟨r.name, r.reads⟩) (natToDec_atoi n hn) rfl r.clean.plain
  simpa using this

theorem digits_plain (n : Nat) : ∀ c ∈ natToDec n, c ≠ nl ∧ c ≠ cr := by
  intro c hc
  have := (natToDec_spec n).2.1 c hc
  constructor <;> (rintro rfl; exact absurd this (by decide))

theorem ed_one {env : Ed.Env} (hsave : Ed.Saves env) {fs : FS} {f : Bytes} {ls : List Bytes} (r : Ready fs f ls) {c : Ed.TCmd} {line o : Bytes}
    (hw : c.WF) (ht : c.typed = [line]) (hl : PlainLine line)
    (hd : Ed.Does env.compile env.openErr c ⟨ls, ls.length, f, fs⟩ ⟨ls, ls.length, f, fs⟩ o) : EdSays env fs f [line, b!"q"] [o ++ [nl]] := by
  rintro errText s0 st how rfl hs he
  have hses : Ed.Session env.compile env.openErr [c] ⟨ls, ls.length, f, s0.fs⟩ ⟨ls, ls.length, f, s0.fs⟩ [o] := .cons hd r.clean r.few .nil
  have := Ed.C84_session env hsave errText s0 f r.edName r.edLine ls r.reads r.clean r.few [c] (by simpa using hw) (by simpa [ht] using hl) true
    _ _ hses st how (by simpa [ht, Ed.lastLine] using hs) he
  simpa using this

theorem ed_line {env : Ed.Env} (hsave : Ed.Saves env) {fs : FS} {f : Bytes} {ls : List Bytes} (r : Ready fs f ls) {k : Nat} {x : Bytes}
    (h : ls[k]? = some x) : EdSays env fs f [natToDec (k + 1) ++ b!"p", b!"q"] [x ++ [nl]] := by
  have hk : k < ls.length := (List.getElem?_eq_some_iff.1 h).1
  have hf := r.few
  have hsp := natToDec_spec (k + 1)
  refine ed_one hsave r (c := ⟨.one (.lit (natToDec (k + 1))) [], .print⟩) ⟨⟨⟨hsp.1, hsp.2.1⟩, by simp [Ed.Blanks]⟩, trivial⟩ (by simp [Ed.TCmd.typed, Ed.RangeSyn.bytes, Ed.AddrSyn.bytes]) ?_ ?_
  · refine Ed.plain_ascii _ ?_ (by simp; decide) ?_
    · simp only [List.mem_append, not_or]
      exact ⟨fun h => (digits_plain _ _ h).1 rfl, by decide⟩
    · have := natToDec_short (k + 1) (by omega)
      simp; omega
  · have e : x = join [nl] (Ed.linesFrom ls (k + 1) (k + 1)) := by
      have : Ed.linesFrom ls (k + 1) (k + 1) = [x] := by
        simp only [Ed.linesFrom]
        rw [show k + 1 - 1 = k by omega, List.take_add_one, h]
        have : min k ls.length = k := by clear hsp; omega
        simp [this]
      rw [this]; simp [join]
    rw [e]
    exact .print (a := k + 1) (b := k + 1) (by simp [Ed.RangeSyn.first, Ed.AddrSyn.line, hsp.2.2.1]) (by simp [Ed.RangeSyn.last, Ed.AddrSyn.line, hsp.2.2.1])
      (by omega) (by omega) (by simpa using hk)

theorem unlines_inj {xs ys : List Bytes} (hx : ∀ l ∈ xs, nl ∉ l) (hy : ∀ l ∈ ys, nl ∉ l) (h : unlines xs = unlines ys) : xs = ys := by
  rw [← rawLines_unlines xs hx, ← rawLines_unlines ys hy, h]

/-- The line in which the first different byte stands is the first different line. -/
theorem lines_differ : ∀ (ls ls' : List Bytes), (∀ l ∈ ls, nl ∉ l) → (∀ l ∈ ls', nl ∉ l) → ∀ (pre : Bytes) (x y : UInt8) (s t : Bytes), x ≠ y →
    unlines ls = pre ++ x :: s → unlines ls' = pre ++ y :: t →
    ∃ p q, ls.take (pre.count nl) = ls'.take (pre.count nl) ∧ ls[pre.count nl]? = some p ∧ ls'[pre.count nl]? = some q ∧ p ≠ q := by
  intro ls
  induction ls with
  | nil => intro ls' _ _ pre x y s t _ h; simp [unlines] at h
  | cons l ls ih =>
    intro ls' h1 h2 pre x y s t hxy e1 e2
    cases ls' with
    | nil => simp [unlines] at e2
    | cons l' ls' =>
      have u1 : unlines (l :: ls) = l ++ nl :: unlines ls := by simp [unlines]
      have u2 : unlines (l' :: ls') = l' ++ nl :: unlines ls' := by simp [unlines]
      rw [u1] at e1
      rw [u2] at e2
      by_cases hm : nl ∈ pre
      · obtain ⟨p, q, rfl, hp⟩ := List.eq_append_cons_of_mem hm
        rw [List.append_assoc, List.cons_append] at e1 e2
        obtain ⟨rfl, e1'⟩ := cut_at (h1 l (by simp)) hp e1
        obtain ⟨rfl, e2'⟩ := cut_at (h2 l' (by simp)) hp e2
        obtain ⟨a, b, k1, k2, k3, k4⟩ := ih ls' (fun m hm => h1 m (by simp [hm])) (fun m hm => h2 m (by simp [hm])) q x y s t hxy e1' e2'
        have hc : (l' ++ nl :: q).count nl = q.count nl + 1 := by
          rw [List.count_append, List.count_eq_zero.2 hp]
          simp
        rw [hc]
        exact ⟨a, b, by simp [k1], by simpa using k2, by simpa using k3, k4⟩
      · refine ⟨l, l', ?_⟩
        rw [List.count_eq_zero.2 hm]
        refine ⟨by simp, by simp, by simp, ?_⟩
        rintro rfl
        have h : pre.length < l.length + 1 := by
          by_cases hlt : pre.length < l.length + 1
          · exact hlt
          · exfalso
            have : (l ++ nl :: unlines ls)[l.length]? = some nl := by simp
            rw [e1, List.getElem?_append_left (by omega)] at this
            exact hm (List.mem_of_getElem? this)
        have a1 : (l ++ nl :: unlines ls)[pre.length]? = some x := by rw [e1]; simp
        have a2 : (l ++ nl :: unlines ls')[pre.length]? = some y := by rw [e2]; simp
        by_cases hlt : pre.length < l.length
        · rw [List.getElem?_append_left hlt] at a1 a2
          rw [a1] at a2
          exact hxy (by simpa using a2)
        · have : pre.length = l.length := by omega
          rw [this] at a1 a2
          simp at a1 a2
          exact hxy (a1.symm.trans a2)

theorem cmp_lines {fs : FS} {f g : Bytes} {ls ls' : List Bytes} (r : Ready fs f ls) (r' : Ready fs g ls') (stdin : Bytes) {i l : Nat}
    (h : (Cmp.main (cmpWorld fs stdin) [f, g]).stdout = Cmp.said f g i l) :
    ∃ k p q, l = k + 1 ∧ ls.take k = ls'.take k ∧ ls[k]? = some p ∧ ls'[k]? = some q ∧ p ≠ q := by
  obtain ⟨pre, x, y, s, t, hxy, h1, h2, _, hl⟩ := (Cmp.said_iff (cmp_invocation r.name.operand r'.name) _ _ _ (cmp_reads stdin r.name r.reads)
    (cmp_reads stdin r'.name r'.reads) (fun h => r.name.ne _ h.1) i l).1 h
  obtain ⟨p, q, h3, h4, h5, h6⟩ := lines_differ ls ls' (fun l hl => (r.clean.plain l hl).noNL) (fun l hl => (r'.clean.plain l hl).noNL) pre x y s t hxy h1 h2
  exact ⟨_, p, q, hl, h3, h4, h5, h6⟩

/-! ## The theorems -/

/-- **C161** If `cmp f g` says that the files differ in line `l`, then `head -n` prints the same for both for every number
of lines below `l`, and different things for `l` lines. -/
theorem C161_cmp_head {fs : FS} {f g : Bytes} {ls ls' : List Bytes} (r : Ready fs f ls) (r' : Ready fs g ls') (stdin : Bytes) {i l : Nat}
    (h : (Cmp.main (cmpWorld fs stdin) [f, g]).stdout = Cmp.said f g i l) :
    (∀ n < l, Head.main (headWorld fs stdin) [b!"-n", natToDec n, f] = Head.main (headWorld fs stdin) [b!"-n", natToDec n, g]) ∧
    (Head.main (headWorld fs stdin) [b!"-n", natToDec l, f]).stdout ≠ (Head.main (headWorld fs stdin) [b!"-n", natToDec l, g]).stdout := by
  obtain ⟨k, p, q, rfl, h1, h2, h3, h4⟩ := cmp_lines r r' stdin h
  have hk : k < ls.length := (List.getElem?_eq_some_iff.1 h2).1
  have hf := r.few
  constructor
  · intro n hn
    rw [head_first r stdin n (by omega), head_first r' stdin n (by omega)]
    have : ls.take n = ls'.take n := by
      have e := congrArg (List.take n) h1
      rwa [List.take_take, List.take_take, Nat.min_eq_left (by omega)] at e
    rw [this]
  · rw [head_first r stdin _ (by omega), head_first r' stdin _ (by omega)]
    intro e
    have := unlines_inj (fun m hm => (r.clean.plain m (List.mem_of_mem_take hm)).noNL) (fun m hm => (r'.clean.plain m (List.mem_of_mem_take hm)).noNL) e
    have := congrArg (fun z => z[k]?) this
    simp [List.getElem?_take, h2, h3] at this
    exact h4 this

/-- **C161** … and `ed` shows the same lines for the numbers below `l`, and different lines for `l`. -/
theorem C161_cmp_ed {env : Ed.Env} (hsave : Ed.Saves env) {fs : FS} {f g : Bytes} {ls ls' : List Bytes} (r : Ready fs f ls) (r' : Ready fs g ls')
    (stdin : Bytes) {i l : Nat} (h : (Cmp.main (cmpWorld fs stdin) [f, g]).stdout = Cmp.said f g i l) :
    (∀ n, 1 ≤ n → n < l → ∃ p, EdSays env fs f [natToDec n ++ b!"p", b!"q"] [p] ∧ EdSays env fs g [natToDec n ++ b!"p", b!"q"] [p]) ∧
    ∃ p q, p ≠ q ∧ EdSays env fs f [natToDec l ++ b!"p", b!"q"] [p] ∧ EdSays env fs g [natToDec l ++ b!"p", b!"q"] [q] := by
  obtain ⟨k, p, q, rfl, h1, h2, h3, h4⟩ := cmp_lines r r' stdin h
  have hk : k < ls.length := (List.getElem?_eq_some_iff.1 h2).1
  constructor
  · intro n h1n hn
    obtain ⟨m, rfl⟩ : ∃ m, n = m + 1 := ⟨n - 1, by omega⟩
    have hm : ls[m]? = some (ls[m]'(by omega)) := List.getElem?_eq_getElem _
    have e : ls'[m]? = ls[m]? := by
      have := congrArg (fun z => z[m]?) h1
      simpa [List.getElem?_take, show m < k by omega] using this.symm
    exact ⟨_, ed_line hsave r hm, ed_line hsave r' (e.trans hm)⟩
  · exact ⟨_, _, fun e => h4 (List.append_cancel_right e), ed_line hsave r h2, ed_line hsave r' h3⟩

/-- **C161** `1,np` in `ed` prints what `head -n n` prints, for every number of lines the file has. -/
theorem C161_head_ed {env : Ed.Env} (hsave : Ed.Saves env) {fs : FS} {f : Bytes} {ls : List Bytes} (r : Ready fs f ls) (stdin : Bytes) (n : Nat)
    (h1 : 1 ≤ n) (h2 : n ≤ ls.length) :
    EdSays env fs f [b!"1," ++ natToDec n ++ b!"p", b!"q"] [(Head.main (headWorld fs stdin) [b!"-n", natToDec n, f]).stdout] := by
  have hf := r.few
  have hsp := natToDec_spec n
  rw [head_first r stdin n (by omega)]
  obtain ⟨x, xs, e⟩ : ∃ x xs, ls.take n = x :: xs := by
    cases h : ls.take n with
    | nil =>
      have := congrArg List.length h
      rw [List.length_take] at this
      clear hsp
      simp only [List.length_nil] at this
      omega
    | cons x xs => exact ⟨x, xs, rfl⟩
  have e2 : unlines (ls.take n) = join [nl] (Ed.linesFrom ls 1 n) ++ [nl] := by
    simp only [Ed.linesFrom, Nat.sub_self, List.drop_zero]
    rw [e, join_nl]
  simp only
  rw [e2]
  refine ed_one hsave r (c := ⟨.both false (.lit b!"1") [] [] (.lit (natToDec n)) [], .print⟩)
    ⟨⟨⟨by decide, by decide⟩, ⟨hsp.1, hsp.2.1⟩, by simp [Ed.Blanks], by simp [Ed.Blanks], by simp [Ed.Blanks]⟩, trivial⟩
    (by simp [Ed.TCmd.typed, Ed.RangeSyn.bytes, Ed.AddrSyn.bytes, Ed.sepByte]) ?_ ?_
  · refine Ed.plain_ascii _ ?_ (by rw [List.getLast?_append]; simp; decide) ?_
    · simp only [List.mem_append, not_or]
      exact ⟨⟨by decide, fun h => (digits_plain _ _ h).1 rfl⟩, by decide⟩
    · have := natToDec_short n (by omega)
      simp; omega
  · exact .print (a := 1) (b := n) (by rfl) (by simp [Ed.RangeSyn.last, Ed.AddrSyn.line, hsp.2.2.1]) (by omega) h1 h2

/-- **C161** `,p` in `ed` prints what `cat` prints, unless the file is empty. -/
theorem C161_cat_ed {env : Ed.Env} (hsave : Ed.Saves env) {fs : FS} {f : Bytes} {ls : List Bytes} (r : Ready fs f ls) (openErr : Bytes → Bytes)
    (stdin : Bytes) (hne : ls ≠ []) :
    EdSays env fs f [b!",p", b!"q"] [(Cat.main (catFiles fs openErr) { data := stdin } [f]).stdout] := by
  rw [cat_prints openErr stdin (names := [f]) (cs := [unlines ls]) (by simp) (by simpa using r.name) (by simp [r.reads])]
  have e2 : [unlines ls].flatten = join [nl] (Ed.linesFrom ls 1 ls.length) ++ [nl] := by
    cases ls with
    | nil => exact absurd rfl hne
    | cons x xs => simp only [Ed.linesFrom, Nat.sub_self, List.drop_zero, List.take_length, join_nl]; simp
  simp only
  rw [e2]
  have := List.length_pos_iff.2 hne
  exact ed_one hsave r (c := ⟨.all false, .print⟩) ⟨trivial, trivial⟩ rfl (Ed.plain_ascii _ (by decide) (by decide) (by decide))
    (.print (a := 1) (b := ls.length) rfl rfl (by omega) (by omega) (Nat.le_refl _))

/-! A case: two files that differ in their third line. -/

def demoLines1 : List Bytes := [b!"one", b!"", b!"three", b!"x"]
def demoLines2 : List Bytes := [b!"one", b!"", b!"trees", b!"x"]

/-- Two files. -/
def demoPair : FS := fun n => if n = b!"f" then some (unlines demoLines1) else if n = b!"g" then some (unlines demoLines2) else none

theorem demo_ready1 : Ready demoPair b!"f" demoLines1 :=
  ⟨by decide, ⟨by decide, by decide, by decide, by rintro c cs ⟨⟩; decide⟩, Ed.plain_ascii _ (by decide) (by decide) (by decide), rfl,
    Ed.clean_of _ (by decide) (by decide), by decide⟩

theorem demo_ready2 : Ready demoPair b!"g" demoLines2 :=
  ⟨by decide, ⟨by decide, by decide, by decide, by rintro c cs ⟨⟩; decide⟩, Ed.plain_ascii _ (by decide) (by decide) (by decide), rfl,
    Ed.clean_of _ (by decide) (by decide), by decide⟩

theorem demo_says : (Cmp.main (cmpWorld demoPair []) [b!"f", b!"g"]).stdout = Cmp.said b!"f" b!"g" 7 3 :=
  (Cmp.said_iff (cmp_invocation demo_ready1.name.operand demo_ready2.name) _ _ _ (cmp_reads [] demo_ready1.name demo_ready1.reads)
    (cmp_reads [] demo_ready2.name demo_ready2.reads) (by decide) 7 3).2 ⟨b!"one\n\nt", 104, 114, b!"ree\nx\n", b!"ees\nx\n", by decide⟩

example := C161_cmp_head demo_ready1 demo_ready2 [] demo_says
example := C161_cmp_ed (env := Ed.demoEnv) (fun _ => ⟨rfl, rfl, rfl⟩) demo_ready1 demo_ready2 [] demo_says
example : EdSays Ed.demoEnv demoPair b!"f" [b!"1,3p", b!"q"] [b!"one\n\nthree\n"] := by
  have := C161_head_ed (env := Ed.demoEnv) (fun _ => ⟨rfl, rfl, rfl⟩) demo_ready1 [] 3 (by decide) (by decide)
  rw [head_first demo_ready1 [] 3 (by decide)] at this
  exact this
example := C161_cat_ed (env := Ed.demoEnv) (fun _ => ⟨rfl, rfl, rfl⟩) demo_ready1 (fun _ => []) [] (by decide)

/-- **C161** `=` in `ed` prints the number of newlines in the file. -/
theorem C161_count {env : Ed.Env} (hsave : Ed.Saves env) {fs : FS} {f c : Bytes} {ls : List Bytes} (r : Ready fs f ls) (hc : fs f = some c) :
    EdSays env fs f [b!"=", b!"q"] [natToDec (c.count nl) ++ [nl]] := by
  have hcnt : ∀ ls : List Bytes, (∀ l ∈ ls, nl ∉ l) → (unlines ls).count nl = ls.length := by
    intro ls
    induction ls with
    | nil => intro _; simp [unlines]
    | cons l ls ih =>
      intro h
      have u1 : unlines (l :: ls) = l ++ nl :: unlines ls := by simp [unlines]
      rw [u1, List.count_append, List.count_eq_zero.2 (h l (by simp)), List.count_cons_self, ih fun m hm => h m (by simp [hm])]
      simp
  have : c = unlines ls := by have := r.reads; rw [hc] at this; simpa using this
  rw [this, hcnt ls fun l hl => (r.clean.plain l hl).noNL]
  have e : natToDec ls.length = itoa (ls.length : Nat) := by simp [itoa, show ¬ ((ls.length : Int) < 0) by omega]
  rw [e]
  have hf := r.few
  exact ed_one hsave r (c := ⟨.none, .equals⟩) ⟨trivial, trivial, trivial⟩ rfl (Ed.plain_ascii _ (by decide) (by decide) (by decide))
    (.equals (a := ls.length) rfl (by omega))

example : EdSays Ed.demoEnv demoPair b!"g" [b!"=", b!"q"] [b!"4\n"] :=
  C161_count (env := Ed.demoEnv) (fun _ => ⟨rfl, rfl, rfl⟩) demo_ready2 rfl

end Tools
