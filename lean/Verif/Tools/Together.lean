import Verif.Cat.Props
import Verif.Cksum.Props
import Verif.Cmp.Props
import Verif.Diff.CmdProps
import Verif.Head.Props
import Verif.Go.StrconvProps

/-!
# Commands used together (C125)

What one command says about files, and what another one says; the output of one command as the input of another. The
commands are the models of their own files; here they look at the same files.
-/

namespace Tools
open Go

/-! ## The same files for all commands -/

/-- The operating system as `cmp` sees it, when all files can be read. -/
def cmpWorld (fs : FS) (stdin : Bytes) : Cmp.World :=
  { file := fun n => (fs n).map fun d => { data := d }, stdin := { data := stdin }, shared := ({ data := stdin }, { data := [] }) }

/-- … as `head` sees it. -/
def headWorld (fs : FS) (stdin : Bytes) : Head.World :=
  { file := fun n => (fs n).map fun d => { data := d }, stdinAt := fun _ => { data := stdin } }

/-- … as `cat` sees it; `openErr` is what `os.Open` says. -/
def catFiles (fs : FS) (openErr : Bytes → Bytes) (n : Bytes) : Except Bytes Cat.Stream :=
  match fs n with
  | some d => .ok { data := d }
  | none => .error (openErr n)

/-- … as `cksum` sees it. -/
def cksumErrors (openErr : Bytes → Bytes) : Cksum.Errors := { openErr := openErr, readErr := fun _ => none }

/-- A name that no command takes for an option or for standard input. -/
def Name (f : Bytes) : Prop := f ≠ [] ∧ f.head? ≠ some 45

instance (f : Bytes) : Decidable (Name f) := inferInstanceAs (Decidable (_ ∧ _))

/-! ## Lemmas -/

theorem Name.ne {f : Bytes} (h : Name f) (x : Bytes) : f ≠ 45 :: x := by
  rintro rfl
  exact h.2 rfl

theorem cmp_invocation {f g : Bytes} (hf : f ≠ [] ∧ f ≠ b!"-l" ∧ f ≠ b!"-s") (hg : Name g) : Cmp.Invocation false false [f, g] [f, g] :=
  .file f hf.2.1 hf.2.2 hf.1 (.file g (hg.ne _) (hg.ne _) hg.1 .nil)

theorem Name.operand {f : Bytes} (h : Name f) : f ≠ [] ∧ f ≠ b!"-l" ∧ f ≠ b!"-s" := ⟨h.1, h.ne _, h.ne _⟩

theorem cmp_reads {fs : FS} {f c : Bytes} (stdin : Bytes) (hf : Name f) (h : fs f = some c) : Cmp.Reads (cmpWorld fs stdin) f c :=
  .inr ⟨hf.ne _, by simp [cmpWorld, h]⟩

theorem cmp_exit {fs : FS} {f g c d : Bytes} (stdin : Bytes) (hf : Name f) (hg : Name g) (hc : fs f = some c) (hd : fs g = some d) :
    (Cmp.main (cmpWorld fs stdin) [f, g]).exit = if c = d then 0 else 1 :=
  Cmp.C40_status (cmp_invocation hf.operand hg) _ c d (cmp_reads stdin hf hc) (cmp_reads stdin hg hd) (fun h => hf.ne _ h.1)

theorem cmp_stdin_exit {fs : FS} {g d : Bytes} (stdin : Bytes) (hg : Name g) (hd : fs g = some d) :
    (Cmp.main (cmpWorld fs stdin) [b!"-", g]).exit = if stdin = d then 0 else 1 :=
  Cmp.C40_status (cmp_invocation (by decide) hg) _ stdin d (.inl ⟨rfl, rfl⟩) (cmp_reads stdin hg hd) (fun h => hg.ne _ h.2)

theorem cksum_one {fs : FS} {f c : Bytes} (openErr : Bytes → Bytes) (stdin : Bytes) (hf : Name f) (hc : fs f = some c) :
    Cksum.main fs (cksumErrors openErr) stdin [f] = { stdout := Cksum.line c f, stderr := [], exit := 0 } := by
  have : f ≠ b!"-" := hf.ne _
  simp [Cksum.main, Cksum.runAll, if_neg this, hc, cksumErrors]

theorem diff_parses {f g : Bytes} (hf : Name f) (hg : Name g) : Diff.Parses [f, g] [f, g] := by
  have k : ∀ x, Name x → x ∉ Diff.plainFlags := by
    intro x hx h
    simp only [Diff.plainFlags, List.mem_cons, List.not_mem_nil, or_false] at h
    rcases h with rfl | rfl | rfl | rfl | rfl | rfl <;> exact hx.ne _ rfl
  exact .operand (k f hf) (hf.ne _) (hf.ne _) (.operand (k g hg) (hg.ne _) (hg.ne _) .done)

theorem diff_two {fs : FS} {f g c d : Bytes} (p : Nat → Bool) (hf : Name f) (hg : Name g) (hc : fs f = some c) (hd : fs g = some d) :
    Diff.main p fs [f, g] = { stdout := Diff.format (Diff.diff (scanLines c).1 (scanLines d).1) ++ [nl], stderr := [], exit := 0 } := by
  obtain ⟨s, h1, h2, h3⟩ := (Diff.C17_accepts_iff [f, g] (by intro a ha; simp at ha; rcases ha with rfl | rfl; exacts [hf.1, hg.1]) f g).2 (diff_parses hf hg)
  simp [Diff.main, h1, h2, h3, Diff.readLines, hc, hd]

theorem cat_reads {fs : FS} (openErr : Bytes → Bytes) (inp : Bytes) : ∀ {names cs : List Bytes}, (∀ n ∈ names, Name n) → names.map fs = cs.map some →
    Cat.ReadsAll (catFiles fs openErr) inp inp names cs := by
  intro names
  induction names with
  | nil =>
    intro cs _ h
    cases cs with
    | nil => exact .nil inp
    | cons c cs => simp at h
  | cons n names ih =>
    intro cs hn h
    cases cs with
    | nil => simp at h
    | cons c cs =>
      simp only [List.map_cons, List.cons.injEq] at h
      exact .cons (.file inp ((hn n (by simp)).ne _) (by simp [catFiles, h.1])) (ih (fun m hm => hn m (by simp [hm])) h.2)

theorem cat_names {names : List Bytes} (h : ∀ n ∈ names, Name n) : Cat.Unbuffered names names := by
  induction names with
  | nil => exact .nil
  | cons n names ih => exact .op n ((h n (by simp)).ne _) (ih fun m hm => h m (by simp [hm]))

theorem cat_prints {fs : FS} (openErr : Bytes → Bytes) (inp : Bytes) {names cs : List Bytes} (hne : names ≠ []) (hn : ∀ n ∈ names, Name n)
    (h : names.map fs = cs.map some) : Cat.main (catFiles fs openErr) { data := inp } names = { stdout := cs.flatten, stderr := [], exit := 0 } :=
  Cat.C46_concatenates (cat_names hn) hne (cat_reads openErr inp hn h)

theorem head_prints {fs : FS} {f c v : Bytes} {n : Int} {ls : List Bytes} (stdin : Bytes) (hf : f = b!"-" ∧ stdin = c ∨ Name f ∧ fs f = some c)
    (hv : atoi v = (n, none)) (hc : c = unlines ls) (hp : ∀ l ∈ ls, PlainLine l) :
    Head.main (headWorld fs stdin) [b!"-n", v, f] = { stdout := unlines (ls.take n.toNat), panic := none } := by
  have hi : Head.Invocation 10 n [f] [b!"-n", v, f] := by
    refine .count v n hv (.file f ?_ (.nil n))
    rcases hf with hf | hf
    · rw [hf.1]; decide
    · exact hf.1.ne _
  have hmap : ∀ ls : List Bytes, (∀ l ∈ ls, PlainLine l) → ls.map dropCR = ls := by
    intro ls h
    induction ls with
    | nil => rfl
    | cons l ls ih => simp [dropCR_plain (h l (by simp)).noCR, ih fun l hl => h l (by simp [hl])]
  rw [Head.C44_first_lines hi (by simp) _ [(f, ls)] (by simp [Head.operands])]
  · simp only [Head.expected, Head.firstLines]
    rw [hmap _ fun l hl => hp l (List.mem_of_mem_take hl)]
  · refine ⟨⟨{ data := c }, ?_, ⟨fun l hl => (hp l hl).noNL, .inl hc⟩, ?_⟩, trivial⟩
    · rw [Head.gives_iff]
      rcases hf with ⟨rfl, rfl⟩ | hf
      · simp [Head.openAt, headWorld]
      · simp [Head.openAt, headWorld, show f ≠ [45] from hf.1.ne _, hf.2]
    · rintro (⟨l, hl, h⟩ | h)
      · have := (hp l (List.mem_of_mem_take hl)).short; omega
      · simp [Head.Broken] at h

theorem cut_at {c : UInt8} {a b x y : Bytes} (ha : c ∉ a) (hb : c ∉ b) (h : a ++ c :: x = b ++ c :: y) : a = b ∧ x = y := by
  induction a generalizing b with
  | nil =>
    cases b with
    | nil => simpa using h
    | cons d b => simp at h; exact absurd (by simp [h.1]) hb
  | cons d a ih =>
    cases b with
    | nil => simp at h; exact absurd (by simp [h.1]) ha
    | cons e b =>
      simp only [List.cons_append, List.cons.injEq] at h
      obtain ⟨h1, h2⟩ := ih (by simp_all) (by simp_all) h.2
      exact ⟨by rw [h.1, h1], h2⟩

theorem natToDec_no {c : UInt8} (hc : c.toNat < 48) (n : Nat) : c ∉ natToDec n := by
  intro h
  have := (isDigit_iff c).1 ((natToDec_spec n).2.1 c h)
  omega

theorem natToOct_no {c : UInt8} (hc : c.toNat < 48) (b : UInt8) : c ∉ natToOct b.toNat := by
  intro h
  have := List.all_eq_true.1 (Cmp.octal_ok b).2.1 c h
  simp only [Bool.and_eq_true, decide_eq_true_eq, UInt8.le_iff_toNat_le] at this
  have h48 : (48 : UInt8).toNat = 48 := rfl
  omega

/-- The listing of `cmp -l` can be read back. -/
theorem listing_inj : ∀ {ds ds' : List (Nat × UInt8 × UInt8)}, Cmp.listing ds = Cmp.listing ds' → ds = ds' := by
  intro ds
  induction ds with
  | nil =>
    intro ds' h
    cases ds' with
    | nil => rfl
    | cons d ds' => simp [Cmp.listing] at h
  | cons d ds ih =>
    intro ds' h
    cases ds' with
    | nil => simp [Cmp.listing] at h
    | cons e ds' =>
      obtain ⟨n, x, y⟩ := d
      obtain ⟨m, u, v⟩ := e
      simp only [Cmp.listing, List.map_cons, List.flatten_cons, List.append_assoc, List.cons_append, List.nil_append] at h
      obtain ⟨h1, h⟩ := cut_at (natToDec_no (by decide) n) (natToDec_no (by decide) m) h
      obtain ⟨h2, h⟩ := cut_at (natToOct_no (by decide) x) (natToOct_no (by decide) u) h
      obtain ⟨h3, h⟩ := cut_at (natToOct_no (by decide) y) (natToOct_no (by decide) v) h
      have k : ∀ x u : UInt8, natToOct x.toNat = natToOct u.toNat → x = u := by
        intro x u e
        have := congrArg Cmp.octalValue e
        rw [(Cmp.octal_ok x).1, (Cmp.octal_ok u).1] at this
        exact UInt8.toNat_inj.1 this
      rw [natToDec_injective h1, k x u h2, k y v h3, ih (by simpa [Cmp.listing] using h)]

/-- Files of the same length which differ near a place only have the same bytes before and after it. -/
theorem near {c d : Bytes} (hl : c.length = d.length) (at_ : Nat) (h : ∀ k : Nat, c[k]? ≠ d[k]? → at_ ≤ k ∧ k < at_ + 4) :
    c.take at_ = d.take at_ ∧ c.drop (at_ + 4) = d.drop (at_ + 4) := by
  constructor <;> apply List.ext_getElem?
  · intro k
    simp only [List.getElem?_take]
    by_cases hk : k < at_
    · simp only [hk, if_true]
      by_cases e : c[k]? = d[k]?
      · exact e
      · have := h k e; omega
    · simp [hk]
  · intro k
    simp only [List.getElem?_drop]
    by_cases e : c[at_ + 4 + k]? = d[at_ + 4 + k]?
    · exact e
    · have := h _ e; omega

/-! ## What the commands say about two files -/

/-- **C125** If `cmp` finds no difference, `cksum` prints the same sum and size for both files and `diff` prints no difference. -/
theorem C125_identical {fs : FS} {f g c d : Bytes} (openErr : Bytes → Bytes) (p : Nat → Bool) (stdin : Bytes) (hf : Name f) (hg : Name g)
    (hc : fs f = some c) (hd : fs g = some d) (h : (Cmp.main (cmpWorld fs stdin) [f, g]).exit = 0) :
    (∃ sum, Cksum.main fs (cksumErrors openErr) stdin [f] = { stdout := sum ++ b!" " ++ f ++ b!"\n", stderr := [], exit := 0 } ∧
      Cksum.main fs (cksumErrors openErr) stdin [g] = { stdout := sum ++ b!" " ++ g ++ b!"\n", stderr := [], exit := 0 }) ∧
    Diff.main p fs [f, g] = { stdout := b!"\n", stderr := [], exit := 0 } := by
  rw [cmp_exit stdin hf hg hc hd] at h
  have e : c = d := by
    by_cases e : c = d
    · exact e
    · simp [e] at h
  subst e
  refine ⟨⟨natToDec (Cksum.memcrc c).toNat ++ b!" " ++ natToDec c.length, ?_, ?_⟩, ?_⟩
  · rw [cksum_one openErr stdin hf hc]; simp [Cksum.line]
  · rw [cksum_one openErr stdin hg hd]; simp [Cksum.line]
  · rw [diff_two p hf hg hc hd, (Diff.C14_empty_iff_equal _ _).2 rfl]; rfl

/-- **C125** If `cksum` prints different sums or sizes, `cmp` finds a difference. -/
theorem C125_different_sums {fs : FS} {f g c d s s' : Bytes} (openErr : Bytes → Bytes) (stdin : Bytes) (hf : Name f) (hg : Name g)
    (hc : fs f = some c) (hd : fs g = some d) (h1 : (Cksum.main fs (cksumErrors openErr) stdin [f]).stdout = s ++ b!" " ++ f ++ b!"\n")
    (h2 : (Cksum.main fs (cksumErrors openErr) stdin [g]).stdout = s' ++ b!" " ++ g ++ b!"\n") (hs : s ≠ s') :
    (Cmp.main (cmpWorld fs stdin) [f, g]).exit = 1 := by
  rw [cmp_exit stdin hf hg hc hd, if_neg]
  rintro rfl
  obtain ⟨⟨sum, e1, e2⟩, -⟩ := C125_identical openErr (fun _ => true) stdin hf hg hc hd (by rw [cmp_exit stdin hf hg hc hd, if_pos rfl])
  rw [e1] at h1
  rw [e2] at h2
  simp only [List.append_assoc] at h1 h2
  have k1 := List.append_cancel_right h1
  have k2 := List.append_cancel_right h2
  exact hs (k1.symm.trans k2)

/-- **C125** `diff` prints no difference exactly if the files have the same lines, not looking at carriage returns before the ends of
lines and at the last newline. -/
theorem C125_diff_iff {fs : FS} {f g c d : Bytes} (p : Nat → Bool) (hf : Name f) (hg : Name g) (hc : fs f = some c) (hd : fs g = some d)
    {ls ls' : List Bytes} (h : Head.TextOf c ls) (h' : Head.TextOf d ls') (hl : ∀ l ∈ ls, l.length < maxToken) (hl' : ∀ l ∈ ls', l.length < maxToken) :
    (Diff.main p fs [f, g]).stdout = b!"\n" ↔ ls.map dropCR = ls'.map dropCR := by
  have key : ∀ ls : List Bytes, (∀ l ∈ ls, l.length < maxToken) → scanTokens ls = (ls.map dropCR, false) := by
    intro ls h
    induction ls with
    | nil => rfl
    | cons l ls ih => simp [scanTokens, h l (by simp), ih fun l hl => h l (by simp [hl]), Nat.not_le.2 (h l (by simp))]
  rw [diff_two p hf hg hc hd]
  simp only [scanLines, Head.textOf_rawLines h, Head.textOf_rawLines h', key ls hl, key ls' hl']
  rw [← Diff.C14_empty_iff_equal]
  constructor
  · intro e
    exact List.append_cancel_right (e.trans (List.nil_append _).symm)
  · intro e; rw [e]; rfl

/-- **C125** (partial: for files in which every line is plain and ends with a newline, see `C125_counterexample`) `diff` and `cmp` say the
same. -/
theorem C125_diff_cmp_partial {fs : FS} {f g : Bytes} (p : Nat → Bool) (stdin : Bytes) (hf : Name f) (hg : Name g) {ls ls' : List Bytes}
    (hc : fs f = some (unlines ls)) (hd : fs g = some (unlines ls')) (h : ∀ l ∈ ls, PlainLine l) (h' : ∀ l ∈ ls', PlainLine l) :
    (Diff.main p fs [f, g]).stdout = b!"\n" ↔ (Cmp.main (cmpWorld fs stdin) [f, g]).exit = 0 := by
  rw [cmp_exit stdin hf hg hc hd, diff_two p hf hg hc hd, scanLines_unlines ls h, scanLines_unlines ls' h']
  have k : unlines ls = unlines ls' ↔ ls = ls' := by
    constructor
    · intro e
      have := congrArg rawLines e
      rwa [rawLines_unlines ls fun l hl => (h l hl).noNL, rawLines_unlines ls' fun l hl => (h' l hl).noNL] at this
    · rintro rfl; rfl
  constructor
  · intro e
    rw [if_pos (k.2 ((Diff.C14_empty_iff_equal ls ls').1 (List.append_cancel_right (e.trans (List.nil_append _).symm))))]
  · intro e
    have : unlines ls = unlines ls' := by
      by_cases e' : unlines ls = unlines ls'
      · exact e'
      · simp [e'] at e
    simp only [(Diff.C14_empty_iff_equal ls ls').2 (k.1 this)]
    rfl

/-- **C125** (refutation) `diff` prints no difference for files which differ. -/
theorem C125_counterexample : ∃ fs : FS, ∃ f g h : Bytes, Name f ∧ Name g ∧ Name h ∧
    (Diff.main (fun _ => true) fs [f, g]).stdout = b!"\n" ∧ (Cmp.main (cmpWorld fs []) [f, g]).exit = 1 ∧
    (Diff.main (fun _ => true) fs [f, h]).stdout = b!"\n" ∧ (Cmp.main (cmpWorld fs []) [f, h]).exit = 1 := by
  refine ⟨fun n => if n = b!"f" then some b!"a\n" else if n = b!"g" then some b!"a" else some b!"a\r\n", b!"f", b!"g", b!"h", ?_⟩
  decide +kernel

/-- **C125** If `cmp -l` lists differences, all of them within four positions in a row, and the files have the same length (exit status 0),
`cksum` prints different sums. -/
theorem C125_near_differences {fs : FS} {f g c d : Bytes} (openErr : Bytes → Bytes) (stdin : Bytes) (hf : Name f) (hg : Name g)
    (hc : fs f = some c) (hd : fs g = some d) (at_ : Nat) (ds : List (Nat × UInt8 × UInt8)) (hne : ds ≠ []) (hpos : ∀ x ∈ ds, at_ < x.1 ∧ x.1 ≤ at_ + 4)
    (h : Cmp.main (cmpWorld fs stdin) [b!"-l", f, g] = { stdout := Cmp.listing ds, stderr := [], exit := 0 }) :
    ∃ a b rest, a ≠ b ∧ Cksum.main fs (cksumErrors openErr) stdin [f] = { stdout := natToDec a ++ b!" " ++ rest ++ b!" " ++ f ++ b!"\n", stderr := [], exit := 0 } ∧
      Cksum.main fs (cksumErrors openErr) stdin [g] = { stdout := natToDec b ++ b!" " ++ rest ++ b!" " ++ g ++ b!"\n", stderr := [], exit := 0 } := by
  have hall := Cmp.C42_list_all (args := [b!"-l", f, g]) (.l (cmp_invocation hf.operand hg)) (cmpWorld fs stdin) c d (cmp_reads stdin hf hc) (cmp_reads stdin hg hd) (fun h => hf.ne _ h.1)
  rw [h] at hall
  obtain ⟨h1, h2⟩ := hall
  have hlen : c.length = d.length := by
    by_cases e : c.length = d.length
    · exact e
    · simp [e] at h2
  have hds : ds = Cmp.differences c d := listing_inj h1
  have hnear := near hlen at_ (by
    intro k hk
    have hkc : k < c.length := by
      apply Nat.lt_of_not_le
      intro hle
      exact hk (by rw [List.getElem?_eq_none hle, List.getElem?_eq_none (hlen ▸ hle)])
    have hkd : k < d.length := hlen ▸ hkc
    rw [List.getElem?_eq_getElem hkc, List.getElem?_eq_getElem hkd] at hk
    have := (Cmp.C42_differences_spec c d k c[k] d[k]).2 ⟨List.getElem?_eq_getElem hkc, List.getElem?_eq_getElem hkd, fun e => hk (by rw [e])⟩
    have := hpos _ (hds ▸ this)
    simp only at this
    omega)
  have hcd : c ≠ d := by
    rintro rfl
    apply hne
    rw [hds]
    cases hx : Cmp.differences c c with
    | nil => rfl
    | cons x xs =>
      exfalso
      obtain ⟨n, x, y⟩ := x
      have hm : (n, x, y) ∈ Cmp.differences c c := by rw [hx]; simp
      cases n with
      | zero => have := hpos (0, x, y) (hds ▸ hm); simp at this
      | succ n =>
        obtain ⟨e1, e2, e3⟩ := (Cmp.C42_differences_spec c c n x y).1 hm
        rw [e1] at e2
        exact e3 (Option.some.inj e2)
  have hsum : Cksum.memcrc c ≠ Cksum.memcrc d := by
    have ec : c = c.take at_ ++ (c.drop at_).take 4 ++ c.drop (at_ + 4) := by
      rw [← List.drop_drop, List.append_assoc, List.take_append_drop, List.take_append_drop]
    have ed : d = c.take at_ ++ (d.drop at_).take 4 ++ c.drop (at_ + 4) := by
      rw [hnear.1, hnear.2, ← List.drop_drop, List.append_assoc, List.take_append_drop, List.take_append_drop]
    have := Cksum.C38_burst_detected (c.take at_) ((c.drop at_).take 4) ((d.drop at_).take 4) (c.drop (at_ + 4)) (by simp [hlen]) (by simp)
      (fun e => hcd (by rw [ec, ed, e]))
    rwa [← ec, ← ed] at this
  refine ⟨(Cksum.memcrc c).toNat, (Cksum.memcrc d).toNat, natToDec c.length, fun e => hsum (BitVec.eq_of_toNat_eq e), ?_, ?_⟩
  · rw [cksum_one openErr stdin hf hc]; simp [Cksum.line]
  · rw [cksum_one openErr stdin hg hd]; simp [Cksum.line, hlen]

/-! ## The output of one command as the input of another -/

/-- **C125** `cat f… | cksum` prints the sum and the number of the bytes of the files one after the other. -/
theorem C125_cat_cksum {fs : FS} (openErr : Bytes → Bytes) (inp : Bytes) {names cs : List Bytes} (hne : names ≠ []) (hn : ∀ n ∈ names, Name n)
    (h : names.map fs = cs.map some) :
    Cksum.main fs (cksumErrors openErr) (Cat.main (catFiles fs openErr) { data := inp } names).stdout [] =
      { stdout := natToDec (Cksum.memcrc cs.flatten).toNat ++ b!" " ++ natToDec cs.flatten.length ++ b!" -\n", stderr := [], exit := 0 } := by
  rw [cat_prints openErr inp hne hn h]
  simp [Cksum.main, Cksum.runAll, cksumErrors, Cksum.line]

/-- **C125** `cat f… | cmp - g` exits 0 exactly if `g` holds the bytes of the files one after the other, and 1 otherwise; in particular
`cat f | cmp - f` exits 0. -/
theorem C125_cat_cmp {fs : FS} (openErr : Bytes → Bytes) (inp : Bytes) {names cs : List Bytes} (hne : names ≠ []) (hn : ∀ n ∈ names, Name n)
    (h : names.map fs = cs.map some) {g d : Bytes} (hg : Name g) (hd : fs g = some d) :
    (Cmp.main (cmpWorld fs (Cat.main (catFiles fs openErr) { data := inp } names).stdout) [b!"-", g]).exit = if cs.flatten = d then 0 else 1 := by
  rw [cat_prints openErr inp hne hn h]
  exact cmp_stdin_exit _ hg hd

/-- **C125** `cat f… | head -n v` prints the first lines of all the lines of the files. -/
theorem C125_cat_head {fs : FS} (openErr : Bytes → Bytes) (inp : Bytes) {names : List Bytes} (hne : names ≠ []) (hn : ∀ n ∈ names, Name n)
    {lss : List (List Bytes)} (h : names.map fs = lss.map fun ls => some (unlines ls)) (hp : ∀ ls ∈ lss, ∀ l ∈ ls, PlainLine l) {v : Bytes} {n : Int} (hv : atoi v = (n, none)) :
    Head.main (headWorld fs (Cat.main (catFiles fs openErr) { data := inp } names).stdout) [b!"-n", v, b!"-"] = { stdout := unlines (lss.flatten.take n.toNat), panic := none } := by
  rw [cat_prints (cs := lss.map unlines) openErr inp hne hn (by rw [h]; simp)]
  refine head_prints (c := (lss.map unlines).flatten) _ (.inl ⟨rfl, rfl⟩) hv ?_ ?_
  · clear h hp
    induction lss with
    | nil => rfl
    | cons ls lss ih => simp [unlines_append, ih]
  · intro l hl
    obtain ⟨ls, h1, h2⟩ := List.mem_flatten.1 hl
    exact hp ls h1 l h2

/-- **C125** `head -n v f | cmp - f` exits 0 exactly if `f` has no more lines than that. -/
theorem C125_head_cmp {fs : FS} {f v : Bytes} {n : Int} {ls : List Bytes} (inp : Bytes) (hf : Name f) (hc : fs f = some (unlines ls))
    (hp : ∀ l ∈ ls, PlainLine l) (hv : atoi v = (n, none)) :
    (Cmp.main (cmpWorld fs (Head.main (headWorld fs inp) [b!"-n", v, f]).stdout) [b!"-", f]).exit = if ls.length ≤ n.toNat then 0 else 1 := by
  rw [head_prints inp (.inr ⟨hf, hc⟩) hv rfl hp, cmp_stdin_exit _ hf hc]
  have k : unlines (ls.take n.toNat) = unlines ls ↔ ls.length ≤ n.toNat := by
    constructor
    · intro e
      have := congrArg rawLines e
      rw [rawLines_unlines ls fun l hl => (hp l hl).noNL, rawLines_unlines _ fun l hl => (hp l (List.mem_of_mem_take hl)).noNL] at this
      exact List.take_eq_self_iff ls |>.1 this
    · intro h; rw [List.take_of_length_le h]
  by_cases h : ls.length ≤ n.toNat
  · rw [if_pos h, if_pos (k.2 h)]
  · rw [if_neg h, if_neg fun e => h (k.1 e)]

/-- **C125** `head -n v f | head -n u` prints what `head` prints for the smaller of the two numbers. -/
theorem C125_head_head {fs : FS} {f u v w : Bytes} {m n : Int} {ls : List Bytes} (inp : Bytes) (hf : Name f) (hc : fs f = some (unlines ls))
    (hp : ∀ l ∈ ls, PlainLine l) (hv : atoi v = (n, none)) (hu : atoi u = (m, none)) (hw : atoi w = (min m n, none)) :
    Head.main (headWorld fs (Head.main (headWorld fs inp) [b!"-n", v, f]).stdout) [b!"-n", u, b!"-"] = Head.main (headWorld fs inp) [b!"-n", w, f] := by
  rw [head_prints inp (.inr ⟨hf, hc⟩) hv rfl hp, head_prints inp (.inr ⟨hf, hc⟩) hw rfl hp,
    head_prints (ls := ls.take n.toNat) _ (.inl ⟨rfl, rfl⟩) hu rfl fun l hl => hp l (List.mem_of_mem_take hl), List.take_take]
  congr 3
  omega

/-! ## Cases -/

/-- Three small files. -/
def demo : FS := fun n => if n = b!"f" then some b!"one\ntwo\n" else if n = b!"g" then some b!"one\ntwo\n" else if n = b!"h" then some b!"one\ntow\n" else none

example : Name b!"f" ∧ (Cmp.main (cmpWorld demo []) [b!"f", b!"g"]).exit = 0 ∧ (Cmp.main (cmpWorld demo []) [b!"f", b!"h"]).exit = 1 ∧
    (Diff.main (fun _ => true) demo [b!"f", b!"h"]).stdout = b!"2c2\n< two\n---\n> tow\n" := by decide +kernel

/-- `cmp -l` lists two differences next to each other. -/
example : Cmp.main (cmpWorld demo []) [b!"-l", b!"f", b!"h"] =
    { stdout := Cmp.listing [(6, 119, 111), (7, 111, 119)], stderr := [], exit := 0 } := by decide +kernel

example : Head.main (headWorld demo (Cat.main (catFiles demo fun _ => []) { data := [] } [b!"f", b!"h"]).stdout) [b!"-n", b!"3", b!"-"] =
    { stdout := b!"one\ntwo\none\n", panic := none } := by decide +kernel

end Tools
