import Verif.Ed.Fate

/-! # C177: a script without searches, tried once on line numbers, is known for every file

What a script does whose addresses are line numbers, `.`, `$` or left out is worked out once, on a list of marks that stand for the lines of a
file. This one trial says for every file with that number of lines whether the program runs through or crashes and what becomes of the file,
line for line: the contents of the lines never matter, but for one thing. A blank line at the end of the buffer is not counted (C28), so a trial is
told which lines may be blank, and stops where one of these would come to be the last one. -/

namespace Ed
open Go

/-! ## Specification -/

/-- The first mark after the current line that satisfies `f`, going round. -/
def nextHit {α : Type} (f : α → Bool) (ls : List α) (cur : Nat) : Option Nat :=
  ((List.range ls.length).map fun k => (cur + k) % ls.length + 1).find? fun n => (ls[n - 1]?).any f

/-- A search among marks: see `sought`. -/
def soughtMark {α : Type} (f : α → Bool) (ls : List α) (cur : Int) : Goal :=
  if ls.length = 0 then .crash
  else if cur < 0 ∧ cur % ls.length ≠ 0 then .crash
  else
    match nextHit f ls (cur % ls.length).toNat with
    | some n => .line n
    | none => if 1 ≤ cur ∧ cur ≤ ls.length then .line (-1) else .never

/-- A search for an expression. `mt` says which expressions are known, and of these which are not well formed and which marks the others match. -/
def soughtMarkFor {α : Type} (mt : Bytes → Option (Option (α → Bool))) (ls : List α) (cur : Int) (re : Bytes) : Option Goal :=
  match mt re with
  | none => none
  | some none => some (.line (-1))
  | some (some f) => some (soughtMark f ls cur)

/-- The line an address means among marks; none for searches for unknown expressions. -/
def AddrSyn.counted {α : Type} (mt : Bytes → Option (Option (α → Bool))) (ls : List α) (cur : Int) : AddrSyn → Option Goal
  | .lit ds => some (.line (min (digitsVal ds) (2 ^ 63 - 1)))
  | .dot => some (.line cur)
  | .dollar => some (.line ls.length)
  | .re body => soughtMarkFor mt ls cur (sansSlashes body)
  | .off (.lit ds) _ _ => some (.line (if digitsVal ds < 2 ^ 64 then 0 else 2 ^ 63 - 1))
  | .off .dot _ _ => some (.line cur)
  | .off .dollar _ _ => some (.line ls.length)
  | .off (.re body) m ds => soughtMarkFor mt ls cur (body ++ 47 :: signByte m :: ds)
  | .mark _ | .back _ | .off .. => some .crash

/-- The first line of an address part. -/
def RangeSyn.counted1 {α : Type} (mt : Bytes → Option (Option (α → Bool))) (ls : List α) (cur d : Int) : RangeSyn → Option Goal
  | .none => some (.line d)
  | .one a _ | .both _ a _ _ _ _ | .startOnly _ a _ => a.counted mt ls cur
  | .endOnly semi _ _ _ | .all semi => some (.line (if semi then cur else 1))

/-- The last line of an address part. -/
def RangeSyn.counted2 {α : Type} (mt : Bytes → Option (Option (α → Bool))) (ls : List α) (cur d : Int) : RangeSyn → Option Goal
  | .none => some (.line d)
  | .one a _ | .startOnly _ a _ => a.counted mt ls cur
  | .both _ _ _ _ b _ | .endOnly _ _ b _ => b.counted mt ls cur
  | .all _ => some (.line ls.length)

/-- A trial: marks that stand for the lines of the buffer, the current line, and the marks that were last saved. -/
structure Trial (α : Type) where
  lines : List α
  cur : Int
  saved : Option (List α)

/-- What a command prints in a trial: lines with newlines between, empty where there is none; numbered lines; a number; nothing; a notice. -/
inductive Display (α : Type) where
  | lines (ls : List (Option α))
  | numbered (i : Nat) (ls : List α)
  | number (n : Int)
  | nothing
  | notice

/-- What is printed when the marks are read as lines. -/
def Display.read {α : Type} (I : α → Bytes) : Display α → Bytes
  | .lines ls => join [nl] (ls.map fun x => x.elim [] I)
  | .numbered i ls => Ed.numbered i (ls.map I)
  | .number n => itoa n
  | .nothing => []
  | .notice => b!"? (NYI)"

/-- What becomes of a command in a trial. `unsaid` for unknown expressions, backwards ranges, `e`, and where a line that may be blank
becomes the last one. -/
inductive TFate (α : Type) where
  | done (d : Trial α) (o : Display α)
  | crash
  | never
  | unsaid

/-- What becomes of a command with an address in a trial. -/
def TFate.with {α : Type} (o : Option Goal) (f : Int → TFate α) : TFate α :=
  match o with
  | some (.line n) => f n
  | some .crash => .crash
  | some .never => .never
  | none => .unsaid

/-- The last mark, if there is one, does not stand for a line that may be blank. -/
def firm {α : Type} (mb : α → Bool) (ls : List α) : Bool := ls.getLast?.all fun m => !mb m

/-- One command tried on marks; `ty` is the mark for a line typed, `mb` says which marks may stand for blank lines, `mt` which expressions match
which marks. Nothing else is ever asked of a mark. -/
def tryOut {α : Type} (ty : Bytes → α) (mb : α → Bool) (mt : Bytes → Option (Option (α → Bool))) (room : Nat → Nat) (c : TCmd) (d : Trial α) : TFate α :=
  let n := d.lines.length
  match c.verb with
  | .print => .with (c.range.counted1 mt d.lines d.cur d.cur) fun a => .with (c.range.counted2 mt d.lines d.cur d.cur) fun b =>
      if 1 ≤ a ∧ a ≤ b + 1 ∧ b ≤ room n then .done d (.lines ((List.range' a.toNat (b.toNat + 1 - a.toNat)).map fun i => d.lines[i - 1]?)) else .crash
  | .number => .with (c.range.counted1 mt d.lines d.cur d.cur) fun a => .with (c.range.counted2 mt d.lines d.cur d.cur) fun b =>
      if b < a then .done d .nothing
      else if 1 ≤ a ∧ b ≤ n then .done d (.numbered a.toNat ((d.lines.take b.toNat).drop (a.toNat - 1))) else .crash
  | .equals => .with (c.range.counted1 mt d.lines d.cur n) fun a => .done d (.number a)
  | .null => .with (c.range.counted1 mt d.lines d.cur (wrap64 (d.cur + 1))) fun a =>
      if 1 ≤ a ∧ a ≤ room n then .done { d with cur := a } (.lines [d.lines[a.toNat - 1]?]) else .crash
  | .delete => .with (c.range.counted1 mt d.lines d.cur d.cur) fun a => .with (c.range.counted2 mt d.lines d.cur d.cur) fun b =>
      if a = -2 ^ 63 ∨ b = 2 ^ 63 - 1 then .crash
      else if min (a - 1).toNat n ≤ min b.toNat n ∧ firm mb (d.lines.take (a - 1).toNat ++ d.lines.drop b.toNat) then
        let ls1 := d.lines.take (a - 1).toNat ++ d.lines.drop b.toNat
        .with (c.range.counted1 mt ls1 d.cur d.cur) fun c => .done { d with lines := ls1, cur := c } .nothing
      else .unsaid
  | .append t => .with (c.range.counted1 mt d.lines d.cur d.cur) fun a =>
      if a = 2 ^ 63 - 1 then .crash
      else if firm mb (d.lines.take a.toNat ++ t.map ty ++ d.lines.drop a.toNat) then
        .done { d with lines := d.lines.take a.toNat ++ t.map ty ++ d.lines.drop a.toNat, cur := wrap64 (a + 1 + t.length) } .nothing
      else .unsaid
  | .insert t => .with (c.range.counted1 mt d.lines d.cur d.cur) fun a =>
      if a = -2 ^ 63 then .crash
      else if firm mb (d.lines.take (a - 1).toNat ++ t.map ty ++ d.lines.drop (a - 1).toNat) then
        .done { d with lines := d.lines.take (a - 1).toNat ++ t.map ty ++ d.lines.drop (a - 1).toNat } .nothing
      else .unsaid
  | .change t => .with (c.range.counted1 mt d.lines d.cur d.cur) fun a => .with (c.range.counted2 mt d.lines d.cur d.cur) fun b =>
      if a = -2 ^ 63 ∨ b = 2 ^ 63 - 1 then .crash
      else if min (a - 1).toNat n ≤ min b.toNat n ∧ firm mb (d.lines.take (a - 1).toNat ++ d.lines.drop b.toNat) then
        let ls1 := d.lines.take (a - 1).toNat ++ d.lines.drop b.toNat
        .with (c.range.counted1 mt ls1 d.cur d.cur) fun a1 =>
          let ls2 := ls1.take (a1 - 1).toNat ++ t.map ty ++ ls1.drop (a1 - 1).toNat
          if a1 = -2 ^ 63 then .crash
          else if firm mb ls2 then
            .with (c.range.counted1 mt ls2 d.cur d.cur) fun a2 => .done { d with lines := ls2, cur := wrap64 (a2 + t.length) } .nothing
          else .unsaid
      else .unsaid
  | .write => .done { d with saved := some d.lines, cur := n } .nothing
  | .edit _ => .unsaid
  | .unsupported _ => .done d .notice

/-- A script tried on marks, until a command ends the program: the marks then, what was printed and how it ended; none if a command is not
said. -/
def tryAll {α : Type} (ty : Bytes → α) (mb : α → Bool) (mt : Bytes → Option (Option (α → Bool))) (room : Nat → Nat) : List TCmd → Trial α → Option (Trial α × List (Display α) × Outlook)
  | [], d => some (d, [], .through)
  | c :: cs, d =>
    match tryOut ty mb mt room c d with
    | .done d1 o => (tryAll ty mb mt room cs d1).map fun r => (r.1, o :: r.2.1, r.2.2)
    | .crash => some (d, [], .crash)
    | .never => some (d, [], .never)
    | .unsaid => none

/-- The text typed for a command. -/
def TCmd.text (c : TCmd) : List Bytes :=
  match c.verb with
  | .append t | .insert t | .change t => t
  | _ => []

/-- A buffer and a trial that stands for it; `t0` is the file as it was at first. -/
structure StandsFor {α : Type} (I : α → Bytes) (name t0 : Bytes) (d : Trial α) (st : IState) : Prop where
  text : st.text = unlines (d.lines.map I)
  cur : st.cur = d.cur
  called : st.name = name
  file : st.files name = some (d.saved.elim t0 fun ls => unlines (ls.map I))

/-! ## Lists of lines of which the last is not blank -/

/-- A mark stands for a plain line, and if the line is blank the mark says that it may be; an expression matches the line if it is said
to match the mark. -/
def Fair {α : Type} (comp : Bytes → Option (Bytes → Bool)) (mt : Bytes → Option (Option (α → Bool))) (I : α → Bytes) (mb : α → Bool) (x : α) : Prop :=
  PlainLine (I x) ∧ (mb x = false → I x ≠ []) ∧ ∀ re f, mt re = some (some f) → ∀ m, comp re = some m → f x = m (I x)

/-- The lines the marks stand for are plain, and the last one is not blank. -/
def Sound {α : Type} (comp : Bytes → Option (Bytes → Bool)) (mt : Bytes → Option (Option (α → Bool))) (I : α → Bytes) (mb : α → Bool) (ls : List α) : Prop := (∀ x ∈ ls, Fair comp mt I mb x) ∧ firm mb ls

theorem sound_plain {α : Type} {comp : Bytes → Option (Bytes → Bool)} {mt : Bytes → Option (Option (α → Bool))} {I : α → Bytes} {mb : α → Bool} {ls : List α} (h : Sound comp mt I mb ls) : ∀ l ∈ ls.map I, PlainLine l := by
  intro l hl; obtain ⟨x, hx, rfl⟩ := List.mem_map.1 hl; exact (h.1 x hx).1

theorem sound_clean {α : Type} {comp : Bytes → Option (Bytes → Bool)} {mt : Bytes → Option (Option (α → Bool))} {I : α → Bytes} {mb : α → Bool} {ls : List α} (h : Sound comp mt I mb ls) :
    Clean (ls.map I) := by
  refine ⟨sound_plain h, fun e => ?_⟩
  rw [List.getLast?_map, Option.map_eq_some_iff] at e
  obtain ⟨x, hx, e⟩ := e
  have := h.2
  simp only [firm, hx, Option.all_some, Bool.not_eq_true', Bool.not_eq_eq_eq_not, Bool.not_true] at this
  exact (h.1 x (List.mem_of_getLast? hx)).2.1 this e

theorem plain_not_long {L : List Bytes} (h : ∀ l ∈ L, PlainLine l) : ¬ Long (unlines L) := by
  rintro ⟨pre, l, rest, e, hn, hl⟩
  obtain ⟨x, hx, hlx⟩ := rawLines_infix hn (by rintro rfl; simp at hl) rest pre
  rw [← e, rawLines_unlines L (fun l hl => (h l hl).noNL)] at hx
  have := (h x hx).short
  simp only [maxToken] at this
  omega

theorem put_solid {L : List Bytes} (h : Clean L) (t : List Bytes) (k : Nat) :
    putAt (unlines L) (place (unlines L) k) (unlines t) = unlines (L.take k ++ t ++ L.drop k) := by
  rw [place_clean h, putAt, take_unlines, drop_unlines]
  simp [unlines_append]

theorem cut_solid {L : List Bytes} (h : Clean L) (i j : Nat) :
    cutAt (unlines L) (place (unlines L) i) (place (unlines L) j) = unlines (L.take i ++ L.drop j) := by
  rw [place_clean h, place_clean h, cutAt, take_unlines, drop_unlines, unlines_append]

theorem place_min {L : List Bytes} (h : Clean L) (k : Nat) : place (unlines L) (min k L.length) = place (unlines L) k := by
  rw [place_clean h, place_clean h]
  congr 2
  rw [Nat.min_def]
  split
  · rfl
  · rw [List.take_of_length_le (Nat.le_refl _), List.take_of_length_le (by omega)]

theorem unlines_take_drop {L : List Bytes} {i j : Nat} (h : min i L.length ≤ min j L.length) :
    (unlines (L.take i ++ L.drop j)).length ≤ (unlines L).length := by
  have hi : L.take i = L.take (min i L.length) := by
    rw [Nat.min_def]; split
    · rfl
    · rw [List.take_of_length_le (Nat.le_refl _), List.take_of_length_le (by omega)]
  have hj : L.drop j = L.drop (min j L.length) := by
    rw [Nat.min_def]; split
    · rfl
    · rw [List.drop_of_length_le (Nat.le_refl _), List.drop_of_length_le (by omega)]
  rw [hi, hj]
  generalize min i L.length = i' at *
  generalize min j L.length = j' at *
  have e : L = L.take i' ++ ((L.drop i').take (j' - i') ++ L.drop j') := by
    have : L.drop j' = (L.drop i').drop (j' - i') := by rw [List.drop_drop]; congr 1; omega
    rw [this, List.take_append_drop, List.take_append_drop]
  have := congrArg (fun l => (unlines l).length) e
  simp only [unlines_append, List.length_append] at this ⊢
  omega

theorem unlines_put (L t : List Bytes) (k : Nat) :
    (unlines (L.take k ++ t ++ L.drop k)).length = (unlines L).length + (unlines t).length := by
  have := congrArg (fun l => (unlines l).length) (List.take_append_drop k L)
  simp only [unlines_append, List.length_append] at this ⊢
  omega

/-- The expressions known are well formed or not as is said. -/
def Knows {α : Type} (comp : Bytes → Option (Bytes → Bool)) (mt : Bytes → Option (Option (α → Bool))) : Prop :=
  ∀ re, (mt re = some none → comp re = none) ∧ ∀ f, mt re = some (some f) → ∃ m, comp re = some m

theorem nextHit_map {α : Type} {I : α → Bytes} {f : α → Bool} {m : Bytes → Bool} {M : List α} (h : ∀ x ∈ M, f x = m (I x)) (cur : Nat) :
    nextHit f M cur = nextMatch m (M.map I) cur := by
  simp only [nextHit, nextMatch, List.length_map, around]
  congr 1
  · funext n
    rw [List.getElem?_map]
    cases hx : M[n - 1]? with
    | none => rfl
    | some x => exact h x (List.mem_of_getElem? hx)
  · apply List.map_congr_left
    intro k _
    congr 2
    omega

theorem soughtMarkFor_eq {α : Type} {comp : Bytes → Option (Bytes → Bool)} {mt : Bytes → Option (Option (α → Bool))} {I : α → Bytes} {mb : α → Bool}
    (hk : Knows comp mt) {M : List α} (hM : ∀ x ∈ M, Fair comp mt I mb x) {cur : Int} {re : Bytes} {g : Goal} (h : soughtMarkFor mt M cur re = some g) :
    soughtFor comp (M.map I) cur re = g := by
  simp only [soughtMarkFor] at h
  cases hr : mt re with
  | none => rw [hr] at h; cases h
  | some o =>
    cases o with
    | none =>
      rw [hr] at h
      simp only [soughtFor, (hk re).1 hr]
      exact Option.some.inj h
    | some f =>
      rw [hr] at h
      obtain ⟨m, hm⟩ := (hk re).2 f hr
      rw [← Option.some.inj h]
      simp only [soughtFor, hm, sought, soughtMark, List.length_map, nextHit_map (fun x hx => (hM x hx).2.2 re f hr m hm), List.map_eq_nil_iff,
        List.length_eq_zero_iff]
      by_cases e : M = []
      · rw [if_pos e, if_pos e]
      · rw [if_neg e, if_neg e]
        congr 1

theorem counted_goal {α : Type} {comp : Bytes → Option (Bytes → Bool)} {mt : Bytes → Option (Option (α → Bool))} {I : α → Bytes} {mb : α → Bool}
    (hk : Knows comp mt) {M : List α} (hM : ∀ x ∈ M, Fair comp mt I mb x) {a : AddrSyn} {cur : Int} {g : Goal} (h : a.counted mt M cur = some g) :
    a.goal comp (M.map I) cur = g := by
  cases a with
  | re body => exact soughtMarkFor_eq hk hM h
  | off b m ds =>
    cases b with
    | re body => exact soughtMarkFor_eq hk hM h
    | dollar => simp only [AddrSyn.counted, Option.some.injEq] at h; simp only [AddrSyn.goal, h, List.length_map]
    | _ => simp only [AddrSyn.counted, Option.some.injEq] at h; simp only [AddrSyn.goal, h]
  | dollar => simp only [AddrSyn.counted, Option.some.injEq] at h; simp only [AddrSyn.goal, h, List.length_map]
  | _ => simp only [AddrSyn.counted, Option.some.injEq] at h; simp only [AddrSyn.goal, h]

theorem counted1_goal {α : Type} {comp : Bytes → Option (Bytes → Bool)} {mt : Bytes → Option (Option (α → Bool))} {I : α → Bytes} {mb : α → Bool}
    (hk : Knows comp mt) {M : List α} (hM : ∀ x ∈ M, Fair comp mt I mb x) {r : RangeSyn} {cur d : Int} {g : Goal} (h : r.counted1 mt M cur d = some g) :
    r.goal1 comp (M.map I) cur d = g := by
  cases r with
  | none | endOnly | all => simp only [RangeSyn.counted1, Option.some.injEq] at h; simp only [RangeSyn.goal1, h]
  | _ => exact counted_goal hk hM h

theorem counted2_goal {α : Type} {comp : Bytes → Option (Bytes → Bool)} {mt : Bytes → Option (Option (α → Bool))} {I : α → Bytes} {mb : α → Bool}
    (hk : Knows comp mt) {M : List α} (hM : ∀ x ∈ M, Fair comp mt I mb x) {r : RangeSyn} {cur d : Int} {g : Goal} (h : r.counted2 mt M cur d = some g) :
    r.goal2 comp (M.map I) cur d = g := by
  cases r with
  | none => simp only [RangeSyn.counted2, Option.some.injEq] at h; simp only [RangeSyn.goal2, h]
  | all => simp only [RangeSyn.counted2, Option.some.injEq] at h; simp only [RangeSyn.goal2, h, List.length_map]
  | _ => exact counted_goal hk hM h

theorem self_ne_swp (name : Bytes) : name ≠ name ++ b!".swp" := by
  intro e
  have := congrArg List.length e
  simp at this

/-! ## One command -/

/-- What a trial says of a command comes true. -/
def Borne {α : Type} (comp : Bytes → Option (Bytes → Bool)) (mt : Bytes → Option (Option (α → Bool))) (I : α → Bytes) (mb : α → Bool) (name t0 : Bytes) (size : Nat) (f : Fate) : TFate α → Prop
  | .done d1 o => ∃ st1, f = .done st1 (o.read I) ∧ StandsFor I name t0 d1 st1 ∧ Sound comp mt I mb d1.lines ∧ (unlines (d1.lines.map I)).length ≤ size
  | .crash => f = .crash
  | .never => f = .never
  | .unsaid => True

theorem borne_with {α : Type} {comp : Bytes → Option (Bytes → Bool)} {mt : Bytes → Option (Option (α → Bool))} {I : α → Bytes} {mb : α → Bool} {name t0 : Bytes} {size : Nat} {o : Option Goal} {g : Goal} {f : Int → Fate} {k : Int → TFate α}
    (hg : ∀ v, o = some v → g = v) (h : ∀ v, o = some (.line v) → Borne comp mt I mb name t0 size (f v) (k v)) :
    Borne comp mt I mb name t0 size (g.to f) (.with o k) := by
  cases o with
  | none => trivial
  | some v =>
    rw [hg v rfl]
    cases v with
    | line n => exact h n rfl
    | crash => exact rfl
    | never => exact rfl

/-- **C177** What a command does to a buffer is what it does to marks that stand for its lines. -/
theorem C177_command {α : Type} {comp : Bytes → Option (Bytes → Bool)} {room : Nat → Nat} {openErr : Bytes → Bytes} {I : α → Bytes} {ty : Bytes → α} {mb : α → Bool}
    {mt : Bytes → Option (Option (α → Bool))} (hk : Knows comp mt)
    {name t0 : Bytes} {d : Trial α} {st : IState} (h : StandsFor I name t0 d st) (hs : Sound comp mt I mb d.lines) {c : TCmd}
    (hty : ∀ l ∈ c.text, I (ty l) = l ∧ Fair comp mt I mb (ty l)) (hsz : (unlines (d.lines.map I)).length + (unlines c.text).length < 2 ^ 61) :
    Borne comp mt I mb name t0 ((unlines (d.lines.map I)).length + (unlines c.text).length) (fate comp room openErr c st) (tryOut ty mb mt room c d) := by
  obtain ⟨text, cur, nm, files⟩ := st
  obtain ⟨ht, hc, hn, hf⟩ := h
  simp only at ht hc hn hf
  subst ht hc hn
  obtain ⟨lines, cur, saved'⟩ := d
  simp only at hs hsz hf ⊢
  have hS := sound_plain hs
  have hC := sound_clean hs
  have hseen := seen_clean hC
  have hraw : rawLines (unlines (lines.map I)) = lines.map I := rawLines_unlines _ (fun l hl => (hS l hl).noNL)
  have hlen : (lines.map I).length = lines.length := by simp
  have tymap : ∀ {t : List Bytes}, (∀ l ∈ t, I (ty l) = l ∧ Fair comp mt I mb (ty l)) → (t.map ty).map I = t := by
    intro t ht
    rw [List.map_map]
    conv => rhs; rw [← List.map_id t]
    exact List.map_congr_left fun l hl => (ht l hl).1
  have hknow := hk
  clear hk
  obtain ⟨r, v⟩ := c
  cases v with
  | print =>
    simp only [fate, tryOut, hseen, hraw, hlen]
    refine borne_with (fun _ h => counted1_goal hknow hs.1 h) fun a _ => borne_with (fun _ h => counted2_goal hknow hs.1 h) fun b _ => ?_
    by_cases hk : 1 ≤ a ∧ a ≤ b + 1 ∧ b ≤ room lines.length
    · rw [if_pos hk, if_pos hk]
      refine ⟨⟨unlines (lines.map I), cur, nm, files⟩, ?_, ⟨rfl, rfl, rfl, hf⟩, hs, Nat.le_add_right _ _⟩
      congr 1
      simp only [Display.read, paddedLines, List.map_map]
      congr 1
      apply List.map_congr_left
      intro i _
      simp only [Function.comp, List.getD_eq_getElem?_getD, List.getElem?_map]
      cases lines[i - 1]? <;> rfl
    · rw [if_neg hk, if_neg hk]; exact rfl
  | number =>
    simp only [fate, tryOut, hseen, hlen]
    refine borne_with (fun _ h => counted1_goal hknow hs.1 h) fun a _ => borne_with (fun _ h => counted2_goal hknow hs.1 h) fun b _ => ?_
    by_cases hk : b < a
    · rw [if_pos hk, if_pos hk]; exact ⟨_, rfl, ⟨rfl, rfl, rfl, hf⟩, hs, Nat.le_add_right _ _⟩
    · by_cases hk2 : 1 ≤ a ∧ b ≤ lines.length
      · rw [if_neg hk, if_neg hk, if_pos hk2, if_pos hk2]
        exact ⟨⟨unlines (lines.map I), cur, nm, files⟩, by simp only [Display.read, linesFrom, List.map_take, List.map_drop], ⟨rfl, rfl, rfl, hf⟩, hs, Nat.le_add_right _ _⟩
      · rw [if_neg hk, if_neg hk, if_neg hk2, if_neg hk2]; exact rfl
  | equals =>
    simp only [fate, tryOut, hseen, hlen]
    exact borne_with (fun _ h => counted1_goal hknow hs.1 h) fun a _ => ⟨_, rfl, ⟨rfl, rfl, rfl, hf⟩, hs, Nat.le_add_right _ _⟩
  | null =>
    simp only [fate, tryOut, hseen, hraw, hlen]
    refine borne_with (fun _ h => counted1_goal hknow hs.1 h) fun a _ => ?_
    by_cases hk : 1 ≤ a ∧ a ≤ room lines.length
    · rw [if_pos hk, if_pos hk]
      refine ⟨⟨unlines (lines.map I), a, nm, files⟩, ?_, ⟨rfl, rfl, rfl, hf⟩, hs, Nat.le_add_right _ _⟩
      congr 1
      simp only [Display.read, List.map_cons, List.map_nil, List.getD_eq_getElem?_getD, List.getElem?_map]
      cases lines[a.toNat - 1]? <;> simp [join]
    · rw [if_neg hk, if_neg hk]; exact rfl
  | delete =>
    simp only [fate, tryOut, hseen]
    refine borne_with (fun _ h => counted1_goal hknow hs.1 h) fun a _ => borne_with (fun _ h => counted2_goal hknow hs.1 h) fun b _ => ?_
    by_cases hk : a = -2 ^ 63 ∨ b = 2 ^ 63 - 1
    · rw [if_pos hk, if_pos hk]; exact rfl
    rw [if_neg hk, if_neg hk]
    by_cases hm : min (a - 1).toNat lines.length ≤ min b.toNat lines.length ∧ firm mb (lines.take (a - 1).toNat ++ lines.drop b.toNat)
    · rw [if_pos hm]
      have hp : place (unlines (lines.map I)) (a - 1).toNat ≤ place (unlines (lines.map I)) b.toNat := by
        rw [← place_min hC (a - 1).toNat, ← place_min hC b.toNat, hlen]
        exact place_mono _ hm.1
      rw [cut_solid hC]
      have e : (lines.map I).take (a - 1).toNat ++ (lines.map I).drop b.toNat = (lines.take (a - 1).toNat ++ lines.drop b.toNat).map I := by simp
      have hs1 : Sound comp mt I mb (lines.take (a - 1).toNat ++ lines.drop b.toNat) := by
        refine ⟨fun x hx => ?_, hm.2⟩
        rcases List.mem_append.1 hx with hx | hx
        · exact hs.1 x (List.mem_of_mem_take hx)
        · exact hs.1 x (List.mem_of_mem_drop hx)
      have hle := unlines_take_drop (L := lines.map I) (i := (a - 1).toNat) (j := b.toNat) (by rw [hlen]; exact hm.1)
      rw [e] at hle ⊢
      generalize lines.take (a - 1).toNat ++ lines.drop b.toNat = M at *
      have hS1 := sound_plain hs1
      rw [if_pos ⟨hp, clean_terminated _ _, plain_not_long hS1⟩, seen_clean (sound_clean hs1)]
      exact borne_with (fun _ h => counted1_goal hknow hs1.1 h) fun c _ => ⟨_, rfl, ⟨rfl, rfl, rfl, hf⟩, hs1, Nat.le_trans hle (Nat.le_add_right _ _)⟩
    · rw [if_neg hm]; trivial
  | append t =>
    have htt : ∀ l ∈ t, I (ty l) = l ∧ Fair comp mt I mb (ty l) := hty
    simp only [fate, tryOut, hseen]
    refine borne_with (fun _ h => counted1_goal hknow hs.1 h) fun a _ => ?_
    by_cases hk : a = 2 ^ 63 - 1
    · rw [if_pos hk, if_pos (.inl hk)]; exact rfl
    rw [if_neg hk, if_neg (by have := clean_terminated (lines.map I) a.toNat; omega), put_solid hC]
    by_cases hm : firm mb (lines.take a.toNat ++ t.map ty ++ lines.drop a.toNat)
    case neg => rw [if_neg hm]; trivial
    rw [if_pos hm]
    refine ⟨_, rfl, ⟨?_, rfl, rfl, hf⟩, ⟨?_, hm⟩, ?_⟩
    · simp only [List.map_append, tymap htt, List.map_take, List.map_drop]
    · intro x hx
      simp only [List.mem_append, List.mem_map] at hx
      rcases hx with (hx | ⟨l, hl, rfl⟩) | hx
      · exact hs.1 x (List.mem_of_mem_take hx)
      · exact (htt l hl).2
      · exact hs.1 x (List.mem_of_mem_drop hx)
    · simp only [List.map_append, tymap htt, List.map_take, List.map_drop, unlines_put, TCmd.text]
      omega
  | insert t =>
    have htt : ∀ l ∈ t, I (ty l) = l ∧ Fair comp mt I mb (ty l) := hty
    simp only [fate, tryOut, hseen]
    refine borne_with (fun _ h => counted1_goal hknow hs.1 h) fun a _ => ?_
    by_cases hk : a = -2 ^ 63
    · rw [if_pos hk, if_pos (.inl hk)]; exact rfl
    rw [if_neg hk, if_neg (by have := clean_terminated (lines.map I) (a - 1).toNat; omega), put_solid hC]
    by_cases hm : firm mb (lines.take (a - 1).toNat ++ t.map ty ++ lines.drop (a - 1).toNat)
    case neg => rw [if_neg hm]; trivial
    rw [if_pos hm]
    refine ⟨_, rfl, ⟨?_, rfl, rfl, hf⟩, ⟨?_, hm⟩, ?_⟩
    · simp only [List.map_append, tymap htt, List.map_take, List.map_drop]
    · intro x hx
      simp only [List.mem_append, List.mem_map] at hx
      rcases hx with (hx | ⟨l, hl, rfl⟩) | hx
      · exact hs.1 x (List.mem_of_mem_take hx)
      · exact (htt l hl).2
      · exact hs.1 x (List.mem_of_mem_drop hx)
    · simp only [List.map_append, tymap htt, List.map_take, List.map_drop, unlines_put, TCmd.text]
      omega
  | change t =>
    have htt : ∀ l ∈ t, I (ty l) = l ∧ Fair comp mt I mb (ty l) := hty
    simp only [fate, tryOut, hseen]
    refine borne_with (fun _ h => counted1_goal hknow hs.1 h) fun a _ => borne_with (fun _ h => counted2_goal hknow hs.1 h) fun b _ => ?_
    by_cases hk : a = -2 ^ 63 ∨ b = 2 ^ 63 - 1
    · rw [if_pos hk, if_pos hk]; exact rfl
    rw [if_neg hk, if_neg hk]
    by_cases hm : min (a - 1).toNat lines.length ≤ min b.toNat lines.length ∧ firm mb (lines.take (a - 1).toNat ++ lines.drop b.toNat)
    · rw [if_pos hm]
      have hp : place (unlines (lines.map I)) (a - 1).toNat ≤ place (unlines (lines.map I)) b.toNat := by
        rw [← place_min hC (a - 1).toNat, ← place_min hC b.toNat, hlen]
        exact place_mono _ hm.1
      rw [cut_solid hC]
      have e : (lines.map I).take (a - 1).toNat ++ (lines.map I).drop b.toNat = (lines.take (a - 1).toNat ++ lines.drop b.toNat).map I := by simp
      have hs1 : Sound comp mt I mb (lines.take (a - 1).toNat ++ lines.drop b.toNat) := by
        refine ⟨fun x hx => ?_, hm.2⟩
        rcases List.mem_append.1 hx with hx | hx
        · exact hs.1 x (List.mem_of_mem_take hx)
        · exact hs.1 x (List.mem_of_mem_drop hx)
      have hle := unlines_take_drop (L := lines.map I) (i := (a - 1).toNat) (j := b.toNat) (by rw [hlen]; exact hm.1)
      rw [e] at hle ⊢
      generalize lines.take (a - 1).toNat ++ lines.drop b.toNat = M at *
      have hS1 := sound_plain hs1
      have hC1 := sound_clean hs1
      rw [if_pos ⟨hp, clean_terminated _ _, plain_not_long hS1⟩, seen_clean hC1]
      refine borne_with (fun _ h => counted1_goal hknow hs1.1 h) fun a1 _ => ?_
      by_cases hk1 : a1 = -2 ^ 63
      · rw [if_pos hk1, if_pos (.inl hk1)]; exact rfl
      rw [if_neg hk1, if_neg (by have := clean_terminated (M.map I) (a1 - 1).toNat; omega), put_solid hC1]
      have e2 : (M.map I).take (a1 - 1).toNat ++ t ++ (M.map I).drop (a1 - 1).toNat =
          (M.take (a1 - 1).toNat ++ t.map ty ++ M.drop (a1 - 1).toNat).map I := by
        simp only [List.map_append, tymap htt, List.map_take, List.map_drop]
      have hsz2 := unlines_put (M.map I) t (a1 - 1).toNat
      rw [e2] at hsz2 ⊢
      by_cases hm2 : firm mb (M.take (a1 - 1).toNat ++ t.map ty ++ M.drop (a1 - 1).toNat)
      case neg => rw [if_neg hm2]; trivial
      rw [if_pos hm2]
      have hs2 : Sound comp mt I mb (M.take (a1 - 1).toNat ++ t.map ty ++ M.drop (a1 - 1).toNat) := by
        refine ⟨fun x hx => ?_, hm2⟩
        simp only [List.mem_append, List.mem_map] at hx
        rcases hx with (hx | ⟨l, hl, rfl⟩) | hx
        · exact hs1.1 x (List.mem_of_mem_take hx)
        · exact (htt l hl).2
        · exact hs1.1 x (List.mem_of_mem_drop hx)
      generalize M.take (a1 - 1).toNat ++ t.map ty ++ M.drop (a1 - 1).toNat = N at *
      have hS2 := sound_plain hs2
      simp only [TCmd.text] at hsz
      rw [if_pos ⟨plain_not_long hS2, by omega⟩, seen_clean (sound_clean hs2)]
      refine borne_with (fun _ h => counted1_goal hknow hs2.1 h) fun c _ => ⟨_, rfl, ⟨rfl, rfl, rfl, hf⟩, hs2, ?_⟩
      simp only [TCmd.text]
      omega
    · rw [if_neg hm]; trivial
  | write =>
    simp only [fate, tryOut, hseen, hlen, hf]
    refine ⟨_, rfl, ⟨rfl, rfl, rfl, ?_⟩, hs, Nat.le_add_right _ _⟩
    simp only [saved, if_neg (self_ne_swp nm), if_true, Option.elim]
  | edit n => trivial
  | unsupported l => exact ⟨_, rfl, ⟨rfl, rfl, rfl, hf⟩, hs, Nat.le_add_right _ _⟩

/-! ## Scripts -/

/-- **C177** What a script does to a buffer is what it does to marks that stand for its lines. -/
theorem C177_script {α : Type} {comp : Bytes → Option (Bytes → Bool)} {room : Nat → Nat} {openErr : Bytes → Bytes} {I : α → Bytes} {ty : Bytes → α} {mb : α → Bool}
    {mt : Bytes → Option (Option (α → Bool))} (hk : Knows comp mt)
    {name t0 : Bytes} : ∀ (cs : List TCmd) {d : Trial α} {st : IState}, StandsFor I name t0 d st → Sound comp mt I mb d.lines →
    (∀ c ∈ cs, ∀ l ∈ c.text, I (ty l) = l ∧ Fair comp mt I mb (ty l)) →
    (unlines (d.lines.map I)).length + (unlines (cs.flatMap TCmd.text)).length < 2 ^ 61 →
    ∀ {d' : Trial α} {os : List (Display α)} {x : Outlook}, tryAll ty mb mt room cs d = some (d', os, x) →
    ∃ st', Course comp room openErr cs st st' (os.map (Display.read I)) x ∧ StandsFor I name t0 d' st' ∧ Sound comp mt I mb d'.lines := by
  intro cs
  induction cs with
  | nil =>
    intro d st h hs _ _ d' os x he
    simp only [tryAll, Option.some.injEq, Prod.mk.injEq] at he
    obtain ⟨rfl, rfl, rfl⟩ := he
    exact ⟨st, .nil, h, hs⟩
  | cons c cs ih =>
    intro d st h hs hty hsz d' os x he
    simp only [List.flatMap_cons, unlines_append, List.length_append] at hsz
    have hb := C177_command (comp := comp) (room := room) (openErr := openErr) (c := c) hk h hs (hty c (by simp)) (by omega)
    simp only [tryAll] at he
    cases hc : tryOut ty mb mt room c d with
    | done d1 o =>
      rw [hc] at hb he
      obtain ⟨st1, e1, h1, hs1, hle⟩ := hb
      simp only [Option.map_eq_some_iff, Prod.mk.injEq] at he
      obtain ⟨⟨d2, os2, x2⟩, he, rfl, rfl, rfl⟩ := he
      obtain ⟨st', hco, h', hs'⟩ := ih h1 hs1 (fun c hc => hty c (by simp [hc])) (by omega) he
      refine ⟨st', .done e1 ⟨?_, ?_⟩ hco, h', hs'⟩
      · rw [h1.text]
        exact plain_not_long (sound_plain hs1)
      · rw [h1.text]; omega
    | crash =>
      rw [hc] at hb he
      simp only [Option.some.injEq, Prod.mk.injEq] at he
      obtain ⟨rfl, rfl, rfl⟩ := he
      exact ⟨st, .crash hb, h, hs⟩
    | never =>
      rw [hc] at hb he
      simp only [Option.some.injEq, Prod.mk.injEq] at he
      obtain ⟨rfl, rfl, rfl⟩ := he
      exact ⟨st, .never hb, h, hs⟩
    | unsaid => rw [hc] at he; cases he

/-- The marks for the lines of a file of `n` lines: their numbers, from 0. -/
def numbers (n : Nat) : Trial (Nat ⊕ Bytes) := ⟨(List.range n).map .inl, n, none⟩

/-- The line a mark stands for in a file: the line with that number, or the line typed. -/
def lineFor (ls : List Bytes) : Nat ⊕ Bytes → Bytes
  | .inl i => ls.getD i []
  | .inr l => l

theorem numbers_of (ls : List Bytes) : ((List.range ls.length).map Sum.inl).map (lineFor ls) = ls := by
  apply List.ext_getElem (by simp)
  intro i h1 h2
  simp [lineFor, List.getElem?_eq_getElem h2]

/-- Which marks may stand for blank lines: those of the lines given, and blank lines typed. -/
def blankAt (bs : List Nat) : Nat ⊕ Bytes → Bool
  | .inl i => bs.contains i
  | .inr l => l.isEmpty

/-- A file of `n` plain lines of which only those given, numbered from 0, may be blank. -/
structure Fits (n : Nat) (bs : List Nat) (ls : List Bytes) : Prop where
  len : ls.length = n
  plain : ∀ l ∈ ls, PlainLine l
  blank : ∀ i, ls[i]? = some [] → i ∈ bs

/-- The lines of the file and the lines typed are matched as the trial is told. -/
def Matched (comp : Bytes → Option (Bytes → Bool)) (mt : Bytes → Option (Option (Nat ⊕ Bytes → Bool))) (ls typed : List Bytes) : Prop :=
  ∀ re f, mt re = some (some f) → ∀ m, comp re = some m → (∀ i l, ls[i]? = some l → f (.inl i) = m l) ∧ ∀ l ∈ typed, f (.inr l) = m l

/-- **C179** A script tried once on the numbers of `n` lines and on the knowledge which expressions match which lines: on every file with `n` lines
matched in this way, blank only where the trial allows for it, the program ends, under every schedule, as the trial says, prints what the trial says
and leaves in the file the lines the trial says. -/
theorem C179_every_file (env : Env) (hsave : Saves env) (hmem : Memory env) (n : Nat) (bs : List Nat) (hfirm : firm (blankAt bs) (numbers n).lines)
    (mt : Bytes → Option (Option (Nat ⊕ Bytes → Bool))) (hk : Knows env.compile mt) (cs : List TCmd) (ht : ∀ c ∈ cs, c.WF ∧ c.Texts)
    (hp : ∀ l ∈ cs.flatMap TCmd.typed, PlainLine l)
    (d' : Trial (Nat ⊕ Bytes)) (os : List (Display (Nat ⊕ Bytes))) (x : Outlook) (htry : tryAll .inr (blankAt bs) mt (room env) cs (numbers n) = some (d', os, x))
    (ls : List Bytes) (hls : Fits n bs ls) (hmt : Matched env.compile mt ls (cs.flatMap TCmd.text))
    (hsz : (unlines ls).length + (unlines (cs.flatMap TCmd.text)).length < 2 ^ 61)
    (errText : Bytes → Bytes) (s0 : State) (name : Bytes) (hnm : NameOK name) (hnp : PlainLine (b!"e " ++ name)) (hfs : s0.fs name = some (unlines ls))
    (quits : Bool) (st : Sys) (how : End)
    (hs : Steps env (initial errText s0 (mainInput (some name) (unlines (cs.flatMap TCmd.typed ++ lastLine quits)))) st)
    (he : st.cons.ended = some how) :
    x.ends quits how ∧ results st.out = ([] :: os.map (Display.read (lineFor ls))).map (· ++ [nl]) ∧ errors st.out = [] ∧
    st.ed.fs name = some (d'.saved.elim (unlines ls) fun ms => unlines (ms.map (lineFor ls))) := by
  obtain ⟨rfl, hpl, hbl⟩ := hls
  have htx : ∀ c ∈ cs, ∀ l ∈ c.text, lineFor ls (.inr l) = l ∧ Fair env.compile mt (lineFor ls) (blankAt bs) (.inr l) := by
    intro c hc l hl
    refine ⟨rfl, hp l ?_, (by rintro h rfl; cases h), fun re f hf m hm => (hmt re f hf m hm).2 l (List.mem_flatMap.2 ⟨c, hc, hl⟩)⟩
    refine List.mem_flatMap.2 ⟨c, hc, ?_⟩
    obtain ⟨r, v⟩ := c
    cases v <;> simp only [TCmd.text, List.not_mem_nil] at hl <;> simp [TCmd.typed, hl]
  have hsound : Sound env.compile mt (lineFor ls) (blankAt bs) (numbers ls.length).lines := by
    refine ⟨?_, hfirm⟩
    intro y hy
    simp only [numbers, List.mem_map, List.mem_range] at hy
    obtain ⟨i, hi, rfl⟩ := hy
    have e : lineFor ls (.inl i) = ls[i] := by simp [lineFor, List.getElem?_eq_getElem hi]
    refine ⟨by rw [e]; exact hpl _ (List.getElem_mem hi), fun hb hn => ?_, fun re f hf m hm => by
      rw [e]; exact (hmt re f hf m hm).1 i _ (List.getElem?_eq_getElem hi)⟩
    rw [e] at hn
    have := hbl i (by rw [List.getElem?_eq_getElem hi, hn])
    simp [blankAt, this] at hb
  have hC := sound_clean hsound
  simp only [numbers, numbers_of] at hC
  have hsane : Sane (unlines ls) := ⟨plain_not_long hpl, by omega⟩
  obtain ⟨st', hco, hst, -⟩ := C177_script (comp := env.compile) (room := room env) (openErr := env.openErr) (I := lineFor ls) (ty := .inr)
    (mb := blankAt bs) (mt := mt) hk (name := name) (t0 := unlines ls) cs (d := numbers ls.length) (st := ⟨unlines ls, (seen (unlines ls)).length, name, s0.fs⟩)
    ⟨by simp only [numbers, numbers_of], by simp only [numbers, seen_clean hC], rfl, by simp [numbers, hfs]⟩
    hsound htx (by simp only [numbers, numbers_of]; exact hsz) htry
  obtain ⟨h1, h2, h3, h4⟩ := C175_session env hsave hmem errText s0 name hnm hnp (unlines ls) hfs hsane cs ht hp quits st' _ x hco st how hs he
  exact ⟨h1, h2, h3, by rw [h4]; exact hst.file⟩

/-- No expression is known. -/
def unknown {α : Type} : Bytes → Option (Option (α → Bool)) := fun _ => none

/-- **C177** A script tried once on the numbers of `n` lines: on every file with `n` lines, blank only where the trial
allows for it, the program ends, under every schedule, as the
trial says, prints what the trial says and leaves in the file the lines the trial says. -/
theorem C177_every_file (env : Env) (hsave : Saves env) (hmem : Memory env) (n : Nat) (bs : List Nat) (hfirm : firm (blankAt bs) (numbers n).lines) (cs : List TCmd) (ht : ∀ c ∈ cs, c.WF ∧ c.Texts)
    (hp : ∀ l ∈ cs.flatMap TCmd.typed, PlainLine l)
    (d' : Trial (Nat ⊕ Bytes)) (os : List (Display (Nat ⊕ Bytes))) (x : Outlook) (htry : tryAll .inr (blankAt bs) unknown (room env) cs (numbers n) = some (d', os, x))
    (ls : List Bytes) (hls : Fits n bs ls)
    (hsz : (unlines ls).length + (unlines (cs.flatMap TCmd.text)).length < 2 ^ 61)
    (errText : Bytes → Bytes) (s0 : State) (name : Bytes) (hnm : NameOK name) (hnp : PlainLine (b!"e " ++ name)) (hfs : s0.fs name = some (unlines ls))
    (quits : Bool) (st : Sys) (how : End)
    (hs : Steps env (initial errText s0 (mainInput (some name) (unlines (cs.flatMap TCmd.typed ++ lastLine quits)))) st)
    (he : st.cons.ended = some how) :
    x.ends quits how ∧ results st.out = ([] :: os.map (Display.read (lineFor ls))).map (· ++ [nl]) ∧ errors st.out = [] ∧
    st.ed.fs name = some (d'.saved.elim (unlines ls) fun ms => unlines (ms.map (lineFor ls))) := by
  exact C179_every_file env hsave hmem n bs hfirm unknown (fun re => ⟨nofun, nofun⟩) cs ht hp d' os x htry ls hls nofun hsz errText s0 name hnm hnp hfs
    quits st how hs he

/-! ## What a trial leaves open -/

theorem direct_counted {α : Type} {r : RangeSyn} (h : r.Direct) (mt : Bytes → Option (Option (α → Bool))) (ls : List α) (cur d : Int) :
    (∃ a, r.counted1 mt ls cur d = some (.line a)) ∧ ∃ b, r.counted2 mt ls cur d = some (.line b) := by
  have one : ∀ {a : AddrSyn}, a.NoSearch → ∃ v, a.counted mt ls cur = some (.line v) := by
    intro a ha
    cases a with
    | lit | dot | dollar => exact ⟨_, rfl⟩
    | _ => cases ha
  cases r with
  | none => exact ⟨⟨_, rfl⟩, _, rfl⟩
  | one a w => exact ⟨one h, one h⟩
  | both semi a w1 w2 b w3 => exact ⟨one h.2.1, one h.2.2⟩
  | startOnly semi a w => exact ⟨one h.2, one h.2⟩
  | endOnly semi w1 b w2 => exact ⟨⟨_, rfl⟩, one h.2⟩
  | all semi => exact ⟨⟨_, rfl⟩, _, rfl⟩

theorem not_firm {α : Type} {mb : α → Bool} {ls : List α} (h : ¬ firm mb ls) : ∃ m ∈ ls, mb m := by
  cases hl : ls.getLast? with
  | none => simp [firm, hl] at h
  | some m => exact ⟨m, List.mem_of_getLast? hl, by simpa [firm, hl] using h⟩

/-- **C177** All that a trial leaves open: searches, marks, offsets and `;`, taking up another file, `d` and `c` with a range that goes
backwards, and the lines that may be blank. -/
theorem C177_said {α : Type} {ty : Bytes → α} {mb : α → Bool} {mt : Bytes → Option (Option (α → Bool))} {room : Nat → Nat} {c : TCmd} {d : Trial α} (h : tryOut ty mb mt room c d = .unsaid)
    (hd : c.range.Direct) :
    (∃ n, c.verb = .edit n) ∨ ((c.verb = .delete ∨ ∃ t, c.verb = .change t) ∧
      ∃ a b, c.range.counted1 mt d.lines d.cur d.cur = some (.line a) ∧ c.range.counted2 mt d.lines d.cur d.cur = some (.line b) ∧ b + 1 < a) ∨
    ∃ m, mb m ∧ (m ∈ d.lines ∨ ∃ l ∈ c.text, m = ty l) := by
  obtain ⟨r, v⟩ := c
  have g1 := fun n e => (direct_counted hd mt n d.cur e).1
  have g2 := fun n e => (direct_counted hd mt n d.cur e).2
  obtain ⟨a, ha⟩ := g1 d.lines d.cur
  obtain ⟨b, hb⟩ := g2 d.lines d.cur
  simp only at g1 g2 ha hb
  have back : ¬ min (a - 1).toNat d.lines.length ≤ min b.toNat d.lines.length → b + 1 < a := by omega
  have cut : ∀ {L : List α} {i j : Nat} {m : α}, m ∈ L.take i ++ L.drop j → m ∈ L := by
    intro L i j m hm
    rcases List.mem_append.1 hm with hm | hm
    · exact List.mem_of_mem_take hm
    · exact List.mem_of_mem_drop hm
  have put : ∀ {L : List α} {i : Nat} {t : List Bytes} {m : α}, m ∈ L.take i ++ t.map ty ++ L.drop i → m ∈ L ∨ ∃ l ∈ t, m = ty l := by
    intro L i t m hm
    simp only [List.mem_append, List.mem_map] at hm
    rcases hm with (hm | ⟨l, hl, rfl⟩) | hm
    · exact .inl (List.mem_of_mem_take hm)
    · exact .inr ⟨l, hl, rfl⟩
    · exact .inl (List.mem_of_mem_drop hm)
  cases v with
  | print => simp only [tryOut, ha, hb, TFate.with] at h; split at h <;> cases h
  | number =>
    simp only [tryOut, ha, hb, TFate.with] at h
    split at h
    · cases h
    · split at h <;> cases h
  | equals =>
    obtain ⟨x, hx⟩ := g1 d.lines d.lines.length
    simp only [tryOut, hx, TFate.with] at h; cases h
  | null =>
    obtain ⟨x, hx⟩ := g1 d.lines (wrap64 (d.cur + 1))
    simp only [tryOut, hx, TFate.with] at h; split at h <;> cases h
  | append t =>
    simp only [tryOut, ha, TFate.with] at h
    split at h
    · cases h
    · split at h
      · cases h
      · next hf => obtain ⟨m, hm, hb⟩ := not_firm hf; exact .inr (.inr ⟨m, hb, put hm⟩)
  | insert t =>
    simp only [tryOut, ha, TFate.with] at h
    split at h
    · cases h
    · split at h
      · cases h
      · next hf => obtain ⟨m, hm, hb⟩ := not_firm hf; exact .inr (.inr ⟨m, hb, put hm⟩)
  | write => cases h
  | edit n => exact .inl ⟨n, rfl⟩
  | unsupported l => cases h
  | delete =>
    by_cases hm : min (a - 1).toNat d.lines.length ≤ min b.toNat d.lines.length
    case neg => exact .inr (.inl ⟨.inl rfl, a, b, ha, hb, back hm⟩)
    by_cases hf : firm mb (d.lines.take (a - 1).toNat ++ d.lines.drop b.toNat)
    case neg => obtain ⟨m, hm, hb⟩ := not_firm hf; exact .inr (.inr ⟨m, hb, .inl (cut hm)⟩)
    obtain ⟨x, hx⟩ := g1 (d.lines.take (a - 1).toNat ++ d.lines.drop b.toNat) d.cur
    simp only [tryOut, ha, hb, TFate.with, if_pos (And.intro hm hf)] at h
    split at h
    · cases h
    · rw [hx] at h; cases h
  | change t =>
    by_cases hm : min (a - 1).toNat d.lines.length ≤ min b.toNat d.lines.length
    case neg => exact .inr (.inl ⟨.inr ⟨t, rfl⟩, a, b, ha, hb, back hm⟩)
    by_cases hf : firm mb (d.lines.take (a - 1).toNat ++ d.lines.drop b.toNat)
    case neg => obtain ⟨m, hm, hb⟩ := not_firm hf; exact .inr (.inr ⟨m, hb, .inl (cut hm)⟩)
    obtain ⟨x, hx⟩ := g1 (d.lines.take (a - 1).toNat ++ d.lines.drop b.toNat) d.cur
    obtain ⟨y, hy⟩ := g1 ((d.lines.take (a - 1).toNat ++ d.lines.drop b.toNat).take (x - 1).toNat ++ t.map ty ++
      (d.lines.take (a - 1).toNat ++ d.lines.drop b.toNat).drop (x - 1).toNat) d.cur
    simp only [tryOut, ha, hb, TFate.with, if_pos (And.intro hm hf)] at h
    split at h
    · cases h
    · rw [hx] at h
      simp only [hy] at h
      split at h
      · cases h
      · split at h
        · cases h
        · next hf2 =>
          obtain ⟨m, hm, hb⟩ := not_firm hf2
          refine .inr (.inr ⟨m, hb, ?_⟩)
          rcases put hm with hm | hm
          · exact .inl (cut hm)
          · exact .inr hm

/-! ## Cases -/

/-- `1,2p`, `$d`, `1c X .`, `1,2n`, `w`, `0p`. -/
def blindScript : List TCmd :=
  [⟨.both false (.lit b!"1") [] [] (.lit b!"2") [], .print⟩, ⟨.one .dollar [], .delete⟩, ⟨.one (.lit b!"1") [], .change [b!"X"]⟩,
    ⟨.both false (.lit b!"1") [] [] (.lit b!"2") [], .number⟩, ⟨.none, .write⟩, ⟨.one (.lit b!"0") [], .print⟩]

/-- Tried once: the last of three lines goes, the first is replaced, this is saved, and then the program crashes. -/
theorem blind_trial {room : Nat → Nat} (hroom : 2 ≤ room 3) : tryAll .inr (blankAt [0]) unknown room blindScript (numbers 3) =
    some (⟨[.inr b!"X", .inl 1], 2, some [.inr b!"X", .inl 1]⟩,
      [.lines [some (.inl 0), some (.inl 1)], .nothing, .nothing, .numbered 1 [.inr b!"X", .inl 1], .nothing], .crash) := by
  have d0 : digitsVal b!"0" = 0 := by decide
  have d1 : digitsVal b!"1" = 1 := by decide
  have d2 : digitsVal b!"2" = 2 := by decide
  have m2 : min (2 : Int) 9223372036854775807 = 2 := by decide
  have r2 : List.range' 1 2 = [1, 2] := by decide
  have hroom' : (2 : Int) ≤ room 3 := by omega
  have w : wrap64 (1 + 1) = 2 := by decide
  have m0 : min (0 : Int) 9223372036854775807 = 0 := by decide
  have m1 : min (1 : Int) 9223372036854775807 = 1 := by decide
  have hr : (List.range 3) = [0, 1, 2] := by decide
  simp [tryAll, blindScript, numbers, tryOut, TFate.with, RangeSyn.counted1, RangeSyn.counted2, AddrSyn.counted, firm, blankAt, hr, d0, d1, d2, w, m0, m1, m2, r2, hroom']

/-- So for every file of three lines of which the first may be blank, under any schedule. -/
example (errText : Bytes → Bytes) (l1 l2 l3 : Bytes) (h1 : PlainLine l1) (h2 : PlainLine l2) (h3 : PlainLine l3)
    (n2 : l2 ≠ []) (n3 : l3 ≠ []) (s0 : State) (hfs : s0.fs b!"f" = some (unlines [l1, l2, l3]))
    (st : Sys) (how : End) (hs : Steps demoEnv (initial errText s0
      (mainInput (some b!"f") (unlines [b!"1,2p", b!"$d", b!"1c", b!"X", b!".", b!"1,2n", b!"w", b!"0p", b!"q"]))) st) (he : st.cons.ended = some how) :
    (∃ p, how = .crashed (.panic p)) ∧
    results st.out = [b!"\n", l1 ++ [nl] ++ l2 ++ [nl], b!"\n", b!"\n", b!"1\tX\n2\t" ++ l2 ++ [nl, nl], b!"\n"] ∧ st.ed.fs b!"f" = some (unlines [b!"X", l2]) := by
  have hsz : (unlines [l1, l2, l3]).length + (unlines [b!"X"]).length < 2 ^ 61 := by
    have e1 := h1.short
    have e2 := h2.short
    have e3 := h3.short
    simp only [maxToken] at e1 e2 e3
    simp [unlines]
    omega
  obtain ⟨g1, g2, -, g4⟩ := C177_every_file demoEnv (fun _ => ⟨rfl, rfl, rfl⟩) demo_memory 3 [0] (by decide) blindScript
    (by
      intro c hc
      simp only [blindScript, List.mem_cons, List.not_mem_nil, or_false] at hc
      have hrange : (RangeSyn.both false (.lit b!"1") [] [] (.lit b!"2") []).OK :=
        ⟨⟨by decide, by decide⟩, ⟨by decide, by decide⟩, (by intro c hc; cases hc), (by intro c hc; cases hc), by intro c hc; cases hc⟩
      rcases hc with rfl | rfl | rfl | rfl | rfl | rfl
      · exact ⟨⟨hrange, trivial⟩, trivial⟩
      · exact ⟨⟨⟨trivial, by intro c hc; cases hc⟩, trivial⟩, trivial⟩
      · exact ⟨⟨⟨⟨by decide, by decide⟩, by intro c hc; cases hc⟩, trivial, ⟨by decide, by decide, by decide, by decide⟩, by decide⟩,
          by decide, by decide, by decide⟩
      · exact ⟨⟨hrange, trivial⟩, trivial⟩
      · exact ⟨⟨trivial, trivial⟩, trivial⟩
      · exact ⟨⟨⟨⟨by decide, by decide⟩, by intro c hc; cases hc⟩, trivial⟩, trivial⟩)
    (plain_of _ (by decide)) _ _ _ (blind_trial (room := room demoEnv) (by rw [room, if_neg (by decide)]; omega)) [l1, l2, l3]
    ⟨rfl, (by intro l hl; simp only [List.mem_cons, List.not_mem_nil, or_false] at hl; rcases hl with rfl | rfl | rfl <;> assumption), (by
      intro i hi
      match i with
      | 0 => simp
      | 1 => simp [n2] at hi
      | 2 => simp [n3] at hi
      | i + 3 => simp at hi)⟩
    hsz errText s0 b!"f" ⟨by decide, by decide, by decide, by rintro c cs ⟨⟩; decide⟩ (plain_ascii _ (by decide) (by decide) (by decide)) hfs
    true st how hs he
  refine ⟨g1, ?_, g4⟩
  have i1 : itoa 1 = b!"1" := by decide
  have i2 : itoa 2 = b!"2" := by decide
  rw [g2]
  simp [Display.read, lineFor, join, numbered, i1, i2, nl]

/-- Blank lines at the end have to be excluded: such a line is not counted, and `$d` takes the line before it away. -/
theorem C177_blank (comp : Bytes → Option (Bytes → Bool)) (room : Nat → Nat) (openErr : Bytes → Bytes) (name : Bytes) (files : Bytes → Option Bytes) :
    tryAll .inr (blankAt []) unknown room [⟨.one .dollar [], .delete⟩] (numbers 2) = some (⟨[.inl 0], 1, none⟩, [.nothing], .through) ∧
    unlines ([Sum.inl 0].map (lineFor [b!"a", []])) = b!"a\n" ∧
    fate comp room openErr ⟨.one .dollar [], .delete⟩ ⟨unlines [b!"a", []], 2, name, files⟩ = .done ⟨b!"\n", 0, name, files⟩ [] := by
  have hr : (List.range 2) = [0, 1] := by decide
  refine ⟨?_, rfl, ?_⟩
  · simp [tryAll, numbers, tryOut, TFate.with, RangeSyn.counted1, RangeSyn.counted2, AddrSyn.counted, firm, blankAt, hr]
  · have e1 : seen (unlines [b!"a", []]) = [b!"a"] := by decide +kernel
    have e2 : place (unlines [b!"a", []]) 0 = 0 := by decide +kernel
    have e3 : place (unlines [b!"a", []]) 1 = 2 := by decide +kernel
    have e4 : cutAt (unlines [b!"a", []]) 0 2 = b!"\n" := by decide +kernel
    have e5 : seen b!"\n" = [] := by decide +kernel
    have e6 : ¬ Long b!"\n" := (short_sane (t := b!"\n") (by decide)).1
    have e7 : (unlines [b!"a", []]).length = 3 := by decide +kernel
    simp only [fate, RangeSyn.goal1, RangeSyn.goal2, AddrSyn.goal, Goal.to, e1, List.length_singleton]
    rw [if_neg (by decide), show ((1 : Nat) : Int) - 1 = 0 by decide, show (((1 : Nat) : Int)).toNat = 1 by decide, show (0 : Int).toNat = 0 by decide, e2, e3, e4,
      if_pos ⟨by decide, by rw [e7]; decide, e6⟩, e5]
    rfl

end Ed
