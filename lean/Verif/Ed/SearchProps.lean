import Verif.Ed.EditProps

/-! # C64, C65: forward search; the editor without a file -/

namespace Ed
open Go

/-- Line numbers `1..len` in a circle: the line `k` steps after position `x`. -/
def around (len x : Nat) : Nat := (x - 1) % len + 1

/-- Line `n` (from 1) satisfies `m`. -/
def LineMatches (m : Bytes → Bool) (ls : List Bytes) (n : Nat) : Prop := ∃ l, ls[n - 1]? = some l ∧ m l = true

theorem around_lt {len x : Nat} (h : 0 < len) : 1 ≤ around len x ∧ around len x ≤ len := by
  have := Nat.mod_lt (x - 1) h
  simp only [around]; omega

theorem searchStep (m : Bytes → Bool) (ls : List Bytes) (cur : Int) (fuel : Nat) (n : Nat) (h1 : 1 ≤ n) (h2 : n ≤ ls.length) :
    searchLoop m ls cur (fuel + 1) n =
      if m (ls[n - 1]'(by omega)) then some (.ok ((n : Int), true))
      else if (n : Int) = cur then some (.ok (-1, false))
      else searchLoop m ls cur fuel ((around ls.length (n + 1) : Nat) : Int) := by
  simp only [searchLoop]
  rw [if_neg (by omega)]
  have e : ((n : Int) - 1).toNat = n - 1 := by omega
  rw [e, List.getElem?_eq_getElem (by omega)]
  have e2 : (n : Int).tmod (ls.length : Int) + 1 = ((around ls.length (n + 1) : Nat) : Int) := by
    simp only [around, Nat.add_sub_cancel]
    rw [← Int.ofNat_tmod]
    omega
  rw [e2]

theorem around_succ {len n j : Nat} (h : 1 ≤ n) : around len (around len (n + 1) + j) = around len (n + (j + 1)) := by
  simp only [around, Nat.add_sub_cancel]
  have e1 : n % len + 1 + j - 1 = n % len + j := by omega
  have e2 : n + (j + 1) - 1 = n + j := by omega
  rw [e1, e2, Nat.mod_add_mod]

theorem around_self {len n : Nat} (h1 : 1 ≤ n) (h2 : n ≤ len) : around len n = n := by
  simp only [around]
  rw [Nat.mod_eq_of_lt (by omega)]; omega

theorem lineMatches_iff (m : Bytes → Bool) (ls : List Bytes) (n : Nat) (h : n - 1 < ls.length) :
    LineMatches m ls n ↔ m ls[n - 1] = true := by
  simp [LineMatches, h]

/-- The loop finds the first match in its way. -/
theorem search_found (m : Bytes → Bool) (ls : List Bytes) (cur : Int) : ∀ (j fuel n : Nat), 1 ≤ n → n ≤ ls.length → j < fuel →
    LineMatches m ls (around ls.length (n + j)) →
    (∀ i < j, ¬ LineMatches m ls (around ls.length (n + i)) ∧ (around ls.length (n + i) : Int) ≠ cur) →
    searchLoop m ls cur fuel n = some (.ok ((around ls.length (n + j) : Int), true)) := by
  intro j
  induction j with
  | zero =>
    intro fuel n h1 h2 hf hm _
    obtain ⟨f, rfl⟩ : ∃ f, fuel = f + 1 := ⟨fuel - 1, by omega⟩
    simp only [Nat.add_zero, around_self h1 h2] at hm ⊢
    rw [lineMatches_iff _ _ _ (by omega)] at hm
    rw [searchStep m ls cur f n h1 h2, if_pos hm]
  | succ j ih =>
    intro fuel n h1 h2 hf hm hi
    obtain ⟨f, rfl⟩ : ∃ f, fuel = f + 1 := ⟨fuel - 1, by omega⟩
    obtain ⟨n1, n2⟩ := hi 0 (by omega)
    simp only [Nat.add_zero, around_self h1 h2] at n1 n2
    rw [lineMatches_iff _ _ _ (by omega)] at n1
    rw [searchStep m ls cur f n h1 h2, if_neg n1, if_neg n2]
    have hr := around_lt (x := n + 1) (len := ls.length) (by omega)
    have := ih f (around ls.length (n + 1)) hr.1 hr.2 (by omega) (by rw [around_succ h1]; exact hm)
      (fun i h => by rw [around_succ h1]; exact hi (i + 1) (by omega))
    rw [this, around_succ h1]

/-- The loop gives up at the current line. -/
theorem search_stops (m : Bytes → Bool) (ls : List Bytes) (cur : Int) : ∀ (j fuel n : Nat), 1 ≤ n → n ≤ ls.length → j < fuel →
    (∀ i ≤ j, ¬ LineMatches m ls (around ls.length (n + i))) →
    (∀ i < j, (around ls.length (n + i) : Int) ≠ cur) → (around ls.length (n + j) : Int) = cur →
    searchLoop m ls cur fuel n = some (.ok (-1, false)) := by
  intro j
  induction j with
  | zero =>
    intro fuel n h1 h2 hf hm _ hc
    obtain ⟨f, rfl⟩ : ∃ f, fuel = f + 1 := ⟨fuel - 1, by omega⟩
    have hm := hm 0 (by omega)
    simp only [Nat.add_zero, around_self h1 h2] at hm hc
    rw [lineMatches_iff _ _ _ (by omega)] at hm
    rw [searchStep m ls cur f n h1 h2, if_neg hm, if_pos hc]
  | succ j ih =>
    intro fuel n h1 h2 hf hm hi hc
    obtain ⟨f, rfl⟩ : ∃ f, fuel = f + 1 := ⟨fuel - 1, by omega⟩
    have n1 := hm 0 (by omega)
    have n2 := hi 0 (by omega)
    simp only [Nat.add_zero, around_self h1 h2] at n1 n2
    rw [lineMatches_iff _ _ _ (by omega)] at n1
    rw [searchStep m ls cur f n h1 h2, if_neg n1, if_neg n2]
    have hr := around_lt (x := n + 1) (len := ls.length) (by omega)
    exact ih f (around ls.length (n + 1)) hr.1 hr.2 (by omega) (fun i h => by rw [around_succ h1]; exact hm (i + 1) (by omega))
      (fun i h => by rw [around_succ h1]; exact hi (i + 1) (by omega)) (by rw [around_succ h1]; exact hc)

/-- Without a match and with the current line outside the buffer, no number of rounds ends the loop. -/
theorem search_forever (m : Bytes → Bool) (ls : List Bytes) (cur : Int) (hm : ∀ l ∈ ls, m l = false)
    (hc : ¬ (1 ≤ cur ∧ cur ≤ ls.length)) : ∀ (fuel n : Nat), 1 ≤ n → n ≤ ls.length → searchLoop m ls cur fuel n = none := by
  intro fuel
  induction fuel with
  | zero => intros; rfl
  | succ f ih =>
    intro n h1 h2
    have hr := around_lt (x := n + 1) (len := ls.length) (by omega)
    rw [searchStep m ls cur f n h1 h2, if_neg (by simp [hm]), if_neg (by omega)]
    exact ih _ hr.1 hr.2

theorem start_eq (cur len : Nat) : (cur : Int).tmod (len : Int) + 1 = ((around len (cur + 1) : Nat) : Int) := by
  simp only [around, Nat.add_sub_cancel]
  rw [← Int.ofNat_tmod]
  omega

/-- **C64** From a current line inside the buffer, `/re/` yields the first line after it (going round, the
current line being the last candidate) that matches: if the `k`-th line after the current one matches and
none before does, that is the answer. If no line matches, it reports failure. -/
theorem C64_forward_search (env : Env) {s : State} {ls : List Bytes} (h : Shows s ls) (hc : Clean ls) (cur : Nat)
    (hcur : s.currentLine = cur) (h1 : 1 ≤ cur) (h2 : cur ≤ ls.length) (re : Bytes) (m : Bytes → Bool)
    (hm : env.compile re = some m) :
    (∀ k, 1 ≤ k → k ≤ ls.length → LineMatches m ls (around ls.length (cur + k)) →
      (∀ j, 1 ≤ j → j < k → ¬ LineMatches m ls (around ls.length (cur + j))) →
      regexMatch env s re = .ok ((around ls.length (cur + k) : Nat), true)) ∧
    ((∀ l ∈ ls, m l = false) → regexMatch env s re = .ok (-1, false)) := by
  have hne : ls.length ≠ 0 := by omega
  have hr := around_lt (x := cur + 1) (len := ls.length) (by omega)
  -- the j-th candidate is the current line exactly for j = len - 1
  have notcur : ∀ i, i < ls.length - 1 → (around ls.length (around ls.length (cur + 1) + i) : Int) ≠ (cur : Int) := by
    intro i hi
    rw [around_succ h1]
    simp only [around]
    have e : cur + (i + 1) - 1 = cur + i := by omega
    rw [e]
    by_cases hlt : cur + i < ls.length
    · rw [Nat.mod_eq_of_lt hlt]; omega
    · rw [Nat.mod_eq_sub_mod (by omega), Nat.mod_eq_of_lt (by omega)]; omega
  have atcur : (around ls.length (around ls.length (cur + 1) + (ls.length - 1)) : Int) = (cur : Int) := by
    rw [around_succ h1]
    simp only [around]
    have e : cur + (ls.length - 1 + 1) - 1 = (cur - 1) + ls.length := by omega
    rw [e, Nat.add_mod_right, Nat.mod_eq_of_lt (by omega)]; omega
  refine ⟨fun k k1 k2 hk hj => ?_, fun hno => ?_⟩
  · simp only [regexMatch, getLines_shows h hc.plain, dropBlank_clean hc.lastNe, hm, hne, if_false, hcur, start_eq]
    have e : around ls.length (around ls.length (cur + 1) + (k - 1)) = around ls.length (cur + k) := by
      rw [around_succ h1]; congr 1; omega
    rw [search_found m ls cur (k - 1) ls.length _ hr.1 hr.2 (by omega) (by rw [e]; exact hk)
      (fun i hi => ⟨by
        have := hj (i + 1) (by omega) (by omega)
        rw [around_succ h1]; exact this, notcur i (by omega)⟩), e]
    rfl
  · simp only [regexMatch, getLines_shows h hc.plain, dropBlank_clean hc.lastNe, hm, hne, if_false, hcur, start_eq]
    rw [search_stops m ls cur (ls.length - 1) ls.length _ hr.1 hr.2 (by omega)
      (fun i hi ⟨l, e, ml⟩ => by rw [hno l (List.mem_of_getElem? e)] at ml; cases ml)
      (fun i hi => notcur i hi) atcur]
    rfl

/-- The searches of the examples: from line 3, the pattern `o` finds line 4 (`four`); from line 4 it goes
round to line 1; `z` is nowhere. -/
example : regexMatch demoEnv (opened demoLines 3) b!"o" = .ok (4, true) ∧
    regexMatch demoEnv (opened demoLines 4) b!"o" = .ok (1, true) ∧
    regexMatch demoEnv (opened demoLines 4) b!"z" = .ok (-1, false) :=
  ⟨(C64_forward_search demoEnv (opened_shows demoLines 3) demo_clean 3 rfl (by decide) (by decide) b!"o" _ rfl).1 1 (by decide)
      (by decide) ⟨b!"four", by decide, by decide⟩ (by intro j h1 h2; omega),
    (C64_forward_search demoEnv (opened_shows demoLines 4) demo_clean 4 rfl (by decide) (by decide) b!"o" _ rfl).1 1 (by decide)
      (by decide) ⟨b!"one", by decide, by decide⟩ (by intro j h1 h2; omega),
    (C64_forward_search demoEnv (opened_shows demoLines 4) demo_clean 4 rfl (by decide) (by decide) b!"z" _ rfl).2 (by decide)⟩

/-- **C64** (the exception) From line 0 or from a line past the end an unsuccessful search never stops: the
loop does not end within any number of rounds. -/
theorem C64_search_diverges (env : Env) {s : State} {ls : List Bytes} (h : Shows s ls) (hc : Clean ls) (hne : ls ≠ [])
    (cur : Nat) (hcur : s.currentLine = cur) (hout : cur = 0 ∨ ls.length < cur) (re : Bytes) (m : Bytes → Bool)
    (hm : env.compile re = some m) (hno : ∀ l ∈ ls, m l = false) :
    regexMatch env s re = .error .hang ∧
    ∀ fuel, searchLoop m ls s.currentLine fuel (s.currentLine.tmod ls.length + 1) = none := by
  have hl : 0 < ls.length := List.length_pos_iff.2 hne
  have hr := around_lt (x := cur + 1) (len := ls.length) hl
  have key : ∀ fuel, searchLoop m ls s.currentLine fuel (s.currentLine.tmod ls.length + 1) = none := by
    intro fuel
    rw [hcur, start_eq]
    exact search_forever m ls cur hno (by omega) fuel _ hr.1 hr.2
  refine ⟨?_, key⟩
  simp only [regexMatch, getLines_shows h hc.plain, dropBlank_clean hc.lastNe, hm]
  rw [if_neg (by omega), key]

/-- The situation arises: after `$a` the current line is two past the old end, one past the new one, so the
next unsuccessful search hangs. -/
theorem C64_hangs_after_append : ∃ s', processCommand demoEnv (opened demoLines 4)
      { typ := .append, start := aLast, text := b!"x" } = .ok (s', []) ∧
    processCommand demoEnv s' { typ := .print, start := ⟨.regex, b!"/z/", 0⟩, end_ := ⟨.regex, b!"/z/", 0⟩ } = .error .hang := by
  obtain ⟨s', e, sh, hcur, _⟩ := step_refines demoEnv (st := ⟨demoLines, 4⟩) (opened_shows demoLines 4) demo_clean rfl (by decide)
    (c := { typ := .append, start := aLast, text := b!"x" }) (sc := .append .last [b!"x"]) ⟨rfl, ⟨rfl, rfl⟩, rfl⟩
    ⟨by decide, by decide, plain_of _ (by decide)⟩ (clean_of _ (by decide) (by decide)) (by decide)
  refine ⟨s', e, ?_⟩
  have hd := (C64_search_diverges demoEnv sh (clean_of _ (by decide) (by decide)) (by decide) 6 hcur (by decide) b!"z" _ rfl
    (by decide)).1
  have ha : addrLine demoEnv s' ⟨.regex, b!"/z/", 0⟩ = .error .hang := by
    simp only [addrLine, show trimSlash b!"/z/" = b!"z" by decide, hd]
  simp only [processCommand, setDefault_given { typ := .print, start := ⟨.regex, b!"/z/", 0⟩, end_ := ⟨.regex, b!"/z/", 0⟩ } (by decide), ha]
  rfl

/-- **C64** An expression that is not well formed is not found, in any readable buffer and from any current line. -/
theorem C64_bad_expression (env : Env) {s : State} {ls : List Bytes} (h : Shows s ls) (hp : ∀ l ∈ ls, PlainLine l) (re : Bytes)
    (hm : env.compile re = none) : regexMatch env s re = .ok (-1, false) := by
  simp only [regexMatch, getLines_shows h hp, hm]

example : regexMatch { demoEnv with compile := fun _ => none } (opened demoLines 9) b!"[" = .ok (-1, false) :=
  C64_bad_expression { demoEnv with compile := fun _ => none } (opened_shows demoLines 9) demo_clean.plain b!"[" rfl

/-- **C64** A search in an empty buffer divides by zero. -/
theorem C64_search_empty (env : Env) {s : State} (h : Shows s []) (re : Bytes) (m : Bytes → Bool)
    (hm : env.compile re = some m) : regexMatch env s re = .error (.panic .divZero) := by
  simp [regexMatch, getLines_shows h (by simp), hm, dropBlank]

example : regexMatch demoEnv (opened [] 0) b!"a" = .error (.panic .divZero) :=
  C64_search_empty demoEnv (opened_shows [] 0) b!"a" _ rfl

/-! ## C65 -/

/-- cmd/ed/main.go:14-17: the editor when no file is given (`&ed.Itor{}`). -/
def noFile (fs : FS) : State := { pt := Txt.zero, filename := [], currentLine := 0, fs := fs, writes := 0 }

/-- A table with text but no buffer to append to. -/
def Broken (pt : Txt.PieceTable) : Prop := pt.append = none ∧ pt.pieces ≠ []

theorem insertLoop_none (x : Bytes) (a : Int) : ∀ (ps : List Txt.Piece) (i : Int), ∃ e, Txt.insertLoop none x a i ps = .error e := by
  intro ps
  induction ps with
  | nil => intro i; exact ⟨_, rfl⟩
  | cons p ps ih =>
    intro i
    simp only [Txt.insertLoop]
    split
    · exact ⟨_, rfl⟩
    · obtain ⟨e, he⟩ := ih (i + p.length)
      exact ⟨e, by rw [he]; rfl⟩

theorem broken_insert {pt : Txt.PieceTable} (h : Broken pt) (x : Bytes) (a : Int) : ∃ e, pt.insert x a = .error e := by
  obtain ⟨e, he⟩ := insertLoop_none x a pt.pieces 0
  refine ⟨e, ?_⟩
  simp only [Txt.PieceTable.insert, h.1]
  have h2 := h.2
  split
  · contradiction
  · rw [he]; rfl

theorem broken_delete {pt : Txt.PieceTable} (h : Broken pt) (n a : Int) : Broken (pt.delete n a) :=
  ⟨h.1, Txt.deleteLoop_ne _ _ _ _ _ h.2⟩

theorem broken_insertBefore {s : State} (h : Broken s.pt) (n : Int) (x : Bytes) : ∃ e, insertBeforeLine s n x = .error e := by
  simp only [insertBeforeLine]
  cases getLineAddr s n with
  | error e => exact ⟨e, rfl⟩
  | ok a =>
    obtain ⟨e, he⟩ := broken_insert h (x ++ [nl]) a
    exact ⟨e, by simp only [he]⟩

theorem broken_deleteLines {s s' : State} (h : Broken s.pt) {a b : Int} (e : delete s a b = .ok s') : Broken s'.pt := by
  simp only [delete] at e
  cases ha : getLineAddr s a with
  | error p => simp [ha] at e
  | ok x =>
    cases hb : getLineAddr s (wrap64 (b + 1)) with
    | error p => simp [ha, hb] at e
    | ok y =>
      simp only [ha, hb, Except.ok.injEq] at e
      subst e
      exact broken_delete h _ _

/-- In a broken editor `a`, `i` and `c` never return, and all other commands that do not load a file leave
it broken. -/
theorem broken_step (env : Env) {s : State} (h : Broken s.pt) (c : Command) :
    (c.typ = .append ∨ c.typ = .insert ∨ c.typ = .change → ∃ f, processCommand env s c = .error f) ∧
    (c.typ ≠ .edit → c.typ ≠ .write → ∀ s' out, processCommand env s c = .ok (s', out) → Broken s'.pt) := by
  have bindErr : ∀ {α β : Type} (x : R α) (f : α → R β), (∀ a, x = .ok a → ∃ e, f a = .error e) → ∃ e, (x >>= f) = .error e := by
    intro α β x f hf
    cases x with
    | error e => exact ⟨e, rfl⟩
    | ok a => exact hf a rfl
  have bindOk : ∀ {α β : Type} {x : R α} {f : α → R β} {b : β}, (x >>= f) = .ok b → ∃ a, x = .ok a ∧ f a = .ok b := by
    intro α β x f b hb
    cases x with
    | error e => cases hb
    | ok a => exact ⟨a, rfl, hb⟩
  have liftOk : ∀ {α : Type} {x : M α} {a : α}, lift x = .ok a → x = .ok a := by
    intro α x a hx
    cases x with
    | error e => cases hx
    | ok b => cases hx; rfl
  have ins : ∀ (s : State), Broken s.pt → ∀ n x, ∃ e, lift (insertBeforeLine s n x) = .error e := by
    intro s hs n x
    obtain ⟨e, he⟩ := broken_insertBefore hs n x
    exact ⟨_, by rw [he]; rfl⟩
  have part1 : c.typ = .append ∨ c.typ = .insert ∨ c.typ = .change → ∃ f, processCommand env s c = .error f := by
    rintro (ht | ht | ht)
    · simp only [processCommand, typ_setDefault, ht]
      refine bindErr _ _ fun a _ => bindErr _ _ fun s1 h1 => ?_
      obtain ⟨e, he⟩ := ins s h (wrap64 (a + 1)) (setDefaultAddresses c).text
      rw [he] at h1; cases h1
    · simp only [processCommand, typ_setDefault, ht]
      refine bindErr _ _ fun a _ => bindErr _ _ fun s1 h1 => ?_
      obtain ⟨e, he⟩ := ins s h a (setDefaultAddresses c).text
      rw [he] at h1; cases h1
    · simp only [processCommand, typ_setDefault, ht]
      refine bindErr _ _ fun a _ => bindErr _ _ fun b _ => bindErr _ _ fun s1 h1 => bindErr _ _ fun d _ => bindErr _ _ fun s2 h2 => ?_
      obtain ⟨e, he⟩ := ins s1 (broken_deleteLines h (liftOk h1)) d (setDefaultAddresses c).text
      rw [he] at h2; cases h2
  refine ⟨part1, fun n1 n2 s' out hp => ?_⟩
  by_cases hed : c.typ = .append ∨ c.typ = .insert ∨ c.typ = .change
  · obtain ⟨f, hf⟩ := part1 hed
    rw [hf] at hp; cases hp
  simp only [not_or] at hed
  simp only [processCommand, typ_setDefault] at hp
  split at hp
  · rename_i ht; exact absurd ht n1
  · obtain ⟨_, _, hp⟩ := bindOk hp
    obtain ⟨_, _, hp⟩ := bindOk hp
    obtain ⟨_, _, hp⟩ := bindOk hp
    cases hp; exact h
  · obtain ⟨_, _, hp⟩ := bindOk hp
    obtain ⟨_, _, hp⟩ := bindOk hp
    obtain ⟨_, _, hp⟩ := bindOk hp
    cases hp; exact h
  · obtain ⟨_, _, hp⟩ := bindOk hp
    obtain ⟨_, _, hp⟩ := bindOk hp
    cases hp; exact h
  · rename_i ht; exact absurd ht n2
  · obtain ⟨_, _, hp⟩ := bindOk hp
    obtain ⟨_, _, hp⟩ := bindOk hp
    obtain ⟨s1, h1, hp⟩ := bindOk hp
    obtain ⟨_, _, hp⟩ := bindOk hp
    cases hp; exact (broken_deleteLines h (liftOk h1) : Broken s1.pt)
  · rename_i ht; exact absurd ht hed.1
  · rename_i ht; exact absurd ht hed.2.1
  · rename_i ht; exact absurd ht hed.2.2
  · obtain ⟨_, _, hp⟩ := bindOk hp
    cases hp; exact h
  · cases hp; exact h

theorem ok_bind {α β : Type} (a : α) (f : α → R β) : ((Except.ok a : R α) >>= f) = f a := rfl

/-- **C65** Started without a file, the first `a` or `i` (at any of the addresses 0, `.`, `$`, or any number)
succeeds and the buffer is the text; after that, whatever commands other than `e` and `w` are given, the next
`a`, `i` or `c` does not return. -/
theorem C65_no_file (env : Env) (fs : FS) (c : Command) (hc : c.typ = .append ∨ c.typ = .insert) (sa : SAddr)
    (ha : Denotes (setDefaultAddresses c).start sa) (hb : sa.eval ⟨[], 0⟩ < 2 ^ 62) :
    ∃ s1, processCommand env (noFile fs) c = .ok (s1, []) ∧ s1.pt.string = .ok (c.text ++ [nl]) ∧
      ∀ (cs : List Command) (c2 : Command), (∀ d ∈ cs, d.typ ≠ .edit ∧ d.typ ≠ .write) →
        (c2.typ = .append ∨ c2.typ = .insert ∨ c2.typ = .change) →
        ∃ f, runAll env s1 (cs ++ [c2]) = .error f := by
  have hz : (noFile fs).pt.string = .ok [] := (Txt.C06_zero_value [] [] 0 0).1
  have hg : getLines (noFile fs) = .ok [] := by simp only [getLines, scanned, hz]; rfl
  have eval : addrLine env (noFile fs) (setDefaultAddresses c).start = .ok ((sa.eval ⟨[], 0⟩ : Nat) : Int) := by
    cases sa with
    | num n =>
      obtain ⟨h1, h2, h3, h4, h5⟩ := ha
      simp only [SAddr.eval] at hb ⊢
      simp only [addrLine, h1, h2, atoi_digits _ h3 h4, h5]
      rw [if_pos (by omega)]
      simp only [Int.add_zero]
      rw [wrap64_id (by omega) (by omega)]
    | dot =>
      obtain ⟨h1, h2⟩ := ha
      simp only [addrLine, h1, h2, SAddr.eval, noFile]
      rw [wrap64_id (by omega) (by omega)]; rfl
    | last =>
      obtain ⟨h1, h2⟩ := ha
      simp only [addrLine, h1, h2, hg, SAddr.eval]
      rw [wrap64_id (by simp) (by simp)]; rfl
  have addr0 : ∀ n : Nat, (n : Int) < 2 ^ 63 → getLineAddr (noFile fs) n = .ok 0 := by
    intro n hn
    simp only [getLineAddr, hg]
    by_cases h0 : (n : Int) > (([] : List Bytes).length : Nat)
    · rw [if_pos h0]; rfl
    · rw [if_neg h0]
      simp at h0
      have : n = 0 := by omega
      subst this
      rw [wrap64_id (by omega) (by omega)]
      rfl
  have insd : ∀ n : Nat, (n : Int) < 2 ^ 63 → ∃ pt, insertBeforeLine (noFile fs) n c.text = .ok { noFile fs with pt := pt } ∧
      pt.string = .ok (c.text ++ [nl]) ∧ Broken pt := by
    intro n hn
    obtain ⟨_, pt, e, st, _⟩ := Txt.C06_zero_value (c.text ++ [nl]) [] 0 0
    have e' : (noFile fs).pt.insert (c.text ++ [nl]) 0 = .ok pt := e
    refine ⟨pt, by simp only [insertBeforeLine, addr0 n hn, e'], st, ?_⟩
    have : pt = { Txt.zero with pieces := [{ length := (c.text ++ [nl]).length, offset := 0, reader := .mem (c.text ++ [nl]) }] } := by
      have : Txt.zero.insert (c.text ++ [nl]) 0 = .ok _ := rfl
      rw [this] at e; cases e; rfl
    subst this
    exact ⟨rfl, by simp⟩
  have rest : ∀ s1 : State, Broken s1.pt → ∀ (cs : List Command) (c2 : Command), (∀ d ∈ cs, d.typ ≠ .edit ∧ d.typ ≠ .write) →
      (c2.typ = .append ∨ c2.typ = .insert ∨ c2.typ = .change) → ∃ f, runAll env s1 (cs ++ [c2]) = .error f := by
    intro s1 h cs
    induction cs generalizing s1 with
    | nil =>
      intro c2 _ h2
      obtain ⟨f, hf⟩ := (broken_step env h c2).1 h2
      exact ⟨f, by simp [runAll, hf]⟩
    | cons d ds ih =>
      intro c2 hd h2
      simp only [List.cons_append, runAll]
      cases hp : processCommand env s1 d with
      | error f => exact ⟨f, rfl⟩
      | ok r =>
        obtain ⟨s2, out⟩ := r
        have hb2 := (broken_step env h d).2 (hd d (by simp)).1 (hd d (by simp)).2 s2 out hp
        obtain ⟨f, hf⟩ := ih s2 hb2 c2 (fun x hx => hd x (by simp [hx])) h2
        exact ⟨f, by simp only [hf]⟩
  generalize sa.eval ⟨[], 0⟩ = n at *
  rcases hc with ht | ht
  · obtain ⟨pt, e, st, br⟩ := insd (n + 1) (by omega)
    have hw : wrap64 ((n : Int) + 1) = ((n + 1 : Nat) : Int) := by
      rw [wrap64_id (by omega) (by omega)]; omega
    obtain ⟨w, hw2⟩ : ∃ w, w = wrap64 (((n + 1 : Nat) : Int) + linesIn c.text) := ⟨_, rfl⟩
    refine ⟨{ noFile fs with pt := pt, currentLine := w }, ?_, st, rest _ br⟩
    simp only [processCommand, typ_setDefault, text_setDefault, ht]
    rw [eval, ok_bind, hw, e, lift, ok_bind, ← hw2]
    rfl
  · obtain ⟨pt, e, st, br⟩ := insd n (by omega)
    refine ⟨{ noFile fs with pt := pt }, ?_, st, rest _ br⟩
    simp only [processCommand, typ_setDefault, text_setDefault, ht, eval, bind, Except.bind, e, lift]
    rfl

example (fs : FS) : ∃ s1, processCommand demoEnv (noFile fs) { typ := .append, text := b!"hi" } = .ok (s1, []) ∧
    s1.pt.string = .ok (b!"hi" ++ [nl]) ∧ ∃ f, runAll demoEnv s1 ([{ typ := .print }] ++ [{ typ := .insert }]) = .error f := by
  obtain ⟨s1, h1, h2, h3⟩ := C65_no_file demoEnv fs { typ := .append, text := b!"hi" } (Or.inl rfl) .dot ⟨rfl, rfl⟩ (by decide)
  exact ⟨s1, h1, h2, h3 [{ typ := .print }] { typ := .insert } (by decide) (by decide)⟩

end Ed
