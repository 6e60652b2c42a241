import Verif.Ed.Alike

/-! # C178: one test settles what a script without searches does

C177 says that such a script does the same with the lines of every file of a given size. So one run on one file whose lines can be told apart, from
each other and from the lines typed, is enough: two scripts that leave the same in that file leave the same in every file with that number of
lines. If lines cannot be told apart, it is not enough. -/

namespace Ed
open Go

/-- All the marks of a trial have a property. -/
def Trial.All {α : Type} (P : α → Prop) (d : Trial α) : Prop := (∀ m ∈ d.lines, P m) ∧ ∀ s, d.saved = some s → ∀ m ∈ s, P m

theorem with_done {α : Type} {o : Option Goal} {f : Int → TFate α} {d1 : Trial α} {w : Display α} (h : TFate.with o f = .done d1 w) :
    ∃ v, f v = .done d1 w := by
  cases o with
  | none => cases h
  | some v =>
    cases v with
    | line n => exact ⟨n, h⟩
    | crash | never => cases h

/-- No marks come from anywhere but the buffer and the text typed. -/
theorem tryOut_all {α : Type} {P : α → Prop} {ty : Bytes → α} {mb : α → Bool} {mt : Bytes → Option (Option (α → Bool))} {room : Nat → Nat} {c : TCmd} {d d1 : Trial α} {w : Display α}
    (h : tryOut ty mb mt room c d = .done d1 w) (hd : d.All P) (ht : ∀ l ∈ c.text, P (ty l)) : d1.All P := by
  obtain ⟨r, v⟩ := c
  have cut : ∀ {L : List α} {i j : Nat}, (∀ m ∈ L, P m) → ∀ m ∈ L.take i ++ L.drop j, P m := by
    intro L i j hL m hm
    rcases List.mem_append.1 hm with hm | hm
    · exact hL m (List.mem_of_mem_take hm)
    · exact hL m (List.mem_of_mem_drop hm)
  have put : ∀ {L : List α} {i : Nat} {t : List Bytes}, (∀ m ∈ L, P m) → (∀ l ∈ t, P (ty l)) → ∀ m ∈ L.take i ++ t.map ty ++ L.drop i, P m := by
    intro L i t hL ht m hm
    simp only [List.mem_append, List.mem_map] at hm
    rcases hm with (hm | ⟨l, hl, rfl⟩) | hm
    · exact hL m (List.mem_of_mem_take hm)
    · exact ht l hl
    · exact hL m (List.mem_of_mem_drop hm)
  cases v with
  | print =>
    obtain ⟨a, h⟩ := with_done h
    obtain ⟨b, h⟩ := with_done h
    split at h <;> cases h
    exact hd
  | number =>
    obtain ⟨a, h⟩ := with_done h
    obtain ⟨b, h⟩ := with_done h
    split at h
    · cases h; exact hd
    · split at h <;> cases h
      exact hd
  | equals =>
    obtain ⟨a, h⟩ := with_done h
    cases h; exact hd
  | null =>
    obtain ⟨a, h⟩ := with_done h
    split at h <;> cases h
    exact ⟨hd.1, hd.2⟩
  | delete =>
    obtain ⟨a, h⟩ := with_done h
    obtain ⟨b, h⟩ := with_done h
    simp only at h
    split at h
    · cases h
    · split at h
      · obtain ⟨c, h⟩ := with_done h
        cases h
        exact ⟨cut hd.1, hd.2⟩
      · cases h
  | append t =>
    obtain ⟨a, h⟩ := with_done h
    split at h
    · cases h
    · split at h <;> cases h
      exact ⟨put hd.1 ht, hd.2⟩
  | insert t =>
    obtain ⟨a, h⟩ := with_done h
    split at h
    · cases h
    · split at h <;> cases h
      exact ⟨put hd.1 ht, hd.2⟩
  | change t =>
    obtain ⟨a, h⟩ := with_done h
    obtain ⟨b, h⟩ := with_done h
    simp only at h
    split at h
    · cases h
    · split at h
      · obtain ⟨a1, h⟩ := with_done h
        split at h
        · cases h
        · split at h
          · obtain ⟨a2, h⟩ := with_done h
            cases h
            exact ⟨put (cut hd.1) ht, hd.2⟩
          · cases h
      · cases h
  | write =>
    cases h
    refine ⟨hd.1, ?_⟩
    intro s hs
    cases hs
    exact hd.1
  | edit n => cases h
  | unsupported l => cases h; exact hd

theorem tryAll_all {α : Type} {P : α → Prop} {ty : Bytes → α} {mb : α → Bool} {mt : Bytes → Option (Option (α → Bool))} {room : Nat → Nat} : ∀ (cs : List TCmd) {d d1 : Trial α} {os : List (Display α)} {x : Outlook},
    tryAll ty mb mt room cs d = some (d1, os, x) → d.All P → (∀ c ∈ cs, ∀ l ∈ c.text, P (ty l)) → d1.All P := by
  intro cs
  induction cs with
  | nil =>
    intro d d1 os x h hd _
    simp only [tryAll, Option.some.injEq, Prod.mk.injEq] at h
    rw [← h.1]; exact hd
  | cons c cs ih =>
    intro d d1 os x h hd ht
    simp only [tryAll] at h
    cases hc : tryOut ty mb mt room c d with
    | done d2 o =>
      rw [hc] at h
      simp only [Option.map_eq_some_iff, Prod.mk.injEq] at h
      obtain ⟨⟨d3, os3, x3⟩, h, rfl, -, -⟩ := h
      exact ih h (tryOut_all hc hd (ht c (by simp))) (fun c hc => ht c (by simp [hc]))
    | crash =>
      rw [hc] at h
      simp only [Option.some.injEq, Prod.mk.injEq] at h
      rw [← h.1]; exact hd
    | never =>
      rw [hc] at h
      simp only [Option.some.injEq, Prod.mk.injEq] at h
      rw [← h.1]; exact hd
    | unsaid => rw [hc] at h; cases h

/-- The marks of a file of `n` lines and of the lines typed. -/
def Known (n : Nat) (typed : List Bytes) : Nat ⊕ Bytes → Prop
  | .inl i => i < n
  | .inr l => l ∈ typed

theorem numbers_known (n : Nat) (typed : List Bytes) : (numbers n).All (Known n typed) := by
  refine ⟨?_, by intro s hs; cases hs⟩
  intro m hm
  simp only [numbers, List.mem_map, List.mem_range] at hm
  obtain ⟨i, hi, rfl⟩ := hm
  exact hi

theorem told_apart {ws typed : List Bytes} (hnd : ws.Nodup) (hty : ∀ l ∈ typed, l ∉ ws) {m m' : Nat ⊕ Bytes} (h : Known ws.length typed m)
    (h' : Known ws.length typed m') (e : lineFor ws m = lineFor ws m') : m = m' := by
  cases m with
  | inl i =>
    have hi : i < ws.length := h
    cases m' with
    | inl j =>
      have hj : j < ws.length := h'
      simp only [lineFor, List.getD_eq_getElem?_getD, List.getElem?_eq_getElem hi, List.getElem?_eq_getElem hj, Option.getD_some] at e
      rw [(List.getElem_inj hnd).1 e]
    | inr l =>
      simp only [lineFor, List.getD_eq_getElem?_getD, List.getElem?_eq_getElem hi, Option.getD_some] at e
      exact absurd (e ▸ List.getElem_mem hi) (hty l h')
  | inr l =>
    cases m' with
    | inl j =>
      have hj : j < ws.length := h'
      simp only [lineFor, List.getD_eq_getElem?_getD, List.getElem?_eq_getElem hj, Option.getD_some] at e
      exact absurd (e ▸ List.getElem_mem hj) (hty l h)
    | inr l' => simp only [lineFor] at e; rw [e]

theorem marks_inj {ws typed : List Bytes} (hnd : ws.Nodup) (hty : ∀ l ∈ typed, l ∉ ws) : ∀ {ms ms' : List (Nat ⊕ Bytes)},
    (∀ m ∈ ms, Known ws.length typed m) → (∀ m ∈ ms', Known ws.length typed m) → ms.map (lineFor ws) = ms'.map (lineFor ws) → ms = ms' := by
  intro ms
  induction ms with
  | nil => intro ms' _ _ e; cases ms' with
    | nil => rfl
    | cons => cases e
  | cons m ms ih =>
    intro ms' h h' e
    cases ms' with
    | nil => cases e
    | cons m' ms' =>
      simp only [List.map_cons, List.cons.injEq] at e
      rw [told_apart hnd hty (h m (by simp)) (h' m' (by simp)) e.1, ih (fun m hm => h m (by simp [hm])) (fun m hm => h' m (by simp [hm])) e.2]

/-- What the run of a script on a file leaves in the file. -/
def Leaves (env : Env) (cs : List TCmd) (ls : List Bytes) (t : Bytes) : Prop :=
  ∃ (errText : Bytes → Bytes) (s0 : State) (name : Bytes) (quits : Bool) (st : Sys) (how : End),
    NameOK name ∧ PlainLine (b!"e " ++ name) ∧ s0.fs name = some (unlines ls) ∧
    Steps env (initial errText s0 (mainInput (some name) (unlines (cs.flatMap TCmd.typed ++ lastLine quits)))) st ∧
    st.cons.ended = some how ∧ st.ed.fs name = some t

/-- Scripts that C177 and C179 speak of: command lines and text that can be typed, tried on `n` lines of which some may be blank, with nothing left open. -/
structure Tried (env : Env) (n : Nat) (bs : List Nat) (mt : Bytes → Option (Option (Nat ⊕ Bytes → Bool))) (cs : List TCmd) : Prop where
  wf : ∀ c ∈ cs, c.WF ∧ c.Texts
  plain : ∀ l ∈ cs.flatMap TCmd.typed, PlainLine l
  firm : firm (blankAt bs) (numbers n).lines
  said : (tryAll .inr (blankAt bs) mt (room env) cs (numbers n)).isSome

theorem leaves_tried {env : Env} (hsave : Saves env) (hmem : Memory env) {n : Nat} {bs : List Nat}
    {mt : Bytes → Option (Option (Nat ⊕ Bytes → Bool))} (hk : Knows env.compile mt) {cs : List TCmd} (h : Tried env n bs mt cs) {d' : Trial (Nat ⊕ Bytes)}
    {os : List (Display (Nat ⊕ Bytes))} {x : Outlook} (htry : tryAll .inr (blankAt bs) mt (room env) cs (numbers n) = some (d', os, x)) {ls : List Bytes}
    (hls : Fits n bs ls) (hmt : Matched env.compile mt ls (cs.flatMap TCmd.text)) (hsz : (unlines ls).length + (unlines (cs.flatMap TCmd.text)).length < 2 ^ 61) {t : Bytes} (hl : Leaves env cs ls t) :
    t = unlines ((d'.saved.getD (numbers n).lines).map (lineFor ls)) := by
  obtain ⟨errText, s0, name, quits, st, how, hnm, hnp, hfs, hs, he, ht⟩ := hl
  obtain ⟨-, -, -, h4⟩ := C179_every_file env hsave hmem n bs h.firm mt hk cs h.wf h.plain d' os x htry ls hls hmt hsz errText s0 name hnm hnp hfs quits st how hs he
  rw [h4, Option.some.injEq] at ht
  rw [← ht]
  obtain ⟨rfl, -, -⟩ := hls
  cases d'.saved with
  | none => simp only [Option.elim, Option.getD, numbers, numbers_of]
  | some ms => rfl

theorem saved_known {n : Nat} {typed : List Bytes} {d : Trial (Nat ⊕ Bytes)} (h : d.All (Known n typed)) :
    ∀ m ∈ d.saved.getD (numbers n).lines, Known n typed m := by
  cases hs : d.saved with
  | none => exact (numbers_known n typed).1
  | some s => exact h.2 s hs

theorem unknown_knows {α : Type} (comp : Bytes → Option (Bytes → Bool)) : Knows (α := α) comp unknown := fun _ => ⟨nofun, nofun⟩

theorem one_test (env : Env) (hsave : Saves env) (hmem : Memory env) (n : Nat) (bs : List Nat)
    (mt : Bytes → Option (Option (Nat ⊕ Bytes → Bool))) (hk : Knows env.compile mt) (cs1 cs2 : List TCmd)
    (h1 : Tried env n bs mt cs1) (h2 : Tried env n bs mt cs2)
    (ws : List Bytes) (hws : Fits n bs ws) (hwm : Matched env.compile mt ws ((cs1 ++ cs2).flatMap TCmd.text)) (hnd : ws.Nodup) (hty : ∀ l ∈ (cs1 ++ cs2).flatMap TCmd.text, l ∉ ws)
    (hwsz : (unlines ws).length + (unlines ((cs1 ++ cs2).flatMap TCmd.text)).length < 2 ^ 61)
    (t : Bytes) (hr1 : Leaves env cs1 ws t) (hr2 : Leaves env cs2 ws t)
    (ls : List Bytes) (hls : Fits n bs ls) (hlm : Matched env.compile mt ls ((cs1 ++ cs2).flatMap TCmd.text))
    (hsz : (unlines ls).length + (unlines ((cs1 ++ cs2).flatMap TCmd.text)).length < 2 ^ 61)
    (t1 t2 : Bytes) (hl1 : Leaves env cs1 ls t1) (hl2 : Leaves env cs2 ls t2) : t1 = t2 := by
  obtain ⟨⟨d1, os1, x1⟩, e1⟩ := Option.isSome_iff_exists.1 h1.said
  obtain ⟨⟨d2, os2, x2⟩, e2⟩ := Option.isSome_iff_exists.1 h2.said
  simp only [List.flatMap_append, unlines_append, List.length_append] at hwsz hsz
  have sub1 : ∀ {xs}, Matched env.compile mt xs ((cs1 ++ cs2).flatMap TCmd.text) → Matched env.compile mt xs (cs1.flatMap TCmd.text) :=
    fun h re f hf m hm => ⟨(h re f hf m hm).1, fun l hl => (h re f hf m hm).2 l (by rw [List.flatMap_append, List.mem_append]; exact .inl hl)⟩
  have sub2 : ∀ {xs}, Matched env.compile mt xs ((cs1 ++ cs2).flatMap TCmd.text) → Matched env.compile mt xs (cs2.flatMap TCmd.text) :=
    fun h re f hf m hm => ⟨(h re f hf m hm).1, fun l hl => (h re f hf m hm).2 l (by rw [List.flatMap_append, List.mem_append]; exact .inr hl)⟩
  have w1 := leaves_tried hsave hmem hk h1 e1 hws (sub1 hwm) (by omega) hr1
  have w2 := leaves_tried hsave hmem hk h2 e2 hws (sub2 hwm) (by omega) hr2
  have l1 := leaves_tried hsave hmem hk h1 e1 hls (sub1 hlm) (by omega) hl1
  have l2 := leaves_tried hsave hmem hk h2 e2 hls (sub2 hlm) (by omega) hl2
  have k1 : d1.All (Known n ((cs1 ++ cs2).flatMap TCmd.text)) := tryAll_all cs1 e1 (numbers_known _ _)
    (fun c hc l hl => List.mem_flatMap.2 ⟨c, by simp [hc], hl⟩)
  have k2 : d2.All (Known n ((cs1 ++ cs2).flatMap TCmd.text)) := tryAll_all cs2 e2 (numbers_known _ _)
    (fun c hc l hl => List.mem_flatMap.2 ⟨c, by simp [hc], hl⟩)
  have s1 := saved_known k1
  have s2 := saved_known k2
  have noNL : ∀ {cs : List TCmd}, Tried env n bs mt cs → ∀ l ∈ cs.flatMap TCmd.text, nl ∉ l := by
    intro cs hc l hl
    obtain ⟨c, hcs, hl⟩ := List.mem_flatMap.1 hl
    refine (hc.plain l (List.mem_flatMap.2 ⟨c, hcs, ?_⟩)).noNL
    obtain ⟨r, v⟩ := c
    cases v <;> simp only [TCmd.text, List.not_mem_nil] at hl <;> simp [TCmd.typed, hl]
  have lines : ∀ {ms : List (Nat ⊕ Bytes)}, (∀ m ∈ ms, Known n ((cs1 ++ cs2).flatMap TCmd.text) m) → ∀ l ∈ ms.map (lineFor ws), nl ∉ l := by
    intro ms hms l hl
    obtain ⟨m, hm, rfl⟩ := List.mem_map.1 hl
    have hk := hms m hm
    cases m with
    | inl i =>
      have hi : i < ws.length := by rw [hws.len]; exact hk
      simp only [lineFor, List.getD_eq_getElem?_getD, List.getElem?_eq_getElem hi, Option.getD_some]
      exact (hws.plain _ (List.getElem_mem hi)).noNL
    | inr l =>
      have hk : l ∈ (cs1 ++ cs2).flatMap TCmd.text := hk
      rw [List.flatMap_append, List.mem_append] at hk
      exact hk.elim (noNL h1 l) (noNL h2 l)
  have e : (d1.saved.getD (numbers n).lines).map (lineFor ws) = (d2.saved.getD (numbers n).lines).map (lineFor ws) := by
    rw [← rawLines_unlines _ (lines s1), ← rawLines_unlines _ (lines s2), ← w1, ← w2]
  rw [l1, l2]
  obtain ⟨rfl, -, -⟩ := hws
  rw [marks_inj hnd hty s1 s2 e]

/-- **C178** One test is enough. Two scripts that leave the same in one file of `n` lines, all different and none of them typed in the scripts,
leave the same in every file of `n` lines, whatever the schedules. `bs` are the lines that may be blank. -/
theorem C178_one_test (env : Env) (hsave : Saves env) (hmem : Memory env) (n : Nat) (bs : List Nat) (cs1 cs2 : List TCmd)
    (h1 : Tried env n bs unknown cs1) (h2 : Tried env n bs unknown cs2)
    (ws : List Bytes) (hws : Fits n bs ws) (hnd : ws.Nodup) (hty : ∀ l ∈ (cs1 ++ cs2).flatMap TCmd.text, l ∉ ws)
    (hwsz : (unlines ws).length + (unlines ((cs1 ++ cs2).flatMap TCmd.text)).length < 2 ^ 61)
    (t : Bytes) (hr1 : Leaves env cs1 ws t) (hr2 : Leaves env cs2 ws t)
    (ls : List Bytes) (hls : Fits n bs ls)
    (hsz : (unlines ls).length + (unlines ((cs1 ++ cs2).flatMap TCmd.text)).length < 2 ^ 61)
    (t1 t2 : Bytes) (hl1 : Leaves env cs1 ls t1) (hl2 : Leaves env cs2 ls t2) : t1 = t2 :=
  one_test env hsave hmem n bs unknown (unknown_knows _) cs1 cs2 h1 h2 ws hws nofun hnd hty hwsz t hr1 hr2 ls hls nofun hsz t1 t2 hl1 hl2

/-- **C179** One test is enough for scripts with searches, too: two scripts that leave the same in one file, its lines all different and none of them
typed in the scripts, leave the same in every file whose lines are matched by the same of the expressions. -/
theorem C179_one_test (env : Env) (hsave : Saves env) (hmem : Memory env) (n : Nat) (bs : List Nat) (es : List Bytes) (cs1 cs2 : List TCmd)
    (ws : List Bytes) (h1 : Tried env n bs (table env.compile es ws) cs1) (h2 : Tried env n bs (table env.compile es ws) cs2)
    (hws : Fits n bs ws) (hnd : ws.Nodup) (hty : ∀ l ∈ (cs1 ++ cs2).flatMap TCmd.text, l ∉ ws)
    (hwsz : (unlines ws).length + (unlines ((cs1 ++ cs2).flatMap TCmd.text)).length < 2 ^ 61)
    (t : Bytes) (hr1 : Leaves env cs1 ws t) (hr2 : Leaves env cs2 ws t)
    (ls : List Bytes) (hls : Fits n bs ls) (hsame : SameHits env.compile es ws ls)
    (hsz : (unlines ls).length + (unlines ((cs1 ++ cs2).flatMap TCmd.text)).length < 2 ^ 61)
    (t1 t2 : Bytes) (hl1 : Leaves env cs1 ls t1) (hl2 : Leaves env cs2 ls t2) : t1 = t2 :=
  one_test env hsave hmem n bs _ (table_knows _ _ _) cs1 cs2 h1 h2 ws hws (table_matched rfl (fun _ _ _ _ _ _ _ h h' => by rw [h] at h'; rw [Option.some.inj h']) _)
    hnd hty hwsz t hr1 hr2 ls hls (table_matched (by rw [hws.len, hls.len]) hsame _) hsz t1 t2 hl1 hl2

/-- **C178** A script that can be tried leaves something in every file, and always the same. -/
theorem C178_leaves {env : Env} (hsave : Saves env) (hmem : Memory env) {n : Nat} {bs : List Nat}
    {mt : Bytes → Option (Option (Nat ⊕ Bytes → Bool))} (hk : Knows env.compile mt) {cs : List TCmd} (h : Tried env n bs mt cs) {d' : Trial (Nat ⊕ Bytes)}
    {os : List (Display (Nat ⊕ Bytes))} {x : Outlook} (htry : tryAll .inr (blankAt bs) mt (room env) cs (numbers n) = some (d', os, x)) {ls : List Bytes}
    (hls : Fits n bs ls) (hmt : Matched env.compile mt ls (cs.flatMap TCmd.text)) (hsz : (unlines ls).length + (unlines (cs.flatMap TCmd.text)).length < 2 ^ 61) (t : Bytes) :
    Leaves env cs ls t ↔ t = unlines ((d'.saved.getD (numbers n).lines).map (lineFor ls)) := by
  refine ⟨leaves_tried hsave hmem hk h htry hls hmt hsz, ?_⟩
  rintro rfl
  let s0 : State := { fresh with fs := fun _ => some (unlines ls) }
  obtain ⟨st, how, hs, he⟩ := C69_stops env _ (initial id s0 (mainInput (some b!"f") (unlines (cs.flatMap TCmd.typed ++ lastLine true)))) (Nat.le_refl _)
  have hnm : NameOK b!"f" := ⟨by decide, by decide, by decide, by rintro c cs ⟨⟩; decide⟩
  have hnp : PlainLine (b!"e " ++ b!"f") := plain_ascii _ (by decide) (by decide) (by decide)
  obtain ⟨-, -, -, h4⟩ := C179_every_file env hsave hmem n bs h.firm mt hk cs h.wf h.plain d' os x htry ls hls hmt hsz id s0 b!"f" hnm hnp rfl true st how hs he
  refine ⟨id, s0, b!"f", true, st, how, hnm, hnp, rfl, hs, he, ?_⟩
  rw [h4]
  obtain ⟨rfl, -, -⟩ := hls
  cases d'.saved with
  | none => simp only [Option.elim, Option.getD, numbers, numbers_of]
  | some ms => rfl

/-! ## Cases -/

/-- `kd`, `w` -/
def drop1 (k : Bytes) : List TCmd := [⟨.one (.lit k) [], .delete⟩, ⟨.none, .write⟩]

/-- `1d`, `1d`, `w` -/
def oneByOne : List TCmd := [⟨.one (.lit b!"1") [], .delete⟩, ⟨.one (.lit b!"1") [], .delete⟩, ⟨.none, .write⟩]

/-- `1,2d`, `w` -/
def atOnce : List TCmd := [⟨.both false (.lit b!"1") [] [] (.lit b!"2") [], .delete⟩, ⟨.none, .write⟩]

theorem cases_trial (mt : Bytes → Option (Option (Nat ⊕ Bytes → Bool))) (room : Nat → Nat) :
    tryAll .inr (blankAt [1]) mt room oneByOne (numbers 3) = some (⟨[.inl 2], 1, some [.inl 2]⟩, [.nothing, .nothing, .nothing], .through) ∧
    tryAll .inr (blankAt [1]) mt room atOnce (numbers 3) = some (⟨[.inl 2], 1, some [.inl 2]⟩, [.nothing, .nothing], .through) ∧
    tryAll .inr (blankAt [1]) mt room (drop1 b!"1") (numbers 3) = some (⟨[.inl 1, .inl 2], 2, some [.inl 1, .inl 2]⟩, [.nothing, .nothing], .through) ∧
    tryAll .inr (blankAt [1]) mt room (drop1 b!"2") (numbers 3) = some (⟨[.inl 0, .inl 2], 2, some [.inl 0, .inl 2]⟩, [.nothing, .nothing], .through) := by
  have d1 : digitsVal b!"1" = 1 := by decide
  have d2 : digitsVal b!"2" = 2 := by decide
  have m1 : min (1 : Int) 9223372036854775807 = 1 := by decide
  have m2 : min (2 : Int) 9223372036854775807 = 2 := by decide
  have hr : (List.range 3) = [0, 1, 2] := by decide
  refine ⟨?_, ?_, ?_, ?_⟩ <;>
    simp [tryAll, oneByOne, atOnce, drop1, numbers, tryOut, TFate.with, RangeSyn.counted1, RangeSyn.counted2, AddrSyn.counted, firm, blankAt, hr, d1, d2, m1, m2]

theorem cases_tried : Tried demoEnv 3 [1] unknown oneByOne ∧ Tried demoEnv 3 [1] unknown atOnce ∧ Tried demoEnv 3 [1] unknown (drop1 b!"1") ∧ Tried demoEnv 3 [1] unknown (drop1 b!"2") := by
  obtain ⟨e1, e2, e3, e4⟩ := cases_trial unknown (room demoEnv)
  have w : (⟨.none, .write⟩ : TCmd).WF ∧ (⟨.none, .write⟩ : TCmd).Texts := ⟨⟨trivial, trivial⟩, trivial⟩
  have k1 : (⟨.one (.lit b!"1") [], .delete⟩ : TCmd).WF ∧ (⟨.one (.lit b!"1") [], .delete⟩ : TCmd).Texts :=
    ⟨⟨⟨⟨by decide, by decide⟩, by intro c hc; cases hc⟩, trivial⟩, trivial⟩
  have k2 : (⟨.one (.lit b!"2") [], .delete⟩ : TCmd).WF ∧ (⟨.one (.lit b!"2") [], .delete⟩ : TCmd).Texts :=
    ⟨⟨⟨⟨by decide, by decide⟩, by intro c hc; cases hc⟩, trivial⟩, trivial⟩
  have k3 : (⟨.both false (.lit b!"1") [] [] (.lit b!"2") [], .delete⟩ : TCmd).WF ∧ (⟨.both false (.lit b!"1") [] [] (.lit b!"2") [], .delete⟩ : TCmd).Texts :=
    ⟨⟨⟨⟨by decide, by decide⟩, ⟨by decide, by decide⟩, (by intro c hc; cases hc), (by intro c hc; cases hc), by intro c hc; cases hc⟩, trivial⟩, trivial⟩
  refine ⟨⟨?_, plain_of _ (by decide), by decide, by rw [e1]; rfl⟩, ⟨?_, plain_of _ (by decide), by decide, by rw [e2]; rfl⟩,
    ⟨?_, plain_of _ (by decide), by decide, by rw [e3]; rfl⟩, ⟨?_, plain_of _ (by decide), by decide, by rw [e4]; rfl⟩⟩ <;> intro c hc <;>
    simp only [oneByOne, atOnce, drop1, List.mem_cons, List.not_mem_nil, or_false] at hc
  · rcases hc with rfl | rfl | rfl <;> assumption
  · rcases hc with rfl | rfl <;> assumption
  · rcases hc with rfl | rfl <;> assumption
  · rcases hc with rfl | rfl <;> assumption

theorem abc_fits : Fits 3 [1] [b!"a", b!"b", b!"c"] :=
  ⟨rfl, plain_of _ (by decide), by
    intro i hi
    match i with
    | 0 | 1 | 2 => simp at hi
    | i + 3 => simp at hi⟩

theorem aaa_fits : Fits 3 [1] [b!"a", b!"a", b!"a"] :=
  ⟨rfl, plain_of _ (by decide), by
    intro i hi
    match i with
    | 0 | 1 | 2 => simp at hi
    | i + 3 => simp at hi⟩

/-- Two lines deleted one by one or at once: tested on the file `a b c`, known for every file of three lines, also if the second one is blank. -/
example (ls : List Bytes) (hls : Fits 3 [1] ls) (hsz : (unlines ls).length < 2 ^ 61)
    (t1 t2 : Bytes) (h1 : Leaves demoEnv oneByOne ls t1) (h2 : Leaves demoEnv atOnce ls t2) : t1 = t2 := by
  have hsave : Saves demoEnv := fun _ => ⟨rfl, rfl, rfl⟩
  obtain ⟨k1, k2, -, -⟩ := cases_tried
  obtain ⟨e1, e2, -, -⟩ := cases_trial unknown (room demoEnv)
  exact C178_one_test demoEnv hsave demo_memory 3 [1] oneByOne atOnce k1 k2 [b!"a", b!"b", b!"c"] abc_fits (by decide) (by decide)
    (by decide) b!"c\n" ((C178_leaves hsave demo_memory (unknown_knows _) k1 e1 abc_fits nofun (by decide) _).2 rfl)
    ((C178_leaves hsave demo_memory (unknown_knows _) k2 e2 abc_fits nofun (by decide) _).2 rfl) ls hls (by
      have : (unlines ((oneByOne ++ atOnce).flatMap TCmd.text)).length = 0 := by decide
      omega) t1 t2 h1 h2

/-- **C178** A file with equal lines is not enough: `1d` and `2d` leave the same in the file `a a a`, and not in the file `a b c`. -/
theorem C178_needs_distinct : ∃ t t1 t2, Leaves demoEnv (drop1 b!"1") [b!"a", b!"a", b!"a"] t ∧ Leaves demoEnv (drop1 b!"2") [b!"a", b!"a", b!"a"] t ∧
    Leaves demoEnv (drop1 b!"1") [b!"a", b!"b", b!"c"] t1 ∧ Leaves demoEnv (drop1 b!"2") [b!"a", b!"b", b!"c"] t2 ∧ t1 ≠ t2 := by
  have hsave : Saves demoEnv := fun _ => ⟨rfl, rfl, rfl⟩
  obtain ⟨-, -, k1, k2⟩ := cases_tried
  obtain ⟨-, -, e1, e2⟩ := cases_trial unknown (room demoEnv)
  refine ⟨b!"a\na\n", b!"b\nc\n", b!"a\nc\n", (C178_leaves hsave demo_memory (unknown_knows _) k1 e1 aaa_fits nofun (by decide) _).2 rfl,
    (C178_leaves hsave demo_memory (unknown_knows _) k2 e2 aaa_fits nofun (by decide) _).2 rfl, (C178_leaves hsave demo_memory (unknown_knows _) k1 e1 abc_fits nofun (by decide) _).2 rfl,
    (C178_leaves hsave demo_memory (unknown_knows _) k2 e2 abc_fits nofun (by decide) _).2 rfl, by decide⟩

/-- `/b/`, `d`, `w` and `2d`, `w` leave the same in the file `a b c`, so in every file of three lines of which just the second has a `b`. -/
example (ls : List Bytes) (hls : Fits 3 [1] ls) (hsame : SameHits demoEnv.compile [b!"b"] [b!"a", b!"b", b!"c"] ls) (hsz : (unlines ls).length < 2 ^ 61)
    (t1 t2 : Bytes) (h1 : Leaves demoEnv findScript ls t1) (h2 : Leaves demoEnv (drop1 b!"2") ls t2) : t1 = t2 := by
  have hsave : Saves demoEnv := fun _ => ⟨rfl, rfl, rfl⟩
  obtain ⟨-, -, -, k⟩ := cases_tried
  obtain ⟨-, -, -, e2⟩ := cases_trial (table demoEnv.compile [b!"b"] [b!"a", b!"b", b!"c"]) (room demoEnv)
  have e1 : tryAll .inr (blankAt [1]) (table demoEnv.compile [b!"b"] [b!"a", b!"b", b!"c"]) (room demoEnv) findScript (numbers 3) =
      some (⟨[.inl 0, .inl 2], 2, some [.inl 0, .inl 2]⟩, [.lines [some (.inl 1)], .nothing, .nothing], .through) := by
    have hs : soughtMarkFor (table demoEnv.compile [b!"b"] [b!"a", b!"b", b!"c"]) (numbers 3).lines 3 (sansSlashes b!"b") = some (.line 2) := by
      decide +kernel
    have hr : (2 : Int) ≤ (room demoEnv 3 : Nat) := by rw [room, if_neg (by decide)]; omega
    have hn : numbers 3 = ⟨[.inl 0, .inl 1, .inl 2], 3, none⟩ := by simp [numbers, List.range_succ]
    rw [hn] at hs ⊢
    simp [tryAll, findScript, tryOut, TFate.with, RangeSyn.counted1, RangeSyn.counted2, AddrSyn.counted, firm, blankAt, hs, hr]
  have k1 : Tried demoEnv 3 [1] (table demoEnv.compile [b!"b"] [b!"a", b!"b", b!"c"]) findScript := by
    refine ⟨?_, plain_of _ (by decide), by decide, by rw [e1]; rfl⟩
    intro c hc
    simp only [findScript, List.mem_cons, List.not_mem_nil, or_false] at hc
    rcases hc with rfl | rfl | rfl
    · exact ⟨⟨⟨PatternOK.plain (by decide) (by decide), by intro c hc; cases hc⟩, trivial⟩, trivial⟩
    · exact ⟨⟨trivial, trivial⟩, trivial⟩
    · exact ⟨⟨trivial, trivial⟩, trivial⟩
  have k2 : Tried demoEnv 3 [1] (table demoEnv.compile [b!"b"] [b!"a", b!"b", b!"c"]) (drop1 b!"2") := ⟨k.wf, k.plain, k.firm, by rw [e2]; rfl⟩
  have hm : ∀ typed, Matched demoEnv.compile (table demoEnv.compile [b!"b"] [b!"a", b!"b", b!"c"]) [b!"a", b!"b", b!"c"] typed :=
    table_matched rfl (fun _ _ _ _ _ _ _ h h' => by rw [h] at h'; rw [Option.some.inj h'])
  exact C179_one_test demoEnv hsave demo_memory 3 [1] [b!"b"] findScript (drop1 b!"2") [b!"a", b!"b", b!"c"] k1 k2 abc_fits (by decide) (by decide)
    (by decide) b!"a\nc\n" ((C178_leaves hsave demo_memory (table_knows _ _ _) k1 e1 abc_fits (hm _) (by decide) _).2 rfl)
    ((C178_leaves hsave demo_memory (table_knows _ _ _) k2 e2 abc_fits (hm _) (by decide) _).2 rfl) ls hls hsame (by
      have : (unlines ((findScript ++ drop1 b!"2").flatMap TCmd.text)).length = 0 := by decide
      omega) t1 t2 h1 h2

end Ed
