import Verif.Ed.OneTest

/-! # C181: ed prints nothing but lines of the file, lines typed and numbers

Every answer is a list of lines, each of them a line of the file, a line typed or empty, or such a list with numbers, or a number, or the notice for
commands that are not there. -/

namespace Ed
open Go

/-! ## Specification -/

/-- An answer made of lines from a list and empty ones, of such lines with their numbers, of a number, or of the notice. -/
inductive MadeOf (known : List Bytes) : Bytes → Prop
  | lines (xs : List Bytes) : (∀ x ∈ xs, x ∈ known ∨ x = []) → MadeOf known (join [nl] xs)
  | numbered (i : Nat) (xs : List Bytes) : (∀ x ∈ xs, x ∈ known) → MadeOf known (numbered i xs)
  | number (n : Int) : MadeOf known (itoa n)
  | notice : MadeOf known b!"? (NYI)"

/-- The marks shown. -/
def Display.marks {α : Type} : Display α → List α
  | .lines ls => ls.filterMap id
  | .numbered _ ls => ls
  | _ => []

theorem tryOut_marks {α : Type} {P : α → Prop} {ty : Bytes → α} {mb : α → Bool} {mt : Bytes → Option (Option (α → Bool))} {room : Nat → Nat} {c : TCmd} {d d1 : Trial α} {w : Display α}
    (h : tryOut ty mb mt room c d = .done d1 w) (hd : ∀ m ∈ d.lines, P m) : ∀ m ∈ w.marks, P m := by
  obtain ⟨r, v⟩ := c
  have none : ∀ m ∈ (Display.nothing : Display α).marks, P m := nofun
  cases v with
  | print =>
    obtain ⟨a, h⟩ := with_done h
    obtain ⟨b, h⟩ := with_done h
    split at h <;> cases h
    intro m hm
    simp only [Display.marks, List.mem_filterMap, List.mem_map, id] at hm
    obtain ⟨o, ⟨i, -, rfl⟩, e⟩ := hm
    exact hd m (List.mem_of_getElem? e)
  | number =>
    obtain ⟨a, h⟩ := with_done h
    obtain ⟨b, h⟩ := with_done h
    split at h
    · cases h; exact none
    · split at h <;> cases h
      exact fun m hm => hd m (List.mem_of_mem_take (List.mem_of_mem_drop hm))
  | equals =>
    obtain ⟨a, h⟩ := with_done h
    cases h; nofun
  | null =>
    obtain ⟨a, h⟩ := with_done h
    split at h <;> cases h
    intro m hm
    simp only [Display.marks, List.mem_filterMap, List.mem_singleton, id] at hm
    obtain ⟨o, rfl, e⟩ := hm
    exact hd m (List.mem_of_getElem? e)
  | delete =>
    obtain ⟨a, h⟩ := with_done h
    obtain ⟨b, h⟩ := with_done h
    simp only at h
    split at h
    · cases h
    · split at h
      · obtain ⟨c, h⟩ := with_done h
        cases h; exact none
      · cases h
  | append t =>
    obtain ⟨a, h⟩ := with_done h
    split at h
    · cases h
    · split at h <;> cases h
      exact none
  | insert t =>
    obtain ⟨a, h⟩ := with_done h
    split at h
    · cases h
    · split at h <;> cases h
      exact none
  | change t =>
    obtain ⟨a, h⟩ := with_done h
    obtain ⟨b, h⟩ := with_done h
    simp only at h
    split at h
    · cases h
    · split at h
      · obtain ⟨a1, h⟩ := with_done h
        split at h
        · cases h
        · split at h
          · obtain ⟨a2, h⟩ := with_done h
            cases h; exact none
          · cases h
      · cases h
  | write => cases h; exact none
  | edit n => cases h
  | unsupported l => cases h; nofun

theorem tryAll_marks {α : Type} {P : α → Prop} {ty : Bytes → α} {mb : α → Bool} {mt : Bytes → Option (Option (α → Bool))} {room : Nat → Nat} : ∀ (cs : List TCmd) {d d1 : Trial α} {os : List (Display α)} {x : Outlook},
    tryAll ty mb mt room cs d = some (d1, os, x) → d.All P → (∀ c ∈ cs, ∀ l ∈ c.text, P (ty l)) → ∀ w ∈ os, ∀ m ∈ w.marks, P m := by
  intro cs
  induction cs with
  | nil =>
    intro d d1 os x h _ _
    simp only [tryAll, Option.some.injEq, Prod.mk.injEq] at h
    rw [← h.2.1]; nofun
  | cons c cs ih =>
    intro d d1 os x h hd ht
    simp only [tryAll] at h
    cases hc : tryOut ty mb mt room c d with
    | done d2 o =>
      rw [hc] at h
      simp only [Option.map_eq_some_iff, Prod.mk.injEq] at h
      obtain ⟨⟨d3, os3, x3⟩, h, -, rfl, -⟩ := h
      intro w hw
      rcases List.mem_cons.1 hw with rfl | hw
      · exact tryOut_marks hc hd.1
      · exact ih h (tryOut_all hc hd (ht c (by simp))) (fun c hc => ht c (by simp [hc])) w hw
    | crash | never =>
      rw [hc] at h
      simp only [Option.some.injEq, Prod.mk.injEq] at h
      rw [← h.2.1]; nofun
    | unsaid => rw [hc] at h; cases h

theorem read_made {ls typed : List Bytes} {w : Display (Nat ⊕ Bytes)} (h : ∀ m ∈ w.marks, Known ls.length typed m) :
    MadeOf (ls ++ typed) (w.read (lineFor ls)) := by
  have key : ∀ m, Known ls.length typed m → lineFor ls m ∈ ls ++ typed := by
    intro m hm
    cases m with
    | inl i =>
      have hi : i < ls.length := hm
      simp only [lineFor, List.mem_append]
      left
      rw [List.getD_eq_getElem?_getD, List.getElem?_eq_getElem hi]
      exact List.getElem_mem hi
    | inr l => exact List.mem_append_right _ hm
  cases w with
  | lines os =>
    refine .lines _ ?_
    intro x hx
    obtain ⟨o, ho, rfl⟩ := List.mem_map.1 hx
    cases o with
    | none => exact .inr rfl
    | some m => exact .inl (key m (h m (List.mem_filterMap.2 ⟨some m, ho, rfl⟩)))
  | numbered i ms =>
    refine .numbered i _ ?_
    intro x hx
    obtain ⟨m, hm, rfl⟩ := List.mem_map.1 hx
    exact key m (h m hm)
  | number n => exact .number n
  | nothing => exact .lines [] nofun
  | notice => exact .notice

/-- **C181** (partial: for scripts that can be tried, see C177 and C179) Every answer, under every schedule, is made of lines of the file, lines typed
and empty lines, or of numbers. Nothing is printed on standard error. -/
theorem C181_answers_partial (env : Env) (hsave : Saves env) (hmem : Memory env) (n : Nat) (bs : List Nat)
    (mt : Bytes → Option (Option (Nat ⊕ Bytes → Bool))) (hk : Knows env.compile mt) (cs : List TCmd) (h : Tried env n bs mt cs)
    (ls : List Bytes) (hls : Fits n bs ls) (hmt : Matched env.compile mt ls (cs.flatMap TCmd.text))
    (hsz : (unlines ls).length + (unlines (cs.flatMap TCmd.text)).length < 2 ^ 61)
    (errText : Bytes → Bytes) (s0 : State) (name : Bytes) (hnm : NameOK name) (hnp : PlainLine (b!"e " ++ name)) (hfs : s0.fs name = some (unlines ls))
    (quits : Bool) (st : Sys) (how : End)
    (hs : Steps env (initial errText s0 (mainInput (some name) (unlines (cs.flatMap TCmd.typed ++ lastLine quits)))) st)
    (he : st.cons.ended = some how) :
    (∀ r ∈ results st.out, ∃ a, r = a ++ [nl] ∧ MadeOf (ls ++ cs.flatMap TCmd.text) a) ∧ errors st.out = [] := by
  obtain rfl := hls.len
  obtain ⟨⟨d', os, x⟩, htry⟩ := Option.isSome_iff_exists.1 h.said
  obtain ⟨-, h2, h3, -⟩ := C179_every_file env hsave hmem _ bs h.firm mt hk cs h.wf h.plain d' os x htry ls hls hmt hsz errText s0 name hnm hnp hfs quits st how hs he
  refine ⟨?_, h3⟩
  rw [h2]
  intro r hr
  obtain ⟨a, ha, rfl⟩ := List.mem_map.1 hr
  refine ⟨a, rfl, ?_⟩
  rcases List.mem_cons.1 ha with rfl | ha
  · exact .lines [] nofun
  · obtain ⟨w, hw, rfl⟩ := List.mem_map.1 ha
    exact read_made (tryAll_marks (P := Known ls.length (cs.flatMap TCmd.text)) cs htry (numbers_known _ _)
      (fun c hc l hl => List.mem_flatMap.2 ⟨c, hc, hl⟩) w hw)

/-- Not every answer will do: of a file with the line `ab`, an answer `b` would show a piece of the line. -/
example : ¬ MadeOf [b!"ab"] b!"b" := by
  intro h
  generalize e : b!"b" = a at h
  cases h with
  | lines xs hx =>
    match xs with
    | [] => cases e
    | [x] =>
      have := hx x (by simp)
      simp only [join] at e
      subst e
      simp at this
    | x :: y :: ys =>
      have : nl ∈ b!"b" := by rw [e]; simp [join]
      simp [nl] at this
  | numbered i xs hx =>
    match xs with
    | [] => cases e
    | x :: xs =>
      have : (9 : UInt8) ∈ b!"b" := by rw [e]; simp [Ed.numbered]
      simp at this
  | number n =>
    unfold itoa at e
    split at e
    · cases e
    · have h := (natToDec_spec n.toNat).2.1 98 (by rw [← e]; simp)
      revert h; decide
  | notice => cases e

/-- The script `1d`, `1d`, `w` on any file of three lines. -/
example (errText : Bytes → Bytes) (ls : List Bytes) (hls : Fits 3 [1] ls) (hsz : (unlines ls).length < 2 ^ 61) (s0 : State)
    (hfs : s0.fs b!"f" = some (unlines ls)) (st : Sys) (how : End)
    (hs : Steps demoEnv (initial errText s0 (mainInput (some b!"f") (unlines [b!"1d", b!"1d", b!"w", b!"q"]))) st) (he : st.cons.ended = some how) :
    ∀ r ∈ results st.out, ∃ a, r = a ++ [nl] ∧ MadeOf (ls ++ []) a :=
  (C181_answers_partial demoEnv (fun _ => ⟨rfl, rfl, rfl⟩) demo_memory 3 [1] unknown (unknown_knows _) oneByOne cases_tried.1 ls hls nofun
    (by have : (unlines (oneByOne.flatMap TCmd.text)).length = 0 := by decide
        omega) errText s0 b!"f" ⟨by decide, by decide, by decide, by rintro c cs ⟨⟩; decide⟩ (plain_ascii _ (by decide) (by decide) (by decide)) hfs
    true st how hs he).1

end Ed
