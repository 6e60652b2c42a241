import Verif.Ed.TypedRun

/-!
# Deleting a line found by a search (C85); the current line after each command (C86)
-/

namespace Ed
open Go

/-! ## C84: a session -/

/-- Print the current line, go to line 1, go on to the next, delete a line found by a search, save, ask for help,
append at the end, count, save again. -/
def demoTyped : List TCmd :=
  [⟨.none, .print⟩, ⟨.one (.lit b!"1") b!" ", .null⟩, ⟨.none, .null⟩, ⟨.one (.re b!"o") [], .delete⟩, ⟨.none, .write⟩, ⟨.none, .unsupported 104⟩,
   ⟨.one .dollar [], .append [b!"five"]⟩, ⟨.none, .equals⟩, ⟨.all false, .number⟩, ⟨.none, .write⟩]

example : demoTyped.flatMap TCmd.typed =
    [b!"p", b!"1 ", b!"", b!"/o/d", b!"w", b!"h", b!"$a", b!"five", b!".", b!"=", b!",n", b!"w"] := by decide

/-- An editor just started, on a file `f` with three lines. -/
def fresh3 : State := { fresh with fs := fun n => if n = b!"f" then some b!"one\ntwo\nsix\n" else none }

example (errText : Bytes → Bytes) : ∃ st, Steps demoEnv (initial errText fresh3
      (mainInput (some b!"f") (unlines [b!"p", b!"1 ", b!"", b!"/o/d", b!"w", b!"h", b!"$a", b!"five", b!".", b!"=", b!",n", b!"w", b!"q"]))) st ∧
    st.cons.ended = some .quit ∧ st.ed.fs b!"f" = some b!"two\nsix\nfive\n" ∧
    results st.out = [b!"\n", b!"six\n", b!"one\n", b!"two\n", b!"\n", b!"\n", b!"? (NYI)\n", b!"\n", b!"3\n", b!"1\ttwo\n2\tsix\n3\tfive\n\n", b!"\n"] := by
  obtain ⟨st, how, hs, he⟩ := C69_stops demoEnv _ (initial errText fresh3 (mainInput (some b!"f") (unlines (demoTyped.flatMap TCmd.typed ++
    lastLine true)))) (Nat.le_refl _)
  have hses : Session demoEnv.compile demoEnv.openErr demoTyped ⟨[b!"one", b!"two", b!"six"], 3, b!"f", fresh3.fs⟩
      ⟨[b!"two", b!"six", b!"five"], 3, b!"f", saved (saved fresh3.fs b!"f" b!"two\nsix\n") b!"f" b!"two\nsix\nfive\n"⟩
      [b!"six", b!"one", b!"two", [], [], b!"? (NYI)", [], b!"3", b!"1\ttwo\n2\tsix\n3\tfive\n", []] := by
    have ok : ∀ ls : List Bytes, (∀ l ∈ ls, nl ∉ l ∧ l.getLast? ≠ some cr ∧ l.length < 100) → ls.getLast? ≠ some [] → Clean ls := clean_of
    refine .cons (.print (a := 3) (b := 3) rfl rfl (by decide) (by decide) (by decide)) (ok _ (by decide) (by decide)) (by decide) ?_
    refine .cons (.null (a := 1) (l := b!"one") rfl (by decide) rfl) (ok _ (by decide) (by decide)) (by decide) ?_
    refine .cons (.null (a := 2) (l := b!"two") rfl (by decide) rfl) (ok _ (by decide) (by decide)) (by decide) ?_
    refine .cons (.delete (a := 1) (b := 1) (c := 1) (pre := []) (mid := [b!"one"]) (post := [b!"two", b!"six"])
      (by decide) (by decide) rfl (by decide) rfl rfl (by decide)) (ok _ (by decide) (by decide)) (by decide) ?_
    refine .cons (.write (by decide)) (ok _ (by decide) (by decide)) (by decide) ?_
    refine .cons .unsupported (ok _ (by decide) (by decide)) (by decide) ?_
    refine .cons (.append (pre := [b!"two", b!"six"]) (post := []) rfl rfl ⟨by decide, plain_of _ (by decide)⟩)
      (ok _ (by decide) (by decide)) (by decide) ?_
    refine .cons (.equals (a := 3) rfl (by decide)) (ok _ (by decide) (by decide)) (by decide) ?_
    refine .cons (.number (a := 1) (b := 3) rfl rfl (by decide) (by decide) (by decide)) (ok _ (by decide) (by decide)) (by decide) ?_
    exact .cons (.write (by decide)) (ok _ (by decide) (by decide)) (by decide) .nil
  obtain ⟨rfl, h2, _, h4⟩ := C84_session demoEnv (fun _ => ⟨rfl, rfl, rfl⟩) errText fresh3 b!"f"
    ⟨by decide, by decide, by decide, by rintro c cs ⟨⟩; decide⟩
    (plain_ascii _ (by decide) (by decide) (by decide)) [b!"one", b!"two", b!"six"] rfl (clean_of _ (by decide) (by decide)) (by decide) demoTyped
    (by
      intro c hc
      simp only [demoTyped, List.mem_cons, List.not_mem_nil, or_false] at hc
      rcases hc with rfl | rfl | rfl | rfl | rfl | rfl | rfl | rfl | rfl | rfl
      · exact ⟨trivial, trivial⟩
      · exact ⟨⟨⟨by decide, by decide⟩, by simp [Blanks]⟩, trivial⟩
      · exact ⟨trivial, trivial⟩
      · exact ⟨⟨.plain (by decide) (by decide), blanks_nil⟩, trivial⟩
      · exact ⟨trivial, trivial⟩
      · exact ⟨trivial, Or.inl ⟨rfl, by decide⟩⟩
      · exact ⟨⟨trivial, blanks_nil⟩, trivial, trivial, ⟨⟨by decide, by decide, by decide, by decide⟩, by decide⟩⟩
      · exact ⟨trivial, trivial, trivial⟩
      · exact ⟨trivial, trivial⟩
      · exact ⟨trivial, trivial⟩)
    (plain_of _ (by decide)) true _ _ hses st how hs he
  exact ⟨st, hs, he, by rw [h4]; decide, h2⟩

/-- Two files: change the first and save it, try one that is not there, go to the second, print it, drop the changes
made to it by opening it again, save it, go back. -/
def twoFiles : List TCmd :=
  [⟨.one (.lit b!"1") [], .delete⟩, ⟨.none, .write⟩, ⟨.none, .edit b!"x"⟩, ⟨.none, .edit b!"g"⟩, ⟨.all false, .delete⟩, ⟨.none, .edit b!"g"⟩,
   ⟨.none, .print⟩, ⟨.one (.lit b!"1") [], .insert [b!"new"]⟩, ⟨.none, .write⟩, ⟨.none, .edit b!"f"⟩, ⟨.all false, .print⟩]

example : twoFiles.flatMap TCmd.typed = [b!"1d", b!"w", b!"e x", b!"e g", b!",d", b!"e g", b!"p", b!"1i", b!"new", b!".", b!"w", b!"e f", b!",p"] := by
  decide

/-- An editor just started, with two files and something in the way. -/
def freshTwo : State :=
  let files : FS := fun n => if n = b!"f" then some b!"one\ntwo\n" else if n = b!"g" then some b!"other\n" else if n = b!"g.swp" then some b!"left" else none
  { fresh with fs := files }

example (errText : Bytes → Bytes) : ∃ st, Steps demoEnv (initial errText freshTwo (mainInput (some b!"f") (unlines (twoFiles.flatMap TCmd.typed ++ lastLine false)))) st ∧
    st.cons.ended = some .finished ∧ st.ed.fs b!"f" = some b!"two\n" ∧ st.ed.fs b!"g" = some b!"new\nother\n" ∧ st.ed.fs b!"g.swp" = none ∧
    results st.out = [b!"\n", b!"\n", b!"\n", demoEnv.openErr b!"x" ++ b!"\n", b!"\n", b!"\n", b!"\n", b!"other\n", b!"\n", b!"\n", b!"\n", b!"two\n"] := by
  obtain ⟨st, how, hs, he⟩ := C69_stops demoEnv _ (initial errText freshTwo (mainInput (some b!"f") (unlines (twoFiles.flatMap TCmd.typed ++
    lastLine false)))) (Nat.le_refl _)
  have hses : Session demoEnv.compile demoEnv.openErr twoFiles ⟨[b!"one", b!"two"], 2, b!"f", freshTwo.fs⟩
      ⟨[b!"two"], 1, b!"f", saved (saved freshTwo.fs b!"f" b!"two\n") b!"g" b!"new\nother\n"⟩
      [[], [], demoEnv.openErr b!"x", [], [], [], b!"other", [], [], [], b!"two"] := by
    have ok : ∀ ls : List Bytes, (∀ l ∈ ls, nl ∉ l ∧ l.getLast? ≠ some cr ∧ l.length < 100) → ls.getLast? ≠ some [] → Clean ls := clean_of
    refine .cons (.delete (a := 1) (b := 1) (c := 1) (pre := []) (mid := [b!"one"]) (post := [b!"two"])
      (by decide) (by decide) rfl (by decide) rfl rfl (by decide)) (ok _ (by decide) (by decide)) (by decide) ?_
    refine .cons (.write (by decide)) (ok _ (by decide) (by decide)) (by decide) ?_
    refine .cons (.noFile (by decide)) (ok _ (by decide) (by decide)) (by decide) ?_
    refine .cons (.edit (ls := [b!"other"]) (by decide)) (ok _ (by decide) (by decide)) (by decide) ?_
    refine .cons (.delete (a := 1) (b := 1) (c := 1) (pre := []) (mid := [b!"other"]) (post := [])
      (by decide) (by decide) rfl (by decide) rfl rfl (by decide)) (ok _ (by decide) (by decide)) (by decide) ?_
    refine .cons (.edit (ls := [b!"other"]) (by decide)) (ok _ (by decide) (by decide)) (by decide) ?_
    refine .cons (.print (a := 1) (b := 1) rfl rfl (by decide) (by decide) (by decide)) (ok _ (by decide) (by decide)) (by decide) ?_
    refine .cons (.insert (pre := []) (post := [b!"other"]) rfl rfl ⟨by decide, plain_of _ (by decide)⟩) (ok _ (by decide) (by decide)) (by decide) ?_
    refine .cons (.write (by decide)) (ok _ (by decide) (by decide)) (by decide) ?_
    refine .cons (.edit (ls := [b!"two"]) (by decide)) (ok _ (by decide) (by decide)) (by decide) ?_
    exact .cons (.print (a := 1) (b := 1) rfl rfl (by decide) (by decide) (by decide)) (ok _ (by decide) (by decide)) (by decide) .nil
  have name : ∀ n ∈ [b!"f", b!"g", b!"x"], NameOK n := by
    intro n hn
    simp only [List.mem_cons, List.not_mem_nil, or_false] at hn
    rcases hn with rfl | rfl | rfl <;> exact ⟨by decide, by decide, by decide, by rintro c cs ⟨⟩; decide⟩
  have one : (RangeSyn.one (.lit b!"1") []).OK := ⟨⟨by decide, by decide⟩, blanks_nil⟩
  obtain ⟨rfl, h2, _, h4⟩ := C84_session demoEnv (fun _ => ⟨rfl, rfl, rfl⟩) errText freshTwo b!"f" (name _ (by decide))
    (plain_ascii _ (by decide) (by decide) (by decide)) [b!"one", b!"two"] rfl (clean_of _ (by decide) (by decide)) (by decide) twoFiles
    (by
      intro c hc
      simp only [twoFiles, List.mem_cons, List.not_mem_nil, or_false] at hc
      rcases hc with rfl | rfl | rfl | rfl | rfl | rfl | rfl | rfl | rfl | rfl | rfl
      · exact ⟨one, trivial⟩
      · exact ⟨trivial, trivial⟩
      · exact ⟨trivial, rfl, name _ (by decide)⟩
      · exact ⟨trivial, rfl, name _ (by decide)⟩
      · exact ⟨trivial, trivial⟩
      · exact ⟨trivial, rfl, name _ (by decide)⟩
      · exact ⟨trivial, trivial⟩
      · exact ⟨one, trivial, trivial, ⟨⟨by decide, by decide, by decide, by decide⟩, by decide⟩⟩
      · exact ⟨trivial, trivial⟩
      · exact ⟨trivial, rfl, name _ (by decide)⟩
      · exact ⟨trivial, trivial⟩)
    (plain_of _ (by decide)) false _ _ hses st how hs he
  exact ⟨st, hs, he, by rw [h4]; decide, by rw [h4]; decide, by rw [h4]; decide, h2⟩

/-! ## C85 -/

theorem nextMatch_none {m : Bytes → Bool} {ls : List Bytes} {cur : Nat} (h : nextMatch m ls cur = none) :
    ∀ l ∈ ls, m l = false := by
  intro l hl
  obtain ⟨i, hi, rfl⟩ := List.mem_iff_getElem.1 hl
  simp only [nextMatch, List.find?_map, Option.map_eq_none_iff, List.find?_eq_none, List.mem_range, Function.comp] at h
  -- line i + 1 is reached after the right number of steps
  have hpos : 0 < ls.length := by omega
  let k := (i + ls.length - cur % ls.length) % ls.length
  have hk : k < ls.length := Nat.mod_lt _ hpos
  have he : around ls.length (cur + 1 + k) = i + 1 := by
    have hc : cur % ls.length < ls.length := Nat.mod_lt _ hpos
    simp only [around, k]
    have e : cur + 1 + (i + ls.length - cur % ls.length) % ls.length - 1 = cur + (i + ls.length - cur % ls.length) % ls.length := by omega
    rw [e, Nat.add_mod, Nat.mod_mod, ← Nat.add_mod]
    have : (cur + (i + ls.length - cur % ls.length)) % ls.length = i := by
      have e2 : ls.length * Nat.div cur ls.length + cur % ls.length = cur := Nat.div_add_mod cur ls.length
      have : cur + (i + ls.length - cur % ls.length) = i + ls.length * (Nat.div cur ls.length + 1) := by
        rw [Nat.mul_add]; omega
      rw [this, Nat.add_mul_mod_self_left, Nat.mod_eq_of_lt hi]
    rw [this]
  have := h k hk
  rw [he] at this
  simpa [hi] using this

/-- The only matching line is found from everywhere. -/
theorem nextMatch_unique {m : Bytes → Bool} {pre post : List Bytes} {l : Bytes} {cur : Nat} (hl : m l = true)
    (hno : ∀ x ∈ pre ++ post, m x = false) : nextMatch m (pre ++ [l] ++ post) cur = some (pre.length + 1) := by
  cases h : nextMatch m (pre ++ [l] ++ post) cur with
  | none =>
    have := nextMatch_none h l (by simp)
    rw [hl] at this
    cases this
  | some n =>
    obtain ⟨k, -, -, ⟨x, hx, hm⟩, -⟩ := nextMatch_some h
    have hle := nextMatch_le h
    by_cases h1 : n - 1 < pre.length
    · rw [List.append_assoc, List.getElem?_append_left h1] at hx
      rw [hno x (by simp [List.mem_of_getElem? hx])] at hm
      cases hm
    · by_cases h2 : n - 1 = pre.length
      · congr 1; omega
      · rw [List.getElem?_append_right (by simp; omega)] at hx
        rw [hno x (by simp [List.mem_of_getElem? hx])] at hm
        cases hm

theorem addrLine_regex (env : Env) (s : State) (body : Bytes) (hb : (AddrSyn.re body).OK) (hbl : body.getLast? ≠ some 47) :
    addrLine env s (AddrSyn.re body).address = (regexMatch env s body).map (fun r => wrap64 (r.1 + 0)) := by
  have := trimSlash_body body hb hbl
  simp only [addrLine, AddrSyn.address, AddrSyn.bytes] at this ⊢
  rw [this]
  cases regexMatch env s body <;> rfl

/-- `/re/d` up to the point where the address is looked up again. -/
theorem delete_found (env : Env) {s : State} {ls pre post : List Bytes} {l : Bytes} (sh : Shows s ls) (cl : Clean ls) {cur : Nat}
    (hcur : s.currentLine = cur) (hlen : ls.length < 2 ^ 62) {body w : Bytes} (hb : (AddrSyn.re body).OK) (hbl : body.getLast? ≠ some 47) {m : Bytes → Bool}
    (hm : env.compile body = some m) (hls : ls = pre ++ [l] ++ post) (hn : nextMatch m ls cur = some (pre.length + 1)) :
    ∃ pt', Shows { s with pt := pt' } (pre ++ post) ∧
      processCommand env s (TCmd.parsed ⟨.one (.re body) w, .delete⟩) =
        (regexMatch env { s with pt := pt' } body).map (fun r => ({ s with pt := pt', currentLine := wrap64 (r.1 + 0) }, [])) := by
  have hlen' : ls.length = pre.length + 1 + post.length := by rw [hls]; simp; omega
  have e0 : setDefaultAddresses (TCmd.parsed ⟨.one (.re body) w, .delete⟩) = TCmd.parsed ⟨.one (.re body) w, .delete⟩ :=
    setDefault_given _ (by simp [TCmd.parsed, RangeSyn.start, AddrSyn.address])
  have e1 : addrLine env s (AddrSyn.re body).address = .ok ((pre.length + 1 : Nat) : Int) :=
    addrLine_line env sh cl hcur hb (by simp [AddrSyn.line, hm, hn, hbl]) (by omega)
  obtain ⟨pt', e, sh1⟩ := delete_shows sh cl.plain ((pre.length + 1 : Nat) : Int) ((pre.length + 1 : Nat) : Int) (by omega) (by omega) (by omega)
  have hi : index ls ((pre.length + 1 : Nat) : Int) = pre.length := by rw [index_clean cl.lastNe]; omega
  have hj : index ls (((pre.length + 1 : Nat) : Int) + 1) = pre.length + 1 := by
    have := index_clean cl.lastNe (pre.length + 2)
    rw [show ((pre.length + 2 : Nat) : Int) = ((pre.length + 1 : Nat) : Int) + 1 by omega] at this
    rw [this]; omega
  rw [hi, hj, hls] at sh1
  have ecut : (pre ++ [l] ++ post).take pre.length ++ (pre ++ [l] ++ post).drop (pre.length + 1) = pre ++ post := by
    simp
  rw [ecut] at sh1
  refine ⟨pt', sh1, ?_⟩
  simp only [processCommand, e0]
  simp only [TCmd.parsed, RangeSyn.start, RangeSyn.end_, e1, bind, Except.bind, e, lift, addrLine_regex env _ body hb hbl]
  cases regexMatch env { s with pt := pt' } body <;> rfl

/-- **C85** is false: when no other line matches, `/re/d` deletes the line it finds and then looks for it again. If
that was the only line the process crashes; if the current line was not one of those left, as after opening a file and
searching for a line, it hangs; otherwise the current line becomes -1. -/
theorem C85_only_match (env : Env) {s : State} {ls pre post : List Bytes} {l : Bytes} (sh : Shows s ls) (cl : Clean ls) {cur : Nat}
    (hcur : s.currentLine = cur) (hlen : ls.length < 2 ^ 62) {body w : Bytes} (hb : (AddrSyn.re body).OK) (hbl : body.getLast? ≠ some 47) {m : Bytes → Bool}
    (hm : env.compile body = some m) (hls : ls = pre ++ [l] ++ post) (hl : m l = true) (hno : ∀ x ∈ pre ++ post, m x = false)
    (hc : Clean (pre ++ post)) :
    (pre ++ post = [] → processCommand env s (TCmd.parsed ⟨.one (.re body) w, .delete⟩) = .error (.panic .divZero)) ∧
    (pre ++ post ≠ [] → cur = 0 ∨ (pre ++ post).length < cur →
      processCommand env s (TCmd.parsed ⟨.one (.re body) w, .delete⟩) = .error .hang) ∧
    (1 ≤ cur → cur ≤ (pre ++ post).length → ∃ s', processCommand env s (TCmd.parsed ⟨.one (.re body) w, .delete⟩) = .ok (s', []) ∧
      Shows s' (pre ++ post) ∧ s'.currentLine = -1) := by
  obtain ⟨pt', sh1, e⟩ := delete_found env (w := w) sh cl hcur hlen hb hbl hm hls (by rw [hls]; exact nextMatch_unique hl hno)
  rw [e]
  refine ⟨?_, ?_, ?_⟩
  · intro h0
    rw [h0] at sh1
    rw [C64_search_empty env sh1 body m hm]
    rfl
  · intro hne hout
    rw [(C64_search_diverges env sh1 hc hne cur hcur hout body m hm hno).1]
    rfl
  · intro h1 h2
    rw [(C64_forward_search env sh1 hc cur hcur h1 h2 body m hm).2 hno]
    exact ⟨_, rfl, ⟨sh1.reach, sh1.text⟩, rfl⟩

/-- **C85** Opening a file of two lines and deleting the second by a search hangs, whatever the schedule. -/
theorem C85_counterexample : processCommand demoEnv (opened [b!"one", b!"two"] 2) (TCmd.parsed ⟨.one (.re b!"w") [], .delete⟩) = .error .hang ∧
    parseCommands b!"/w/d\n" = some [TCmd.parsed ⟨.one (.re b!"w") [], .delete⟩] ∧
    ∃ s', processCommand demoEnv (opened [b!"one", b!"two", b!"six"] 1) (TCmd.parsed ⟨.one (.re b!"w") [], .delete⟩) = .ok (s', []) ∧
      s'.currentLine = -1 ∧ processCommand demoEnv s' (TCmd.parsed ⟨.none, .print⟩) = .error (.panic .index) := by
  refine ⟨?_, ?_, ?_⟩
  · exact (C85_only_match demoEnv (opened_shows _ 2) (clean_of _ (by decide) (by decide)) (cur := 2) rfl (by decide)
      (body := b!"w") (.plain (by decide) (by decide)) (by decide) rfl (pre := [b!"one"]) (l := b!"two") (post := []) rfl (by decide) (by decide)
      (clean_of _ (by decide) (by decide))).2.1 (by decide) (by decide)
  · exact parse_tcmd ⟨.one (.re b!"w") [], .delete⟩ ⟨⟨.plain (by decide) (by decide), blanks_nil⟩, trivial⟩
  · obtain ⟨s', h1, h2, h3⟩ := (C85_only_match demoEnv (w := []) (opened_shows [b!"one", b!"two", b!"six"] 1) (clean_of _ (by decide) (by decide)) (cur := 1) rfl (by decide)
      (body := b!"w") (.plain (by decide) (by decide)) (by decide) rfl (pre := [b!"one"]) (l := b!"two") (post := [b!"six"]) rfl (by decide) (by decide)
      (clean_of _ (by decide) (by decide))).2.2 (by decide) (by decide)
    refine ⟨s', h1, h3, ?_⟩
    have e0 : setDefaultAddresses (TCmd.parsed ⟨.none, .print⟩) = { typ := .print, start := aCur, end_ := aCur } := rfl
    have e1 : addrLine demoEnv s' aCur = .ok (-1) := by simp [addrLine, aCur, h3, wrap64]
    have hsc := scanned_shows h2 (clean_of _ (by decide) (by decide) : Clean ([b!"one"] ++ [b!"six"])).plain
    simp only [processCommand, e0, e1, bind, Except.bind, print, hsc]
    rfl

/-- **C85** As long as some line matches after the deletion, `/re/d` deletes exactly the line found; the current line is
the next match after that (not, as it should be, the line after the one deleted). -/
theorem C85_others_match_partial (env : Env) {s : State} {ls pre post : List Bytes} {l : Bytes} (sh : Shows s ls) (cl : Clean ls) {cur k : Nat}
    (hcur : s.currentLine = cur) (hlen : ls.length < 2 ^ 62) {body w : Bytes} (hb : (AddrSyn.re body).OK) (hbl : body.getLast? ≠ some 47) {m : Bytes → Bool}
    (hm : env.compile body = some m) (hls : ls = pre ++ [l] ++ post) (hn : nextMatch m ls cur = some (pre.length + 1))
    (hc : Clean (pre ++ post)) (hk : nextMatch m (pre ++ post) cur = some k) :
    ∃ s', processCommand env s (TCmd.parsed ⟨.one (.re body) w, .delete⟩) = .ok (s', []) ∧ Shows s' (pre ++ post) ∧ s'.currentLine = k := by
  have hlen' : ls.length = pre.length + 1 + post.length := by rw [hls]; simp; omega
  obtain ⟨pt', sh1, e⟩ := delete_found env (w := w) sh cl hcur hlen hb hbl hm hls hn
  rw [e, regexMatch_next env sh1 hc hcur hm hk]
  have := (nextMatch_le hk).2
  simp only [List.length_append] at this
  exact ⟨_, rfl, ⟨sh1.reach, sh1.text⟩, by show wrap64 _ = _; rw [wrap64_id (by omega) (by omega)]; omega⟩

example : ∃ s', processCommand demoEnv (opened [b!"one", b!"two", b!"six"] 1) (TCmd.parsed ⟨.one (.re b!"o") [], .delete⟩) = .ok (s', []) ∧
    Shows s' [b!"one", b!"six"] ∧ s'.currentLine = (1 : Nat) :=
  C85_others_match_partial demoEnv (opened_shows _ 1) (clean_of _ (by decide) (by decide)) (cur := 1) rfl (by decide)
    (body := b!"o") (.plain (by decide) (by decide)) (by decide) rfl (pre := [b!"one"]) (l := b!"two") (post := [b!"six"]) rfl (by decide)
    (clean_of _ (by decide) (by decide)) (by decide)

/-! ## C86 -/

/-- The current line POSIX asks for after a command with the addresses `a` and `b`, the current line having been `cur`;
`n` is the number of lines afterwards. -/
def posixCurrent (v : Verb) (a b cur n : Nat) : Nat :=
  match v with
  | .print | .number => b
  | .null => a
  | .equals | .write | .unsupported _ => cur
  | .edit _ => n
  | .delete => min a n
  | .append t => a + t.length
  | .insert t | .change t => a - 1 + t.length

/-- The default address of a command. -/
def Verb.default (v : Verb) (st : RState) : Nat :=
  match v with
  | .null => st.cur + 1
  | .equals => st.lines.length
  | _ => st.cur

/-- The cases in which the current line comes out right. -/
def Right (c : TCmd) (st : RState) (a b : Nat) (n : Nat) : Prop :=
  match c.verb with
  | .null | .equals | .edit _ | .unsupported _ => True
  | .print | .number => b = st.cur
  | .write => st.cur = st.lines.length
  | .delete => c.range.Direct ∧ ¬ c.range.fromLast ∧ a ≤ n
  | .insert t => st.cur = a - 1 + t.length
  | .append _ | .change _ => False

theorem first_again {comp : Bytes → Option (Bytes → Bool)} {r : RangeSyn} (hd : r.Direct) (hl : ¬ r.fromLast) (ls ls' : List Bytes) (cur d : Nat) :
    r.first comp ls' cur d = r.first comp ls cur d := by
  have given : ∀ a : AddrSyn, a.NoSearch → a ≠ .dollar → a.line comp ls' cur = a.line comp ls cur := by
    intro a h1 h2
    cases a with
    | lit ds => rfl
    | dot => rfl
    | dollar => exact absurd rfl h2
    | re | mark | back | off => exact h1.elim
  cases r with
  | none => rfl
  | one a w => exact given a hd hl
  | both semi a w1 w2 b w3 => exact given a hd.2.1 hl
  | startOnly semi a w => exact given a hd.2 hl
  | endOnly semi w1 b w2 => rfl
  | all semi => rfl

/-- **C86** Which commands leave the current line POSIX asks for: always `=`, the empty command, `e` of a file that is there and the unsupported
ones; `d` with a first address that is a number or `.` if lines follow; `p` and `n` only if the last line printed was already current,
`w` only if the last line was, `i` only if it happened to be the last line of the text; `a` and `c` never. In all other cases it is another line. -/
theorem C86_current_iff (env : Env) (hsave : Saves env) {s : State} {st st1 : RState} {c : TCmd} {o : Bytes} {a b : Nat}
    (h : Agrees s st) (hwf : c.WF) (hd : Does env.compile env.openErr c st st1 o) (hc1 : Clean st1.lines) (hl1 : st1.lines.length < 2 ^ 62)
    (ha : c.range.first env.compile st.lines st.cur (c.verb.default st) = some a)
    (hb : c.range.last env.compile st.lines st.cur (c.verb.default st) = some b)
    (hcase : c.verb = .delete → c.range.Direct ∧ ¬ c.range.fromLast) (hopen : ∀ n, c.verb = .edit n → st.files n ≠ none) :
    ∃ s', processCommand env s c.parsed = .ok (s', o) ∧
      (s'.currentLine = (posixCurrent c.verb a b st.cur st1.lines.length : Nat) ↔ Right c st a b st1.lines.length) := by
  obtain ⟨s', e, ag⟩ := does_refines env hsave h hwf hd hc1 hl1
  refine ⟨s', e, ?_⟩
  rw [ag.cur]
  cases hd with
  | print ha' hb' h1 h2 h3 => simp only [posixCurrent, Right]; omega
  | number ha' hb' h1 h2 h3 => simp only [posixCurrent, Right]; omega
  | equals ha' h1 => simp [posixCurrent, Right]
  | null ha' h1 h2 =>
    simp only [Verb.default] at ha
    rw [ha'] at ha
    cases ha
    simp [posixCurrent, Right]
  | delete ha' hb' hls hmid ea eb hd2 =>
    obtain ⟨hdir, hnl⟩ := hcase rfl
    simp only [Verb.default] at ha
    rw [first_again hdir hnl st.lines, ha] at hd2
    cases hd2
    simp only [posixCurrent, Right, hdir, hnl, not_false_eq_true, true_and]
    omega
  | append ha' hls ht =>
    simp only [Verb.default] at ha
    rw [ha'] at ha
    cases ha
    simp only [posixCurrent, Right, iff_false]
    omega
  | insert ha' hls ht => simp only [posixCurrent, Right]; omega
  | change ha' hb' hls hmid eb hnl ht oc =>
    simp only [Verb.default] at ha
    rw [ha'] at ha
    cases ha
    simp only [posixCurrent, Right, iff_false]
    omega
  | write => simp only [posixCurrent, Right]; omega
  | edit hf => simp [posixCurrent, Right]
  | noFile hf => exact absurd hf (hopen _ rfl)
  | unsupported => simp [posixCurrent, Right]

/-- An editor that has opened a file of two lines. -/
def openedTwo : State := { opened [b!"one", b!"two"] 2 with fs := fun _ => some b!"one\ntwo\n" }

/-- **C86** is false: printing line 1 of a file just opened leaves the current line at the end, so that the next
`p` prints the last line; and after `$a` the current line is one past the end of the buffer. -/
theorem C86_counterexample :
    (∃ s', processCommand demoEnv openedTwo (TCmd.parsed ⟨.one (.lit b!"1") [], .print⟩) = .ok (s', b!"one") ∧
      ∃ s2, processCommand demoEnv s' (TCmd.parsed ⟨.none, .print⟩) = .ok (s2, b!"two")) ∧
    (∃ s', processCommand demoEnv openedTwo (TCmd.parsed ⟨.one .dollar [], .append [b!"x"]⟩) = .ok (s', []) ∧
      Shows s' [b!"one", b!"two", b!"x"] ∧ s'.currentLine = (4 : Nat)) := by
  have hs : Saves demoEnv := fun _ => ⟨rfl, rfl, rfl⟩
  have ag : Agrees openedTwo ⟨[b!"one", b!"two"], 2, openedTwo.filename, openedTwo.fs⟩ :=
    ⟨⟨(opened_shows _ 2).reach, (opened_shows _ 2).text⟩, clean_of _ (by decide) (by decide), rfl, by decide, by decide, rfl, rfl⟩
  constructor
  · obtain ⟨s', e, ag'⟩ := does_refines demoEnv hs ag (c := ⟨.one (.lit b!"1") [], .print⟩) ⟨⟨⟨by decide, by decide⟩, blanks_nil⟩, trivial⟩
      (.print (a := 1) (b := 1) rfl rfl (by decide) (by decide) (by decide)) ag.clean ag.len
    obtain ⟨s2, e2, -⟩ := does_refines demoEnv hs ag' (c := ⟨.none, .print⟩) ⟨trivial, trivial⟩
      (.print (a := 2) (b := 2) rfl rfl (by decide) (by decide) (by decide)) ag.clean ag.len
    exact ⟨s', e, s2, e2⟩
  · obtain ⟨s', e, ag'⟩ := does_refines demoEnv hs ag (c := ⟨.one .dollar [], .append [b!"x"]⟩)
      ⟨⟨trivial, blanks_nil⟩, trivial, trivial, ⟨⟨by decide, by decide, by decide, by decide⟩, by decide⟩⟩
      (.append (pre := [b!"one", b!"two"]) (post := []) rfl rfl ⟨by decide, plain_of _ (by decide)⟩) (clean_of _ (by decide) (by decide)) (by decide)
    exact ⟨s', e, ag'.shows_, ag'.cur⟩

end Ed
