import Verif.Ed.CurrentProps

/-!
# C171: searching again and again

Typing `/re/` goes to the next matching line and shows it. Typed again and again it visits the matching lines one after the other, in the
order of the file, each once before any comes a second time. So a file just opened can be searched for all its matching lines, and
with `.=` after each search their numbers are printed too.
-/

namespace Ed
open Go

/-- The numbers (from 1) of the lines that match, in order. -/
def hits (m : Bytes → Bool) (ls : List Bytes) : List Nat := (List.range' 1 ls.length).filter (fun n => (ls[n - 1]?).any m)

/-- The lines yet to be visited from line `cur`, then those before it and `cur` itself. -/
def ahead (m : Bytes → Bool) (ls : List Bytes) (cur : Nat) : List Nat :=
  (List.range' (cur + 1) (ls.length - cur)).filter (fun n => (ls[n - 1]?).any m) ++ (List.range' 1 cur).filter (fun n => (ls[n - 1]?).any m)

theorem round_eq {len cur : Nat} (h : cur ≤ len) (h0 : 0 < len) :
    (List.range len).map (fun k => around len (cur + 1 + k)) = List.range' (cur + 1) (len - cur) ++ List.range' 1 cur := by
  apply List.ext_getElem
  · simp; omega
  · intro i h1 h2
    simp only [List.length_map, List.length_range] at h1
    simp only [List.getElem_map, List.getElem_range, around]
    rw [List.getElem_append]
    split
    · next hl =>
      simp only [List.length_range'] at hl
      rw [List.getElem_range', show cur + 1 + i - 1 = cur + i by omega, Nat.mod_eq_of_lt (by omega)]
      omega
    · next hl =>
      simp only [List.length_range'] at hl ⊢
      rw [List.getElem_range', show cur + 1 + i - 1 = (cur + i - len) + len by omega, Nat.add_mod_right, Nat.mod_eq_of_lt (by omega)]
      omega

theorem nextMatch_ahead (m : Bytes → Bool) (ls : List Bytes) {cur : Nat} (h : cur ≤ ls.length) (h0 : 0 < ls.length) :
    nextMatch m ls cur = (ahead m ls cur).head? := by
  unfold nextMatch ahead
  rw [round_eq h h0, ← List.filter_append, List.head?_filter]

theorem first_hit (p : Nat → Bool) (n : Nat) : ∀ (s a : Nat) (rest : List Nat), (List.range' s n).filter p = a :: rest →
    ∃ i, a = s + i ∧ i < n ∧ (List.range' s i).filter p = [] ∧ p a = true ∧ rest = (List.range' (a + 1) (n - i - 1)).filter p := by
  induction n with
  | zero => intro s a rest h; cases h
  | succ n ih =>
    intro s a rest h
    rw [List.range'_succ, List.filter_cons] at h
    by_cases hs : p s = true
    · rw [if_pos hs] at h
      simp only [List.cons.injEq] at h
      obtain ⟨rfl, rfl⟩ := h
      exact ⟨0, rfl, by omega, rfl, hs, by simp⟩
    · rw [if_neg hs] at h
      obtain ⟨i, h1, h2, h3, h4, h5⟩ := ih _ _ _ h
      refine ⟨i + 1, by omega, by omega, ?_, h4, by rw [h5]; congr 2; omega⟩
      rw [List.range'_succ, List.filter_cons, if_neg hs]
      exact h3

/-- After going to the first of the lines ahead, it is the last of them. -/
theorem ahead_next (m : Bytes → Bool) (ls : List Bytes) {cur a : Nat} {rest : List Nat} (h : cur ≤ ls.length) (ha : ahead m ls cur = a :: rest) :
    1 ≤ a ∧ a ≤ ls.length ∧ (ls[a - 1]?).any m = true ∧ ahead m ls a = rest ++ [a] := by
  unfold ahead at ha ⊢
  generalize hp : (fun n => (ls[n - 1]?).any m) = p at ha ⊢
  have hpa : ∀ n, (ls[n - 1]?).any m = p n := fun n => by rw [← hp]
  rw [hpa]
  cases hf : (List.range' (cur + 1) (ls.length - cur)).filter p with
  | cons b r1 =>
    rw [hf] at ha
    simp only [List.cons_append, List.cons.injEq] at ha
    obtain ⟨rfl, rfl⟩ := ha
    obtain ⟨i, h1, h2, h3, h4, h5⟩ := first_hit p _ _ _ _ hf
    refine ⟨by omega, by omega, h4, ?_⟩
    have e1 : List.range' 1 b = List.range' 1 cur ++ (List.range' (cur + 1) i ++ [b]) := by
      have : b = cur + (i + 1) := by omega
      conv => lhs; rw [this]
      rw [← List.range'_append_1 (m := cur) (n := i + 1), ← List.range'_append_1 (m := i) (n := 1)]
      simp [h1]; omega
    rw [e1, List.filter_append, List.filter_append, h3, List.nil_append, List.filter_cons_of_pos h4, List.filter_nil, h5,
      show ls.length - cur - i - 1 = ls.length - b by omega, List.append_assoc]
  | nil =>
    rw [hf, List.nil_append] at ha
    obtain ⟨i, h1, h2, h3, h4, h5⟩ := first_hit p _ _ _ _ ha
    refine ⟨by omega, by omega, h4, ?_⟩
    have e1 : List.range' 1 a = List.range' 1 i ++ [a] := by
      have : a = i + 1 := by omega
      conv => lhs; rw [this]
      rw [← List.range'_append_1 (m := i) (n := 1)]
      simp [h1]
    have e2 : List.range' (a + 1) (ls.length - a) = List.range' (a + 1) (cur - a) ++ List.range' (cur + 1) (ls.length - cur) := by
      have : ls.length - a = (cur - a) + (ls.length - cur) := by omega
      rw [this, ← List.range'_append_1]
      congr 2; omega
    rw [e1, e2, List.filter_append, List.filter_append, hf, h3, h5, List.append_nil, List.nil_append, List.filter_cons_of_pos h4, List.filter_nil,
      show cur - i - 1 = cur - a by omega]

/-- Taking the first again and again and putting it at the end: the `i`-th taken. -/
theorem rotate_get {q : List Nat} {a : Nat} {rest : List Nat} (hq : q = a :: rest) (i : Nat) :
    (rest ++ [a])[i % q.length]? = q[(i + 1) % q.length]? := by
  subst hq
  simp only [List.length_cons]
  have hi : i % (rest.length + 1) < rest.length + 1 := Nat.mod_lt _ (by omega)
  rw [Nat.add_mod]
  generalize i % (rest.length + 1) = j at hi
  by_cases hj : j = rest.length
  · subst hj
    have : (rest.length + 1 % (rest.length + 1)) % (rest.length + 1) = 0 := by
      by_cases h0 : rest.length = 0
      · rw [h0]
      · rw [Nat.mod_eq_of_lt (a := 1) (by omega), Nat.mod_self]
    rw [this]
    simp
  · have : (j + 1 % (rest.length + 1)) % (rest.length + 1) = j + 1 := by
      rw [Nat.mod_eq_of_lt (a := 1) (by omega), Nat.mod_eq_of_lt (by omega)]
    rw [this, List.getElem?_append_left (by omega)]
    simp

/-- The command lines: `/re/`, `k` times. -/
def searches (body : Bytes) (k : Nat) : List TCmd := List.replicate k ⟨.one (.re body) [], .null⟩

/-- The command lines: `/re/` and `.=`, `k` times. -/
def searchesNumbered (body : Bytes) : Nat → List TCmd
  | 0 => []
  | k + 1 => ⟨.one (.re body) [], .null⟩ :: ⟨.one .dot [], .equals⟩ :: searchesNumbered body k

/-- One search. -/
theorem search_does (comp : Bytes → Option (Bytes → Bool)) (openErr : Bytes → Bytes) (body : Bytes) (hb : body.getLast? ≠ some 47) (m : Bytes → Bool)
    (hm : comp body = some m) (st : RState) (hcur : st.cur ≤ st.lines.length) {a : Nat} {rest : List Nat} (ha : ahead m st.lines st.cur = a :: rest) :
    ∃ l, st.lines[a - 1]? = some l ∧ Does comp openErr ⟨.one (.re body) [], .null⟩ st { st with cur := a } l := by
  obtain ⟨h1, h2, h3, h4⟩ := ahead_next m st.lines hcur ha
  have hl : a - 1 < st.lines.length := by omega
  refine ⟨st.lines[a - 1], List.getElem?_eq_getElem hl, Does.null ?_ h1 (List.getElem?_eq_getElem hl)⟩
  simp only [RangeSyn.first, AddrSyn.line]
  rw [if_neg hb, hm]
  show nextMatch m st.lines st.cur = some a
  rw [nextMatch_ahead m st.lines hcur (by omega), ha]
  rfl

/-- `k` searches from anywhere: the lines ahead, again and again. -/
theorem searches_session (comp : Bytes → Option (Bytes → Bool)) (openErr : Bytes → Bytes) (body : Bytes) (hb : body.getLast? ≠ some 47) (m : Bytes → Bool)
    (hm : comp body = some m) (k : Nat) : ∀ (st : RState), st.cur ≤ st.lines.length → Clean st.lines → st.lines.length < 2 ^ 62 →
    ahead m st.lines st.cur ≠ [] →
    ∃ st' os, Session comp openErr (searches body k) st st' os ∧ st'.lines = st.lines ∧ st'.files = st.files ∧ os.length = k ∧
      ∀ i < k, ∃ a, (ahead m st.lines st.cur)[i % (ahead m st.lines st.cur).length]? = some a ∧ os[i]? = st.lines[a - 1]? := by
  induction k with
  | zero => intro st _ _ _ _; exact ⟨st, [], .nil, rfl, rfl, rfl, fun i hi => by omega⟩
  | succ k ih =>
    intro st hcur hc hlen hne
    obtain ⟨a, rest, ha⟩ := List.exists_cons_of_ne_nil hne
    obtain ⟨l, hl, hd⟩ := search_does comp openErr body hb m hm st hcur ha
    obtain ⟨_, h2, _, h4⟩ := ahead_next m st.lines hcur ha
    obtain ⟨st', os, i1, i2, i3, i4, i5⟩ := ih { st with cur := a } h2 hc hlen (by rw [h4]; simp)
    refine ⟨st', l :: os, .cons hd hc hlen i1, i2, i3, by simp [i4], ?_⟩
    intro i hi
    cases i with
    | zero =>
      refine ⟨a, ?_, by simp [hl]⟩
      rw [Nat.zero_mod, ha]
      rfl
    | succ i =>
      obtain ⟨b, b1, b2⟩ := i5 i (by omega)
      refine ⟨b, ?_, by simpa using b2⟩
      simp only [h4] at b1
      rw [show (rest ++ [a]).length = (ahead m st.lines st.cur).length by rw [ha]; simp] at b1
      rw [← b1, rotate_get ha i]

/-- The same with the number after each line. -/
theorem searchesNumbered_session (comp : Bytes → Option (Bytes → Bool)) (openErr : Bytes → Bytes) (body : Bytes) (hb : body.getLast? ≠ some 47)
    (m : Bytes → Bool) (hm : comp body = some m) (k : Nat) : ∀ (st : RState), st.cur ≤ st.lines.length → Clean st.lines → st.lines.length < 2 ^ 62 →
    ahead m st.lines st.cur ≠ [] →
    ∃ st' os, Session comp openErr (searchesNumbered body k) st st' os ∧ st'.lines = st.lines ∧ st'.files = st.files ∧ os.length = 2 * k ∧
      ∀ i < k, ∃ a, (ahead m st.lines st.cur)[i % (ahead m st.lines st.cur).length]? = some a ∧ os[2 * i]? = st.lines[a - 1]? ∧
        os[2 * i + 1]? = some (itoa a) := by
  induction k with
  | zero => intro st _ _ _ _; exact ⟨st, [], .nil, rfl, rfl, rfl, fun i hi => by omega⟩
  | succ k ih =>
    intro st hcur hc hlen hne
    obtain ⟨a, rest, ha⟩ := List.exists_cons_of_ne_nil hne
    obtain ⟨l, hl, hd⟩ := search_does comp openErr body hb m hm st hcur ha
    obtain ⟨_, h2, _, h4⟩ := ahead_next m st.lines hcur ha
    obtain ⟨st', os, i1, i2, i3, i4, i5⟩ := ih { st with cur := a } h2 hc hlen (by rw [h4]; simp)
    have hd2 : Does comp openErr ⟨.one .dot [], .equals⟩ { st with cur := a } { st with cur := a } (itoa a) :=
      Does.equals (a := a) rfl (Nat.lt_trans (Nat.lt_of_le_of_lt h2 hlen) (by decide))
    refine ⟨st', l :: itoa a :: os, .cons hd hc hlen (.cons hd2 hc hlen i1), i2, i3, by simp [i4]; omega, ?_⟩
    intro i hi
    cases i with
    | zero =>
      refine ⟨a, ?_, by simp [hl], rfl⟩
      rw [Nat.zero_mod, ha]
      rfl
    | succ i =>
      obtain ⟨b, b1, b2, b3⟩ := i5 i (by omega)
      rw [show 2 * (i + 1) = 2 * i + 1 + 1 by omega]
      refine ⟨b, ?_, by simpa using b2, by simpa using b3⟩
      simp only [h4] at b1
      rw [show (rest ++ [a]).length = (ahead m st.lines st.cur).length by rw [ha]; simp] at b1
      rw [← b1, rotate_get ha i]

theorem ahead_opened (m : Bytes → Bool) (ls : List Bytes) : ahead m ls ls.length = hits m ls := by
  unfold ahead hits
  rw [Nat.sub_self]
  rfl

theorem hits_lines (m : Bytes → Bool) (ls : List Bytes) : (hits m ls).map (fun n => ls[n - 1]?) = (ls.filter m).map some := by
  have key : ∀ (pre ls : List Bytes), ((List.range' (pre.length + 1) ls.length).filter (fun n => ((pre ++ ls)[n - 1]?).any m)).map (fun n => (pre ++ ls)[n - 1]?) =
      (ls.filter m).map some := by
    intro pre ls
    induction ls generalizing pre with
    | nil => rfl
    | cons l ls ih =>
      have := ih (pre ++ [l])
      rw [List.append_assoc, List.singleton_append, List.length_append, List.length_singleton] at this
      rw [List.length_cons, List.range'_succ, List.filter_cons]
      have e : (pre ++ l :: ls)[pre.length + 1 - 1]? = some l := by simp
      rw [e, Option.any_some, List.filter_cons]
      split
      · rw [List.map_cons, this, e, List.map_cons]
      · exact this
  exact key [] ls

theorem hits_ne {m : Bytes → Bool} {ls : List Bytes} (h : ∃ l ∈ ls, m l = true) : hits m ls ≠ [] := by
  intro h0
  have he := hits_lines m ls
  rw [h0] at he
  obtain ⟨l, h1, h2⟩ := h
  have hl : l ∈ ls.filter m := List.mem_filter.2 ⟨h1, h2⟩
  rw [List.map_eq_nil_iff.1 he.symm] at hl
  cases hl

theorem hits_length (m : Bytes → Bool) (ls : List Bytes) : (hits m ls).length = (ls.filter m).length := by
  have := congrArg List.length (hits_lines m ls)
  simpa using this

theorem hits_get {m : Bytes → Bool} {ls : List Bytes} {i a : Nat} (h : (hits m ls)[i]? = some a) : (ls.filter m)[i]? = ls[a - 1]? := by
  have := congrArg (·[i]?) (hits_lines m ls)
  simp only [List.getElem?_map, h, Option.map_some] at this
  cases hf : (ls.filter m)[i]? with
  | none => rw [hf] at this; cases this
  | some x => rw [hf] at this; simp only [Option.map_some, Option.some.injEq] at this; exact this.symm

theorem searches_wf {body : Bytes} (hok : (AddrSyn.re body).OK) (k : Nat) : ∀ c ∈ searches body k, c.WF := by
  intro c hc
  rw [(List.mem_replicate.1 hc).2]
  refine ⟨⟨hok, by intro x hx; cases hx⟩, ?_⟩
  simp [RangeSyn.Simple]

theorem searches_typed (body : Bytes) (k : Nat) : (searches body k).flatMap TCmd.typed = List.replicate k (b!"/" ++ body ++ b!"/") := by
  unfold searches
  induction k with
  | zero => rfl
  | succ k ih =>
    rw [List.replicate_succ, List.flatMap_cons, ih, List.replicate_succ]
    simp [TCmd.typed, RangeSyn.bytes, AddrSyn.bytes]

/-- **C171** `ed name`, given `/re/` any number of times: the results are the matching lines of the file in their order, again and again
from the first. So no matching line is passed over and none is shown twice before all have been. -/
theorem C171_visits (env : Env) (hsave : Saves env) (errText : Bytes → Bytes) (s0 : State) (name : Bytes) (hn : NameOK name)
    (hnp : PlainLine (b!"e " ++ name)) (ls : List Bytes) (hfs : s0.fs name = some (unlines ls)) (hc : Clean ls) (hlen : ls.length < 2 ^ 62)
    (body : Bytes) (hok : (AddrSyn.re body).OK) (hb : body.getLast? ≠ some 47) (hp : PlainLine (b!"/" ++ body ++ b!"/")) (m : Bytes → Bool)
    (hm : env.compile body = some m) (hex : ∃ l ∈ ls, m l = true) (k : Nat) (quits : Bool) (st : Sys) (how : End)
    (hs : Steps env (initial errText s0 (mainInput (some name) (unlines (List.replicate k (b!"/" ++ body ++ b!"/") ++ lastLine quits)))) st)
    (he : st.cons.ended = some how) :
    ∃ os, results st.out = ([] :: os).map (· ++ [nl]) ∧ errors st.out = [] ∧ st.ed.fs = s0.fs ∧ os.length = k ∧
      (∀ i < k, os[i]? = (ls.filter m)[i % (ls.filter m).length]?) ∧ (k = (ls.filter m).length → os = ls.filter m) := by
  have ha := ahead_opened m ls
  obtain ⟨st', os, h1, _, h3, h4, h5⟩ := searches_session env.compile env.openErr body hb m hm k ⟨ls, ls.length, name, s0.fs⟩ (Nat.le_refl _) hc hlen
    (by rw [ha]; exact hits_ne hex)
  rw [← searches_typed] at hs
  obtain ⟨_, g2, g3, g4⟩ := C84_session env hsave errText s0 name hn hnp ls hfs hc hlen (searches body k) (searches_wf hok k)
    (by rw [searches_typed]; intro l hl; rw [(List.mem_replicate.1 hl).2]; exact hp) quits st' os h1 st how hs he
  have hall : ∀ i < k, os[i]? = (ls.filter m)[i % (ls.filter m).length]? := by
    intro i hi
    obtain ⟨a, a1, a2⟩ := h5 i hi
    rw [ha, hits_length] at a1
    rw [a2, hits_get a1]
  refine ⟨os, g2, g3, by rw [g4, h3], h4, hall, ?_⟩
  intro hk
  apply List.ext_getElem?
  intro i
  by_cases hi : i < k
  · rw [hall i hi, Nat.mod_eq_of_lt (by omega)]
  · rw [List.getElem?_eq_none (by omega), List.getElem?_eq_none (by omega)]

theorem searchesNumbered_wf {body : Bytes} (hok : (AddrSyn.re body).OK) (k : Nat) : ∀ c ∈ searchesNumbered body k, c.WF := by
  induction k with
  | zero => intro c hc; cases hc
  | succ k ih =>
    intro c hc
    simp only [searchesNumbered, List.mem_cons] at hc
    rcases hc with rfl | rfl | hc
    · refine ⟨⟨hok, by intro x hx; cases hx⟩, ?_⟩
      simp [RangeSyn.Simple]
    · refine ⟨⟨trivial, by intro x hx; cases hx⟩, ?_⟩
      simp [RangeSyn.Simple, RangeSyn.Tight]
    · exact ih c hc

theorem searchesNumbered_typed (body : Bytes) (k : Nat) :
    (searchesNumbered body k).flatMap TCmd.typed = (List.replicate k [b!"/" ++ body ++ b!"/", b!".="]).flatten := by
  induction k with
  | zero => rfl
  | succ k ih =>
    rw [searchesNumbered, List.flatMap_cons, List.flatMap_cons, ih, List.replicate_succ]
    simp [TCmd.typed, RangeSyn.bytes, AddrSyn.bytes]

/-- **C171** With `.=` after each search the number of the line follows the line: as many searches as there are matching lines print
them all with their numbers. -/
theorem C171_numbers (env : Env) (hsave : Saves env) (errText : Bytes → Bytes) (s0 : State) (name : Bytes) (hn : NameOK name)
    (hnp : PlainLine (b!"e " ++ name)) (ls : List Bytes) (hfs : s0.fs name = some (unlines ls)) (hc : Clean ls) (hlen : ls.length < 2 ^ 62)
    (body : Bytes) (hok : (AddrSyn.re body).OK) (hb : body.getLast? ≠ some 47) (hp : PlainLine (b!"/" ++ body ++ b!"/")) (m : Bytes → Bool)
    (hm : env.compile body = some m) (hex : ∃ l ∈ ls, m l = true) (quits : Bool) (st : Sys) (how : End)
    (hs : Steps env (initial errText s0 (mainInput (some name)
      (unlines ((List.replicate (ls.filter m).length [b!"/" ++ body ++ b!"/", b!".="]).flatten ++ lastLine quits)))) st)
    (he : st.cons.ended = some how) :
    ∃ numbers : List Nat, numbers.Pairwise (· < ·) ∧ (∀ n, n ∈ numbers ↔ ∃ l, 1 ≤ n ∧ ls[n - 1]? = some l ∧ m l = true) ∧
      results st.out = ([] :: numbers.flatMap (fun n : Nat => [(ls[n - 1]?).getD [], itoa n])).map (· ++ [nl]) ∧ errors st.out = [] := by
  have ha := ahead_opened m ls
  obtain ⟨st', os, h1, _, h3, h4, h5⟩ := searchesNumbered_session env.compile env.openErr body hb m hm (ls.filter m).length ⟨ls, ls.length, name, s0.fs⟩
    (Nat.le_refl _) hc hlen (by rw [ha]; exact hits_ne hex)
  rw [← searchesNumbered_typed] at hs
  obtain ⟨_, g2, g3, g4⟩ := C84_session env hsave errText s0 name hn hnp ls hfs hc hlen (searchesNumbered body _) (searchesNumbered_wf hok _)
    (by
      rw [searchesNumbered_typed]
      intro l hl
      simp only [List.mem_flatten, List.mem_replicate] at hl
      obtain ⟨x, ⟨_, rfl⟩, hl⟩ := hl
      simp only [List.mem_cons, List.not_mem_nil, or_false] at hl
      rcases hl with rfl | rfl
      · exact hp
      · exact ⟨by decide, by decide, by decide⟩) quits st' os h1 st how hs he
  refine ⟨hits m ls, ?_, ?_, ?_, g3⟩
  · exact (List.pairwise_lt_range' ..).filter _
  · intro n
    simp only [hits, List.mem_filter, List.mem_range'_1]
    constructor
    · rintro ⟨⟨n1, n2⟩, h⟩
      rw [List.getElem?_eq_getElem (by omega : n - 1 < ls.length)] at h ⊢
      exact ⟨_, n1, rfl, h⟩
    · rintro ⟨l, n1, h, hl⟩
      have := (List.getElem?_eq_some_iff.1 h).1
      exact ⟨⟨n1, by omega⟩, by rw [h]; exact hl⟩
  · rw [g2]
    congr 2
    have key : ∀ (q : List Nat) (os : List Bytes), os.length = 2 * q.length →
        (∀ i < q.length, ∃ a, q[i]? = some a ∧ os[2 * i]? = ls[a - 1]? ∧ os[2 * i + 1]? = some (itoa a)) →
        os = q.flatMap (fun n : Nat => [(ls[n - 1]?).getD [], itoa n]) := by
      intro q
      induction q with
      | nil => intro os h _; exact List.length_eq_zero_iff.1 h
      | cons b q ih =>
        intro os h hq
        match os, h with
        | x :: y :: os, h =>
          obtain ⟨a, a1, a2, a3⟩ := hq 0 (by simp)
          simp only [List.getElem?_cons_zero, Option.some.injEq] at a1
          subst a1
          simp only [Nat.mul_zero, List.getElem?_cons_zero, Nat.zero_add, List.getElem?_cons_succ, Option.some.injEq] at a2 a3
          rw [List.flatMap_cons, ← a2, a3]
          simp only [Option.getD_some, List.cons_append, List.nil_append, List.cons.injEq, true_and]
          apply ih
          · simp only [List.length_cons] at h; omega
          · intro i hi
            obtain ⟨a, a1, a2, a3⟩ := hq (i + 1) (by simp; omega)
            exact ⟨a, by simpa using a1, by simpa [Nat.mul_add] using a2, by simpa [Nat.mul_add] using a3⟩
        | [x], h => simp at h; omega
        | [], h => simp at h
    apply key
    · rw [h4, hits_length]
    · intro i hi
      rw [hits_length] at hi
      obtain ⟨a, a1, a2, a3⟩ := h5 i hi
      simp only [ha, hits_length] at a1
      rw [Nat.mod_eq_of_lt hi] at a1
      exact ⟨a, a1, a2, a3⟩

/-- With `p` after the search the current line stays where it is: the same line is shown each time. -/
theorem C171_print_stays (comp : Bytes → Option (Bytes → Bool)) (openErr : Bytes → Bytes) (body : Bytes) (hb : body.getLast? ≠ some 47) (m : Bytes → Bool)
    (hm : comp body = some m) (ls : List Bytes) (name : Bytes) (files : Bytes → Option Bytes) (hc : Clean ls) (hlen : ls.length < 2 ^ 62)
    (l : Bytes) (rest : List Bytes) (hl : ls.filter m = l :: rest) (k : Nat) :
    ∃ st', Session comp openErr (List.replicate k ⟨.one (.re body) [], .print⟩) ⟨ls, ls.length, name, files⟩ st' (List.replicate k l) ∧ st' = ⟨ls, ls.length, name, files⟩ := by
  refine ⟨_, ?_, rfl⟩
  induction k with
  | zero => exact .nil
  | succ k ih =>
    rw [List.replicate_succ, List.replicate_succ]
    refine .cons ?_ hc hlen ih
    have hne : hits m ls ≠ [] := hits_ne ⟨l, (List.mem_filter.1 (hl ▸ List.mem_cons_self ..)).1, (List.mem_filter.1 (hl ▸ List.mem_cons_self ..)).2⟩
    obtain ⟨a, q, ha⟩ := List.exists_cons_of_ne_nil hne
    have ho := ahead_opened m ls
    rw [ha] at ho
    obtain ⟨h1, h2, _, _⟩ := ahead_next m ls (Nat.le_refl _) ho
    have hg := hits_get (i := 0) (a := a) (by rw [ha]; rfl)
    rw [hl] at hg
    simp only [List.getElem?_cons_zero] at hg
    have hf : RangeSyn.first comp ls ls.length ls.length (.one (.re body) []) = some a := by
      simp only [RangeSyn.first, AddrSyn.line]
      rw [if_neg hb, hm]
      show nextMatch m ls ls.length = some a
      rw [nextMatch_ahead m ls (Nat.le_refl _) (by omega), ho]
      rfl
    have hd := Does.print (comp := comp) (openErr := openErr) (r := .one (.re body) []) (st := ⟨ls, ls.length, name, files⟩) (a := a) (b := a) hf hf h1 (Nat.le_refl _) h2
    have e : join [nl] (linesFrom ls a a) = l := by
      have : linesFrom ls a a = [l] := by
        unfold linesFrom
        obtain ⟨hlt, he⟩ := List.getElem?_eq_some_iff.1 hg.symm
        have hta : (ls.take a).drop (a - 1) = (ls.drop (a - 1)).take (a - (a - 1)) := List.drop_take ..
        rw [hta, List.drop_eq_getElem_cons hlt, he, show a - (a - 1) = 1 by omega]
        rfl
      rw [this]
      rfl
    rw [e] at hd
    exact hd

/-- Three of five lines match; four searches show them and then the first again. -/
example : hits (fun l => l.contains 111) [b!"one", b!"six", b!"two", b!"four", b!"nine"] = [1, 3, 4] ∧
    [b!"one", b!"six", b!"two", b!"four", b!"nine"].filter (fun l => l.contains 111) = [b!"one", b!"two", b!"four"] ∧
    ahead (fun l => l.contains 111) [b!"one", b!"six", b!"two", b!"four", b!"nine"] 3 = [4, 1, 3] := by decide

/-- A run: three searches for `o` in a file of three lines. -/
example (errText : Bytes → Bytes) : ∃ st, Steps demoEnv (initial errText fresh3 (mainInput (some b!"f") (unlines [b!"/o/", b!"/o/", b!"/o/", b!"q"]))) st ∧
    results st.out = [b!"\n", b!"one\n", b!"two\n", b!"one\n"] := by
  obtain ⟨st, how, hs, he⟩ := C69_stops demoEnv _ (initial errText fresh3 (mainInput (some b!"f") (unlines [b!"/o/", b!"/o/", b!"/o/", b!"q"]))) (Nat.le_refl _)
  obtain ⟨os, h1, _, _, h2, h3, _⟩ := C171_visits demoEnv (fun _ => ⟨rfl, rfl, rfl⟩) errText fresh3 b!"f"
    ⟨by decide, by decide, by decide, by rintro c cs ⟨⟩; decide⟩ (plain_ascii _ (by decide) (by decide) (by decide)) [b!"one", b!"two", b!"six"] rfl
    (clean_of _ (by decide) (by decide)) (by decide) b!"o" (.plain (by decide) (by decide)) (by decide) (plain_ascii _ (by decide) (by decide) (by decide))
    (fun l => b!"o".head?.any l.contains) rfl ⟨b!"one", by decide, by decide⟩ 3 true st how hs he
  refine ⟨st, hs, ?_⟩
  have e : os = [b!"one", b!"two", b!"one"] := by
    have a0 : os[0]? = some b!"one" := (h3 0 (by decide)).trans (by decide)
    have a1 : os[1]? = some b!"two" := (h3 1 (by decide)).trans (by decide)
    have a2 : os[2]? = some b!"one" := (h3 2 (by decide)).trans (by decide)
    match os, h2 with
    | [x, y, z], _ => simp only [List.getElem?_cons_zero, List.getElem?_cons_succ, Option.some.injEq] at a0 a1 a2; rw [a0, a1, a2]
  rw [h1, e]
  decide

end Ed
