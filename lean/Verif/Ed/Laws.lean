import Verif.Ed.EditProps

/-! # How editing commands go together (C135) -/

namespace Ed
open Go

theorem take_pre (pre post : List Bytes) {n : Nat} (h : n = pre.length) : (pre ++ post).take n = pre ∧ (pre ++ post).drop n = post := by
  subst h; simp

/-- **C135** Adding lines, with `a` or with `i`, and deleting them leaves the buffer as it was. Nothing is printed. -/
theorem C135_lines_undone (env : Env) {s : State} {pre t post : List Bytes} {cur : Nat} (h : Shows s (pre ++ post)) (hc : Clean (pre ++ post))
    (hcur : s.currentLine = cur) (ht : TextOK t) (hc' : Clean (pre ++ t ++ post)) (hlen : (pre ++ t ++ post).length < 2 ^ 62) {c d : Command}
    (hs : (∃ a : SAddr, a.eval ⟨pre ++ post, cur⟩ = pre.length ∧ Says c (.append a t)) ∨
      ∃ a : SAddr, a.eval ⟨pre ++ post, cur⟩ = pre.length + 1 ∧ Says c (.insert a t))
    (hd : Says d (.delete (.num (pre.length + 1)) (.num (pre.length + t.length)))) :
    ∃ s', runAll env s [c, d] = .ok (s', [[], []]) ∧ Shows s' (pre ++ post) := by
  have hl : (pre ++ post).length < 2 ^ 62 := by simp at hlen ⊢; omega
  have tl : 0 < t.length := List.length_pos_iff.mpr ht.ne
  have key : ∀ sc : SCmd, Says c sc → sc.Ok ⟨pre ++ post, cur⟩ → sc.newLines ⟨pre ++ post, cur⟩ = pre ++ t ++ post →
      sc.output ⟨pre ++ post, cur⟩ = [] → ∃ s', runAll env s [c, d] = .ok (s', [[], []]) ∧ Shows s' (pre ++ post) := by
    intro sc hsc hok hnew hout
    have hdl : (SCmd.delete (.num (pre.length + 1)) (.num (pre.length + t.length))).newLines (sc.next ⟨pre ++ post, cur⟩) = pre ++ post := by
      show (sc.newLines ⟨pre ++ post, cur⟩).take (pre.length + 1 - 1) ++ (sc.newLines ⟨pre ++ post, cur⟩).drop (pre.length + t.length) = _
      rw [hnew, Nat.add_sub_cancel]
      rw [List.append_assoc, (take_pre pre (t ++ post) rfl).1, ← List.append_assoc, (take_pre (pre ++ t) post (by simp)).2]
    obtain ⟨s', h1, h2, -⟩ := C63_session env [sc, .delete (.num (pre.length + 1)) (.num (pre.length + t.length))] [c, d] h hc hcur hl
      ⟨hsc, hd, trivial⟩ (by
        refine ⟨hok, by rw [hnew]; exact hc', by rw [hnew]; exact hlen, ?_, by rw [hdl]; exact hc, by rw [hdl]; exact hl, trivial⟩
        simp only [SCmd.Ok, InRange, SAddr.eval, SCmd.next, hnew, List.length_append]
        omega)
    have e1 : sessionOutputs ⟨pre ++ post, cur⟩ [sc, .delete (.num (pre.length + 1)) (.num (pre.length + t.length))] = [[], []] := by
      show [sc.output ⟨pre ++ post, cur⟩, []] = _
      rw [hout]
    rw [e1] at h1
    exact ⟨s', h1, hdl ▸ h2⟩
  rcases hs with ⟨a, ha, hsc⟩ | ⟨a, ha, hsc⟩
  · refine key _ hsc ⟨by simp [ha], ht⟩ ?_ rfl
    simp [SCmd.newLines, ha]
  · refine key _ hsc ⟨by omega, by simp [ha], ht⟩ ?_ rfl
    simp [SCmd.newLines, ha]

/-- **C135** Deleting lines and adding them again leaves the buffer as it was. Nothing is printed. -/
theorem C135_delete_lines_undone (env : Env) {s : State} {pre t post : List Bytes} {cur : Nat} (h : Shows s (pre ++ t ++ post))
    (hc : Clean (pre ++ t ++ post)) (hcur : s.currentLine = cur) (ht : TextOK t) (hc' : Clean (pre ++ post))
    (hlen : (pre ++ t ++ post).length < 2 ^ 62) {c d : Command} (x y : SAddr) (hx : x.eval ⟨pre ++ t ++ post, cur⟩ = pre.length + 1)
    (hy : y.eval ⟨pre ++ t ++ post, cur⟩ = pre.length + t.length) (hd : Says c (.delete x y))
    (hs : Says d (.append (.num pre.length) t) ∨ Says d (.insert (.num (pre.length + 1)) t)) :
    ∃ s', runAll env s [c, d] = .ok (s', [[], []]) ∧ Shows s' (pre ++ t ++ post) := by
  have hl : (pre ++ post).length < 2 ^ 62 := by simp at hlen ⊢; omega
  have tl : 0 < t.length := List.length_pos_iff.mpr ht.ne
  have hdl : (SCmd.delete x y).newLines ⟨pre ++ t ++ post, cur⟩ = pre ++ post := by
    simp only [SCmd.newLines, hx, hy, Nat.add_sub_cancel]
    rw [(take_pre (pre ++ t) post (by simp)).2, List.append_assoc, (take_pre pre (t ++ post) rfl).1]
  have key : ∀ sc : SCmd, Says d sc → sc.Ok ⟨pre ++ post, (SCmd.delete x y).newCur ⟨pre ++ t ++ post, cur⟩⟩ →
      sc.newLines ⟨pre ++ post, (SCmd.delete x y).newCur ⟨pre ++ t ++ post, cur⟩⟩ = pre ++ t ++ post →
      (∀ st, sc.output st = []) → ∃ s', runAll env s [c, d] = .ok (s', [[], []]) ∧ Shows s' (pre ++ t ++ post) := by
    intro sc hsc hok hnew hout
    have hn : (SCmd.delete x y).next ⟨pre ++ t ++ post, cur⟩ = ⟨pre ++ post, (SCmd.delete x y).newCur ⟨pre ++ t ++ post, cur⟩⟩ := by
      simp only [SCmd.next, hdl]
    obtain ⟨s', h1, h2, -⟩ := C63_session env [.delete x y, sc] [c, d] h hc hcur hlen ⟨hd, hsc, trivial⟩ (by
        refine ⟨?_, by rw [hdl]; exact hc', by rw [hdl]; exact hl, ?_⟩
        · simp only [SCmd.Ok, InRange, hx, hy, List.length_append]
          omega
        · rw [hn]
          exact ⟨hok, by rw [hnew]; exact hc, by rw [hnew]; exact hlen, trivial⟩)
    have e1 : sessionOutputs ⟨pre ++ t ++ post, cur⟩ [.delete x y, sc] = [[], []] := by
      show [[], sc.output _] = _
      rw [hout]
    rw [e1] at h1
    refine ⟨s', h1, ?_⟩
    · have e : (sessionEnd ⟨pre ++ t ++ post, cur⟩ [.delete x y, sc]).lines = pre ++ t ++ post := by
        simp only [sessionEnd, hn]
        exact hnew
      rw [e] at h2
      exact h2
  rcases hs with hsc | hsc
  · refine key _ hsc ⟨by simp [SAddr.eval], ht⟩ ?_ fun _ => rfl
    simp [SCmd.newLines, SAddr.eval]
  · refine key _ hsc ⟨by simp [SAddr.eval], by simp [SAddr.eval], ht⟩ ?_ fun _ => rfl
    simp [SCmd.newLines, SAddr.eval]

/-- **C135** Only the lines and the current line count: two editors that show the same, however they came to it, answer every session within
the buffer alike. -/
theorem C135_only_lines (env : Env) (scs : List SCmd) (cs : List Command) {s s' : State} {st : LState} (h : Shows s st.lines) (h' : Shows s' st.lines)
    (hc : Clean st.lines) (hcur : s.currentLine = st.cur) (hcur' : s'.currentLine = st.cur) (hlen : st.lines.length < 2 ^ 62)
    (hs : SaysAll cs scs) (hok : SessionOk st scs) :
    ∃ r r' os ls, runAll env s cs = .ok (r, os) ∧ runAll env s' cs = .ok (r', os) ∧ Shows r ls ∧ Shows r' ls ∧ r.currentLine = r'.currentLine := by
  obtain ⟨r, h1, h2, h3, -⟩ := C63_session env scs cs h hc hcur hlen hs hok
  obtain ⟨r', g1, g2, g3, -⟩ := C63_session env scs cs h' hc hcur' hlen hs hok
  exact ⟨r, r', _, _, h1, g1, h2, g2, by rw [h3, g3]⟩

/-- The hypotheses are met. -/
example : ∃ s', runAll demoEnv (opened demoLines 4) [{ typ := .append, start := numAddr 2, text := join [nl] [b!"x", b!"y"] },
      { typ := .delete, start := numAddr 3, end_ := numAddr 4 }] = .ok (s', [[], []]) ∧ Shows s' demoLines :=
  C135_lines_undone demoEnv (pre := [b!"one", b!""]) (post := [b!"three", b!"four"]) (opened_shows demoLines 4) demo_clean rfl demo_text
    (clean_of _ (by decide) (by decide)) (by decide) (.inl ⟨.num 2, rfl, rfl, numAddr_denotes 2, rfl⟩) ⟨rfl, numAddr_denotes 3, numAddr_denotes 4⟩

end Ed
