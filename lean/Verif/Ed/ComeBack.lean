import Verif.Ed.EndToEnd

/-!
# Saving, leaving and coming back (C147)

A script carried out in one run of `ed`, or in two with `w` and `q` between them.
-/

namespace Ed
open Go

/-! ## Specification -/

/-- Specification: the command does not look at the current line. -/
def SCmd.NoDot : SCmd → Prop
  | .append a _ => a ≠ .dot
  | .insert a _ => a ≠ .dot
  | .change a b _ => a ≠ .dot ∧ b ≠ .dot
  | .delete a b => a ≠ .dot ∧ b ≠ .dot
  | .print a b => a ≠ .dot ∧ b ≠ .dot
  | .number a b => a ≠ .dot ∧ b ≠ .dot
  | .lineNo a => a ≠ .dot

/-- Specification: the command moves to a line of its own. -/
def SCmd.Moves : SCmd → Prop
  | .append _ _ => True
  | .change _ _ _ => True
  | .delete _ _ => True
  | _ => False

/-- Specification: the script does not look at the current line before it has moved there itself. -/
def Settles : List SCmd → Prop
  | [] => True
  | c :: cs => c.NoDot ∧ (c.Moves ∨ Settles cs)

/-! ## The reference editor -/

theorem SAddr.eval_noDot {a : SAddr} (h : a ≠ .dot) (ls : List Bytes) (m n : Nat) : a.eval ⟨ls, m⟩ = a.eval ⟨ls, n⟩ := by
  cases a <;> first | rfl | exact absurd rfl h

theorem noDot_newLines {c : SCmd} (h : c.NoDot) (ls : List Bytes) (m n : Nat) : c.newLines ⟨ls, m⟩ = c.newLines ⟨ls, n⟩ := by
  cases c with
  | append a t => simp only [SCmd.newLines, SAddr.eval_noDot h ls m n]
  | insert a t => simp only [SCmd.newLines, SAddr.eval_noDot h ls m n]
  | change a b t => simp only [SCmd.newLines, SAddr.eval_noDot h.1 ls m n, SAddr.eval_noDot h.2 ls m n]
  | delete a b => simp only [SCmd.newLines, SAddr.eval_noDot h.1 ls m n, SAddr.eval_noDot h.2 ls m n]
  | _ => rfl

theorem noDot_output {c : SCmd} (h : c.NoDot) (ls : List Bytes) (m n : Nat) : c.output ⟨ls, m⟩ = c.output ⟨ls, n⟩ := by
  cases c with
  | print a b => simp only [SCmd.output, SAddr.eval_noDot h.1 ls m n, SAddr.eval_noDot h.2 ls m n]
  | number a b => simp only [SCmd.output, SAddr.eval_noDot h.1 ls m n, SAddr.eval_noDot h.2 ls m n]
  | lineNo a => simp only [SCmd.output, SAddr.eval_noDot h ls m n]
  | _ => rfl

theorem noDot_ok {c : SCmd} (h : c.NoDot) (ls : List Bytes) (m n : Nat) : c.Ok ⟨ls, m⟩ → c.Ok ⟨ls, n⟩ := by
  cases c with
  | append a t => simp only [SCmd.Ok, SAddr.eval_noDot h ls m n]; exact id
  | insert a t => simp only [SCmd.Ok, SAddr.eval_noDot h ls m n]; exact id
  | change a b t => simp only [SCmd.Ok, InRange, SAddr.eval_noDot h.1 ls m n, SAddr.eval_noDot h.2 ls m n]; exact id
  | delete a b => simp only [SCmd.Ok, InRange, SAddr.eval_noDot h.1 ls m n, SAddr.eval_noDot h.2 ls m n]; exact id
  | print a b => simp only [SCmd.Ok, InRange, SAddr.eval_noDot h.1 ls m n, SAddr.eval_noDot h.2 ls m n]; exact id
  | number a b => simp only [SCmd.Ok, InRange, SAddr.eval_noDot h.1 ls m n, SAddr.eval_noDot h.2 ls m n]; exact id
  | lineNo a => simp only [SCmd.Ok, SAddr.eval_noDot h ls m n]; exact id

theorem moves_newCur {c : SCmd} (h : c.NoDot) (hm : c.Moves) (ls : List Bytes) (m n : Nat) : c.newCur ⟨ls, m⟩ = c.newCur ⟨ls, n⟩ := by
  cases c with
  | append a t => simp only [SCmd.newCur, SAddr.eval_noDot h ls m n]
  | change a b t => simp only [SCmd.newCur, SAddr.eval_noDot h.1 ls m n]
  | delete a b => simp only [SCmd.newCur, noDot_newLines (c := .delete a b) h ls m n]; exact SAddr.eval_noDot h.1 _ m n
  | _ => exact absurd hm id

/-- Where the current line is at the beginning makes no difference to such a script. -/
theorem settles_same : ∀ (cs : List SCmd), Settles cs → ∀ (ls : List Bytes) (m n : Nat), SessionOk ⟨ls, m⟩ cs →
    SessionOk ⟨ls, n⟩ cs ∧ (sessionEnd ⟨ls, m⟩ cs).lines = (sessionEnd ⟨ls, n⟩ cs).lines ∧ sessionOutputs ⟨ls, m⟩ cs = sessionOutputs ⟨ls, n⟩ cs := by
  intro cs
  induction cs with
  | nil => intro _ ls m n _; exact ⟨trivial, rfl, rfl⟩
  | cons c cs ih =>
    rintro ⟨hd, hr⟩ ls m n ⟨ho, hc, hl, hrest⟩
    have e := noDot_newLines hd ls m n
    rcases hr with hmv | hs
    · have hnx : c.next ⟨ls, m⟩ = c.next ⟨ls, n⟩ := by simp only [SCmd.next, e, moves_newCur hd hmv ls m n]
      refine ⟨⟨noDot_ok hd ls m n ho, e ▸ hc, e ▸ hl, hnx ▸ hrest⟩, ?_, ?_⟩
      · simp only [sessionEnd, hnx]
      · simp only [sessionOutputs, hnx, noDot_output hd ls m n]
    · have hrest' : SessionOk ⟨c.newLines ⟨ls, m⟩, c.newCur ⟨ls, m⟩⟩ cs := hrest
      obtain ⟨h1, h2, h3⟩ := ih hs (c.newLines ⟨ls, m⟩) (c.newCur ⟨ls, m⟩) (c.newCur ⟨ls, n⟩) hrest'
      have hnx : c.next ⟨ls, n⟩ = ⟨c.newLines ⟨ls, m⟩, c.newCur ⟨ls, n⟩⟩ := by simp only [SCmd.next, e]
      refine ⟨⟨noDot_ok hd ls m n ho, e ▸ hc, e ▸ hl, by rw [hnx]; exact h1⟩, ?_, ?_⟩
      · change (sessionEnd ⟨c.newLines ⟨ls, m⟩, c.newCur ⟨ls, m⟩⟩ cs).lines = (sessionEnd (c.next ⟨ls, n⟩) cs).lines
        rw [hnx]; exact h2
      · change c.output ⟨ls, m⟩ :: sessionOutputs ⟨c.newLines ⟨ls, m⟩, c.newCur ⟨ls, m⟩⟩ cs = c.output ⟨ls, n⟩ :: sessionOutputs (c.next ⟨ls, n⟩) cs
        rw [hnx, noDot_output hd ls m n, h3]

theorem sessionEnd_app (a b : List SCmd) : ∀ st : LState, sessionEnd st (a ++ b) = sessionEnd (sessionEnd st a) b := by
  induction a with
  | nil => intro st; rfl
  | cons c a ih => intro st; exact ih _

theorem sessionOutputs_app (a b : List SCmd) : ∀ st : LState, sessionOutputs st (a ++ b) = sessionOutputs st a ++ sessionOutputs (sessionEnd st a) b := by
  induction a with
  | nil => intro st; rfl
  | cons c a ih => intro st; exact congrArg (c.output st :: ·) (ih _)

theorem sessionOk_app (a b : List SCmd) : ∀ st : LState, SessionOk st (a ++ b) ↔ SessionOk st a ∧ SessionOk (sessionEnd st a) b := by
  induction a with
  | nil => intro st; simp [SessionOk, sessionEnd]
  | cons c a ih => intro st; simp only [List.cons_append, SessionOk, sessionEnd, ih, and_assoc]

theorem session_keeps (cs : List SCmd) : ∀ st : LState, Clean st.lines → st.lines.length < 2 ^ 62 → SessionOk st cs →
    Clean (sessionEnd st cs).lines ∧ (sessionEnd st cs).lines.length < 2 ^ 62 := by
  induction cs with
  | nil => intro st h1 h2 _; exact ⟨h1, h2⟩
  | cons c cs ih => rintro st _ _ ⟨_, hc, hl, hr⟩; exact ih (c.next st) hc hl hr

/-! ## C147 -/

/-- **C147** A script of in-range commands is carried out by `ed name` in one run; or its first part in one run, `w` and `q`,
and the second part, which does not look at the current line before it has moved there itself, in another run, later, with
another schedule, on the files the first run left. In both cases the file holds the same in the end, every other file but the
temporary one is as it was, the second run gives no error message, and the two runs print together, apart from the empty
results of `e` and `w`, the results of the one run, in the same order. -/
theorem C147_two_runs (env env1 env2 : Env) (errText : Bytes → Bytes) (s0 s1 : State) (name : Bytes) (hn : NameOK name)
    (hnp : PlainLine (b!"e " ++ name)) (ls : List Bytes) (hfs : s0.fs name = some (unlines ls)) (hc : Clean ls) (hlen : ls.length < 2 ^ 62)
    (a b : List SCmd) (hok : SessionOk ⟨ls, ls.length⟩ (a ++ b)) (hb : Settles b)
    (ht : ∀ sc ∈ a ++ b, sc.Typeable) (hp : ∀ l ∈ (a ++ b).flatMap SCmd.typed, PlainLine l)
    (hsave : ∀ k, (env.outcome k).stat = none ∧ (env.outcome k).writeFile = none ∧ (env.outcome k).rename = none)
    (hsave1 : ∀ k, (env1.outcome k).stat = none ∧ (env1.outcome k).writeFile = none ∧ (env1.outcome k).rename = none)
    (hsave2 : ∀ k, (env2.outcome k).stat = none ∧ (env2.outcome k).writeFile = none ∧ (env2.outcome k).rename = none)
    (st st1 st2 : Sys) (how how1 how2 : End)
    (hs : Steps env (initial errText s0 (mainInput (some name) (unlines ((a ++ b).flatMap SCmd.typed ++ [b!"w", b!"q"])))) st)
    (he : st.cons.ended = some how)
    (hs1 : Steps env1 (initial errText s0 (mainInput (some name) (unlines (a.flatMap SCmd.typed ++ [b!"w", b!"q"])))) st1)
    (he1 : st1.cons.ended = some how1) (hfs1 : s1.fs = st1.ed.fs)
    (hs2 : Steps env2 (initial errText s1 (mainInput (some name) (unlines (b.flatMap SCmd.typed ++ [b!"w", b!"q"])))) st2)
    (he2 : st2.cons.ended = some how2) :
    how2 = .quit ∧ errors st2.out = [] ∧ st2.ed.fs name = st.ed.fs name ∧
    (∀ n, n ≠ name → n ≠ tmpName name → st2.ed.fs n = s0.fs n ∧ st.ed.fs n = s0.fs n) ∧
    ∃ out1 out2, results st1.out = [nl] :: (out1 ++ [[nl]]) ∧ results st2.out = [nl] :: (out2 ++ [[nl]]) ∧
      results st.out = [nl] :: ((out1 ++ out2) ++ [[nl]]) := by
  obtain ⟨hoka, hokb⟩ := (sessionOk_app a b _).mp hok
  obtain ⟨hcl, hll⟩ := session_keeps a ⟨ls, ls.length⟩ hc hlen hoka
  obtain ⟨hokb', hl', ho'⟩ := settles_same b hb (sessionEnd ⟨ls, ls.length⟩ a).lines (sessionEnd ⟨ls, ls.length⟩ a).cur
    (sessionEnd ⟨ls, ls.length⟩ a).lines.length hokb
  obtain ⟨_, g2, g3, g4, _⟩ := C77_script env errText s0 name hn hnp ls hfs hc hlen (a ++ b) hok ht hp hsave st how hs he
  obtain ⟨_, p2, p3, p4, _⟩ := C77_script env1 errText s0 name hn hnp ls hfs hc hlen a hoka (fun sc h => ht sc (by simp [h]))
    (fun l h => hp l (by rw [List.flatMap_append]; simp only [List.mem_append]; exact .inl h)) hsave1 st1 how1 hs1 he1
  obtain ⟨q1, q2, q3, q4, q5⟩ := C77_script env2 errText s1 name hn hnp _ (by rw [hfs1]; exact p2) hcl hll b hokb'
    (fun sc h => ht sc (by simp [h])) (fun l h => hp l (by rw [List.flatMap_append]; simp only [List.mem_append]; exact .inr h)) hsave2 st2 how2 hs2 he2
  refine ⟨q1, q5, ?_, ?_, (sessionOutputs ⟨ls, ls.length⟩ a).map (· ++ [nl]),
    (sessionOutputs ⟨(sessionEnd ⟨ls, ls.length⟩ a).lines, (sessionEnd ⟨ls, ls.length⟩ a).lines.length⟩ b).map (· ++ [nl]), ?_, ?_, ?_⟩
  · rw [q2, g2, sessionEnd_app, ← hl']
  · intro n h1 h2
    rw [q3 n h1 h2, hfs1, p3 n h1 h2, g3 n h1 h2]
    exact ⟨rfl, rfl⟩
  · rw [p4]; simp
  · rw [q4]; simp
  · rw [g4, sessionOutputs_app, ← ho']
    simp

/-- **C147** As much as that is needed: three lines, the first deleted, then the current line deleted. In one run the current
line is the first; in two runs it is the last, for that is where `ed` is after reading a file. -/
theorem C147_needed (errText : Bytes → Bytes) (s0 s1 : State) (hfs : s0.fs b!"f" = some b!"one\ntwo\nthree\n")
    (st st1 st2 : Sys) (how how1 how2 : End)
    (hs : Steps demoEnv (initial errText s0 (mainInput (some b!"f") b!"1,1d\n.,.d\nw\nq\n")) st) (he : st.cons.ended = some how)
    (hs1 : Steps demoEnv (initial errText s0 (mainInput (some b!"f") b!"1,1d\nw\nq\n")) st1) (he1 : st1.cons.ended = some how1)
    (hfs1 : s1.fs = st1.ed.fs)
    (hs2 : Steps demoEnv (initial errText s1 (mainInput (some b!"f") b!".,.d\nw\nq\n")) st2) (he2 : st2.cons.ended = some how2) :
    st.ed.fs b!"f" = some b!"three\n" ∧ st2.ed.fs b!"f" = some b!"two\n" := by
  have hn : NameOK b!"f" := ⟨by decide, by decide, by decide, by rintro c cs ⟨⟩; decide⟩
  have hnp : PlainLine (b!"e " ++ b!"f") := plain_ascii _ (by decide) (by decide) (by decide)
  obtain ⟨_, g2, _⟩ := C77_script demoEnv errText s0 b!"f" hn hnp [b!"one", b!"two", b!"three"] hfs (clean_of _ (by decide) (by decide)) (by decide)
    [.delete (.num 1) (.num 1), .delete .dot .dot]
    ⟨⟨by decide, by decide, by decide⟩, clean_of _ (by decide) (by decide), by decide, ⟨by decide, by decide, by decide⟩,
      clean_of _ (by decide) (by decide), by decide, trivial⟩
    (by
      intro sc hsc
      simp only [List.mem_cons, List.not_mem_nil, or_false] at hsc
      rcases hsc with rfl | rfl <;> trivial)
    (plain_of _ (by decide)) (fun _ => ⟨rfl, rfl, rfl⟩) st how hs he
  obtain ⟨_, p2, _⟩ := C77_script demoEnv errText s0 b!"f" hn hnp [b!"one", b!"two", b!"three"] hfs (clean_of _ (by decide) (by decide)) (by decide)
    [.delete (.num 1) (.num 1)]
    ⟨⟨by decide, by decide, by decide⟩, clean_of _ (by decide) (by decide), by decide, trivial⟩
    (by
      intro sc hsc
      simp only [List.mem_cons, List.not_mem_nil, or_false] at hsc
      subst hsc; trivial)
    (plain_of _ (by decide)) (fun _ => ⟨rfl, rfl, rfl⟩) st1 how1 hs1 he1
  obtain ⟨_, q2, _⟩ := C77_script demoEnv errText s1 b!"f" hn hnp [b!"two", b!"three"] (by rw [hfs1, p2]; rfl) (clean_of _ (by decide) (by decide)) (by decide)
    [.delete .dot .dot]
    ⟨⟨by decide, by decide, by decide⟩, clean_of _ (by decide) (by decide), by decide, trivial⟩
    (by
      intro sc hsc
      simp only [List.mem_cons, List.not_mem_nil, or_false] at hsc
      subst hsc; trivial)
    (plain_of _ (by decide)) (fun _ => ⟨rfl, rfl, rfl⟩) st2 how2 hs2 he2
  rw [g2, q2]
  exact ⟨rfl, rfl⟩

/-- A second part that looks at the current line, after it has moved there itself. -/
example : Settles [.print (.num 1) .last, .append .last [b!"x"], .print .dot .dot] :=
  ⟨⟨by decide, by decide⟩, .inr ⟨by unfold SCmd.NoDot; decide, .inl trivial⟩⟩

/-- The hypotheses of `C147_two_runs` are met: the script of the example of C77 in two parts. -/
example (errText : Bytes → Bytes) : ∃ (st1 st2 : Sys) (s1 : State), s1.fs = st1.ed.fs ∧
    Steps demoEnv (initial errText fresh (mainInput (some b!"f") b!"1,1d\nw\nq\n")) st1 ∧ st1.cons.ended = some .quit ∧
    Steps demoEnv (initial errText s1 (mainInput (some b!"f") b!"$a\nthree\nfour\n.\n1,$p\nw\nq\n")) st2 ∧ st2.cons.ended = some .quit ∧
    st2.ed.fs b!"f" = some b!"two\nthree\nfour\n" := by
  have hn : NameOK b!"f" := ⟨by decide, by decide, by decide, by rintro c cs ⟨⟩; decide⟩
  have hnp : PlainLine (b!"e " ++ b!"f") := plain_ascii _ (by decide) (by decide) (by decide)
  have hok : SessionOk ⟨[b!"one", b!"two"], 2⟩ ([.delete (.num 1) (.num 1)] ++ [.append .last [b!"three", b!"four"], .print (.num 1) .last]) :=
    ⟨⟨by decide, by decide, by decide⟩, clean_of _ (by decide) (by decide), by decide, ⟨by decide, by decide, plain_of _ (by decide)⟩,
      clean_of _ (by decide) (by decide), by decide, ⟨by decide, by decide, by decide⟩, clean_of _ (by decide) (by decide), by decide, trivial⟩
  have ht : ∀ sc ∈ [SCmd.delete (.num 1) (.num 1)] ++ [.append .last [b!"three", b!"four"], .print (.num 1) .last], sc.Typeable := by
    intro sc hsc
    simp only [List.cons_append, List.nil_append, List.mem_cons, List.not_mem_nil, or_false] at hsc
    rcases hsc with rfl | rfl | rfl
    · trivial
    · exact ⟨⟨by decide, by decide, by decide, by decide⟩, by decide⟩
    · trivial
  obtain ⟨st, how, hs, he⟩ := C69_stops demoEnv _ (initial errText fresh (mainInput (some b!"f") b!"1,1d\n$a\nthree\nfour\n.\n1,$p\nw\nq\n")) (Nat.le_refl _)
  obtain ⟨st1, how1, hs1, he1⟩ := C69_stops demoEnv _ (initial errText fresh (mainInput (some b!"f") b!"1,1d\nw\nq\n")) (Nat.le_refl _)
  obtain ⟨st2, how2, hs2, he2⟩ := C69_stops demoEnv _ (initial errText { fresh with fs := st1.ed.fs }
    (mainInput (some b!"f") b!"$a\nthree\nfour\n.\n1,$p\nw\nq\n")) (Nat.le_refl _)
  obtain ⟨q1, _, q3, _⟩ := C147_two_runs demoEnv demoEnv demoEnv errText fresh { fresh with fs := st1.ed.fs } b!"f" hn hnp [b!"one", b!"two"] rfl
    (clean_of _ (by decide) (by decide)) (by decide) [.delete (.num 1) (.num 1)] [.append .last [b!"three", b!"four"], .print (.num 1) .last] hok
    ⟨by unfold SCmd.NoDot; decide, .inl trivial⟩ ht (plain_of _ (by decide)) (fun _ => ⟨rfl, rfl, rfl⟩) (fun _ => ⟨rfl, rfl, rfl⟩)
    (fun _ => ⟨rfl, rfl, rfl⟩) st st1 st2 how how1 how2 hs he hs1 he1 rfl hs2 he2
  obtain ⟨g1, g2, _⟩ := C77_script demoEnv errText fresh b!"f" hn hnp [b!"one", b!"two"] rfl (clean_of _ (by decide) (by decide)) (by decide) _ hok ht
    (plain_of _ (by decide)) (fun _ => ⟨rfl, rfl, rfl⟩) st how hs he
  obtain ⟨p1, _⟩ := C77_script demoEnv errText fresh b!"f" hn hnp [b!"one", b!"two"] rfl (clean_of _ (by decide) (by decide)) (by decide)
    [.delete (.num 1) (.num 1)] ((sessionOk_app _ _ _).mp hok).1 (fun sc h => ht sc (by simp only [List.mem_append]; exact .inl h))
    (plain_of _ (by decide)) (fun _ => ⟨rfl, rfl, rfl⟩) st1 how1 hs1 he1
  subst p1 q1
  exact ⟨st1, st2, { fresh with fs := st1.ed.fs }, rfl, hs1, he1, hs2, he2, by rw [q3, g2]; rfl⟩

end Ed
