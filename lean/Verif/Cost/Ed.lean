import Verif.Ed.EditProps
import Verif.Ed.Process
import Verif.Cost.Txt

/-!
# The work of ed (C127)

The reader collects a text block in a string that it makes anew for every line, `number` its answer likewise; what counts there is the number of bytes
copied. All else a command does is a few passes over the lines of the buffer, each after the whole buffer has been put together from its pieces and cut
into lines; what counts is how often.
-/

namespace Ed
open Go

/-! ## Collecting a block -/

/-- ed.go:216-226, as `groups`, and the bytes copied by `cmd += "\n" + s.Text()` (ed.go:221): a string in Go is never changed, so that the
whole new one is written. -/
def groupsRun : Option (List Bytes) → List Bytes → List Bytes × Nat
  | none, [] => ([], 0)
  | some b, [] => ([join [nl] b.reverse], 0)
  | none, l :: ls =>
    if isStart l then groupsRun (some [l]) ls
    else
      let r := groupsRun none ls
      (l :: r.1, r.2)
  | some b, l :: ls =>
    let cmd := join [nl] (l :: b).reverse
    if l = b!"." then
      let r := groupsRun none ls
      (cmd :: r.1, cmd.length + r.2)
    else
      let r := groupsRun (some (l :: b)) ls
      (r.1, cmd.length + r.2)

/-- **C127** counting does not change what is computed. -/
theorem C127_ed_result : ∀ (ls : List Bytes) (o : Option (List Bytes)), (groupsRun o ls).1 = groups o ls
  | [], none => rfl
  | [], some _ => rfl
  | l :: ls, none => by
    simp only [groupsRun, groups]
    split
    · exact C127_ed_result ls _
    · simp [C127_ed_result ls none]
  | l :: ls, some b => by
    simp only [groupsRun, groups]
    split
    · simp [C127_ed_result ls none]
    · simp [C127_ed_result ls (some (l :: b))]

theorem join_length : ∀ ls : List Bytes, (join [nl] ls).length ≤ (unlines ls).length
  | [] => by simp [join, unlines]
  | [l] => by simp [join, unlines]
  | l :: m :: ls => by
    have := join_length (m :: ls)
    simp only [join, unlines, List.length_append, List.length_cons, List.length_nil] at this ⊢
    omega

theorem unlines_reverse_length : ∀ ls : List Bytes, (unlines ls.reverse).length = (unlines ls).length
  | [] => rfl
  | l :: ls => by
    have h : ∀ a b : List Bytes, (unlines (a ++ b)).length = (unlines a).length + (unlines b).length := by
      intro a b
      induction a with
      | nil => simp [unlines]
      | cons x a ih => simp [unlines, ih]; omega
    rw [List.reverse_cons, h, unlines_reverse_length ls]
    simp [unlines]
    omega

theorem groupsRun_bound (B : Nat) : ∀ (ls : List Bytes) (o : Option (List Bytes)), (unlines (o.getD [])).length + (unlines ls).length ≤ B →
    (groupsRun o ls).2 ≤ ls.length * B
  | [], none, _ => by simp [groupsRun]
  | [], some _, _ => by simp [groupsRun]
  | l :: ls, none, h => by
    simp only [Option.getD_none, unlines, List.length_nil, Nat.zero_add, List.length_append, List.length_cons] at h
    simp only [groupsRun]
    split
    · have := groupsRun_bound B ls (some [l]) (by simp [unlines]; omega)
      exact Nat.le_trans this (Nat.mul_le_mul_right _ (by simp))
    · have := groupsRun_bound B ls none (by simp [unlines]; omega)
      exact Nat.le_trans this (Nat.mul_le_mul_right _ (by simp))
  | l :: ls, some b, h => by
    simp only [Option.getD_some, unlines, List.length_append, List.length_cons, List.length_nil] at h
    have hc : (join [nl] (l :: b).reverse).length ≤ B := by
      refine Nat.le_trans (join_length _) ?_
      rw [unlines_reverse_length]
      simp [unlines]
      omega
    have e : (l :: ls).length * B = ls.length * B + B := by rw [List.length_cons, Nat.succ_mul]
    simp only [groupsRun]
    split
    · have := groupsRun_bound B ls none (by simp [unlines]; omega)
      rw [e]; dsimp only; omega
    · have := groupsRun_bound B ls (some (l :: b)) (by simp [unlines]; omega)
      rw [e]; dsimp only; omega

/-- **C127** (collecting blocks) The bytes copied are at most the number of lines times the size of the input. -/
theorem C127_ed_blocks (ls : List Bytes) : (groupsRun none ls).2 ≤ ls.length * (unlines ls).length :=
  groupsRun_bound _ ls none (by simp [unlines])

/-- A block of `n` lines `x`. -/
def longBlock (n : Nat) : List Bytes := b!"a" :: (List.replicate n b!"x" ++ [b!"."])

theorem replicate_run : ∀ (n k : Nat), (groupsRun (some (List.replicate k b!"x" ++ [b!"a"])) (List.replicate n b!"x" ++ [b!"."])).2 ≥ n * n + 2 * n * k := by
  have len : ∀ k, (join [nl] (List.replicate k b!"x" ++ [b!"a"]).reverse).length = 2 * k + 1 := by
    intro k
    rw [List.reverse_append, List.reverse_replicate]
    have : ∀ k (l : Bytes), l.length = 1 → (join [nl] (l :: List.replicate k b!"x")).length = 2 * k + 1 := by
      intro k
      induction k with
      | zero => intro l hl; simpa [join] using hl
      | succ k ih =>
        intro l hl
        rw [List.replicate_succ]
        simp only [join, List.length_append, hl, ih b!"x" rfl]
        simp
        omega
    exact this k b!"a" rfl
  intro n
  induction n with
  | zero => intro k; simp
  | succ n ih =>
    intro k
    have h := ih (k + 1)
    rw [List.replicate_succ] at h
    rw [List.replicate_succ, List.cons_append, groupsRun, if_neg (by decide)]
    have hl := len (k + 1)
    rw [List.replicate_succ] at hl
    simp only [List.cons_append] at h hl ⊢
    rw [hl]
    have e1 : (n + 1) * (n + 1) = n * n + 2 * n + 1 := by rw [Nat.add_mul, Nat.mul_add]; omega
    have e2 : 2 * (n + 1) * k = 2 * n * k + 2 * k := by rw [Nat.mul_add, Nat.add_mul]
    have e3 : 2 * n * (k + 1) = 2 * n * k + 2 * n := by rw [Nat.mul_add]; omega
    omega

/-- **C127** The bound is tight: a block of `n` lines of one character, an input of `2n + 4` bytes, makes the reader copy at least `n²` bytes. -/
theorem C127_ed_blocks_quadratic (n : Nat) : (unlines (longBlock n)).length = 2 * n + 4 ∧ n * n ≤ (groupsRun none (longBlock n)).2 := by
  constructor
  · have : ∀ n, (unlines (List.replicate n b!"x" ++ [b!"."])).length = 2 * n + 2 := by
      intro n
      induction n with
      | zero => rfl
      | succ n ih => rw [List.replicate_succ]; simp only [List.cons_append, unlines, List.length_append, ih]; simp; omega
    have t := this n
    simp only [longBlock, unlines, List.length_append, List.length_cons, List.length_nil]
    omega
  · have h := replicate_run n 0
    simp only [List.replicate_zero, List.nil_append, Nat.mul_zero, Nat.add_zero] at h
    rw [longBlock, groupsRun, if_pos (by decide +kernel)]
    exact h

/-! ## Numbering lines -/

/-- ed.go:110-117: the loop of `number` as it is written, with the answer so far, and the bytes copied by `out += ...` (ed.go:114). -/
def numberRun (end_ : Int) (i : Int) (out : Bytes) : List Bytes → M Bytes × Nat
  | [] => (if i > end_ then .ok out else .error .index, 0)
  | l :: ls =>
    if i > end_ then (.ok out, 0)
    else
      let out' := out ++ (itoa i ++ [9] ++ l ++ [nl])
      let r := numberRun end_ (i + 1) out' ls
      (r.1, out'.length + r.2)

/-- **C127** counting, and building the answer from the front, do not change what is computed. -/
theorem C127_number_result (end_ : Int) : ∀ (ls : List Bytes) (i : Int) (out : Bytes),
    (numberRun end_ i out ls).1 = (numberLoop end_ i ls).map (out ++ ·)
  | [], i, out => by
    simp only [numberRun, numberLoop]
    split <;> simp [Except.map]
  | l :: ls, i, out => by
    simp only [numberRun, numberLoop]
    split
    · simp [Except.map]
    · rw [C127_number_result end_ ls]
      cases numberLoop end_ (i + 1) ls <;> simp [Except.map]

theorem numberRun_bound (end_ : Int) : ∀ (ls : List Bytes) (i : Int) (out r : Bytes), numberLoop end_ i ls = .ok r →
    (numberRun end_ i out ls).2 ≤ ls.length * (out.length + r.length)
  | [], i, out, r, _ => by simp [numberRun]
  | l :: ls, i, out, r, h => by
    simp only [numberLoop] at h
    simp only [numberRun]
    split at h
    · rename_i hi; rw [if_pos hi]; simp
    · rename_i hi
      rw [if_neg hi]
      cases hr : numberLoop end_ (i + 1) ls with
      | error e => rw [hr] at h; simp at h
      | ok r' =>
        rw [hr] at h
        simp only [Except.ok.injEq] at h
        have := numberRun_bound end_ ls (i + 1) (out ++ (itoa i ++ [9] ++ l ++ [nl])) r' hr
        have e : (out ++ (itoa i ++ [9] ++ l ++ [nl])).length + r'.length = out.length + r.length := by
          rw [← h]; simp; omega
        rw [e] at this
        have e2 : (l :: ls).length * (out.length + r.length) = ls.length * (out.length + r.length) + (out.length + r.length) := by
          rw [List.length_cons, Nat.succ_mul]
        rw [e2]
        dsimp only
        omega

/-- **C127** (`n`) The bytes copied are at most the number of lines times the size of the answer. -/
theorem C127_number_bound (end_ i : Int) (ls : List Bytes) (r : Bytes) (h : numberLoop end_ i ls = .ok r) :
    (numberRun end_ i [] ls).2 ≤ ls.length * r.length := by
  have := numberRun_bound end_ ls i [] r h
  simpa using this

/-! ## Passes over the buffer -/

/-- A result and how often the buffer has been put together (`pt.String()`, ed.go:50 and ed.go:161). -/
abbrev Counted (α : Type) := R α × Nat

/-- One thing after the other. -/
def Counted.bind {α β : Type} (x : Counted α) (f : α → Counted β) : Counted β :=
  match x with
  | (.ok a, n) => ((f a).1, n + (f a).2)
  | (.error e, n) => (.error e, n)

/-- Something that does not look at the buffer. -/
def free {α : Type} (x : R α) : Counted α := (x, 0)

/-- Something that looks at the buffer once, with one call of `getLines` or `pt.String()`. -/
def once {α : Type} (x : R α) : Counted α := (x, 1)

theorem bind_fst {α β : Type} (x : Counted α) (f : α → Counted β) : (x.bind f).1 = (x.1 >>= fun a => (f a).1) := by
  obtain ⟨r, n⟩ := x
  cases r <;> rfl

theorem bind_snd {α β : Type} (x : Counted α) (f : α → Counted β) (m k : Nat) (h1 : x.2 ≤ m) (h2 : ∀ a, (f a).2 ≤ k) : (x.bind f).2 ≤ m + k := by
  obtain ⟨r, n⟩ := x
  cases r with
  | ok a => have := h2 a; simp only [Counted.bind] at h1 ⊢; omega
  | error e => simp only [Counted.bind] at h1 ⊢; omega

/-- ed.go:129-132 `insertBeforeLine`, which calls `getLineAddr`. -/
def insertRun (s : State) (lineNum : Int) (text : Bytes) : Counted State :=
  (once (lift (getLineAddr s lineNum))).bind fun at_ =>
    free (lift (match s.pt.insert (text ++ [nl]) at_ with | .error p => .error p | .ok pt => .ok { s with pt := pt }))

/-- ed.go:136-142 `Delete`, which calls `getLineAddr` twice. -/
def deleteRun (s : State) (start end_ : Int) : Counted State :=
  (once (lift (getLineAddr s start))).bind fun a =>
    (once (lift (getLineAddr s (wrap64 (end_ + 1))))).bind fun b => free (.ok { s with pt := s.pt.delete (b - a) a })

/-- ed.go:80-102 `Edit`. -/
def editRun (env : Env) (s : State) (name : Bytes) : Counted (State × Option Bytes) :=
  match s.fs name with
  | none => free (.ok (s, some (env.openErr name)))
  | some contents =>
    let s' := { s with filename := name, pt := Txt.newPieceTable contents true contents.length }
    (once (lift (getLines s'))).bind fun ls => free (.ok ({ s' with currentLine := ls.length }, none))

/-- ed.go:48-77 `Write`. -/
def writeRun (env : Env) (s : State) : Counted (State × Option Bytes) :=
  (once (lift s.pt.string)).bind fun data =>
    let o := env.outcome s.writes
    let tr := saveTrace o s.fs s.filename data
    let s' := { s with pt := s.pt.close, fs := finalFS s.fs tr.1, writes := s.writes + 1 }
    match tr.2 with
    | some err => free (.ok (s', some err))
    | none => editRun env s' s'.filename

/-- ed.go:258-284 `addrLine`. -/
def addrRun (env : Env) (s : State) (a : Address) : Counted Int :=
  match a.typ with
  | .current => free (.ok (wrap64 (s.currentLine + a.offset)))
  | .num => free (.ok (wrap64 ((atoi a.text).1 + a.offset)))
  | .last => (once (lift (getLines s))).bind fun ls => free (.ok (wrap64 (ls.length + a.offset)))
  | .regex => (once (regexMatch env s (trimSlash a.text))).bind fun r => free (.ok (wrap64 (r.1 + a.offset)))
  | _ => free (.error (.panic .explicit))

/-- ed.go:296-357 `processCommand`. -/
def processRun (env : Env) (s : State) (cmd0 : Command) : Counted (State × Bytes) :=
  let cmd := setDefaultAddresses cmd0
  match cmd.typ with
  | .edit => (editRun env s (cmd.params.headD [])).bind fun r => free (.ok (r.1, r.2.getD []))
  | .print => (addrRun env s cmd.start).bind fun a => (addrRun env s cmd.end_).bind fun b =>
    (once (lift (print env s a b))).bind fun t => free (.ok (s, t))
  | .number => (addrRun env s cmd.start).bind fun a => (addrRun env s cmd.end_).bind fun b =>
    (once (lift (number s a b))).bind fun t => free (.ok (s, t))
  | .null => (addrRun env s cmd.start).bind fun a =>
    let s := { s with currentLine := a }
    (once (lift (print env s a a))).bind fun t => free (.ok (s, t))
  | .write => (writeRun env s).bind fun r => free (.ok (r.1, match r.2 with | none => [] | some err => 63 :: err))
  | .delete => (addrRun env s cmd.start).bind fun a => (addrRun env s cmd.end_).bind fun b => (deleteRun s a b).bind fun s =>
    (addrRun env s cmd.start).bind fun c => free (.ok ({ s with currentLine := c }, []))
  | .append => (addrRun env s cmd.start).bind fun a => (insertRun s (wrap64 (a + 1)) cmd.text).bind fun s =>
    free (.ok ({ s with currentLine := wrap64 (wrap64 (a + 1) + linesIn cmd.text) }, []))
  | .insert => (addrRun env s cmd.start).bind fun a => (insertRun s a cmd.text).bind fun s => free (.ok (s, []))
  | .change => (addrRun env s cmd.start).bind fun a => (addrRun env s cmd.end_).bind fun b => (deleteRun s a b).bind fun s =>
    (addrRun env s cmd.start).bind fun c => (insertRun s c cmd.text).bind fun s =>
    (addrRun env s cmd.start).bind fun d => free (.ok ({ s with currentLine := wrap64 (d + linesIn cmd.text) }, []))
  | .lineNumber => (addrRun env s cmd.start).bind fun a => free (.ok (s, itoa a))
  | _ => free (.ok (s, b!"? (NYI)"))

theorem insertRun_fst (s : State) (n : Int) (t : Bytes) : (insertRun s n t).1 = lift (insertBeforeLine s n t) := by
  simp only [insertRun, bind_fst, once, free, insertBeforeLine]
  cases getLineAddr s n <;> rfl

theorem deleteRun_fst (s : State) (a b : Int) : (deleteRun s a b).1 = lift (delete s a b) := by
  simp only [deleteRun, bind_fst, once, free, delete]
  cases getLineAddr s a with
  | error e => rfl
  | ok x => cases getLineAddr s (wrap64 (b + 1)) <;> rfl

theorem editRun_fst (env : Env) (s : State) (name : Bytes) : (editRun env s name).1 = lift (edit env s name) := by
  simp only [editRun, edit]
  cases s.fs name with
  | none => rfl
  | some c =>
    simp only [bind_fst, once, free]
    cases getLines { s with filename := name, pt := Txt.newPieceTable c true c.length } <;> rfl

theorem writeRun_fst (env : Env) (s : State) : (writeRun env s).1 = lift (write env s) := by
  simp only [writeRun, bind_fst, once, write]
  cases s.pt.string with
  | error e => rfl
  | ok d =>
    simp only [lift, bind, Except.bind]
    cases (saveTrace (env.outcome s.writes) s.fs s.filename d).2 with
    | some err => rfl
    | none => exact editRun_fst env _ _

theorem addrRun_fst (env : Env) (s : State) (a : Address) : (addrRun env s a).1 = addrLine env s a := by
  simp only [addrRun, addrLine]
  cases a.typ <;> simp only [bind_fst, once, free]
  · cases getLines s <;> rfl
  · cases regexMatch env s (trimSlash a.text) <;> rfl

/-- **C127** counting does not change what is computed. -/
theorem C127_command_result (env : Env) (s : State) (c : Command) : (processRun env s c).1 = processCommand env s c := by
  simp only [processRun, processCommand]
  cases (setDefaultAddresses c).typ <;>
    simp only [bind_fst, once, free, addrRun_fst, insertRun_fst, deleteRun_fst, editRun_fst, writeRun_fst] <;> rfl

theorem addrRun_snd (env : Env) (s : State) (a : Address) : (addrRun env s a).2 ≤ 1 := by
  simp only [addrRun]
  split
  · simp [free]
  · simp [free]
  · exact bind_snd _ _ 1 0 (by simp [once]) (by simp [free])
  · exact bind_snd _ _ 1 0 (by simp [once]) (by simp [free])
  · simp [free]

theorem insertRun_snd (s : State) (n : Int) (t : Bytes) : (insertRun s n t).2 ≤ 1 := bind_snd _ _ 1 0 (by simp [once]) (by simp [free])

theorem deleteRun_snd (s : State) (a b : Int) : (deleteRun s a b).2 ≤ 2 :=
  bind_snd _ _ 1 1 (by simp [once]) fun _ => bind_snd _ _ 1 0 (by simp [once]) (by simp [free])

theorem editRun_snd (env : Env) (s : State) (name : Bytes) : (editRun env s name).2 ≤ 1 := by
  simp only [editRun]
  split
  · simp [free]
  · exact bind_snd _ _ 1 0 (by simp [once]) (by simp [free])

theorem writeRun_snd (env : Env) (s : State) : (writeRun env s).2 ≤ 2 := by
  refine bind_snd _ _ 1 1 (by simp [once]) fun d => ?_
  dsimp only
  split
  · simp [free]
  · exact editRun_snd _ _ _

/-- **C127** (a command of ed) Whatever the command and the buffer, the buffer is put together at most seven times. -/
theorem C127_command_bound (env : Env) (s : State) (c : Command) : (processRun env s c).2 ≤ 7 := by
  have one : ∀ {α β : Type} (x : R α) (f : α → R β), ((once x).bind fun t => free (f t)).2 ≤ 1 :=
    fun x f => bind_snd _ _ 1 0 (by simp [once]) (by simp [free])
  simp only [processRun]
  split
  · exact Nat.le_trans (bind_snd _ _ 1 0 (editRun_snd _ _ _) (by simp [free])) (by decide)
  · exact Nat.le_trans (bind_snd _ _ 1 2 (addrRun_snd _ _ _) fun _ => bind_snd _ _ 1 1 (addrRun_snd _ _ _) fun _ => one _ _) (by decide)
  · exact Nat.le_trans (bind_snd _ _ 1 2 (addrRun_snd _ _ _) fun _ => bind_snd _ _ 1 1 (addrRun_snd _ _ _) fun _ => one _ _) (by decide)
  · exact Nat.le_trans (bind_snd _ _ 1 1 (addrRun_snd _ _ _) fun _ => one _ _) (by decide)
  · exact Nat.le_trans (bind_snd _ _ 2 0 (writeRun_snd _ _) (by simp [free])) (by decide)
  · exact Nat.le_trans (bind_snd _ _ 1 4 (addrRun_snd _ _ _) fun _ => bind_snd _ _ 1 3 (addrRun_snd _ _ _) fun _ =>
      bind_snd _ _ 2 1 (deleteRun_snd _ _ _) fun _ => bind_snd _ _ 1 0 (addrRun_snd _ _ _) (by simp [free])) (by decide)
  · exact Nat.le_trans (bind_snd _ _ 1 1 (addrRun_snd _ _ _) fun _ => bind_snd _ _ 1 0 (insertRun_snd _ _ _) (by simp [free])) (by decide)
  · exact Nat.le_trans (bind_snd _ _ 1 1 (addrRun_snd _ _ _) fun _ => bind_snd _ _ 1 0 (insertRun_snd _ _ _) (by simp [free])) (by decide)
  · exact Nat.le_trans (bind_snd _ _ 1 6 (addrRun_snd _ _ _) fun _ => bind_snd _ _ 1 5 (addrRun_snd _ _ _) fun _ =>
      bind_snd _ _ 2 3 (deleteRun_snd _ _ _) fun _ => bind_snd _ _ 1 2 (addrRun_snd _ _ _) fun _ =>
        bind_snd _ _ 1 1 (insertRun_snd _ _ _) fun _ => bind_snd _ _ 1 0 (addrRun_snd _ _ _) (by simp [free])) (by decide)
  · exact Nat.le_trans (bind_snd _ _ 1 0 (addrRun_snd _ _ _) (by simp [free])) (by decide)
  · simp [free]

/-- The pieces after a step. -/
theorem insert_pieces {s s' : State} {n : Int} {t : Bytes} (h : insertBeforeLine s n t = .ok s') : s'.pt.pieces.length ≤ s.pt.pieces.length + 2 := by
  simp only [insertBeforeLine] at h
  cases ha : getLineAddr s n with
  | error e => rw [ha] at h; cases h
  | ok at_ =>
    rw [ha] at h
    dsimp only at h
    cases hi : s.pt.insert (t ++ [nl]) at_ with
    | error e => rw [hi] at h; cases h
    | ok pt =>
      rw [hi] at h
      simp only [Except.ok.injEq] at h
      subst h
      have := (Txt.apply_pieces s.pt pt (.insert (t ++ [nl]) at_) hi).1
      simp only [Txt.inserts] at this
      exact this

theorem delete_pieces {s s' : State} {a b : Int} (h : delete s a b = .ok s') : s'.pt.pieces.length ≤ s.pt.pieces.length + 1 := by
  simp only [delete] at h
  cases ha : getLineAddr s a with
  | error e => rw [ha] at h; cases h
  | ok x =>
    rw [ha] at h
    dsimp only at h
    cases hb : getLineAddr s (wrap64 (b + 1)) with
    | error e => rw [hb] at h; cases h
    | ok y =>
      rw [hb] at h
      simp only [Except.ok.injEq] at h
      subst h
      exact (Txt.apply_pieces s.pt _ (.delete (y - x) x) rfl).1

theorem edit_pieces {env : Env} {s s' : State} {name : Bytes} {o : Option Bytes} (h : edit env s name = .ok (s', o)) :
    s'.pt.pieces.length ≤ max s.pt.pieces.length 1 := by
  simp only [edit] at h
  cases hf : s.fs name with
  | none =>
    rw [hf] at h
    simp only [Except.ok.injEq, Prod.mk.injEq] at h
    rw [← h.1]; omega
  | some c =>
    rw [hf] at h
    dsimp only at h
    split at h
    · cases h
    · simp only [Except.ok.injEq, Prod.mk.injEq] at h
      rw [← h.1]
      simp [Txt.newPieceTable]
      omega

theorem write_pieces {env : Env} {s s' : State} {o : Option Bytes} (h : write env s = .ok (s', o)) :
    s'.pt.pieces.length ≤ max s.pt.pieces.length 1 := by
  have hc : s.pt.close.pieces = s.pt.pieces := by simp only [Txt.PieceTable.close]; split <;> rfl
  simp only [write] at h
  cases hd : s.pt.string with
  | error e => rw [hd] at h; cases h
  | ok d =>
    rw [hd] at h
    dsimp only at h
    split at h
    · simp only [Except.ok.injEq, Prod.mk.injEq] at h
      rw [← h.1]
      simp only [hc]
      omega
    · have := edit_pieces h
      simp only [hc] at this
      exact this

/-- **C127** A command adds at most three pieces to the buffer, and a command that opens a file leaves one: after `k` commands there are at most
`3k + 1`, so that putting the buffer together stays cheap. -/
theorem C127_command_pieces (env : Env) (s s' : State) (c : Command) (o : Bytes) (h : processCommand env s c = .ok (s', o)) :
    s'.pt.pieces.length ≤ max s.pt.pieces.length 1 + 3 := by
  have lift_ok : ∀ {α : Type} {x : M α} {a : α}, lift x = .ok a → x = .ok a := by
    intro α x a hx
    cases x with
    | error e => cases hx
    | ok b => simp only [lift, Except.ok.injEq] at hx; rw [hx]
  have bind_ok : ∀ {α β : Type} {x : R α} {f : α → R β} {b : β}, (x >>= f) = .ok b → ∃ a, x = .ok a ∧ f a = .ok b := by
    intro α β x f b hx
    cases x with
    | error e => cases hx
    | ok a => exact ⟨a, rfl, hx⟩
  simp only [processCommand] at h
  split at h
  · obtain ⟨r, h1, h2⟩ := bind_ok h
    have := edit_pieces (lift_ok h1)
    simp only [pure, Except.pure, Except.ok.injEq, Prod.mk.injEq] at h2
    rw [← h2.1]; omega
  · obtain ⟨a, _, h⟩ := bind_ok h
    obtain ⟨b, _, h⟩ := bind_ok h
    obtain ⟨t, _, h⟩ := bind_ok h
    simp only [pure, Except.pure, Except.ok.injEq, Prod.mk.injEq] at h
    rw [← h.1]; omega
  · obtain ⟨a, _, h⟩ := bind_ok h
    obtain ⟨b, _, h⟩ := bind_ok h
    obtain ⟨t, _, h⟩ := bind_ok h
    simp only [pure, Except.pure, Except.ok.injEq, Prod.mk.injEq] at h
    rw [← h.1]; omega
  · obtain ⟨a, _, h⟩ := bind_ok h
    obtain ⟨t, _, h⟩ := bind_ok h
    simp only [pure, Except.pure, Except.ok.injEq, Prod.mk.injEq] at h
    rw [← h.1]; dsimp only; omega
  · obtain ⟨r, h1, h2⟩ := bind_ok h
    have := write_pieces (lift_ok h1)
    simp only [pure, Except.pure, Except.ok.injEq, Prod.mk.injEq] at h2
    rw [← h2.1]; omega
  · obtain ⟨a, _, h⟩ := bind_ok h
    obtain ⟨b, _, h⟩ := bind_ok h
    obtain ⟨s1, h1, h⟩ := bind_ok h
    obtain ⟨t, _, h⟩ := bind_ok h
    have := delete_pieces (lift_ok h1)
    simp only [pure, Except.pure, Except.ok.injEq, Prod.mk.injEq] at h
    rw [← h.1]; dsimp only; omega
  · obtain ⟨a, _, h⟩ := bind_ok h
    obtain ⟨s1, h1, h⟩ := bind_ok h
    have := insert_pieces (lift_ok h1)
    simp only [pure, Except.pure, Except.ok.injEq, Prod.mk.injEq] at h
    rw [← h.1]; dsimp only; omega
  · obtain ⟨a, _, h⟩ := bind_ok h
    obtain ⟨s1, h1, h⟩ := bind_ok h
    have := insert_pieces (lift_ok h1)
    simp only [pure, Except.pure, Except.ok.injEq, Prod.mk.injEq] at h
    rw [← h.1]; omega
  · obtain ⟨a, _, h⟩ := bind_ok h
    obtain ⟨b, _, h⟩ := bind_ok h
    obtain ⟨s1, h1, h⟩ := bind_ok h
    obtain ⟨c', _, h⟩ := bind_ok h
    obtain ⟨s2, h2, h⟩ := bind_ok h
    obtain ⟨d, _, h⟩ := bind_ok h
    have := delete_pieces (lift_ok h1)
    have := insert_pieces (lift_ok h2)
    simp only [pure, Except.pure, Except.ok.injEq, Prod.mk.injEq] at h
    rw [← h.1]; dsimp only; omega
  · obtain ⟨a, _, h⟩ := bind_ok h
    simp only [pure, Except.pure, Except.ok.injEq, Prod.mk.injEq] at h
    rw [← h.1]; omega
  · simp only [Except.ok.injEq, Prod.mk.injEq] at h
    rw [← h.1]; omega

/-- Seven times: `$,$c` in a buffer of two lines. -/
example : (processRun demoEnv { pt := Txt.newPieceTable b!"one\ntwo\n" true 8, currentLine := 2, filename := b!"f", fs := fun _ => none, writes := 0 }
    { typ := .change, start := ⟨.last, b!"$", 0⟩, end_ := ⟨.last, b!"$", 0⟩, text := b!"six" }).2 = 7 := by decide +kernel

end Ed
