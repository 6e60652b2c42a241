import Verif.Kill.Model
import Verif.Go.StrconvProps

/-! # C51: kill -/

namespace Kill
open Go

/-! ## Specification -/

/-- The signal names of POSIX that have a fixed number, with their numbers. -/
def signals : List (Bytes × Int) :=
  [(b!"0", 0), (b!"HUP", 1), (b!"INT", 2), (b!"QUIT", 3), (b!"ABRT", 6), (b!"KILL", 9), (b!"ALRM", 14), (b!"TERM", 15)]

/-- `args` is a sequence of `-l`, `-s NAME` with a known name, `-N` with an integer and process
numbers, read from left to right: `Request sig pid sig' pid'` says that, starting with the signal
`sig` and the process `pid`, the last signal asked for is `sig'` and the last process `pid'`. -/
inductive Request (w : World) : (sig pid sig' pid' : Int) → List Bytes → Prop
  | nil (sig pid) : Request w sig pid sig pid []
  | list {sig pid sig' pid' args} : Request w sig pid sig' pid' args → Request w sig pid sig' pid' (b!"-l" :: args)
  | name {sig pid sig' pid' args} (v : Bytes) (n : Int) : (toUpper w.up v, n) ∈ signals →
      Request w n pid sig' pid' args → Request w sig pid sig' pid' (b!"-s" :: v :: args)
  | number {sig pid sig' pid' args} (cs : Bytes) (n : Int) : atoi cs = (n, none) →
      Request w n pid sig' pid' args → Request w sig pid sig' pid' ((45 :: cs) :: args)
  | process {sig pid sig' pid' args} (a : Bytes) (n : Int) : a.head? ≠ some 45 → atoi a = (n, none) →
      Request w sig n sig' pid' args → Request w sig pid sig' pid' (a :: args)

/-! ## Theorems -/

/-- The map of the code has exactly the POSIX names, with their numbers. -/
theorem signalMap_iff (name : Bytes) (n : Int) : signalMap name = some n ↔ (name, n) ∈ signals := by
  simp only [signals, List.mem_cons, Prod.mk.injEq, List.not_mem_nil, or_false]
  constructor
  · intro h
    simp only [signalMap] at h
    repeat' split at h
    all_goals simp_all
  · intro h
    rcases h with h | h | h | h | h | h | h | h <;> obtain ⟨rfl, rfl⟩ := h <;> rfl

theorem parseLoop_cons_other (w : World) (s : State) (a : Bytes) (rest : List Bytes) (h1 : a ≠ b!"-l") (h2 : a ≠ b!"-s") :
    parseLoop w s (a :: rest) =
      (match other s a with
       | .ok s' => parseLoop w s' rest
       | .error e => .error e) := by
  cases rest with
  | nil =>
    simp only [parseLoop, h1, h2, if_false]
    cases other s a <;> rfl
  | cons v rest =>
    simp only [parseLoop, h1, h2, if_false]
    cases other s a <;> rfl

theorem parseLoop_request {w sig pid sig' pid' args} (h : Request w sig pid sig' pid' args) :
    parseLoop w ⟨sig, pid⟩ args = .ok ⟨sig', pid'⟩ := by
  induction h with
  | nil => rfl
  | @list _ _ _ _ args h ih =>
    cases args with
    | nil => simpa [parseLoop] using ih
    | cons v rest => simpa [parseLoop] using ih
  | @name _ _ _ _ args v n hv h ih =>
    simp only [parseLoop]
    rw [if_neg (by decide)]
    simp only [if_true, (signalMap_iff _ _).2 hv]
    exact ih
  | number cs n hn h ih =>
    have h1 : (45 :: cs) ≠ b!"-l" := by
      intro e; simp at e; subst e; simp [atoi, parseUint, parseUintLoop, isDigit, finishInt] at hn
    have h2 : (45 :: cs) ≠ b!"-s" := by
      intro e; simp at e; subst e; simp [atoi, parseUint, parseUintLoop, isDigit, finishInt] at hn
    rw [parseLoop_cons_other _ _ _ _ h1 h2]
    simp only [other, if_true, hn]
    exact ih
  | process a n ha hn h ih =>
    have h1 : a ≠ b!"-l" := by rintro rfl; simp at ha
    have h2 : a ≠ b!"-s" := by rintro rfl; simp at ha
    rw [parseLoop_cons_other _ _ _ _ h1 h2]
    cases a with
    | nil => simp [atoi] at hn
    | cons c cs =>
      have hc : c ≠ 45 := by simpa using ha
      simp only [other, hc, if_false, hn]
      exact ih

/-- C51: at most one signal is ever sent, and it is always signal 9, whatever was asked for. -/
theorem C51_only_sigkill (w : World) (args : List Bytes) :
    (main w args).sent.length ≤ 1 ∧ ∀ p ∈ (main w args).sent, p.2 = 9 := by
  simp only [main]
  repeat' split
  all_goals simp

/-- C51: a well-formed request for signal `sig` to process `pid` is announced as such but delivers
signal 9, to the last process named. -/
theorem C51_request (w : World) {sig pid args} (h : Request w 15 0 sig pid args) (hp : 0 < pid)
    (hf : w.findErr pid = none) (hk : w.killErr pid = none) :
    main w args = ⟨b!"sending " ++ itoa sig ++ b!" to " ++ itoa pid ++ b!"\nvim-go\n", [], 0, [(pid, 9)], none⟩ := by
  have := parseLoop_request h
  simp only [main]
  rw [show ({} : State) = ⟨15, 0⟩ from rfl, this]
  have h0 : ¬ (pid = 0 ∨ pid = -1) := by omega
  simp [hf, hk, announce, h0]

/-- C51 is false: `kill -s TERM 42` and even `kill -0 42`, which should only probe, send signal 9. -/
theorem C51_counterexamples (w : World) (hf : w.findErr 42 = none) (hk : w.killErr 42 = none) :
    (main w [b!"-s", b!"TERM", b!"42"]).sent = [(42, 9)] ∧ (main w [b!"-0", b!"42"]).sent = [(42, 9)] := by
  rw [C51_request w (sig := 15) (pid := 42)
      (.name b!"TERM" 15 (show (b!"TERM", (15 : Int)) ∈ signals by decide) (.process _ 42 (by decide) (by decide) (.nil _ _))) (by decide) hf hk,
    C51_request w (sig := 0) (pid := 42)
      (.number b!"0" 0 (by decide) (.process _ 42 (by decide) (by decide) (.nil _ _))) (by decide) hf hk]
  exact ⟨rfl, rfl⟩

/-- C51, the part that holds: a request whose last signal is 9 is delivered as asked to the last
process. -/
theorem C51_delivers_partial (w : World) {pid args} (h : Request w 15 0 9 pid args) (hp : 0 < pid)
    (hf : w.findErr pid = none) :
    (main w args).sent = [(pid, 9)] ∧ ((main w args).exit = 0 ↔ w.killErr pid = none) := by
  have := parseLoop_request h
  simp only [main]
  rw [show ({} : State) = ⟨15, 0⟩ from rfl, this]
  have h0 : ¬ (pid = 0 ∨ pid = -1) := by omega
  cases hk : w.killErr pid <;> simp [hf, hk, h0]

theorem parseLoop_ok (w : World) (args : List Bytes) : ∀ s s', parseLoop w s args = .ok s' →
    Request w s.signal s.pid s'.signal s'.pid args := by
  have hother : ∀ (sig pid : Int) (s s' : State) (a : Bytes) (rest : List Bytes),
      Request w s'.signal s'.pid sig pid rest → other s a = .ok s' →
      Request w s.signal s.pid sig pid (a :: rest) := by
    intro sig pid s s' a rest f h
    unfold other at h
    split at h
    · cases h
    · next c cs =>
      split at h
      · next hc =>
        subst hc
        split at h
        · next n hn => cases h; exact .number cs n hn f
        · cases h
      · next hc =>
        split at h
        · next n hn => cases h; exact .process _ n (by simpa using hc) hn f
        · cases h
  intro s s' h
  match args with
  | [] => simp [parseLoop] at h; subst h; exact .nil _ _
  | [a] =>
    simp only [parseLoop] at h
    split at h
    · next e => subst e; cases h; exact .list (.nil _ _)
    · split at h
      · cases h
      · exact hother _ _ _ _ a [] (.nil _ _) h
  | a :: v :: rest =>
    simp only [parseLoop] at h
    split at h
    · next e => subst e; exact .list (parseLoop_ok w (v :: rest) s s' h)
    · split at h
      · next e =>
        subst e
        split at h
        · next n hn => exact .name v n ((signalMap_iff _ _).1 hn) (parseLoop_ok w rest _ s' h)
        · cases h
      · split at h
        · next s1 h1 => exact hother _ _ _ _ a _ (parseLoop_ok w (v :: rest) s1 s' h) h1
        · cases h
termination_by args.length

/-- C51: with no process named, or with process 0 (in POSIX: the processes of one's own group), nothing is sent. -/
theorem C51_no_process (w : World) {sig args} (h : Request w 15 0 sig 0 args) :
    (main w args).stdout = b!"sending " ++ itoa sig ++ b!" to 0\n" ∧ (main w args).exit = 2 ∧ (main w args).sent = [] := by
  have := parseLoop_request h
  simp only [main]
  rw [show ({} : State) = ⟨15, 0⟩ from rfl, this]
  cases hf : w.findErr 0 <;> simp [announce, hf] <;> rfl

example (w : World) : (main w [b!"-9", b!"0"]).sent = [] :=
  (C51_no_process w (sig := 9) (.number b!"9" 9 (by decide) (.process _ 0 (by decide) (by decide) (.nil _ _)))).2.2

/-- The number of a process in a request is never negative. -/
theorem request_nonneg {w : World} {sig pid sig' pid' args} (h : Request w sig pid sig' pid' args) (h0 : 0 ≤ pid) :
    0 ≤ pid' := by
  induction h with
  | nil => exact h0
  | list _ ih => exact ih h0
  | name _ _ _ _ ih => exact ih h0
  | number _ _ _ _ ih => exact ih h0
  | process a n ha hn _ ih =>
    refine ih ?_
    obtain ⟨hd, _⟩ := (C72_atoi_iff a n).1 hn
    cases hd with
    | plain => omega
    | plus => omega
    | minus => simp at ha

/-- C51: arguments that are not a well-formed request send nothing, print nothing and fail. -/
theorem C51_malformed (w : World) (args : List Bytes) (h : ¬ ∃ sig pid, Request w 15 0 sig pid args) :
    (main w args).sent = [] ∧ (main w args).stdout = [] ∧ (main w args).exit = 2 := by
  simp only [main]
  split
  · simp
  · simp
  · next s hs =>
    exact absurd ⟨s.signal, s.pid, parseLoop_ok w args {} s hs⟩ h

/-- C51, exactly when something is sent: signal 9, to the last process of a well-formed request, if that is not 0. -/
theorem C51_sent_iff (w : World) (args : List Bytes) (p q : Int) :
    (p, q) ∈ (main w args).sent ↔ q = 9 ∧ 0 < p ∧ w.findErr p = none ∧ ∃ sig, Request w 15 0 sig p args := by
  constructor
  · intro h
    simp only [main] at h
    split at h
    · simp at h
    · simp at h
    · next s hs =>
      have hr := parseLoop_ok w args {} s hs
      have h0 := request_nonneg hr (Int.le_refl _)
      split at h
      · simp at h
      · next hf =>
        split at h
        · simp at h
        · next hp =>
          have hpq : p = s.pid ∧ q = 9 := by
            split at h <;> simpa using h
          obtain ⟨rfl, rfl⟩ := hpq
          exact ⟨rfl, by omega, by simpa using hf, s.signal, hr⟩
  · rintro ⟨rfl, hp, hf, sig, hr⟩
    have := parseLoop_request hr
    simp only [main]
    rw [show ({} : State) = ⟨15, 0⟩ from rfl, this]
    have h0 : ¬ (p = 0 ∨ p = -1) := by omega
    cases hk : w.killErr p <;> simp [hf, h0, hk]

example (w : World) (hf : w.findErr 8 = none) :
    (main w [b!"-s", b!"KILL", b!"-l", b!"7", b!"8"]).sent = [(8, 9)] :=
  (C51_delivers_partial w (.name b!"KILL" 9 (show (b!"KILL", (9 : Int)) ∈ signals by decide) (.list (.process _ 7 (by decide) (by decide)
    (.process _ 8 (by decide) (by decide) (.nil _ _))))) (by decide) hf).1

end Kill
