import Verif.Locale.EnvProps

/-!
# The output of `locale` given to a shell (C146)

POSIX wants the output of `locale` to be usable as input of a shell. A small reader of shell assignments
stands for the shell here; it is written without looking at how `locale` prints.
-/

namespace Locale
open Go

/-! ## Specification -/

/-- Specification: the characters a shell does not take as themselves between double quotes. -/
def activeQuoted : List UInt8 := [36, 92, 96]

/-- Specification: those it does not take as themselves outside quotes: blanks, `#&'()*;<>?[|~` and the above. -/
def activeBare : List UInt8 := [9, 32, 35, 38, 39, 40, 41, 42, 59, 60, 62, 63, 91, 124, 126] ++ activeQuoted

/-- Specification: the two together; the flag says whether a double quote is open. -/
def active : Bool → List UInt8
  | true => activeQuoted
  | false => activeBare

/-- Specification: a word of a shell line after quote removal; the flag says whether a double quote is open.
`none`: a quote is not closed, or a character has another meaning than itself. -/
def readWord : Bool → Bytes → Option Bytes
  | q, [] => if q then none else some []
  | q, c :: cs =>
    if c = 34 then readWord (!q) cs
    else if c ∈ active q then none
    else (readWord q cs).map (c :: ·)

/-- Specification: one assignment. -/
def readAssign (l : Bytes) : Option (Bytes × Bytes) :=
  match l.dropWhile (· ≠ 61) with
  | _ :: v => (readWord false v).map (fun w => (l.takeWhile (· ≠ 61), w))
  | [] => none

/-- Specification: a text of assignments, one on a line; `none` as soon as one line is something else. -/
def readShell (text : Bytes) : Option (List (Bytes × Bytes)) := (rawLines text).mapM readAssign

/-- Specification: an environment after assignments, carried out in order. -/
def setAll : List (Bytes × Bytes) → (Bytes → Bytes) → Bytes → Bytes
  | [], env => env
  | (n, v) :: as, env => setAll as (fun m => if m = n then v else env m)

/-- Specification: what the output should say: the eight variables, the categories with the values in force. -/
def inForce (env : Bytes → Bytes) : List (Bytes × Bytes) :=
  (b!"LANG", env b!"LANG") :: (categories.map (fun n => (n, effective env n)) ++ [(b!"LC_ALL", env b!"LC_ALL")])

/-- Specification: a text that stands for itself outside quotes. -/
def Bare (v : Bytes) : Prop := ∀ c ∈ v, c ≠ 34 ∧ c ∉ activeBare

/-- Specification: a text that stands for itself between quotes. -/
def Quotable (v : Bytes) : Prop := ∀ c ∈ v, c ≠ 34 ∧ c ∉ activeQuoted

theorem Bare.quotable {v : Bytes} (h : Bare v) : Quotable v := by
  intro c hc
  refine ⟨(h c hc).1, fun hm => (h c hc).2 ?_⟩
  simp [activeBare, hm]

/-! ## The reader -/

theorem readWord_length : ∀ (v : Bytes) (q : Bool) (w : Bytes), readWord q v = some w → w.length + v.count 34 = v.length := by
  intro v
  induction v with
  | nil => intro q w h; cases q <;> simp [readWord] at h; simp [h]
  | cons c cs ih =>
    intro q w h
    simp only [readWord] at h
    split at h
    · rename_i hc
      have := ih _ _ h
      subst hc
      simp [List.count_cons]; omega
    · rename_i hc
      split at h
      · cases h
      · cases hr : readWord q cs with
        | none => rw [hr] at h; cases h
        | some u =>
          rw [hr] at h
          cases h
          have := ih _ _ hr
          have hc' : (c == 34) = false := by simpa using hc
          simp [List.count_cons, hc']; omega

theorem readWord_bare (v : Bytes) (h : Bare v) : readWord false v = some v := by
  induction v with
  | nil => rfl
  | cons c cs ih =>
    have hc := h c (by simp)
    simp only [readWord]
    rw [if_neg hc.1, if_neg (show c ∉ active false from hc.2), ih (fun d hd => h d (by simp [hd]))]
    rfl

theorem readWord_quotable (v : Bytes) (h : Quotable v) : readWord true (v ++ [34]) = some v := by
  induction v with
  | nil => simp [readWord]
  | cons c cs ih =>
    have hc := h c (by simp)
    simp only [List.cons_append, readWord]
    rw [if_neg hc.1, if_neg (show c ∉ active true from hc.2), ih (fun d hd => h d (by simp [hd]))]
    rfl

theorem bare_of_readWord : ∀ (v : Bytes), 34 ∉ v → ∀ w, readWord false v = some w → Bare v := by
  intro v
  induction v with
  | nil => intro _ _ _ c hc; cases hc
  | cons c cs ih =>
    intro hq w h
    have hc : c ≠ 34 := fun hc => hq (by simp [hc])
    simp only [readWord, if_neg hc] at h
    split at h
    · cases h
    · rename_i hn
      cases hr : readWord false cs with
      | none => rw [hr] at h; cases h
      | some u =>
        intro d hd
        rcases List.mem_cons.mp hd with rfl | hd
        · exact ⟨hc, hn⟩
        · exact ih (fun hm => hq (by simp [hm])) u hr d hd

theorem quotable_of_readWord : ∀ (v : Bytes), 34 ∉ v → ∀ w, readWord true (v ++ [34]) = some w → Quotable v := by
  intro v
  induction v with
  | nil => intro _ _ _ c hc; cases hc
  | cons c cs ih =>
    intro hq w h
    have hc : c ≠ 34 := fun hc => hq (by simp [hc])
    simp only [List.cons_append, readWord, if_neg hc] at h
    split at h
    · cases h
    · rename_i hn
      cases hr : readWord true (cs ++ [34]) with
      | none => rw [hr] at h; cases h
      | some u =>
        intro d hd
        rcases List.mem_cons.mp hd with rfl | hd
        · exact ⟨hc, hn⟩
        · exact ih (fun hm => hq (by simp [hm])) u hr d hd

/-- A value written as it is is read back exactly if it stands for itself. -/
theorem readWord_bare_iff (v : Bytes) : readWord false v = some v ↔ Bare v := by
  refine ⟨fun h => ?_, readWord_bare v⟩
  have hl := readWord_length _ _ _ h
  have : 34 ∉ v := List.count_eq_zero.mp (by omega)
  exact bare_of_readWord v this v h

/-- A value written in quotes is read back exactly if it stands for itself between quotes. -/
theorem readWord_quoted_iff (v : Bytes) : readWord false (34 :: (v ++ [34])) = some v ↔ Quotable v := by
  have h0 : readWord false (34 :: (v ++ [34])) = readWord true (v ++ [34]) := by simp [readWord]
  rw [h0]
  refine ⟨fun h => ?_, readWord_quotable v⟩
  have hl := readWord_length _ _ _ h
  rw [List.count_append] at hl
  simp at hl
  have : 34 ∉ v := List.count_eq_zero.mp (by omega)
  exact quotable_of_readWord v this v h

theorem readAssign_eq (n v : Bytes) (h : 61 ∉ n) : readAssign (n ++ 61 :: v) = (readWord false v).map (fun w => (n, w)) := by
  have hd : ∀ n : Bytes, 61 ∉ n → (n ++ 61 :: v).dropWhile (· ≠ 61) = 61 :: v ∧ (n ++ 61 :: v).takeWhile (· ≠ 61) = n := by
    intro n
    induction n with
    | nil => intro _; simp
    | cons c cs ih =>
      intro h
      have hc : c ≠ 61 := fun hc => h (by simp [hc])
      have := ih (fun hm => h (by simp [hm]))
      simp only [List.cons_append]
      rw [List.dropWhile_cons_of_pos (by simpa using hc), List.takeWhile_cons_of_pos (by simpa using hc), this.1, this.2]
      exact ⟨rfl, rfl⟩
  simp only [readAssign, (hd n h).1, (hd n h).2]

/-! ## What `locale` prints -/

theorem rawLines_string (env : Bytes → Bytes) (h : ∀ n, 10 ∉ env n) :
    rawLines (fromEnv env).string = (b!"LANG" ++ 61 :: 34 :: (env b!"LANG" ++ [34])) ::
      (categories.map (fun n => n ++ 61 :: (fromEnv env).getVal (env n)) ++ [b!"LC_ALL" ++ 61 :: env b!"LC_ALL"]) := by
  have hv : ∀ n, 10 ∉ (fromEnv env).getVal (env n) := by
    intro n
    have h1 := h b!"LC_ALL"
    have h2 := h b!"LANG"
    have h3 := h n
    simp only [Settings.getVal, fromEnv]
    by_cases ha : env b!"LC_ALL" = []
    · by_cases hn : env n = []
      · simp [ha, hn, h2]
      · simpa [ha, hn] using h3
    · simp [ha, h1]
  have hs : (fromEnv env).string = unlines ((b!"LANG" ++ 61 :: 34 :: (env b!"LANG" ++ [34])) ::
      (categories.map (fun n => n ++ 61 :: (fromEnv env).getVal (env n)) ++ [b!"LC_ALL" ++ 61 :: env b!"LC_ALL"])) := by
    simp [Settings.string, Settings.table, fromEnv, categories, unlines]
  rw [hs]
  refine rawLines_unlines _ ?_
  intro l hl
  have h1 := h b!"LC_ALL"
  have h2 := h b!"LANG"
  simp only [categories, List.map_cons, List.map_nil, List.mem_cons, List.mem_append, List.not_mem_nil, or_false] at hl
  rcases hl with rfl | (rfl | rfl | rfl | rfl | rfl | rfl) | rfl <;> simp [h1, h2, hv, nl]

/-- The value of one category read back. -/
theorem readWord_getVal (env : Bytes → Bytes) (n : Bytes) (hl : Quotable (env b!"LANG")) (ha : Bare (env b!"LC_ALL")) :
    readWord false ((fromEnv env).getVal (env n)) = some (effective env n) ↔ (env b!"LC_ALL" = [] → Bare (env n)) := by
  simp only [Settings.getVal, fromEnv, effective]
  by_cases h1 : env b!"LC_ALL" = []
  · by_cases h2 : env n = []
    · have hq := (readWord_quoted_iff (env b!"LANG")).mpr hl
      by_cases h3 : env b!"LANG" = []
      · simp [h1, h2, h3, readWord, Bare]
      · simp [h1, h2, h3, Bare]
        simpa using hq
    · simp [h1, h2]
      exact readWord_bare_iff _
  · have hq := (readWord_quoted_iff (env b!"LC_ALL")).mpr ha.quotable
    simp [h1]
    simpa using hq

/-! ## C146 -/

/-- **C146** Exactly when the output of `locale` can be given to a shell: with values without newlines and percent
signs, a shell reads from it the eight variables with the values in force exactly if `LANG` stands for
itself between double quotes, `LC_ALL` stands for itself without quotes, and so does every category that is
set and not overridden. (The values are shown without quotes where they are set by their own name.) -/
theorem C146_exactly_partial (env : Bytes → Bytes) (hn : ∀ n, 10 ∉ env n) (hp : ∀ n, 37 ∉ env n) :
    readShell (main env) = some (inForce env) ↔
      Quotable (env b!"LANG") ∧ Bare (env b!"LC_ALL") ∧ (env b!"LC_ALL" = [] → ∀ n ∈ categories, Bare (env n)) := by
  rw [C53_command env hp, readShell, rawLines_string env hn]
  have hm : ∀ (a b c d e f g h : Bytes) (x y : List (Bytes × Bytes)), List.mapM readAssign [a, b, c, d, e, f, g, h] = some (x ++ y) ↔
      [a, b, c, d, e, f, g, h].map readAssign = (x ++ y).map some := by
    intro a b c d e f g h x y
    generalize x ++ y = z
    have : ∀ (l : List Bytes) (z : List (Bytes × Bytes)), List.mapM readAssign l = some z ↔ l.map readAssign = z.map some := by
      intro l
      induction l with
      | nil => intro z; cases z <;> simp
      | cons a l ih =>
        intro z
        rw [List.mapM_cons]
        cases ha : readAssign a with
        | none => cases z <;> simp [ha]
        | some u =>
          cases hl : List.mapM readAssign l with
          | none =>
            cases z with
            | nil => simp [ha]
            | cons v z =>
              have := ih z
              rw [hl] at this
              simp [ha]
              intro _ h
              exact absurd (this.mpr h) (by simp)
          | some us =>
            cases z with
            | nil => simp [ha]
            | cons v z =>
              have := ih z
              rw [hl] at this
              simp only [Option.some.injEq] at this
              simp [ha, this]
    exact this _ z
  have h2 := hm (b!"LANG" ++ 61 :: 34 :: (env b!"LANG" ++ [34])) (b!"LC_COLLATE" ++ 61 :: (fromEnv env).getVal (env b!"LC_COLLATE"))
    (b!"LC_CTYPE" ++ 61 :: (fromEnv env).getVal (env b!"LC_CTYPE")) (b!"LC_MESSAGES" ++ 61 :: (fromEnv env).getVal (env b!"LC_MESSAGES"))
    (b!"LC_MONETARY" ++ 61 :: (fromEnv env).getVal (env b!"LC_MONETARY")) (b!"LC_NUMERIC" ++ 61 :: (fromEnv env).getVal (env b!"LC_NUMERIC"))
    (b!"LC_TIME" ++ 61 :: (fromEnv env).getVal (env b!"LC_TIME")) (b!"LC_ALL" ++ 61 :: env b!"LC_ALL") [] (inForce env)
  refine Iff.trans h2 ?_
  have hr : ∀ (n v w : Bytes), 61 ∉ n → (readAssign (n ++ 61 :: v) = some (n, w) ↔ readWord false v = some w) := by
    intro n v w h
    rw [readAssign_eq n v h]
    cases readWord false v <;> simp
  have hi : [] ++ inForce env = [(b!"LANG", env b!"LANG"), (b!"LC_COLLATE", effective env b!"LC_COLLATE"), (b!"LC_CTYPE", effective env b!"LC_CTYPE"),
      (b!"LC_MESSAGES", effective env b!"LC_MESSAGES"), (b!"LC_MONETARY", effective env b!"LC_MONETARY"),
      (b!"LC_NUMERIC", effective env b!"LC_NUMERIC"), (b!"LC_TIME", effective env b!"LC_TIME"), (b!"LC_ALL", env b!"LC_ALL")] := rfl
  rw [hi]
  simp only [List.map_cons, List.map_nil, List.cons.injEq, and_true]
  rw [hr _ _ _ (by decide), hr _ _ _ (by decide), hr _ _ _ (by decide), hr _ _ _ (by decide), hr _ _ _ (by decide), hr _ _ _ (by decide),
    hr _ _ _ (by decide), hr _ _ _ (by decide), readWord_quoted_iff, readWord_bare_iff]
  constructor
  · rintro ⟨hl, h1, h2, h3, h4, h5, h6, ha⟩
    refine ⟨hl, ha, fun h0 n hn => ?_⟩
    simp only [categories, List.mem_cons, List.not_mem_nil, or_false] at hn
    rcases hn with rfl | rfl | rfl | rfl | rfl | rfl
    · exact (readWord_getVal env _ hl ha).mp h1 h0
    · exact (readWord_getVal env _ hl ha).mp h2 h0
    · exact (readWord_getVal env _ hl ha).mp h3 h0
    · exact (readWord_getVal env _ hl ha).mp h4 h0
    · exact (readWord_getVal env _ hl ha).mp h5 h0
    · exact (readWord_getVal env _ hl ha).mp h6 h0
  · rintro ⟨hl, ha, hc⟩
    exact ⟨hl, (readWord_getVal env _ hl ha).mpr (fun h0 => hc h0 _ (by decide)), (readWord_getVal env _ hl ha).mpr (fun h0 => hc h0 _ (by decide)),
      (readWord_getVal env _ hl ha).mpr (fun h0 => hc h0 _ (by decide)), (readWord_getVal env _ hl ha).mpr (fun h0 => hc h0 _ (by decide)),
      (readWord_getVal env _ hl ha).mpr (fun h0 => hc h0 _ (by decide)), (readWord_getVal env _ hl ha).mpr (fun h0 => hc h0 _ (by decide)), ha⟩

/-- **C146** Carrying out the assignments anywhere puts the same values in force: every category has the value it
had, and so have `LANG` and `LC_ALL`. -/
theorem C146_in_force (env start : Bytes → Bytes) :
    (∀ n ∈ categories, effective (setAll (inForce env) start) n = effective env n) ∧
      setAll (inForce env) start b!"LANG" = env b!"LANG" ∧ setAll (inForce env) start b!"LC_ALL" = env b!"LC_ALL" := by
  have hl : setAll (inForce env) start b!"LANG" = env b!"LANG" := rfl
  have ha : setAll (inForce env) start b!"LC_ALL" = env b!"LC_ALL" := rfl
  refine ⟨fun n hn => ?_, hl, ha⟩
  have hc : setAll (inForce env) start n = effective env n := by
    simp only [categories, List.mem_cons, List.not_mem_nil, or_false] at hn
    rcases hn with rfl | rfl | rfl | rfl | rfl | rfl <;> rfl
  have he : effective (setAll (inForce env) start) n =
      (([setAll (inForce env) start b!"LC_ALL", setAll (inForce env) start n, setAll (inForce env) start b!"LANG"].find? (· ≠ [])).getD []) := rfl
  rw [he, hl, ha, hc]
  simp only [effective]
  by_cases h1 : env b!"LC_ALL" = []
  · by_cases h2 : env n = []
    · by_cases h3 : env b!"LANG" = [] <;> simp [h1, h2, h3]
    · simp [h1, h2]
  · simp [h1]

/-- The environment after the assignments shows the same. -/
theorem inForce_setAll (env start : Bytes → Bytes) : inForce (setAll (inForce env) start) = inForce env := by
  obtain ⟨hc, hl, ha⟩ := C146_in_force env start
  have : categories.map (fun n => (n, effective (setAll (inForce env) start) n)) = categories.map (fun n => (n, effective env n)) :=
    List.map_congr_left (fun n hn => by rw [hc n hn])
  unfold inForce at *
  rw [this, hl, ha]

/-- **C146** With values made of ordinary characters only, the output can be saved, given to a shell anywhere, and
`locale` asked again: what is read from the second output is what was read from the first. -/
theorem C146_again (env start : Bytes → Bytes) (hn : ∀ n, 10 ∉ env n ∧ 10 ∉ start n) (hp : ∀ n, 37 ∉ env n ∧ 37 ∉ start n) (hb : ∀ n, Bare (env n)) :
    ∃ as, readShell (main env) = some as ∧ readShell (main (setAll as start)) = some as := by
  have he : ∀ n, effective env n = env b!"LC_ALL" ∨ effective env n = env n ∨ effective env n = env b!"LANG" ∨ effective env n = [] := by
    intro n
    simp only [effective]
    by_cases h1 : env b!"LC_ALL" = []
    · by_cases h2 : env n = []
      · by_cases h3 : env b!"LANG" = [] <;> simp [h1, h2, h3]
      · simp [h1, h2]
    · simp [h1]
  have hs : ∀ n, setAll (inForce env) start n = env b!"LC_ALL" ∨ setAll (inForce env) start n = env b!"LANG" ∨
      setAll (inForce env) start n = start n ∨ (n ∈ categories ∧ setAll (inForce env) start n = effective env n) := by
    intro n
    simp only [inForce, setAll, categories, List.map_cons, List.map_nil, List.cons_append, List.nil_append]
    grind
  refine ⟨inForce env, (C146_exactly_partial env (fun n => (hn n).1) (fun n => (hp n).1)).mpr
    ⟨(hb _).quotable, hb _, fun _ n _ => hb n⟩, ?_⟩
  have hnot : ∀ c, (∀ n, c ∉ env n ∧ c ∉ start n) → ∀ n, c ∉ setAll (inForce env) start n := by
    intro c hc n
    rcases hs n with h | h | h | ⟨_, h⟩
    · rw [h]; exact (hc _).1
    · rw [h]; exact (hc _).1
    · rw [h]; exact (hc _).2
    · rw [h]
      rcases he n with h | h | h | h <;> rw [h]
      · exact (hc _).1
      · exact (hc _).1
      · exact (hc _).1
      · simp
  have hi := inForce_setAll env start
  obtain ⟨_, hl, ha⟩ := C146_in_force env start
  rw [← hi, hi]
  conv => rhs; rw [← hi]
  refine (C146_exactly_partial _ (hnot 10 hn) (hnot 37 hp)).mpr ⟨by rw [hl]; exact (hb _).quotable, by rw [ha]; exact hb _, fun _ n hm => ?_⟩
  have hc : setAll (inForce env) start n = effective env n := by
    simp only [categories, List.mem_cons, List.not_mem_nil, or_false] at hm
    rcases hm with rfl | rfl | rfl | rfl | rfl | rfl <;> rfl
  rw [hc]
  rcases he n with h | h | h | h <;> rw [h]
  · exact hb _
  · exact hb _
  · exact hb _
  · intro c hc; cases hc

/-- An environment for the examples: the listed variables, all others unset. -/
def envOf (as : List (Bytes × Bytes)) : Bytes → Bytes := setAll as (fun _ => [])

/-- **C146** Where it fails: a category set to a value with a blank is printed without quotes, and no shell reads
the value back; with the same value in `LANG` it is printed in quotes and read back, but not the second time,
because by then the categories are set by their own names. -/
theorem C146_counterexample :
    readShell (main (envOf [(b!"LC_TIME", b!"my locale")])) = none ∧
    readShell (main (envOf [(b!"LANG", b!"my locale")])) = some (inForce (envOf [(b!"LANG", b!"my locale")])) ∧
    readShell (main (setAll (inForce (envOf [(b!"LANG", b!"my locale")])) (fun _ => []))) = none := by
  refine ⟨by decide +kernel, by decide +kernel, by decide +kernel⟩

/-- The hypotheses of `C146_again` are met by an ordinary environment, and this is what is read. -/
example : readShell (main (envOf [(b!"LANG", b!"en_US.UTF-8"), (b!"LC_TIME", b!"de_DE@euro")])) =
    some [(b!"LANG", b!"en_US.UTF-8"), (b!"LC_COLLATE", b!"en_US.UTF-8"), (b!"LC_CTYPE", b!"en_US.UTF-8"), (b!"LC_MESSAGES", b!"en_US.UTF-8"),
      (b!"LC_MONETARY", b!"en_US.UTF-8"), (b!"LC_NUMERIC", b!"en_US.UTF-8"), (b!"LC_TIME", b!"de_DE@euro"), (b!"LC_ALL", [])] := by
  decide +kernel

example : ∀ n, Bare (envOf [(b!"LANG", b!"en_US.UTF-8"), (b!"LC_TIME", b!"de_DE@euro")] n) := by
  intro n
  simp only [envOf, setAll]
  split
  · unfold Bare; decide +kernel
  · split
    · unfold Bare; decide +kernel
    · intro c hc; cases hc

end Locale
