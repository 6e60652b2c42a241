import Verif.Cmp.Relations

/-! # C153: what cmp -l prints is enough to make either file from the other -/

namespace Cmp
open Go

/-! ## Specification: someone who reads the listing -/

/-- Cut at every blank and every newline; `w` is the word being read. -/
def tokens (w : Bytes) : Bytes → List Bytes
  | [] => []
  | c :: cs => if c = 32 ∨ c = 10 then w :: tokens [] cs else tokens (w ++ [c]) cs

/-- Value of a decimal numeral. -/
def decimalValue (ds : Bytes) : Nat := ds.foldl (fun n c => n * 10 + (c.toNat - 48)) 0

/-- Three words are a place and two bytes. -/
def triples : List Bytes → List (Nat × Nat × Nat)
  | p :: x :: y :: rest => (decimalValue p, octalValue x, octalValue y) :: triples rest
  | _ => []

/-- Put the byte `y` at place `n` (counted from 1), for each change in turn. -/
def carryOut (changes : List (Nat × Nat)) (file : Bytes) : Bytes :=
  changes.foldl (fun f d => f.set (d.1 - 1) (UInt8.ofNat d.2)) file

/-- Make the second file from the first one and the listing. -/
def forwards (out file : Bytes) : Bytes := carryOut ((triples (tokens [] out)).map fun d => (d.1, d.2.2)) file

/-- Make the first file from the second one and the listing. -/
def backwards (out file : Bytes) : Bytes := carryOut ((triples (tokens [] out)).map fun d => (d.1, d.2.1)) file

/-! ## Proofs -/

theorem tokens_word (w : Bytes) : ∀ (acc : Bytes) (sep : UInt8) (rest : Bytes), (∀ c ∈ w, c ≠ 32 ∧ c ≠ 10) → (sep = 32 ∨ sep = 10) →
    tokens acc (w ++ sep :: rest) = (acc ++ w) :: tokens [] rest := by
  induction w with
  | nil => intro acc sep rest _ hs; simp [tokens, hs]
  | cons c w ih =>
    intro acc sep rest hw hs
    obtain ⟨h1, h2⟩ := hw c (by simp)
    rw [List.cons_append, tokens, if_neg (by simp [h1, h2]), ih _ sep rest (fun d hd => hw d (by simp [hd])) hs]
    simp

theorem dec_plain (n : Nat) : ∀ c ∈ natToDec n, c ≠ 32 ∧ c ≠ 10 := by
  intro c hc
  have := (natToDec_spec n).2.1 c hc
  constructor <;> (rintro rfl; simp [isDigit] at this)

theorem oct_plain (b : UInt8) : ∀ c ∈ natToOct b.toNat, c ≠ 32 ∧ c ≠ 10 := by
  intro c hc
  have := List.all_eq_true.1 (octal_ok b).2.1 c hc
  constructor <;> (rintro rfl; simp at this)

theorem decimal_fold (ds : Bytes) : ∀ n, ds.foldl (fun n c => n * 10 + (c.toNat - 48)) n = n * 10 ^ ds.length + digitsVal ds := by
  induction ds with
  | nil => intro n; simp [digitsVal]
  | cons c ds ih =>
    intro n
    rw [List.foldl_cons, ih, digitsVal, List.length_cons, Nat.pow_succ, Nat.add_mul, Nat.mul_assoc, Nat.mul_comm 10, Nat.add_assoc]

theorem decimal_ok (n : Nat) : decimalValue (natToDec n) = n := by
  rw [decimalValue, decimal_fold, (natToDec_spec n).2.2.1]
  omega

theorem read_listing (ds : List (Nat × UInt8 × UInt8)) : triples (tokens [] (listing ds)) = ds.map fun d => (d.1, d.2.1.toNat, d.2.2.toNat) := by
  induction ds with
  | nil => rfl
  | cons d ds ih =>
    have e : listing (d :: ds) = natToDec d.1 ++ 32 :: (natToOct d.2.1.toNat ++ 32 :: (natToOct d.2.2.toNat ++ 10 :: listing ds)) := by
      simp [listing]
    rw [e, tokens_word _ _ _ _ (dec_plain _) (.inl rfl), tokens_word _ _ _ _ (oct_plain _) (.inl rfl), tokens_word _ _ _ _ (oct_plain _) (.inr rfl)]
    simp only [List.nil_append, triples, ih, List.map_cons, decimal_ok, (octal_ok _).1]

theorem carryOut_differences (c1 : Bytes) : ∀ (c2 p : Bytes) (i : Nat), i = p.length + 1 →
    carryOut ((((c1.zip c2).zipIdx i).filterMap fun p => if p.1.1 = p.1.2 then none else some (p.2, p.1.1, p.1.2)).map fun d => (d.1, d.2.2.toNat)) (p ++ c1) =
      p ++ (c2.take c1.length ++ c1.drop c2.length) := by
  induction c1 with
  | nil => intro c2 p i _; simp [carryOut]
  | cons a c1 ih =>
    intro c2 p i hi
    cases c2 with
    | nil => simp [carryOut]
    | cons b c2 =>
      have ih' := ih c2 (p ++ [b]) (i + 1) (by simp [hi])
      simp only [List.append_assoc, List.singleton_append] at ih'
      simp only [List.zip_cons_cons, List.zipIdx_cons, List.filterMap_cons, List.length_cons, List.take_succ_cons, List.drop_succ_cons, List.cons_append]
      by_cases e : a = b
      · subst e
        simpa using ih'
      · simp only [e, if_false, List.map_cons]
        rw [carryOut, List.foldl_cons]
        have : (p ++ a :: c1).set (i - 1) (UInt8.ofNat b.toNat) = p ++ b :: c1 := by
          rw [hi, Nat.add_sub_cancel, List.set_append_right _ _ (Nat.le_refl _)]
          simp
        rw [this]
        exact ih'

theorem forwards_listing (c1 c2 : Bytes) : forwards (listing (differences c1 c2)) c1 = c2.take c1.length ++ c1.drop c2.length := by
  have := carryOut_differences c1 c2 [] 1 rfl
  simp only [List.nil_append] at this
  rw [forwards, read_listing, ← this, differences]
  simp only [List.map_map]
  rfl

theorem backwards_listing (c1 c2 : Bytes) : backwards (listing (differences c1 c2)) c2 = c1.take c2.length ++ c2.drop c1.length := by
  have := carryOut_differences c2 c1 [] 1 rfl
  simp only [List.nil_append] at this
  rw [backwards, read_listing, ← this, differences_exchanged c1 c2 1, differences]
  simp only [List.map_map]
  rfl

/-- **C153** Carrying out the listing of `cmp -l f g` on `f` gives `g` as far as both go, also when reading ends with an error. -/
theorem C153_forwards {f g : Bytes} {args : List Bytes} (h : Invocation true false [f, g] args) (w : World) (s1 s2 : Stream)
    (h1 : Delivers w f s1) (h2 : Delivers w g s2) (hd : ¬ (f = b!"-" ∧ g = b!"-")) :
    forwards (main w args).stdout s1.data = s2.data.take s1.data.length ++ s1.data.drop s2.data.length := by
  rw [main_loop_any h w s1 s2 h1 h2 hd, loop_listing _ rfl rfl]
  exact forwards_listing _ _

/-- **C153** And carrying it out the other way on `g` gives `f`. -/
theorem C153_backwards {f g : Bytes} {args : List Bytes} (h : Invocation true false [f, g] args) (w : World) (s1 s2 : Stream)
    (h1 : Delivers w f s1) (h2 : Delivers w g s2) (hd : ¬ (f = b!"-" ∧ g = b!"-")) :
    backwards (main w args).stdout s2.data = s1.data.take s2.data.length ++ s2.data.drop s1.data.length := by
  rw [main_loop_any h w s1 s2 h1 h2 hd, loop_listing _ rfl rfl]
  exact backwards_listing _ _

/-- **C153** If the status is 0 each file can be made from the other one and what was printed. -/
theorem C153_rebuild {f g : Bytes} {args : List Bytes} (h : Invocation true false [f, g] args) (w : World) (s1 s2 : Stream)
    (h1 : Delivers w f s1) (h2 : Delivers w g s2) (hd : ¬ (f = b!"-" ∧ g = b!"-")) (h0 : (main w args).exit = 0) :
    forwards (main w args).stdout s1.data = s2.data ∧ backwards (main w args).stdout s2.data = s1.data := by
  rw [C153_forwards h w s1 s2 h1 h2 hd, C153_backwards h w s1 s2 h1 h2 hd]
  rw [main_loop_any h w s1 s2 h1 h2 hd, loop_success] at h0
  obtain ⟨-, -, hl, -⟩ := h0
  rw [hl, List.take_length, ← hl, List.take_length, List.drop_length, hl, List.drop_length, List.append_nil, List.append_nil]
  exact ⟨rfl, rfl⟩

/-- **C153** Two files that `cmp -l` compares with a third with status 0 and the same output are the same. -/
theorem C153_same_listing {f g g' : Bytes} {args args' : List Bytes} (h : Invocation true false [f, g] args) (h' : Invocation true false [f, g'] args')
    (w : World) (s1 s2 s3 : Stream) (h1 : Delivers w f s1) (h2 : Delivers w g s2) (h3 : Delivers w g' s3) (hf : f ≠ b!"-")
    (h0 : (main w args).exit = 0) (h0' : (main w args').exit = 0) (he : (main w args).stdout = (main w args').stdout) : s2.data = s3.data := by
  rw [← (C153_rebuild h w s1 s2 h1 h2 (fun e => hf e.1) h0).1, ← (C153_rebuild h' w s1 s3 h1 h3 (fun e => hf e.1) h0').1, he]

/-- **C153** Without `-l` nothing of the kind holds: different files can give the same message. -/
theorem C153_message_not_enough : ∃ (w w' : World) (args : List Bytes), Invocation false false [b!"f", b!"g"] args ∧
    w.file b!"f" = w'.file b!"f" ∧ w.file b!"g" ≠ w'.file b!"g" ∧ main w args = main w' args :=
  ⟨{ file := fun n => if n = b!"f" then some ⟨b!"abc", none⟩ else some ⟨b!"axc", none⟩, stdin := ⟨[], none⟩, shared := (⟨[], none⟩, ⟨[], none⟩) },
    { file := fun n => if n = b!"f" then some ⟨b!"abc", none⟩ else some ⟨b!"ayc", none⟩, stdin := ⟨[], none⟩, shared := (⟨[], none⟩, ⟨[], none⟩) },
    [b!"f", b!"g"], .file _ (by decide) (by decide) (by decide) (.file _ (by decide) (by decide) (by decide) .nil), rfl, by decide, by decide⟩

/-- The listing of two three-byte files read again. -/
example : forwards b!"2 142 170\n3 143 0\n" b!"abc" = [97, 120, 0] := by decide +kernel

end Cmp
