import Verif.Regex.Match
import Verif.Go.StrconvProps
import Verif.Go.Utf8Props

/-! # The parser accepts exactly the notation of the specification -/

namespace Regex
open Go

/-! ## Reading up to a stop character -/

theorem readLoop_cons (stop j c : Nat) (rest : List Nat) (h : c ≠ 92) :
    readLoop stop j (c :: rest) = if c = stop then some j else readLoop stop (j + 1) rest := by
  rw [readLoop.eq_def]
  simp only [if_neg h]

theorem readLoop_escape (stop j x : Nat) (rest : List Nat) :
    readLoop stop j (92 :: x :: rest) = readLoop stop (j + 2) rest := by
  rw [readLoop.eq_def]
  simp only [if_true]

theorem readLoop_inside {cs : List Nat} (h : Inside cs) (rest : List Nat) : ∀ j,
    readLoop 93 j (cs ++ 93 :: rest) = some (j + cs.length) := by
  induction h with
  | nil => intro j; simp [readLoop_cons]
  | @char c t h1 h2 _ ih =>
    intro j
    simp only [List.cons_append, readLoop_cons _ _ _ _ h1, if_neg h2, ih, List.length_cons]
    congr 1; omega
  | @escape c t _ ih =>
    intro j
    simp only [List.cons_append, readLoop_escape, ih, List.length_cons]
    congr 1; omega

theorem readLoop_plain (stop : Nat) (hs : stop ≠ 92) (cs : List Nat) (h : ∀ c ∈ cs, c ≠ 92 ∧ c ≠ stop) (rest : List Nat) :
    ∀ j, readLoop stop j (cs ++ stop :: rest) = some (j + cs.length) := by
  induction cs with
  | nil => intro j; simp [readLoop_cons, hs]
  | cons c cs ih =>
    intro j
    obtain ⟨h1, h2⟩ := h c (by simp)
    simp only [List.cons_append, readLoop_cons _ _ _ _ h1, if_neg h2, ih (fun x hx => h x (by simp [hx])), List.length_cons]
    congr 1; omega

theorem readLoop_inv (stop : Nat) (rs : List Nat) (j k : Nat) (h : readLoop stop j rs = some k) :
    ∃ cs rest, rs = cs ++ stop :: rest ∧ k = j + cs.length ∧ (stop = 93 → Inside cs) := by
  match rs with
  | [] => simp [readLoop] at h
  | c :: rest =>
    by_cases h1 : c = 92
    · subst h1
      match rest with
      | [] => simp [readLoop] at h
      | x :: rest =>
        rw [readLoop_escape] at h
        obtain ⟨cs, r, e, hk, hi⟩ := readLoop_inv stop rest (j + 2) k h
        refine ⟨92 :: x :: cs, r, by rw [e]; rfl, by simp; omega, fun hs => .escape (hi hs)⟩
    · by_cases h2 : c = stop
      · subst h2
        simp only [readLoop_cons _ _ _ _ h1, if_true, Option.some.injEq] at h
        exact ⟨[], rest, rfl, by simp [h], fun _ => .nil⟩
      · simp only [readLoop_cons _ _ _ _ h1, if_neg h2] at h
        obtain ⟨cs, r, e, hk, hi⟩ := readLoop_inv stop rest (j + 1) k h
        refine ⟨c :: cs, r, by rw [e]; rfl, by simp; omega, fun hs => .char h1 (hs ▸ h2) (hi hs)⟩

theorem readUntil_eq (stop : Nat) (hs : stop ≠ 92) (c : Nat) (rest : List Nat) :
    readUntil (c :: rest) stop = .ok (readLoop stop 0 (c :: rest)) := by
  simp only [readUntil]
  split
  · next h => subst h; simp [readLoop_cons, hs]
  · rfl

theorem readUntil_some (stop : Nat) (hs : stop ≠ 92) (cs rest : List Nat)
    (h : readLoop stop 0 (cs ++ stop :: rest) = some (0 + cs.length)) :
    readUntil (cs ++ stop :: rest) stop = .ok (some cs.length) := by
  obtain ⟨c, t, e⟩ : ∃ c t, cs ++ stop :: rest = c :: t := by
    cases cs with
    | nil => exact ⟨stop, rest, rfl⟩
    | cons c cs => exact ⟨c, cs ++ stop :: rest, rfl⟩
  rw [e] at h ⊢
  rw [readUntil_eq stop hs, h, Nat.zero_add]

theorem readUntil_inv (stop : Nat) (hs : stop ≠ 92) (rs : List Nat) (n : Nat) (h : readUntil rs stop = .ok (some n)) :
    ∃ cs rest, rs = cs ++ stop :: rest ∧ n = cs.length ∧ (stop = 93 → Inside cs) := by
  cases rs with
  | nil => simp [readUntil] at h
  | cons c rest =>
    rw [readUntil_eq stop hs] at h
    simp only [Except.ok.injEq] at h
    obtain ⟨cs, r, e, hk, hi⟩ := readLoop_inv stop _ 0 n h
    exact ⟨cs, r, e, by omega, hi⟩

/-! ## Numbers -/

theorem digits_runes (s : List Nat) (h : ∀ r ∈ s, isDigitRune r = true) :
    ∃ ds : Bytes, (∀ c ∈ ds, isDigit c = true) ∧ s = ds.map UInt8.toNat ∧ ofRunes s = ds := by
  induction s with
  | nil => exact ⟨[], by simp, rfl, rfl⟩
  | cons r s ih =>
    obtain ⟨ds, h1, h2, h3⟩ := ih (fun x hx => h x (by simp [hx]))
    have hr := h r (by simp)
    simp only [isDigitRune, Bool.and_eq_true, decide_eq_true_eq] at hr
    refine ⟨UInt8.ofNat r :: ds, ?_, ?_, ?_⟩
    · intro c hc
      rcases List.mem_cons.1 hc with rfl | hc
      · rw [isDigit_iff, byte_toNat r (by omega)]; exact hr
      · exact h1 c hc
    · rw [List.map_cons, byte_toNat r (by omega), h2]
    · simp only [ofRunes, List.flatMap_cons]
      have : encodeRune r = [UInt8.ofNat r] := by simp [encodeRune, show r < 128 by omega]
      rw [this]
      simpa [ofRunes] using h3

theorem digits_of_bytes (ds : Bytes) (h : ∀ c ∈ ds, isDigit c = true) :
    (∀ r ∈ ds.map UInt8.toNat, isDigitRune r = true) ∧ ofRunes (ds.map UInt8.toNat) = ds := by
  induction ds with
  | nil => simp [ofRunes]
  | cons c ds ih =>
    obtain ⟨h1, h2⟩ := ih (fun x hx => h x (by simp [hx]))
    have hc := (isDigit_iff c).1 (h c (by simp))
    refine ⟨?_, ?_⟩
    · intro r hr
      rcases List.mem_cons.1 hr with rfl | hr
      · simp [isDigitRune, hc]
      · exact h1 r hr
    · simp only [ofRunes, List.map_cons, List.flatMap_cons] at h2 ⊢
      rw [h2]
      simp [encodeRune, show c.toNat < 128 by omega]

theorem mustBeInt_iff (s : List Nat) (hne : s ≠ []) (h : ∀ r ∈ s, isDigitRune r = true) (n : Nat) :
    mustBeInt s = .ok n ↔ NumText s n := by
  obtain ⟨ds, h1, h2, h3⟩ := digits_runes s h
  have hds : ds ≠ [] := by rintro rfl; simp at h2; exact hne h2
  have ha := atoi_digits ds hds h1
  constructor
  · intro hm
    by_cases hlt : digitsVal ds < 2 ^ 63
    · simp only [mustBeInt, h3, atoi?, ha, if_pos hlt, Except.ok.injEq, Int.toNat_natCast] at hm
      rw [h2, ← hm]
      exact .mk ds hds h1 hlt
    · simp only [mustBeInt, h3, atoi?, ha, if_neg hlt] at hm
      cases hm
  · intro hn
    cases hn with
    | mk ds' k1 k2 k3 =>
      have e : ds' = ds := by rw [← h3]; exact (digits_of_bytes ds' k2).2.symm
      subst e
      simp only [mustBeInt, h3, atoi?, ha, if_pos k3]
      simp

/-! ## Counts -/

theorem takeWhile_digits (d rest : List Nat) (h : ∀ r ∈ d, isDigitRune r = true) (hr : ∀ r, rest.head? = some r → isDigitRune r = false) :
    (d ++ rest).takeWhile isDigitRune = d ∧ (d ++ rest).dropWhile isDigitRune = rest := by
  induction d with
  | nil =>
    cases rest with
    | nil => simp
    | cons r rest => simp [hr r rfl]
  | cons x d ih =>
    obtain ⟨h1, h2⟩ := ih (fun y hy => h y (by simp [hy]))
    simp [h x (by simp), h1, h2]

theorem numText_digits {t : List Nat} {n : Nat} (h : NumText t n) :
    t ≠ [] ∧ (∀ r ∈ t, isDigitRune r = true) ∧ mustBeInt t = .ok n := by
  have h' := h
  cases h with
  | mk ds h1 h2 h3 =>
    have hd := (digits_of_bytes ds h2).1
    have hne : ds.map UInt8.toNat ≠ [] := by simpa using h1
    exact ⟨hne, hd, (mustBeInt_iff _ hne hd _).2 h'⟩

theorem countRe_one (t : List Nat) (hne : t ≠ []) (h : ∀ r ∈ t, isDigitRune r = true) : countRe t = some (t, false, []) := by
  obtain ⟨h1, h2⟩ := takeWhile_digits t [] h (by simp)
  rw [List.append_nil] at h1 h2
  simp [countRe, h1, h2, hne]

theorem countRe_two (t u : List Nat) (hne : t ≠ []) (h : ∀ r ∈ t, isDigitRune r = true) (hu : ∀ r ∈ u, isDigitRune r = true) :
    countRe (t ++ 44 :: u) = some (t, true, u) := by
  obtain ⟨h1, h2⟩ := takeWhile_digits t (44 :: u) h (by simp [isDigitRune])
  have : u.all isDigitRune = true := by simpa using hu
  simp [countRe, h1, h2, hne, this]

theorem all_takeWhile (p : Nat → Bool) (l : List Nat) : ∀ x ∈ l.takeWhile p, p x = true := by
  induction l with
  | nil => simp
  | cons a l ih =>
    by_cases h : p a = true
    · simp only [List.takeWhile_cons, h, if_true]
      intro x hx
      rcases List.mem_cons.1 hx with rfl | hx
      · exact h
      · exact ih x hx
    · simp [List.takeWhile_cons, h]

theorem countRe_inv (s d d2 : List Nat) (comma : Bool) (h : countRe s = some (d, comma, d2)) :
    d ≠ [] ∧ (∀ r ∈ d, isDigitRune r = true) ∧ (∀ r ∈ d2, isDigitRune r = true) ∧
      s = d ++ (if comma then 44 :: d2 else []) ∧ (comma = false → d2 = []) := by
  unfold countRe at h
  split at h
  · cases h
  · next hne =>
    have hs : s = s.takeWhile isDigitRune ++ s.dropWhile isDigitRune := (List.takeWhile_append_dropWhile).symm
    have hd := all_takeWhile isDigitRune s
    split at h
    · next heq =>
      simp only [Option.some.injEq, Prod.mk.injEq] at h
      obtain ⟨rfl, rfl, rfl⟩ := h
      rw [heq] at hs
      exact ⟨hne, hd, by simp, by simpa using hs, fun _ => rfl⟩
    · next c r heq =>
      split at h
      · next hc =>
        simp only [Option.some.injEq, Prod.mk.injEq] at h
        obtain ⟨rfl, rfl, rfl⟩ := h
        obtain ⟨rfl, hall⟩ := hc
        rw [heq] at hs
        exact ⟨hne, hd, by simpa using hall, by simpa using hs, by simp⟩
      · cases h

theorem braces_of (body rest : List Nat) (h : ∀ c ∈ body, c ≠ 92 ∧ c ≠ 125) :
    readUntil (body ++ 125 :: rest) 125 = .ok (some body.length) :=
  readUntil_some 125 (by decide) body rest (readLoop_plain 125 (by decide) body h rest 0)

theorem digit_plain {r : Nat} (h : isDigitRune r = true) : r ≠ 92 ∧ r ≠ 125 := by
  simp only [isDigitRune, Bool.and_eq_true, decide_eq_true_eq] at h
  omega

theorem parseCount_of {b : List Nat} {r : Rep} (h : RepText b r) (rest : List Nat) (hn : b = [] → NoRepAhead rest) :
    parseCount (b ++ rest) = .ok (r.toCount, b.length) := by
  cases h with
  | once =>
    obtain ⟨h1, h2⟩ := hn rfl
    cases rest with
    | nil => rfl
    | cons c rest =>
      simp only [List.head?_cons, ne_eq, Option.some.injEq] at h1 h2
      simp [parseCount, h1, h2, Rep.toCount]
  | star => simp [parseCount, Rep.toCount]
  | @exactly t n h =>
    obtain ⟨h1, h2, h3⟩ := numText_digits h
    have e : 123 :: t ++ [125] ++ rest = 123 :: (t ++ 125 :: rest) := by simp
    rw [e]
    simp only [parseCount, if_true, parseBraces, braces_of t rest (fun c hc => digit_plain (h2 c hc)), List.take_left,
      countRe_one t h1 h2, countOf, h3, Rep.toCount]
    simp
    omega
  | @atLeast t n h =>
    obtain ⟨h1, h2, h3⟩ := numText_digits h
    have e : 123 :: t ++ [44, 125] ++ rest = 123 :: ((t ++ [44]) ++ 125 :: rest) := by simp
    have hb : ∀ c ∈ t ++ [44], c ≠ 92 ∧ c ≠ 125 := by
      intro c hc
      rcases List.mem_append.1 hc with hc | hc
      · exact digit_plain (h2 c hc)
      · simp at hc; subst hc; decide
    rw [e]
    simp only [parseCount, if_true, parseBraces, braces_of (t ++ [44]) rest hb, List.take_left,
      countRe_two t [] h1 h2 (by simp), countOf, h3, Rep.toCount]
    simp
    omega
  | @between t m u n h k =>
    obtain ⟨h1, h2, h3⟩ := numText_digits h
    obtain ⟨k1, k2, k3⟩ := numText_digits k
    have e : 123 :: t ++ 44 :: u ++ [125] ++ rest = 123 :: ((t ++ 44 :: u) ++ 125 :: rest) := by simp
    have hb : ∀ c ∈ t ++ 44 :: u, c ≠ 92 ∧ c ≠ 125 := by
      intro c hc
      rcases List.mem_append.1 hc with hc | hc
      · exact digit_plain (h2 c hc)
      · rcases List.mem_cons.1 hc with rfl | hc
        · decide
        · exact digit_plain (k2 c hc)
    rw [e]
    simp only [parseCount, if_true, parseBraces, braces_of (t ++ 44 :: u) rest hb, List.take_left,
      countRe_two t u h1 h2 k2, countOf, h3, k3, Rep.toCount, if_neg k1]
    simp
    omega

theorem parseCount_inv (t : List Nat) (c : Count) (len : Nat) (h : parseCount t = .ok (c, len)) :
    ∃ b r rest, t = b ++ rest ∧ RepText b r ∧ c = r.toCount ∧ len = b.length ∧ (b = [] → NoRepAhead rest) := by
  cases t with
  | nil =>
    simp only [parseCount, Except.ok.injEq, Prod.mk.injEq] at h
    obtain ⟨rfl, rfl⟩ := h
    exact ⟨[], .once, [], rfl, .once, rfl, rfl, fun _ => by simp [NoRepAhead]⟩
  | cons x rest =>
    simp only [parseCount] at h
    by_cases h1 : x = 123
    · rw [if_pos h1] at h
      subst h1
      unfold parseBraces at h
      cases hr : readUntil rest 125 with
      | error e => simp [hr] at h
      | ok o =>
        cases o with
        | none => simp [hr] at h
        | some n =>
          obtain ⟨cs, r, e, hn, _⟩ := readUntil_inv 125 (by decide) rest n hr
          simp only [hr] at h
          subst e hn
          rw [List.take_left] at h
          cases hc : countRe cs with
          | none => simp [hc] at h
          | some q =>
            obtain ⟨d, comma, d2⟩ := q
            simp only [hc] at h
            obtain ⟨k1, k2, k3, k4, k5⟩ := countRe_inv cs d d2 comma hc
            unfold countOf at h
            cases hm : mustBeInt d with
            | error e => simp [hm] at h
            | ok m =>
              simp only [hm] at h
              have hnum := (mustBeInt_iff d k1 k2 m).1 hm
              cases comma with
              | false =>
                simp only [if_true, Except.ok.injEq, Prod.mk.injEq] at h
                obtain ⟨rfl, rfl⟩ := h
                simp only [Bool.false_eq_true, if_false, List.append_nil] at k4
                subst k4
                exact ⟨123 :: cs ++ [125], .exactly m, r, by simp, .exactly hnum, rfl, by simp; omega, by simp⟩
              | true =>
                simp only [if_true] at k4
                by_cases hd2 : d2 = []
                · simp only [hd2, Bool.true_eq_false, if_false, if_true, Except.ok.injEq, Prod.mk.injEq] at h
                  obtain ⟨rfl, rfl⟩ := h
                  subst hd2 k4
                  exact ⟨123 :: d ++ [44, 125], .atLeast m, r, by simp, .atLeast hnum, rfl, by simp; omega, by simp⟩
                · simp only [hd2, Bool.true_eq_false, if_false] at h
                  cases hm2 : mustBeInt d2 with
                  | error e => simp [hm2] at h
                  | ok n =>
                    simp only [hm2, Except.ok.injEq, Prod.mk.injEq] at h
                    have hnum2 := (mustBeInt_iff d2 hd2 k3 n).1 hm2
                    obtain ⟨rfl, rfl⟩ := h
                    subst k4
                    exact ⟨123 :: d ++ 44 :: d2 ++ [125], .between m n, r, by simp, .between hnum hnum2, rfl,
                      by simp; omega, by simp⟩
    · rw [if_neg h1] at h
      by_cases h2 : x = 42
      · rw [if_pos h2] at h
        simp only [Except.ok.injEq, Prod.mk.injEq] at h
        obtain ⟨rfl, rfl⟩ := h
        subst h2
        exact ⟨[42], .star, rest, rfl, .star, rfl, rfl, by simp⟩
      · rw [if_neg h2] at h
        simp only [Except.ok.injEq, Prod.mk.injEq] at h
        obtain ⟨rfl, rfl⟩ := h
        exact ⟨[], .once, x :: rest, rfl, .once, rfl, rfl, fun _ => by simp [NoRepAhead, h1, h2]⟩

/-! ## Sequences -/

theorem parseAtom_of {a : List Nat} {s : Sym} (h : SymText a s) (t : List Nat) :
    ∃ r u, a ++ t = r :: (u ++ t) ∧ r ≠ 40 ∧ r ≠ 41 ∧ parseAtom r (u ++ t) = .ok (s.toAtom, u.length) := by
  cases h with
  | @char c hc =>
    simp only [List.mem_cons, List.not_mem_nil, or_false, not_or] at hc
    exact ⟨c, [], rfl, hc.2.2.1, hc.2.2.2, by simp [parseAtom, hc, Sym.toAtom]⟩
  | any => exact ⟨46, [], rfl, by decide, by decide, by simp [parseAtom, Sym.toAtom]⟩
  | @set cs h =>
    refine ⟨91, cs ++ [93], by simp, by decide, by decide, ?_⟩
    have e : cs ++ [93] ++ t = cs ++ 93 :: t := by simp
    rw [e]
    simp only [parseAtom, if_true, readUntil_some 93 (by decide) cs t (readLoop_inside h t 0), List.take_left]
    simp [Sym.toAtom]

theorem parseAtom_inv (r : Nat) (rest : List Nat) (hr : ¬ (r = 40 ∨ r = 41)) (a : Atom) (used : Nat)
    (h : parseAtom r rest = .ok (a, used)) :
    ∃ u s t, rest = u ++ t ∧ used = u.length ∧ a = s.toAtom ∧ SymText (r :: u) s := by
  unfold parseAtom at h
  by_cases h1 : r = 91
  · rw [if_pos h1] at h
    subst h1
    cases hu : readUntil rest 93 with
    | error e => simp [hu] at h
    | ok o =>
      cases o with
      | none => simp [hu] at h
      | some n =>
        obtain ⟨cs, t, e, hn, hi⟩ := readUntil_inv 93 (by decide) rest n hu
        subst e hn
        simp only [hu, List.take_left, Except.ok.injEq, Prod.mk.injEq] at h
        obtain ⟨rfl, rfl⟩ := h
        exact ⟨cs ++ [93], .set cs, t, by simp, by simp, rfl, by simpa using SymText.set (hi rfl)⟩
  · rw [if_neg h1] at h
    by_cases h2 : r = 46
    · rw [if_pos h2] at h
      simp only [Except.ok.injEq, Prod.mk.injEq] at h
      obtain ⟨rfl, rfl⟩ := h
      subst h2
      exact ⟨[], .any, rest, rfl, rfl, rfl, .any⟩
    · rw [if_neg h2] at h
      simp only [Except.ok.injEq, Prod.mk.injEq] at h
      obtain ⟨rfl, rfl⟩ := h
      refine ⟨[], .char r, rest, rfl, rfl, rfl, .char ?_⟩
      simp [h1, h2]
      omega

theorem parseElems_of {t : List Nat} {es : List (Sym × Rep)} (h : SeqText t es) :
    parseElems t = .ok (es.map toElem) := by
  induction h with
  | nil => rw [parseElems]; rfl
  | @paren c t es hc _ ih => rw [parseElems, if_pos hc, ih]
  | @cons a s b r t es ha hb hn _ ih =>
    obtain ⟨x, u, e, h1, h2, h3⟩ := parseAtom_of ha (b ++ t)
    rw [List.append_assoc, e, parseElems, if_neg (by simp [h1, h2]), h3]
    simp only [List.drop_left, parseCount_of hb t hn, ih]
    rfl

theorem parseElems_inv (t : List Nat) (es : List Elem) (h : parseElems t = .ok es) :
    ∃ sp, es = sp.map toElem ∧ SeqText t sp := by
  match t with
  | [] =>
    rw [parseElems] at h
    cases h
    exact ⟨[], rfl, .nil⟩
  | r :: rest =>
    rw [parseElems] at h
    by_cases hr : r = 40 ∨ r = 41
    · rw [if_pos hr] at h
      obtain ⟨sp, e, hs⟩ := parseElems_inv rest es h
      exact ⟨sp, e, .paren hr hs⟩
    · rw [if_neg hr] at h
      cases ha : parseAtom r rest with
      | error e => simp [ha] at h
      | ok au =>
        obtain ⟨a, used⟩ := au
        obtain ⟨u, s, t, e, hu, hs, hst⟩ := parseAtom_inv r rest hr a used ha
        subst e hu hs
        simp only [ha, List.drop_left] at h
        cases hc : parseCount t with
        | error e => simp [hc] at h
        | ok cl =>
          obtain ⟨c, len⟩ := cl
          obtain ⟨b, rp, t', e, hb, hrp, hlen, hn⟩ := parseCount_inv t c len hc
          subst e hlen hrp
          simp only [hc, List.drop_left] at h
          cases hp : parseElems t' with
          | error e => simp [hp] at h
          | ok es' =>
            simp only [hp, Except.ok.injEq] at h
            obtain ⟨sp, e, hsq⟩ := parseElems_inv t' es' hp
            refine ⟨(s, rp) :: sp, ?_, ?_⟩
            · rw [← h, e]; rfl
            · have := SeqText.cons hst hb hn hsq
              simpa using this
termination_by t.length
decreasing_by
  · simp
  · subst_vars; simp; omega

/-! ## Patterns -/

theorem getLast_split (t : List Nat) (h : t.getLast? = some 36) : t = t.dropLast ++ [36] := by
  have hne : t ≠ [] := by rintro rfl; simp at h
  have := List.dropLast_concat_getLast hne
  rw [List.getLast?_eq_some_getLast hne] at h
  simp only [Option.some.injEq] at h
  rw [h] at this
  exact this.symm

theorem parseRight_iff (left : Bool) (t : List Nat) (b : Bre) :
    parseRight left t = .ok b ↔
      ∃ es, b = ⟨left, t.getLast? = some 36, es.map toElem⟩ ∧
        SeqText (if t.getLast? = some 36 then t.dropLast else t) es := by
  unfold parseRight
  by_cases hne : t = []
  · subst hne
    simp only [if_true, Except.ok.injEq]
    constructor
    · rintro rfl; exact ⟨[], by simp, .nil⟩
    · rintro ⟨es, rfl, hs⟩
      have h1 := parseElems_of hs
      have h2 := parseElems_of SeqText.nil
      simp only [List.getLast?_nil, reduceCtorEq, if_false] at h1
      rw [h1] at h2
      simp only [Except.ok.injEq] at h2
      simp [h2]
  · simp only [if_neg hne]
    constructor
    · intro h
      cases hp : parseElems (if t.getLast? = some 36 then t.dropLast else t) with
      | error e => simp [hp] at h
      | ok es =>
        obtain ⟨sp, e, hs⟩ := parseElems_inv _ _ hp
        simp only [hp, Except.ok.injEq] at h
        exact ⟨sp, by rw [← h, e], hs⟩
    · rintro ⟨es, rfl, hs⟩
      rw [parseElems_of hs]

/-- The parser accepts exactly the patterns of the specification, and reads them as specified. -/
theorem parseBre_iff (s : Bytes) (b : Bre) :
    parseBre s = .ok b ↔
      ∃ left es right, PatText (runes s) left es right ∧ b = ⟨left, right, es.map toElem⟩ := by
  unfold parseBre
  generalize runes s = t
  have key : ∀ (left : Bool) (t : List Nat) (b : Bre) , parseRight left t = .ok b ↔
      ∃ es right, b = ⟨left, right, es.map toElem⟩ ∧
        ((right = false ∧ t.getLast? ≠ some 36 ∧ SeqText t es) ∨ (right = true ∧ ∃ u, t = u ++ [36] ∧ SeqText u es)) := by
    intro left t b
    rw [parseRight_iff]
    by_cases hl : t.getLast? = some 36
    · simp only [hl, if_true, decide_true]
      constructor
      · rintro ⟨es, e, hs⟩
        exact ⟨es, true, e, .inr ⟨rfl, t.dropLast, getLast_split t hl, hs⟩⟩
      · rintro ⟨es, right, e, ⟨rfl, h, _⟩ | ⟨rfl, u, rfl, hs⟩⟩
        · exact absurd rfl h
        · exact ⟨es, e, by simpa using hs⟩
    · simp only [hl, if_false, decide_false]
      constructor
      · rintro ⟨es, e, hs⟩
        exact ⟨es, false, e, .inl ⟨rfl, hl, hs⟩⟩
      · rintro ⟨es, right, e, ⟨rfl, h, hs⟩ | ⟨rfl, u, rfl, hs⟩⟩
        · exact ⟨es, e, hs⟩
        · simp at hl
  cases t with
  | nil =>
    simp only [Except.ok.injEq]
    constructor
    · rintro rfl
      exact ⟨false, [], false, .plain (by simp) (by simp) .nil, rfl⟩
    · rintro ⟨left, es, right, hp, rfl⟩
      have h2 := parseElems_of SeqText.nil
      generalize ht : ([] : List Nat) = t at hp
      cases hp with
      | plain _ _ hs =>
        subst ht
        rw [parseElems_of hs] at h2
        simp only [Except.ok.injEq] at h2
        simp [h2]
      | left => simp at ht
      | right => simp at ht
      | both => simp at ht
  | cons r rest =>
    by_cases hr : r = 94
    · subst hr
      simp only [if_true, key]
      constructor
      · rintro ⟨es, right, e, ⟨rfl, hl, hs⟩ | ⟨rfl, u, rfl, hs⟩⟩
        · exact ⟨true, es, false, .left hl hs, e⟩
        · exact ⟨true, es, true, .both hs, e⟩
      · rintro ⟨left, es, right, hp, e⟩
        generalize ht : 94 :: rest = t at hp
        cases hp with
        | plain hh _ _ => subst ht; simp at hh
        | left hl hs =>
          simp only [List.cons.injEq, true_and] at ht
          subst ht
          exact ⟨es, false, e, .inl ⟨rfl, hl, hs⟩⟩
        | @right t _ hh hs =>
          cases t with
          | nil => simp at ht
          | cons x t => simp at ht; simp [← ht.1] at hh
        | @both t _ hs =>
          simp only [List.cons_append, List.cons.injEq, true_and] at ht
          exact ⟨es, true, e, .inr ⟨rfl, t, ht, hs⟩⟩
    · simp only [if_neg hr, key]
      constructor
      · rintro ⟨es, right, e, ⟨rfl, hl, hs⟩ | ⟨rfl, u, hu, hs⟩⟩
        · exact ⟨false, es, false, .plain (by simpa using hr) hl hs, e⟩
        · refine ⟨false, es, true, ?_, e⟩
          rw [hu]
          refine .right ?_ hs
          cases u with
          | nil => simp
          | cons x u => simp at hu; simp [← hu.1, hr]
      · rintro ⟨left, es, right, hp, e⟩
        generalize ht : r :: rest = t at hp
        cases hp with
        | plain hh hl hs =>
          subst ht
          exact ⟨es, false, e, .inl ⟨rfl, hl, hs⟩⟩
        | left hl hs => simp at ht; exact absurd ht.1 hr
        | @right t _ hh hs =>
          exact ⟨es, true, e, .inr ⟨rfl, t, rfl, hs⟩⟩
        | @both t _ hs => simp at ht; exact absurd ht.1 hr

end Regex
