import Verif.Locale.ParserLemmas

/-!
# The generated parser: soundness and termination

C57, C58.
-/

namespace Locale
open Go

theorem run_spec {handler : Bool} {toks : List Tok} {d0 : Def} (fuel : Nat) {c : Conf} (h : Good toks d0 c) :
    (c.measure < fuel → ∃ r, run handler fuel c = some r) ∧
    ∀ r, run handler fuel c = some r →
      (∃ d, r = .ok (0, d) ∧ ((∀ t ∈ toks, 0 < t.code) → LocaleDefinition toks d0 d)) ∨
      (∃ d, r = .ok (1, d) ∧ handler = true) ∨ r = .error .explicit := by
  induction fuel generalizing c with
  | zero => exact ⟨fun h => by omega, fun r hr => by simp [run] at hr⟩
  | succ fuel ih =>
    rcases step_spec (handler := handler) h with ⟨c', h1, h2, h3⟩ | ⟨d, h1, h2⟩ | ⟨d, h1, h2⟩ | h1
    · obtain ⟨i1, i2⟩ := ih h2
      simp only [run, h1]
      exact ⟨fun hm => i1 (by omega), i2⟩
    · simp only [run, h1]
      refine ⟨fun _ => ⟨_, rfl⟩, fun r hr => ?_⟩
      cases hr
      exact .inl ⟨d, rfl, h2⟩
    · simp only [run, h1]
      refine ⟨fun _ => ⟨_, rfl⟩, fun r hr => ?_⟩
      cases hr
      exact .inr (.inl ⟨d, rfl, h2⟩)
    · simp only [run, h1]
      refine ⟨fun _ => ⟨_, rfl⟩, fun r hr => ?_⟩
      cases hr
      exact .inr (.inr rfl)

/-- **C57.** If the parser accepts a token stream, the stream is a locale definition according to the grammar, and
what the parser has stored is what the actions of such a derivation store. (Token codes are positive, as those of
the lexer are; a code of 0 or below means the end to the parser.) -/
theorem C57_sound (handler : Bool) (toks : List Tok) (hp : ∀ t ∈ toks, 0 < t.code) (d d' : Def) (fuel : Nat)
    (h : run handler fuel (start toks d) = some (.ok (0, d'))) : LocaleDefinition toks d d' := by
  rcases (run_spec (handler := handler) fuel (start_good toks d)).2 _ h with ⟨d1, h1, h2⟩ | ⟨d1, h1, h2⟩ | h1
  · cases h1; exact h2 hp
  · cases h1
  · cases h1

theorem rank_zero : rankP 0 = 0 := by decide +kernel

theorem start_measure (toks : List Tok) (d : Def) : (start toks d).measure = 90 * toks.length + 20 := by
  have : (start toks d).topState = 0 := rfl
  simp only [Conf.measure, this, rank_zero]
  simp [start, Conf.look, w]
  omega

/-- **C58.** The parser stops on every token stream (with arbitrary codes) after a number of rounds linear in its
length. It returns 0, or it panics with a message of its own (a syntax error, or a number that is none), or, if the
lexer has an error handler, it returns 1. It never indexes out of range. -/
theorem C58_stops (handler : Bool) (toks : List Tok) (d : Def) :
    ∃ r, run handler (90 * toks.length + 21) (start toks d) = some r ∧
      ((∃ d', r = .ok (0, d')) ∨ (∃ d', r = .ok (1, d') ∧ handler = true) ∨ r = .error .explicit) := by
  obtain ⟨h1, h2⟩ := run_spec (handler := handler) (90 * toks.length + 21) (start_good toks d)
  obtain ⟨r, hr⟩ := h1 (by rw [start_measure]; omega)
  refine ⟨r, hr, ?_⟩
  rcases h2 r hr with ⟨d1, e1, _⟩ | h | h
  · exact .inl ⟨d1, e1⟩
  · exact .inr (.inl h)
  · exact .inr (.inr h)

theorem run_mono {handler : Bool} {fuel : Nat} {c : Conf} {r} (h : run handler fuel c = some r) (k : Nat) :
    run handler (fuel + k) c = some r := by
  induction fuel generalizing c with
  | zero => simp [run] at h
  | succ fuel ih =>
    rw [show fuel + 1 + k = fuel + k + 1 by omega]
    simp only [run] at h ⊢
    split at h <;> simp_all

/-- The number of rounds allowed does not matter once it is enough. -/
theorem run_unique {handler : Bool} {f g : Nat} {c : Conf} {r s} (h : run handler f c = some r)
    (h' : run handler g c = some s) : r = s := by
  rcases Nat.le_total f g with hl | hl
  · have := run_mono h (g - f)
    rw [show f + (g - f) = g by omega, h'] at this
    exact (Option.some.inj this).symm
  · have := run_mono h' (f - g)
    rw [show g + (f - g) = f by omega, h] at this
    exact Option.some.inj this

/-- `yyParse`: the result of the parser. -/
def parse (handler : Bool) (toks : List Tok) (d : Def) : M (Int × Def) :=
  (run handler (90 * toks.length + 21) (start toks d)).getD (.error .index)

theorem parse_eq {handler : Bool} {toks : List Tok} {d : Def} {fuel : Nat} {r}
    (h : run handler fuel (start toks d) = some r) : parse handler toks d = r := by
  obtain ⟨r', hr, _⟩ := C58_stops handler toks d
  rw [parse, hr, Option.getD_some]
  exact run_unique hr h

/-- A token with its text. -/
abbrev tk (x : Tm) (v : Bytes) : Tok := ⟨x.code, v⟩

/-- A stream that is accepted: a monetary section with a currency symbol and a grouping. -/
def sampleToks : List Tok :=
  [tk .LC_MONETARY_STR b!"LC_MONETARY", tk .EOL b!"\n",
   tk .INT_CURR_SYMBOL_STR b!"int_curr_symbol", tk .DQUOTE b!"\"", tk .CHAR b!"U", tk .CHAR b!"S", tk .CHAR b!"D",
   tk .DQUOTE b!"\"", tk .EOL b!"\n",
   tk .MON_GROUPING_STR b!"mon_grouping", tk .NUMBER b!"3", tk .SEMI b!";", tk .NUMBER b!"-1", tk .EOL b!"\n",
   tk .END_STR b!"END", tk .LC_MONETARY_STR b!"LC_MONETARY", tk .EOL b!"\n"]

set_option maxRecDepth 10000 in
/-- The hypotheses of `C57_sound` are met by it, and by no prefix of it. -/
example : parse false sampleToks {} = .ok (0, { intCurrSymbol := b!"USD", monGrouping := [3, -1] }) ∧
    parse false (sampleToks.take 16) {} = .error .explicit ∧
    parse true (sampleToks.take 16) {} = .ok (1, { intCurrSymbol := b!"USD", monGrouping := [3, -1] }) := by
  decide +kernel

end Locale
