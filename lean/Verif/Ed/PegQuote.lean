import Verif.Ed.PegMaxProps
import Verif.Go.QuoteProps

/-! # C99: the quoted part of a syntax error -/

namespace Ed
open Go

theorem ofRunes_drop_take (rs : List Nat) (b e : Nat) (h : b ≤ e) :
    ofRunes rs = ofRunes (rs.take b) ++ ofRunes ((rs.drop b).take (e - b)) ++ ofRunes (rs.drop e) := by
  have h1 : rs = rs.take b ++ ((rs.drop b).take (e - b) ++ rs.drop e) := by
    have : rs.drop e = (rs.drop b).drop (e - b) := by rw [List.drop_drop]; congr 1; omega
    rw [this, List.take_append_drop, List.take_append_drop]
  conv => lhs; rw [h1]
  simp [ofRunes]

/-- **C99** The part of the text a syntax error points at can be read back from the message: its last line is the part,
quoted, without control characters. For UTF-8 it is a piece of what was typed, at the place given. -/
theorem C99_quoted (p : Nat → Bool) (buffer : Bytes) (h : parse buffer = none) :
    ∃ name b e before q, parseM buffer = .error ⟨name, b, e⟩ ∧
      messageOf (quote p) buffer = b!"\nparse error near " ++ name ++ before ++ b!"):\n" ++ q ++ [nl] ∧
      (∀ c ∈ q, 32 ≤ c.toNat ∧ c.toNat ≠ 127) ∧
      unquote q = ofRunes (((runes buffer).drop b).take (e - b)) ∧
      (∀ rs, (∀ r ∈ rs, ValidRune r) → buffer = ofRunes rs →
        buffer = ofRunes (rs.take b) ++ unquote q ++ ofRunes (rs.drop e)) := by
  obtain ⟨name, b, e, h1, h2, h3, -, h4, -⟩ := C99_message (quote p) buffer h
  have hd : ((runes buffer ++ [endSymbol]).drop b).take (e - b) = ((runes buffer).drop b).take (e - b) := by
    rw [List.drop_append_of_le_length (by omega), List.take_append_of_le_length (by rw [List.length_drop]; omega)]
  have hq : unquote (quote p (ofRunes (((runes buffer).drop b).take (e - b)))) = ofRunes (((runes buffer).drop b).take (e - b)) :=
    unquote_quote p _
  refine ⟨name, b, e, b!" (line " ++ natToDec (lineOf (runes buffer ++ [endSymbol]) b) ++ b!" symbol " ++
    natToDec (columnOf (runes buffer ++ [endSymbol]) b) ++ b!" - line " ++ natToDec (lineOf (runes buffer ++ [endSymbol]) e) ++
    b!" symbol " ++ natToDec (columnOf (runes buffer ++ [endSymbol]) e),
    quote p (ofRunes (((runes buffer).drop b).take (e - b))), h1, ?_, quote_visible p _, hq, ?_⟩
  · rw [h4]
    simp only [Message, hd, List.append_assoc]
  · intro rs hv hb
    rw [hq, hb, runes_ofRunes rs hv]
    exact ofRunes_drop_take rs b e h2

example : messageOf (quote fun _ => true) b!"p\nx\n" = b!"\nparse error near newLine (line 2 symbol 0 - line 2 symbol 1):\n\"\\n\"\n" := by
  decide +kernel

end Ed
