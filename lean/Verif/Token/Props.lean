import Verif.Prelude
import Verif.Token.Model
import Verif.InputStream.Props

/-!
# Tokens: property C61
-/

namespace Antlr.TokenFactoryProps
open Antlr

theorem create_of_text (source : Option (InputStream Str)) (ttype : Int) (text : Option (List Char))
    (channel start stop line column : Int) (x : List Char)
    (h : createText source text start stop = some x) :
    ∃ t, createToken source ttype text channel start stop line column = some t ∧ t.text = x ∧
      t.ttype = ttype :=
  ⟨_, by rw [createToken, h]; rfl, rfl, rfl⟩

/-- **C61** A created token carries the parameters it was created with, and is not yet numbered. -/
theorem C61_fields (source : Option (InputStream Str)) (ttype : Int) (text : Option (List Char))
    (channel start stop line column : Int) (t : Tok)
    (h : createToken source ttype text channel start stop line column = some t) :
    t.ttype = ttype ∧ t.channel = channel ∧ t.start = start ∧ t.stop = stop ∧ t.line = line ∧
    t.column = column ∧ t.index = -1 := by
  simp only [createToken, Option.map_eq_some_iff] at h
  obtain ⟨x, _, rfl⟩ := h
  exact ⟨rfl, rfl, rfl, rfl, rfl, rfl, rfl⟩

/-- **C61** An override text is the token's text, with or without an input stream. -/
theorem C61_override (source : Option (InputStream Str)) (ttype : Int) (txt : List Char)
    (channel start stop line column : Int) (ht : ttype ≠ TOKEN_EOF) :
    ∃ t, createToken source ttype (some txt) channel start stop line column = some t ∧
      t.getText = txt := by
  refine ⟨_, rfl, ?_⟩
  simp [Tok.getText, ht]

/-- **C61** The text of a token over the characters `mid ++ [c]` of the input — from the first byte
of `mid` to any byte of `c` — is that piece of input. -/
theorem C61_slice (pre mid post : List Char) (c : Char) (i : Int) (k : Nat) (hk : k < c.utf8Size)
    (ttype channel line column : Int) (ht : ttype ≠ TOKEN_EOF) :
    ∃ t, createToken (some ⟨⟨pre ++ (mid ++ [c]) ++ post⟩, i⟩) ttype none channel (bytes pre : Nat)
        (bytes (pre ++ mid) + k : Nat) line column = some t ∧ t.getText = mid ++ [c] := by
  have hb : bytes (pre ++ (mid ++ [c]) ++ post) = bytes pre + bytes mid + c.utf8Size + bytes post := by
    simp only [bytes_append, bytes]; omega
  have hb2 : bytes (pre ++ mid) = bytes pre + bytes mid := bytes_append _ _
  have hg := InputProps.C09_str pre mid post c i k hk
  obtain ⟨t, h1, h2, h3⟩ := create_of_text (some ⟨⟨pre ++ (mid ++ [c]) ++ post⟩, i⟩) ttype none
    channel (bytes pre : Nat) (bytes (pre ++ mid) + k : Nat) line column (mid ++ [c]) (by
      rw [createText, if_neg (by simp only [InputStream.size, InputData.len, hb]; omega), hg]; rfl)
  exact ⟨t, h1, by simp [Tok.getText, h2, h3, ht]⟩

/-- **C61** An empty token in front of a character has the empty text. -/
theorem C61_empty (pre post : List Char) (c : Char) (i ttype channel line column : Int)
    (ht : ttype ≠ TOKEN_EOF) :
    ∃ t, createToken (some ⟨⟨pre ++ c :: post⟩, i⟩) ttype none channel (bytes pre : Nat)
        ((bytes pre : Nat) - 1) line column = some t ∧ t.getText = [] := by
  have hb : bytes (pre ++ c :: post) = bytes pre + c.utf8Size + bytes post := by
    simp only [bytes_append, bytes]; omega
  have := utf8Size_pos c
  have hg := InputProps.C09_str_empty pre (c :: post) i
  obtain ⟨t, h1, h2, h3⟩ := create_of_text (some ⟨⟨pre ++ c :: post⟩, i⟩) ttype none
    channel (bytes pre : Nat) ((bytes pre : Nat) - 1) line column [] (by
      rw [createText, if_neg (by simp only [InputStream.size, InputData.len, hb]; omega), hg]; rfl)
  exact ⟨t, h1, by simp [Tok.getText, h2, h3, ht]⟩

/-- **C61** A token starting or ending past the end of the input has the text `<EOF>`; creating it
does not panic. -/
theorem C61_past_end (s : InputStream Str) (ttype channel start stop line column : Int)
    (h : bytes s.data.chars ≤ start ∨ (bytes s.data.chars : Int) ≤ stop) :
    ∃ t, createToken (some s) ttype none channel start stop line column = some t ∧
      t.getText = eofText := by
  obtain ⟨t, h1, h2, h3⟩ := create_of_text (some s) ttype none channel start stop line column
    eofText (by
      rw [createText, if_pos (by simp only [InputStream.size, InputData.len]; omega)])
  exact ⟨t, h1, by simp [Tok.getText, h2]⟩

/-- **C61** An EOF token always shows as `<EOF>`. -/
theorem C61_eof_text (t : Tok) (h : t.ttype = TOKEN_EOF) : t.getText = eofText := by
  simp [Tok.getText, h]

/-- **C61** Converting to an owned token changes nothing observable; numbering changes only the
number. -/
theorem C61_to_owned (t : Tok) (v : Int) :
    t.toOwned = t ∧ (t.setTokenIndex v).index = v ∧ (t.setTokenIndex v).getText = t.getText ∧
    (t.setTokenIndex v).ttype = t.ttype := ⟨rfl, rfl, rfl, rfl⟩

/-- **C61** The printed form of a token contains no line breaks or tabs, so it is one line. -/
theorem C61_display_one_line (t : Tok) (c : Char) (hc : c = '\n' ∨ c = '\r' ∨ c = '\t') :
    c ∉ t.display := by
  have hrep : ∀ (x : Char) (r s : List Char), x ∉ r → x ∉ replaceChar x r s := by
    intro x r s hr h
    simp only [replaceChar, List.mem_flatMap] at h
    obtain ⟨y, _, h⟩ := h
    split at h
    · exact hr h
    · rename_i hne; simp at h; exact hne h.symm
  have hkeep : ∀ (c x : Char) (r s : List Char), c ∉ r → c ∉ s → c ∉ replaceChar x r s := by
    intro c x r s hr hs h
    simp only [replaceChar, List.mem_flatMap] at h
    obtain ⟨y, hy, h⟩ := h
    split at h
    · exact hr h
    · simp at h; exact hs (h ▸ hy)
  have hdig : ∀ n : Int, c ∉ (toString n).toList := by
    intro n h
    have hnat : ∀ m : Nat, c ∉ (toString m).toList := by
      intro m h
      have : c ∈ Nat.toDigits 10 m := by simpa [Nat.repr] using h
      have := Nat.isDigit_of_mem_toDigits (by omega) (by omega) this
      rcases hc with rfl | rfl | rfl <;> revert this <;> decide
    cases n with
    | ofNat m => exact hnat m h
    | negSucc m =>
      have : c = '-' ∨ c ∈ (toString (m + 1)).toList := by
        have e : toString (Int.negSucc m) = "-" ++ toString (m + 1) := rfl
        rw [e] at h
        simpa using h
      rcases this with h | h
      · rcases hc with rfl | rfl | rfl <;> revert h <;> decide
      · exact hnat _ h
  have htxt : c ∉ replaceChar '\t' ['\\', 't'] (replaceChar '\r' ['\\', 'r']
      (replaceChar '\n' ['\\', 'n'] (if t.ttype = TOKEN_EOF then eofText else t.text))) := by
    rcases hc with rfl | rfl | rfl
    · exact hkeep _ _ _ _ (by decide) (hkeep _ _ _ _ (by decide) (hrep _ _ _ (by decide)))
    · exact hkeep _ _ _ _ (by decide) (hrep _ _ _ (by decide))
    · exact hrep _ _ _ (by decide)
  intro h
  simp only [Tok.display, List.mem_append] at h
  have hlit : ∀ l : List Char, ('\n' ∉ l ∧ '\r' ∉ l ∧ '\t' ∉ l) → c ∉ l := by
    rintro l ⟨h1, h2, h3⟩
    rcases hc with rfl | rfl | rfl <;> assumption
  have hch : c ∉ (if t.channel > 0 then (toString t.channel).toList else []) := by
    split
    · exact hdig _
    · simp
  rcases h with (((((((((((((((h | h) | h) | h) | h) | h) | h) | h) | h) | h) | h) | h) | h) | h) | h) | h) | h
  all_goals first
    | exact hdig _ h
    | exact htxt h
    | exact hch h
    | (refine hlit _ ?_ h; decide)

example : createToken (some ⟨⟨"aé=1".toList⟩, 0⟩) 5 none 0 0 2 1 0 =
    some { ttype := 5, start := 0, stop := 2, text := "aé".toList } := by decide +kernel

end Antlr.TokenFactoryProps
