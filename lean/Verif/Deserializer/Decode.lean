import Verif.Prelude

/-!
# Decoding the serialized character stream: property C58

Model of the first lines of `ATNDeserializer::deserialize`, src/atn_deserializer.rs:56-62.
-/

namespace Antlr

/-- The closure applied to every character, src/atn_deserializer.rs:56-62 -/
def decodeChar (ch : Nat) : Int :=
  let ch : Int := ch
  let ch := if ch > 0xFFFF then ch - 0x3000 else ch
  ch - 2

/-- The decoded stream. -/
def decodeChars (data : List Nat) : List Int := data.map decodeChar

/-- `x as u16 as isize`, and equally `x & 0xFFFF`: how set boundaries are read,
src/atn_deserializer.rs:75, 79 -/
def asU16 (x : Int) : Int := x % 0x10000

end Antlr

namespace Antlr.DecodeProps
open Antlr

/-- What the tool writes for a 16-bit value: `value + 2 mod 2^16`, surrogate code points (which a
Rust `char` cannot hold) shifted by `0x3000` above the BMP. -/
def encodeWord (w : Nat) : Nat :=
  let v := (w + 2) % 0x10000
  if 0xD800 ≤ v ∧ v ≤ 0xDFFF then v + 0x3000 else v

/-- The encoding is a valid `char` (no surrogate, at most `U+10FFFF`). -/
theorem C58_encodable (w : Nat) :
    encodeWord w ≤ 0x10FFFF ∧ ¬ (0xD800 ≤ encodeWord w ∧ encodeWord w ≤ 0xDFFF) := by
  simp only [encodeWord]; split <;> omega

/-- **C58, partial**: every sequence of 16-bit values below `0xFFFE` is read back exactly (missing:
the two wrap-around values, see `C58_false`). -/
theorem C58_decode_partial (ws : List Nat) (h : ∀ w ∈ ws, w < 0xFFFE) :
    decodeChars (ws.map encodeWord) = ws.map (fun (w : Nat) => (w : Int)) := by
  simp only [decodeChars, List.map_map]
  apply List.map_congr_left
  intro w hw
  have := h w hw
  simp only [Function.comp, decodeChar, encodeWord]
  split <;> split <;> omega

/-- **C58** Read as 16-bit unsigned numbers — as set boundaries are — every sequence of 16-bit
values is read back exactly. -/
theorem C58_decode_u16 (ws : List Nat) (h : ∀ w ∈ ws, w < 0x10000) :
    (decodeChars (ws.map encodeWord)).map asU16 = ws.map (fun (w : Nat) => (w : Int)) := by
  simp only [decodeChars, List.map_map]
  apply List.map_congr_left
  intro w hw
  have := h w hw
  simp only [Function.comp, asU16, decodeChar, encodeWord]
  split <;> split <;> omega

/-- **C58 is false for the two wrap-around values**: `0xFFFF` is read as -1 (so an atom edge on
`U+FFFF` becomes an edge on EOF) and `0xFFFE` as -2. -/
theorem C58_false : decodeChar (encodeWord 0xFFFF) = -1 ∧ decodeChar (encodeWord 0xFFFE) = -2 := by
  decide

example : decodeChars ([0, 97, 0xD7FE, 0xFFFD].map encodeWord) = [0, 97, 0xD7FE, 0xFFFD] := by decide

end Antlr.DecodeProps
