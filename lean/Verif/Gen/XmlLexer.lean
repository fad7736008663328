import Verif.Gen.Lexers

/-!
# The XML lexer of the repository

tests/gen/xmllexer.rs, generated from grammars/XMLLexer.g4: three modes, three rules with a non-greedy loop (`COMMENT` 1,
`CDATA` 2, `DTD` 3), a predicate, an action in the target language, `more` and `skip`.
-/

namespace Antlr.Gen
open Antlr Lexer

/-- `_serializedATN`, tests/gen/xmllexer.rs:306-432 -/
def xmlLexerSerialized : List Nat := [
  3, 24715, 42794, 33075, 47597, 16764, 15335, 30598, 22884, 2, 20, 232, 8, 1, 8, 1, 8, 1, 4, 2, 9, 2, 4, 3,
  9, 3, 4, 4, 9, 4, 4, 5, 9, 5, 4, 6, 9, 6, 4, 7, 9, 7, 4, 8, 9, 8, 4, 9,
  9, 9, 4, 10, 9, 10, 4, 11, 9, 11, 4, 12, 9, 12, 4, 13, 9, 13, 4, 14, 9, 14, 4, 15,
  9, 15, 4, 16, 9, 16, 4, 17, 9, 17, 4, 18, 9, 18, 4, 19, 9, 19, 4, 20, 9, 20, 4, 21,
  9, 21, 4, 22, 9, 22, 4, 23, 9, 23, 4, 24, 9, 24, 4, 25, 9, 25, 3, 2, 3, 2, 3, 2,
  3, 2, 3, 2, 3, 2, 7, 2, 60, 10, 2, 12, 2, 14, 2, 63, 11, 2, 3, 2, 3, 2, 3, 2,
  3, 2, 3, 2, 3, 2, 3, 3, 3, 3, 3, 3, 3, 3, 3, 3, 3, 3, 3, 3, 3, 3, 3, 3,
  3, 3, 3, 3, 7, 3, 82, 10, 3, 12, 3, 14, 3, 85, 11, 3, 3, 3, 3, 3, 3, 3, 3, 3,
  3, 4, 3, 4, 3, 4, 3, 4, 7, 4, 95, 10, 4, 12, 4, 14, 4, 98, 11, 4, 3, 4, 3, 4,
  3, 4, 3, 4, 3, 5, 3, 5, 3, 5, 3, 5, 3, 6, 3, 6, 3, 6, 3, 6, 6, 6, 112, 10,
  6, 13, 6, 14, 6, 113, 3, 6, 3, 6, 3, 6, 3, 6, 3, 6, 3, 6, 3, 6, 6, 6, 123, 10,
  6, 13, 6, 14, 6, 124, 3, 6, 3, 6, 5, 6, 129, 10, 6, 3, 7, 3, 7, 5, 7, 133, 10, 7,
  3, 7, 5, 7, 136, 10, 7, 3, 8, 3, 8, 3, 8, 3, 8, 3, 9, 3, 9, 3, 9, 3, 9, 3,
  9, 3, 9, 3, 9, 3, 9, 3, 9, 3, 9, 3, 10, 3, 10, 3, 10, 3, 10, 3, 10, 3, 10, 3,
  10, 3, 10, 3, 11, 6, 11, 161, 10, 11, 13, 11, 14, 11, 162, 3, 12, 3, 12, 3, 12, 3, 13, 3,
  13, 3, 13, 3, 13, 3, 13, 3, 14, 3, 14, 3, 14, 3, 14, 3, 14, 3, 15, 3, 15, 3, 16, 3,
  16, 3, 17, 3, 17, 7, 17, 184, 10, 17, 12, 17, 14, 17, 187, 11, 17, 3, 17, 3, 17, 3, 17, 7,
  17, 192, 10, 17, 12, 17, 14, 17, 195, 11, 17, 3, 17, 5, 17, 198, 10, 17, 3, 18, 3, 18, 7, 18,
  202, 10, 18, 12, 18, 14, 18, 205, 11, 18, 3, 19, 3, 19, 3, 19, 3, 19, 3, 20, 3, 20, 3, 21,
  3, 21, 3, 22, 3, 22, 3, 22, 3, 22, 5, 22, 219, 10, 22, 3, 23, 5, 23, 222, 10, 23, 3, 24,
  3, 24, 3, 24, 3, 24, 3, 24, 3, 25, 3, 25, 3, 25, 3, 25, 5, 61, 83, 96, 2, 26, 5, 3,
  7, 4, 9, 5, 11, 6, 13, 7, 15, 8, 17, 9, 19, 10, 21, 2, 23, 11, 25, 12, 27, 13, 29, 14,
  31, 15, 33, 16, 35, 17, 37, 18, 39, 19, 41, 2, 43, 2, 45, 2, 47, 2, 49, 20, 51, 2, 5, 2,
  3, 4, 11, 4, 2, 11, 11, 34, 34, 4, 2, 40, 40, 62, 62, 4, 2, 36, 36, 62, 62, 4, 2, 41,
  41, 62, 62, 5, 2, 11, 12, 15, 15, 34, 34, 5, 2, 50, 59, 67, 72, 99, 104, 3, 2, 50, 59, 5,
  2, 185, 185, 770, 881, 8257, 8258, 10, 2, 60, 60, 67, 92, 99, 124, 8306, 8593, 11266, 12273, 12291, 67585, 63746, 64977, 65010,
  65535, 2, 241, 2, 5, 3, 2, 2, 2, 2, 7, 3, 2, 2, 2, 2, 9, 3, 2, 2, 2, 2, 11, 3,
  2, 2, 2, 2, 13, 3, 2, 2, 2, 2, 15, 3, 2, 2, 2, 2, 17, 3, 2, 2, 2, 2, 19, 3,
  2, 2, 2, 2, 21, 3, 2, 2, 2, 2, 23, 3, 2, 2, 2, 3, 25, 3, 2, 2, 2, 3, 27, 3,
  2, 2, 2, 3, 29, 3, 2, 2, 2, 3, 31, 3, 2, 2, 2, 3, 33, 3, 2, 2, 2, 3, 35, 3,
  2, 2, 2, 3, 37, 3, 2, 2, 2, 3, 39, 3, 2, 2, 2, 4, 49, 3, 2, 2, 2, 4, 51, 3,
  2, 2, 2, 5, 53, 3, 2, 2, 2, 7, 70, 3, 2, 2, 2, 9, 90, 3, 2, 2, 2, 11, 103, 3,
  2, 2, 2, 13, 128, 3, 2, 2, 2, 15, 135, 3, 2, 2, 2, 17, 137, 3, 2, 2, 2, 19, 141, 3,
  2, 2, 2, 21, 151, 3, 2, 2, 2, 23, 160, 3, 2, 2, 2, 25, 164, 3, 2, 2, 2, 27, 167, 3,
  2, 2, 2, 29, 172, 3, 2, 2, 2, 31, 177, 3, 2, 2, 2, 33, 179, 3, 2, 2, 2, 35, 197, 3,
  2, 2, 2, 37, 199, 3, 2, 2, 2, 39, 206, 3, 2, 2, 2, 41, 210, 3, 2, 2, 2, 43, 212, 3,
  2, 2, 2, 45, 218, 3, 2, 2, 2, 47, 221, 3, 2, 2, 2, 49, 223, 3, 2, 2, 2, 51, 228, 3,
  2, 2, 2, 53, 54, 7, 62, 2, 2, 54, 55, 7, 35, 2, 2, 55, 56, 7, 47, 2, 2, 56, 57, 7,
  47, 2, 2, 57, 61, 3, 2, 2, 2, 58, 60, 11, 2, 2, 2, 59, 58, 3, 2, 2, 2, 60, 63, 3,
  2, 2, 2, 61, 62, 3, 2, 2, 2, 61, 59, 3, 2, 2, 2, 62, 64, 3, 2, 2, 2, 63, 61, 3,
  2, 2, 2, 64, 65, 7, 47, 2, 2, 65, 66, 7, 47, 2, 2, 66, 67, 7, 64, 2, 2, 67, 68, 3,
  2, 2, 2, 68, 69, 6, 2, 2, 2, 69, 6, 3, 2, 2, 2, 70, 71, 7, 62, 2, 2, 71, 72, 7,
  35, 2, 2, 72, 73, 7, 93, 2, 2, 73, 74, 7, 69, 2, 2, 74, 75, 7, 70, 2, 2, 75, 76, 7,
  67, 2, 2, 76, 77, 7, 86, 2, 2, 77, 78, 7, 67, 2, 2, 78, 79, 7, 93, 2, 2, 79, 83, 3,
  2, 2, 2, 80, 82, 11, 2, 2, 2, 81, 80, 3, 2, 2, 2, 82, 85, 3, 2, 2, 2, 83, 84, 3,
  2, 2, 2, 83, 81, 3, 2, 2, 2, 84, 86, 3, 2, 2, 2, 85, 83, 3, 2, 2, 2, 86, 87, 7,
  95, 2, 2, 87, 88, 7, 95, 2, 2, 88, 89, 7, 64, 2, 2, 89, 8, 3, 2, 2, 2, 90, 91, 7,
  62, 2, 2, 91, 92, 7, 35, 2, 2, 92, 96, 3, 2, 2, 2, 93, 95, 11, 2, 2, 2, 94, 93, 3,
  2, 2, 2, 95, 98, 3, 2, 2, 2, 96, 97, 3, 2, 2, 2, 96, 94, 3, 2, 2, 2, 97, 99, 3,
  2, 2, 2, 98, 96, 3, 2, 2, 2, 99, 100, 7, 64, 2, 2, 100, 101, 3, 2, 2, 2, 101, 102, 8,
  4, 2, 2, 102, 10, 3, 2, 2, 2, 103, 104, 7, 40, 2, 2, 104, 105, 5, 37, 18, 2, 105, 106, 7,
  61, 2, 2, 106, 12, 3, 2, 2, 2, 107, 108, 7, 40, 2, 2, 108, 109, 7, 37, 2, 2, 109, 111, 3,
  2, 2, 2, 110, 112, 5, 43, 21, 2, 111, 110, 3, 2, 2, 2, 112, 113, 3, 2, 2, 2, 113, 111, 3,
  2, 2, 2, 113, 114, 3, 2, 2, 2, 114, 115, 3, 2, 2, 2, 115, 116, 7, 61, 2, 2, 116, 129, 3,
  2, 2, 2, 117, 118, 7, 40, 2, 2, 118, 119, 7, 37, 2, 2, 119, 120, 7, 122, 2, 2, 120, 122, 3,
  2, 2, 2, 121, 123, 5, 41, 20, 2, 122, 121, 3, 2, 2, 2, 123, 124, 3, 2, 2, 2, 124, 122, 3,
  2, 2, 2, 124, 125, 3, 2, 2, 2, 125, 126, 3, 2, 2, 2, 126, 127, 7, 61, 2, 2, 127, 129, 3,
  2, 2, 2, 128, 107, 3, 2, 2, 2, 128, 117, 3, 2, 2, 2, 129, 14, 3, 2, 2, 2, 130, 136, 9,
  2, 2, 2, 131, 133, 7, 15, 2, 2, 132, 131, 3, 2, 2, 2, 132, 133, 3, 2, 2, 2, 133, 134, 3,
  2, 2, 2, 134, 136, 7, 12, 2, 2, 135, 130, 3, 2, 2, 2, 135, 132, 3, 2, 2, 2, 136, 16, 3,
  2, 2, 2, 137, 138, 7, 62, 2, 2, 138, 139, 3, 2, 2, 2, 139, 140, 8, 8, 3, 2, 140, 18, 3,
  2, 2, 2, 141, 142, 7, 62, 2, 2, 142, 143, 7, 65, 2, 2, 143, 144, 7, 122, 2, 2, 144, 145, 7,
  111, 2, 2, 145, 146, 7, 110, 2, 2, 146, 147, 3, 2, 2, 2, 147, 148, 5, 39, 19, 2, 148, 149, 3,
  2, 2, 2, 149, 150, 8, 9, 3, 2, 150, 20, 3, 2, 2, 2, 151, 152, 7, 62, 2, 2, 152, 153, 7,
  65, 2, 2, 153, 154, 3, 2, 2, 2, 154, 155, 5, 37, 18, 2, 155, 156, 3, 2, 2, 2, 156, 157, 8,
  10, 4, 2, 157, 158, 8, 10, 5, 2, 158, 22, 3, 2, 2, 2, 159, 161, 10, 3, 2, 2, 160, 159, 3,
  2, 2, 2, 161, 162, 3, 2, 2, 2, 162, 160, 3, 2, 2, 2, 162, 163, 3, 2, 2, 2, 163, 24, 3,
  2, 2, 2, 164, 165, 7, 64, 2, 2, 165, 166, 8, 12, 6, 2, 166, 26, 3, 2, 2, 2, 167, 168, 7,
  65, 2, 2, 168, 169, 7, 64, 2, 2, 169, 170, 3, 2, 2, 2, 170, 171, 8, 13, 7, 2, 171, 28, 3,
  2, 2, 2, 172, 173, 7, 49, 2, 2, 173, 174, 7, 64, 2, 2, 174, 175, 3, 2, 2, 2, 175, 176, 8,
  14, 7, 2, 176, 30, 3, 2, 2, 2, 177, 178, 7, 49, 2, 2, 178, 32, 3, 2, 2, 2, 179, 180, 7,
  63, 2, 2, 180, 34, 3, 2, 2, 2, 181, 185, 7, 36, 2, 2, 182, 184, 10, 4, 2, 2, 183, 182, 3,
  2, 2, 2, 184, 187, 3, 2, 2, 2, 185, 183, 3, 2, 2, 2, 185, 186, 3, 2, 2, 2, 186, 188, 3,
  2, 2, 2, 187, 185, 3, 2, 2, 2, 188, 198, 7, 36, 2, 2, 189, 193, 7, 41, 2, 2, 190, 192, 10,
  5, 2, 2, 191, 190, 3, 2, 2, 2, 192, 195, 3, 2, 2, 2, 193, 191, 3, 2, 2, 2, 193, 194, 3,
  2, 2, 2, 194, 196, 3, 2, 2, 2, 195, 193, 3, 2, 2, 2, 196, 198, 7, 41, 2, 2, 197, 181, 3,
  2, 2, 2, 197, 189, 3, 2, 2, 2, 198, 36, 3, 2, 2, 2, 199, 203, 5, 47, 23, 2, 200, 202, 5,
  45, 22, 2, 201, 200, 3, 2, 2, 2, 202, 205, 3, 2, 2, 2, 203, 201, 3, 2, 2, 2, 203, 204, 3,
  2, 2, 2, 204, 38, 3, 2, 2, 2, 205, 203, 3, 2, 2, 2, 206, 207, 9, 6, 2, 2, 207, 208, 3,
  2, 2, 2, 208, 209, 8, 19, 2, 2, 209, 40, 3, 2, 2, 2, 210, 211, 9, 7, 2, 2, 211, 42, 3,
  2, 2, 2, 212, 213, 9, 8, 2, 2, 213, 44, 3, 2, 2, 2, 214, 219, 5, 47, 23, 2, 215, 219, 4,
  47, 48, 2, 216, 219, 5, 43, 21, 2, 217, 219, 9, 9, 2, 2, 218, 214, 3, 2, 2, 2, 218, 215, 3,
  2, 2, 2, 218, 216, 3, 2, 2, 2, 218, 217, 3, 2, 2, 2, 219, 46, 3, 2, 2, 2, 220, 222, 9,
  10, 2, 2, 221, 220, 3, 2, 2, 2, 222, 48, 3, 2, 2, 2, 223, 224, 7, 65, 2, 2, 224, 225, 7,
  64, 2, 2, 225, 226, 3, 2, 2, 2, 226, 227, 8, 24, 7, 2, 227, 50, 3, 2, 2, 2, 228, 229, 11,
  2, 2, 2, 229, 230, 3, 2, 2, 2, 230, 231, 8, 25, 4, 2, 231, 52, 3, 2, 2, 2, 20, 2, 3,
  4, 61, 83, 96, 113, 124, 128, 132, 135, 162, 185, 193, 197, 203, 218, 221, 8, 8, 2, 2, 7, 3, 2, 5,
  2, 2, 7, 4, 2, 3, 12, 2, 6, 2, 2]

/-- `_ATN`, tests/gen/xmllexer.rs:293-295 -/
def xmlLexer : ATN := (Deserial.deserialize xmlLexerSerialized).getD { grammarType := .lexer, maxTokenType := 0 }

/-- `XMLLexer`: the action of `CLOSE` leaves the mode, the predicate of `COMMENT` is constant
(tests/gen/xmllexer.rs:202-254). -/
def xmlEnv {D : Type} (hash : List Config → Nat) (toChars : D → List Char) : Env D where
  atn := xmlLexer
  hash := hash
  sempred := fun _ _ _ => true
  action := fun r a L => if r = 10 ∧ a = 0 then L.popMode.2 else L
  beforeEmit := id
  toChars := toChars

end Antlr.Gen
