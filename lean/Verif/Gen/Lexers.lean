import Verif.Gen.Sim
import Verif.Lexer.Model

/-!
# Lexers of the repository

tests/gen/csvlexer.rs: `',' 1, '\r' 2, '\n' 3`, `WS : [ ]+ -> channel(HIDDEN) ;` 4, `TEXT : ~[ ,\n\r"]+ ;` 5,
`STRING : '"' ('""'|~'"')* '"' ;` 6 (grammars/CSV.g4).

tests/gen/referencetoatnlexer.rs: `ID : 'a'..'z'+ ;` 1, `ATN : '0'..'9'+;` 2, `WS : (' '|'\n') -> skip ;` 3
(grammars/ReferenceToATN.g4).

tests/gen/labelslexer.rs: `'*' 1, '+' 2, '(' 3, ')' 4, '++' 5, '--' 6`, `ID : 'a'..'z'+ ;` 7, `INT : '0'..'9'+ ;` 8,
`WS : (' '|'\n') -> skip ;` 9 (grammars/Labels.g4).

tests/gen/simplelrlexer.rs: `ID : 'a'..'z'+ ;` 1, `WS : (' '|'\n') -> skip ;` 2 (grammars/SimpleLR.g4).

tests/gen/visitorbasiclexer.rs: `A : 'A';` 1 (grammars/VisitorBasic.g4).

tests/gen/visitorcalclexer.rs: `INT : [0-9]+;` 1, `'*' 2, '/' 3, '+' 4, '-' 5`, `WS : [ \t]+ -> channel(HIDDEN);` 6
(grammars/VisitorCalc.g4).

None has predicates or actions in the target language (tests/gen/csvlexer.rs:135-148 and
tests/gen/referencetoatnlexer.rs:126-141, and the same place of the others: `impl Actions` and `impl LexerRecog` are empty).
-/

namespace Antlr.Gen
open Antlr Lexer

/-- `_serializedATN`, tests/gen/csvlexer.rs:195-219 -/
def csvLexerSerialized : List Nat := [
  3, 24715, 42794, 33075, 47597, 16764, 15335, 30598, 22884, 2, 8, 44, 8, 1, 4, 2, 9, 2, 4, 3, 9, 3, 4, 4,
  9, 4, 4, 5, 9, 5, 4, 6, 9, 6, 4, 7, 9, 7, 3, 2, 3, 2, 3, 3, 3, 3, 3, 4,
  3, 4, 3, 5, 6, 5, 23, 10, 5, 13, 5, 14, 5, 24, 3, 5, 3, 5, 3, 6, 6, 6, 30, 10,
  6, 13, 6, 14, 6, 31, 3, 7, 3, 7, 3, 7, 3, 7, 7, 7, 38, 10, 7, 12, 7, 14, 7, 41,
  11, 7, 3, 7, 3, 7, 2, 2, 8, 3, 3, 5, 4, 7, 5, 9, 6, 11, 7, 13, 8, 3, 2, 5,
  3, 2, 34, 34, 7, 2, 12, 12, 15, 15, 34, 34, 36, 36, 46, 46, 3, 2, 36, 36, 2, 47, 2, 3,
  3, 2, 2, 2, 2, 5, 3, 2, 2, 2, 2, 7, 3, 2, 2, 2, 2, 9, 3, 2, 2, 2, 2, 11,
  3, 2, 2, 2, 2, 13, 3, 2, 2, 2, 3, 15, 3, 2, 2, 2, 5, 17, 3, 2, 2, 2, 7, 19,
  3, 2, 2, 2, 9, 22, 3, 2, 2, 2, 11, 29, 3, 2, 2, 2, 13, 33, 3, 2, 2, 2, 15, 16,
  7, 46, 2, 2, 16, 4, 3, 2, 2, 2, 17, 18, 7, 15, 2, 2, 18, 6, 3, 2, 2, 2, 19, 20,
  7, 12, 2, 2, 20, 8, 3, 2, 2, 2, 21, 23, 9, 2, 2, 2, 22, 21, 3, 2, 2, 2, 23, 24,
  3, 2, 2, 2, 24, 22, 3, 2, 2, 2, 24, 25, 3, 2, 2, 2, 25, 26, 3, 2, 2, 2, 26, 27,
  8, 5, 2, 2, 27, 10, 3, 2, 2, 2, 28, 30, 10, 3, 2, 2, 29, 28, 3, 2, 2, 2, 30, 31,
  3, 2, 2, 2, 31, 29, 3, 2, 2, 2, 31, 32, 3, 2, 2, 2, 32, 12, 3, 2, 2, 2, 33, 39,
  7, 36, 2, 2, 34, 35, 7, 36, 2, 2, 35, 38, 7, 36, 2, 2, 36, 38, 10, 4, 2, 2, 37, 34,
  3, 2, 2, 2, 37, 36, 3, 2, 2, 2, 38, 41, 3, 2, 2, 2, 39, 37, 3, 2, 2, 2, 39, 40,
  3, 2, 2, 2, 40, 42, 3, 2, 2, 2, 41, 39, 3, 2, 2, 2, 42, 43, 7, 36, 2, 2, 43, 14,
  3, 2, 2, 2, 7, 2, 24, 31, 37, 39, 3, 2, 3, 2]

/-- `_ATN`, tests/gen/csvlexer.rs:183-184 -/
def csvLexer : ATN := (Deserial.deserialize csvLexerSerialized).getD { grammarType := .lexer, maxTokenType := 0 }

/-- `_serializedATN`, tests/gen/referencetoatnlexer.rs:190-203 -/
def refLexerSerialized : List Nat := [
  3, 24715, 42794, 33075, 47597, 16764, 15335, 30598, 22884, 2, 5, 23, 8, 1, 4, 2, 9, 2, 4, 3, 9, 3, 4, 4,
  9, 4, 3, 2, 6, 2, 11, 10, 2, 13, 2, 14, 2, 12, 3, 3, 6, 3, 16, 10, 3, 13, 3, 14,
  3, 17, 3, 4, 3, 4, 3, 4, 3, 4, 2, 2, 5, 3, 3, 5, 4, 7, 5, 3, 2, 3, 4, 2,
  12, 12, 34, 34, 2, 24, 2, 3, 3, 2, 2, 2, 2, 5, 3, 2, 2, 2, 2, 7, 3, 2, 2, 2,
  3, 10, 3, 2, 2, 2, 5, 15, 3, 2, 2, 2, 7, 19, 3, 2, 2, 2, 9, 11, 4, 99, 124, 2,
  10, 9, 3, 2, 2, 2, 11, 12, 3, 2, 2, 2, 12, 10, 3, 2, 2, 2, 12, 13, 3, 2, 2, 2,
  13, 4, 3, 2, 2, 2, 14, 16, 4, 50, 59, 2, 15, 14, 3, 2, 2, 2, 16, 17, 3, 2, 2, 2,
  17, 15, 3, 2, 2, 2, 17, 18, 3, 2, 2, 2, 18, 6, 3, 2, 2, 2, 19, 20, 9, 2, 2, 2,
  20, 21, 3, 2, 2, 2, 21, 22, 8, 4, 2, 2, 22, 8, 3, 2, 2, 2, 5, 2, 12, 17, 3, 8,
  2, 2]

/-- `_ATN`, tests/gen/referencetoatnlexer.rs:178-179 -/
def refLexer : ATN := (Deserial.deserialize refLexerSerialized).getD { grammarType := .lexer, maxTokenType := 0 }
/-- `_serializedATN`, tests/gen/labelslexer.rs:212-237 -/
def labelsLexerSerialized : List Nat := [
  3, 24715, 42794, 33075, 47597, 16764, 15335, 30598, 22884, 2, 11, 49, 8, 1, 4, 2, 9, 2, 4, 3, 9, 3, 4, 4,
  9, 4, 4, 5, 9, 5, 4, 6, 9, 6, 4, 7, 9, 7, 4, 8, 9, 8, 4, 9, 9, 9, 4, 10,
  9, 10, 3, 2, 3, 2, 3, 3, 3, 3, 3, 4, 3, 4, 3, 5, 3, 5, 3, 6, 3, 6, 3, 6,
  3, 7, 3, 7, 3, 7, 3, 8, 6, 8, 37, 10, 8, 13, 8, 14, 8, 38, 3, 9, 6, 9, 42, 10,
  9, 13, 9, 14, 9, 43, 3, 10, 3, 10, 3, 10, 3, 10, 2, 2, 11, 3, 3, 5, 4, 7, 5, 9,
  6, 11, 7, 13, 8, 15, 9, 17, 10, 19, 11, 3, 2, 3, 4, 2, 12, 12, 34, 34, 2, 50, 2, 3,
  3, 2, 2, 2, 2, 5, 3, 2, 2, 2, 2, 7, 3, 2, 2, 2, 2, 9, 3, 2, 2, 2, 2, 11,
  3, 2, 2, 2, 2, 13, 3, 2, 2, 2, 2, 15, 3, 2, 2, 2, 2, 17, 3, 2, 2, 2, 2, 19,
  3, 2, 2, 2, 3, 21, 3, 2, 2, 2, 5, 23, 3, 2, 2, 2, 7, 25, 3, 2, 2, 2, 9, 27,
  3, 2, 2, 2, 11, 29, 3, 2, 2, 2, 13, 32, 3, 2, 2, 2, 15, 36, 3, 2, 2, 2, 17, 41,
  3, 2, 2, 2, 19, 45, 3, 2, 2, 2, 21, 22, 7, 44, 2, 2, 22, 4, 3, 2, 2, 2, 23, 24,
  7, 45, 2, 2, 24, 6, 3, 2, 2, 2, 25, 26, 7, 42, 2, 2, 26, 8, 3, 2, 2, 2, 27, 28,
  7, 43, 2, 2, 28, 10, 3, 2, 2, 2, 29, 30, 7, 45, 2, 2, 30, 31, 7, 45, 2, 2, 31, 12,
  3, 2, 2, 2, 32, 33, 7, 47, 2, 2, 33, 34, 7, 47, 2, 2, 34, 14, 3, 2, 2, 2, 35, 37,
  4, 99, 124, 2, 36, 35, 3, 2, 2, 2, 37, 38, 3, 2, 2, 2, 38, 36, 3, 2, 2, 2, 38, 39,
  3, 2, 2, 2, 39, 16, 3, 2, 2, 2, 40, 42, 4, 50, 59, 2, 41, 40, 3, 2, 2, 2, 42, 43,
  3, 2, 2, 2, 43, 41, 3, 2, 2, 2, 43, 44, 3, 2, 2, 2, 44, 18, 3, 2, 2, 2, 45, 46,
  9, 2, 2, 2, 46, 47, 3, 2, 2, 2, 47, 48, 8, 10, 2, 2, 48, 20, 3, 2, 2, 2, 5, 2,
  38, 43, 3, 8, 2, 2]

/-- `_ATN`, tests/gen/labelslexer.rs:200-201 -/
def labelsLexer : ATN := (Deserial.deserialize labelsLexerSerialized).getD { grammarType := .lexer, maxTokenType := 0 }

/-- `_serializedATN`, tests/gen/simplelrlexer.rs:184-193 -/
def slrLexerSerialized : List Nat := [
  3, 24715, 42794, 33075, 47597, 16764, 15335, 30598, 22884, 2, 4, 16, 8, 1, 4, 2, 9, 2, 4, 3, 9, 3, 3, 2,
  6, 2, 9, 10, 2, 13, 2, 14, 2, 10, 3, 3, 3, 3, 3, 3, 3, 3, 2, 2, 4, 3, 3, 5,
  4, 3, 2, 3, 4, 2, 12, 12, 34, 34, 2, 16, 2, 3, 3, 2, 2, 2, 2, 5, 3, 2, 2, 2,
  3, 8, 3, 2, 2, 2, 5, 12, 3, 2, 2, 2, 7, 9, 4, 99, 124, 2, 8, 7, 3, 2, 2, 2,
  9, 10, 3, 2, 2, 2, 10, 8, 3, 2, 2, 2, 10, 11, 3, 2, 2, 2, 11, 4, 3, 2, 2, 2,
  12, 13, 9, 2, 2, 2, 13, 14, 3, 2, 2, 2, 14, 15, 8, 3, 2, 2, 15, 6, 3, 2, 2, 2,
  4, 2, 10, 3, 8, 2, 2]

/-- `_ATN`, tests/gen/simplelrlexer.rs:172-173 -/
def slrLexer : ATN := (Deserial.deserialize slrLexerSerialized).getD { grammarType := .lexer, maxTokenType := 0 }

/-- `_serializedATN`, tests/gen/visitorbasiclexer.rs:187-191 -/
def basicLexerSerialized : List Nat := [
  3, 24715, 42794, 33075, 47597, 16764, 15335, 30598, 22884, 2, 3, 7, 8, 1, 4, 2, 9, 2, 3, 2, 3, 2, 2, 2,
  3, 3, 3, 3, 2, 2, 2, 6, 2, 3, 3, 2, 2, 2, 3, 5, 3, 2, 2, 2, 5, 6, 7, 67,
  2, 2, 6, 4, 3, 2, 2, 2, 3, 2, 2]

/-- `_ATN`, tests/gen/visitorbasiclexer.rs:175-176 -/
def basicLexer : ATN := (Deserial.deserialize basicLexerSerialized).getD { grammarType := .lexer, maxTokenType := 0 }

/-- `_serializedATN`, tests/gen/visitorcalclexer.rs:205-224 -/
def calcLexerSerialized : List Nat := [
  3, 24715, 42794, 33075, 47597, 16764, 15335, 30598, 22884, 2, 8, 35, 8, 1, 4, 2, 9, 2, 4, 3, 9, 3, 4, 4,
  9, 4, 4, 5, 9, 5, 4, 6, 9, 6, 4, 7, 9, 7, 3, 2, 6, 2, 17, 10, 2, 13, 2, 14,
  2, 18, 3, 3, 3, 3, 3, 4, 3, 4, 3, 5, 3, 5, 3, 6, 3, 6, 3, 7, 6, 7, 30, 10,
  7, 13, 7, 14, 7, 31, 3, 7, 3, 7, 2, 2, 8, 3, 3, 5, 4, 7, 5, 9, 6, 11, 7, 13,
  8, 3, 2, 4, 3, 2, 50, 59, 4, 2, 11, 11, 34, 34, 2, 36, 2, 3, 3, 2, 2, 2, 2, 5,
  3, 2, 2, 2, 2, 7, 3, 2, 2, 2, 2, 9, 3, 2, 2, 2, 2, 11, 3, 2, 2, 2, 2, 13,
  3, 2, 2, 2, 3, 16, 3, 2, 2, 2, 5, 20, 3, 2, 2, 2, 7, 22, 3, 2, 2, 2, 9, 24,
  3, 2, 2, 2, 11, 26, 3, 2, 2, 2, 13, 29, 3, 2, 2, 2, 15, 17, 9, 2, 2, 2, 16, 15,
  3, 2, 2, 2, 17, 18, 3, 2, 2, 2, 18, 16, 3, 2, 2, 2, 18, 19, 3, 2, 2, 2, 19, 4,
  3, 2, 2, 2, 20, 21, 7, 44, 2, 2, 21, 6, 3, 2, 2, 2, 22, 23, 7, 49, 2, 2, 23, 8,
  3, 2, 2, 2, 24, 25, 7, 45, 2, 2, 25, 10, 3, 2, 2, 2, 26, 27, 7, 47, 2, 2, 27, 12,
  3, 2, 2, 2, 28, 30, 9, 3, 2, 2, 29, 28, 3, 2, 2, 2, 30, 31, 3, 2, 2, 2, 31, 29,
  3, 2, 2, 2, 31, 32, 3, 2, 2, 2, 32, 33, 3, 2, 2, 2, 33, 34, 8, 7, 2, 2, 34, 14,
  3, 2, 2, 2, 5, 2, 18, 31, 3, 2, 3, 2]

/-- `_ATN`, tests/gen/visitorcalclexer.rs:193-194 -/
def calcLexer : ATN := (Deserial.deserialize calcLexerSerialized).getD { grammarType := .lexer, maxTokenType := 0 }

/-- A lexer without predicates and actions in the target language. -/
def plainLexer {D : Type} (atn : ATN) (hash : List Config → Nat) (toChars : D → List Char) : Env D where
  atn := atn
  hash := hash
  sempred := fun _ _ _ => true
  action := fun _ _ L => L
  beforeEmit := id
  toChars := toChars

end Antlr.Gen
