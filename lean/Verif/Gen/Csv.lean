import Verif.Gen.Sim
import Verif.Prediction.InputProps

/-!
# Two more parsers of the repository

tests/gen/csvparser.rs: `csvFile : hdr row+ ;  hdr : row ;  row : field (',' field)* '\r'? '\n' ;
field : TEXT | STRING | ;` (grammars/CSV.g4).  Token types: ',' 1, '\r' 2, '\n' 3, WS 4, TEXT 5, STRING 6.

tests/gen/referencetoatnparser.rs: `a : (ID | ATN)* ATN? {println!("{}", $text);} ;`
(grammars/ReferenceToATN.g4).  Token types: ID 1, ATN 2, WS 3.
-/

namespace Antlr.Gen
open Antlr Prediction PredictionMode PredictionProps

namespace Csv

/-- `_serializedATN`, tests/gen/csvparser.rs:770-788 -/
def serialized : List Nat := [
  3, 24715, 42794, 33075, 47597, 16764, 15335, 30598, 22884, 3, 8, 37, 4, 2, 9, 2, 4, 3, 9, 3, 4, 4, 9, 4,
  4, 5, 9, 5, 3, 2, 3, 2, 6, 2, 13, 10, 2, 13, 2, 14, 2, 14, 3, 3, 3, 3, 3, 4,
  3, 4, 3, 4, 7, 4, 22, 10, 4, 12, 4, 14, 4, 25, 11, 4, 3, 4, 5, 4, 28, 10, 4, 3,
  4, 3, 4, 3, 5, 3, 5, 3, 5, 5, 5, 35, 10, 5, 3, 5, 2, 2, 6, 2, 4, 6, 8, 2,
  2, 2, 37, 2, 10, 3, 2, 2, 2, 4, 16, 3, 2, 2, 2, 6, 18, 3, 2, 2, 2, 8, 34, 3,
  2, 2, 2, 10, 12, 5, 4, 3, 2, 11, 13, 5, 6, 4, 2, 12, 11, 3, 2, 2, 2, 13, 14, 3,
  2, 2, 2, 14, 12, 3, 2, 2, 2, 14, 15, 3, 2, 2, 2, 15, 3, 3, 2, 2, 2, 16, 17, 5,
  6, 4, 2, 17, 5, 3, 2, 2, 2, 18, 23, 5, 8, 5, 2, 19, 20, 7, 3, 2, 2, 20, 22, 5,
  8, 5, 2, 21, 19, 3, 2, 2, 2, 22, 25, 3, 2, 2, 2, 23, 21, 3, 2, 2, 2, 23, 24, 3,
  2, 2, 2, 24, 27, 3, 2, 2, 2, 25, 23, 3, 2, 2, 2, 26, 28, 7, 4, 2, 2, 27, 26, 3,
  2, 2, 2, 27, 28, 3, 2, 2, 2, 28, 29, 3, 2, 2, 2, 29, 30, 7, 5, 2, 2, 30, 7, 3,
  2, 2, 2, 31, 35, 7, 7, 2, 2, 32, 35, 7, 8, 2, 2, 33, 35, 3, 2, 2, 2, 34, 31, 3,
  2, 2, 2, 34, 32, 3, 2, 2, 2, 34, 33, 3, 2, 2, 2, 35, 9, 3, 2, 2, 2, 6, 14, 23,
  27, 34]

/-- `_ATN`, tests/gen/csvparser.rs:758-759 -/
def atn : ATN := (Deserial.deserialize serialized).getD { grammarType := .parser, maxTokenType := 0 }

def rules : List RuleFn := [
  -- `csvFile`, tests/gen/csvparser.rs:326-382
  .plain 0 none [⟨none, .seq (.call 8 1 0) (.plus 10 12 (.look [[1, 2, 3, 5, 6]] (some 2)) 2 1 (.call 9 2 0))⟩],
  -- `hdr`, tests/gen/csvparser.rs:454-482
  .plain 2 none [⟨none, .call 14 2 0⟩],
  -- `row`, tests/gen/csvparser.rs:560-620
  .plain 4 none [⟨none, .seq (.call 16 3 0) (.seq
    (.star 21 23 (.look [[1]] (some 2)) 2 1 (.seq (.tok 17 1) (.call 18 3 0))) (.seq
    (.opt 25 (.look [[2]] (some 2)) 0 [.tok 24 2])
    (.tok 27 3)))⟩],
  -- `field`, tests/gen/csvparser.rs:702-754
  .plain 6 (some (32, .look [[5], [6], [1, 2, 3]] none)) [⟨none, .tok 29 5⟩, ⟨none, .tok 30 6⟩, ⟨none, .nop⟩]]

def sim (I : Type) : Sim I where
  atn := atn
  mode := .LL
  sempred := fun _ _ _ _ _ => true
  ord := id
  hash := fun _ => 0

/-- The parser with the default or the bail strategy. -/
def cfg (I : Type) [TokStream I] (bail : Bool) (fuel : Nat) : Cfg I SimState where
  env := { atn := atn, fuel := fuel, display := fun _ => "x",
           ruleNames := ["csvFile".toList, "hdr".toList, "row".toList, "field".toList], rangeText := fun _ _ _ => some [] }
  bail := bail
  guards := fun _ _ => true
  predict := (sim I).predict
  rules := rules

end Csv

namespace RefAtn

/-- `_serializedATN`, tests/gen/referencetoatnparser.rs:405-414 -/
def serialized : List Nat := [
  3, 24715, 42794, 33075, 47597, 16764, 15335, 30598, 22884, 3, 5, 16, 4, 2, 9, 2, 3, 2, 7, 2, 6, 10, 2, 12,
  2, 14, 2, 9, 11, 2, 3, 2, 5, 2, 12, 10, 2, 3, 2, 3, 2, 3, 2, 2, 2, 3, 2, 2,
  3, 3, 2, 3, 4, 2, 16, 2, 7, 3, 2, 2, 2, 4, 6, 9, 2, 2, 2, 5, 4, 3, 2, 2,
  2, 6, 9, 3, 2, 2, 2, 7, 5, 3, 2, 2, 2, 7, 8, 3, 2, 2, 2, 8, 11, 3, 2, 2,
  2, 9, 7, 3, 2, 2, 2, 10, 12, 7, 4, 2, 2, 11, 10, 3, 2, 2, 2, 11, 12, 3, 2, 2,
  2, 12, 13, 3, 2, 2, 2, 13, 14, 8, 2, 1, 2, 14, 3, 3, 2, 2, 2, 4, 7, 11]

/-- `_ATN`, tests/gen/referencetoatnparser.rs:393-394 -/
def atn : ATN := (Deserial.deserialize serialized).getD { grammarType := .parser, maxTokenType := 0 }

def rules : List RuleFn := [
  -- `a`, tests/gen/referencetoatnparser.rs:315-389
  .plain 0 none [⟨none, .seq (.star 5 7 (.predict 0) 2 1 (.set 2 [1, 2] false)) (.seq
    (.opt 9 (.look [[2]] (some 2)) 0 [.tok 8 2]) .nop)⟩]]

def sim (I : Type) : Sim I where
  atn := atn
  mode := .LL
  sempred := fun _ _ _ _ _ => true
  ord := id
  hash := fun _ => 0

def cfg (I : Type) [TokStream I] (bail : Bool) (fuel : Nat) : Cfg I SimState where
  env := { atn := atn, fuel := fuel, display := fun _ => "x", ruleNames := ["a".toList], rangeText := fun _ _ _ => some [] }
  bail := bail
  guards := fun _ _ => true
  predict := (sim I).predict
  rules := rules

end RefAtn
end Antlr.Gen
