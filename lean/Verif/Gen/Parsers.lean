import Verif.Gen.Sim
import Verif.Prediction.InputProps

/-!
# More parsers of the repository

tests/gen/labelsparser.rs (grammars/Labels.g4), tests/gen/simplelrparser.rs (grammars/SimpleLR.g4) and
tests/gen/visitorbasicparser.rs (grammars/VisitorBasic.g4).  Actions in the target language are left out: those of Labels.g4 put
together strings, the one of SimpleLR.g4 prints one (after a second `set_stop`, tests/gen/simplelrparser.rs:325-327).
-/

namespace Antlr.Gen.Labels
open Antlr Prediction PredictionMode PredictionProps

/-- `_serializedATN`, tests/gen/labelsparser.rs:1441-1462 -/
def serialized : List Nat := [
  3, 24715, 42794, 33075, 47597, 16764, 15335, 30598, 22884, 3, 11, 42, 4, 2, 9, 2, 4, 3, 9, 3, 3, 2, 3, 2,
  3, 3, 3, 3, 3, 3, 3, 3, 3, 3, 3, 3, 3, 3, 3, 3, 3, 3, 3, 3, 5, 3, 19, 10,
  3, 3, 3, 3, 3, 3, 3, 3, 3, 3, 3, 3, 3, 3, 3, 3, 3, 3, 3, 3, 3, 3, 3, 3,
  3, 3, 3, 3, 3, 3, 3, 3, 3, 7, 3, 37, 10, 3, 12, 3, 14, 3, 40, 11, 3, 3, 3, 2,
  3, 4, 4, 2, 4, 2, 2, 2, 45, 2, 6, 3, 2, 2, 2, 4, 18, 3, 2, 2, 2, 6, 7, 5,
  4, 3, 2, 7, 3, 3, 2, 2, 2, 8, 9, 8, 3, 1, 2, 9, 10, 7, 10, 2, 2, 10, 19, 8,
  3, 1, 2, 11, 12, 7, 5, 2, 2, 12, 13, 5, 4, 3, 2, 13, 14, 7, 6, 2, 2, 14, 15, 8,
  3, 1, 2, 15, 19, 3, 2, 2, 2, 16, 17, 7, 9, 2, 2, 17, 19, 8, 3, 1, 2, 18, 8, 3,
  2, 2, 2, 18, 11, 3, 2, 2, 2, 18, 16, 3, 2, 2, 2, 19, 38, 3, 2, 2, 2, 20, 21, 12,
  9, 2, 2, 21, 22, 7, 3, 2, 2, 22, 23, 5, 4, 3, 10, 23, 24, 8, 3, 1, 2, 24, 37, 3,
  2, 2, 2, 25, 26, 12, 8, 2, 2, 26, 27, 7, 4, 2, 2, 27, 28, 5, 4, 3, 9, 28, 29, 8,
  3, 1, 2, 29, 37, 3, 2, 2, 2, 30, 31, 12, 5, 2, 2, 31, 32, 7, 7, 2, 2, 32, 37, 8,
  3, 1, 2, 33, 34, 12, 4, 2, 2, 34, 35, 7, 8, 2, 2, 35, 37, 8, 3, 1, 2, 36, 20, 3,
  2, 2, 2, 36, 25, 3, 2, 2, 2, 36, 30, 3, 2, 2, 2, 36, 33, 3, 2, 2, 2, 37, 40, 3,
  2, 2, 2, 38, 36, 3, 2, 2, 2, 38, 39, 3, 2, 2, 2, 39, 5, 3, 2, 2, 2, 40, 38, 3,
  2, 2, 2, 5, 18, 36, 38]

/-- `_ATN`, tests/gen/labelsparser.rs:1429-1430 -/
def atn : ATN := (Deserial.deserialize serialized).getD { grammarType := .parser, maxTokenType := 0 }

/-- Token types: '*' 1, '+' 2, '(' 3, ')' 4, '++' 5, '--' 6, ID 7, INT 8, WS 9.
Labels: 0 anInt, 1 parens, 2 anID, 3 mult, 4 add, 5 inc, 6 dec. -/
def rules : List RuleFn := [
  -- `s`, tests/gen/labelsparser.rs:345-373
  .plain 0 none [⟨none, .call 4 1 0⟩],
  -- `e_rec`, tests/gen/labelsparser.rs:960-1425
  .recursive 2 (some (16, .look [[8], [3], [7]] none))
    [⟨some 0, .tok 7 8⟩, ⟨some 1, .seq (.tok 9 3) (.seq (.call 10 1 0) (.tok 11 4))⟩, ⟨some 2, .tok 14 7⟩]
    36 38 (.predict 2) (some (34, .predict 1))
    [⟨some 3, 18, 7, .seq (.tok 19 1) (.call 20 1 8)⟩,
     ⟨some 4, 23, 6, .seq (.tok 24 2) (.call 25 1 7)⟩,
     ⟨some 5, 28, 3, .tok 29 5⟩,
     ⟨some 6, 31, 2, .tok 32 6⟩]]

def sim (I : Type) : Sim I where
  atn := atn
  mode := .LL
  sempred := fun _ _ _ _ _ => true
  ord := id
  hash := fun _ => 0

/-- The parser with the default or the bail strategy. -/
def cfg (bail : Bool) : Cfg CTS SimState where
  env :=
    { atn := atn
      fuel := 60
      display := fun _ => "x"
      ruleNames := ["s".toList, "e".toList]
      rangeText := fun i a b => i.base.getText a b }
  bail := bail
  guards := fun _ _ => true
  predict := (sim CTS).predict
  rules := rules

/-- A new parser for the tokens of these types. -/
def start (ts : List Nat) : GS CTS SimState where
  es := ⟨{}, P.new (CTS.withChannel (exSource ts) 0)⟩
  sim := ⟨(emptyDfas atn).getD [], []⟩

end Antlr.Gen.Labels

namespace Antlr.Gen.SimpleLR
open Antlr Prediction PredictionMode PredictionProps

/-- `_serializedATN`, tests/gen/simplelrparser.rs:504-513 -/
def serialized : List Nat := [
  3, 24715, 42794, 33075, 47597, 16764, 15335, 30598, 22884, 3, 4, 19, 4, 2, 9, 2, 4, 3, 9, 3, 3, 2, 3, 2,
  3, 3, 3, 3, 3, 3, 3, 3, 3, 3, 7, 3, 14, 10, 3, 12, 3, 14, 3, 17, 11, 3, 3, 3,
  2, 3, 4, 4, 2, 4, 2, 2, 2, 17, 2, 6, 3, 2, 2, 2, 4, 8, 3, 2, 2, 2, 6, 7,
  5, 4, 3, 2, 7, 3, 3, 2, 2, 2, 8, 9, 8, 3, 1, 2, 9, 10, 7, 3, 2, 2, 10, 15,
  3, 2, 2, 2, 11, 12, 12, 4, 2, 2, 12, 14, 7, 3, 2, 2, 13, 11, 3, 2, 2, 2, 14, 17,
  3, 2, 2, 2, 15, 13, 3, 2, 2, 2, 15, 16, 3, 2, 2, 2, 16, 5, 3, 2, 2, 2, 17, 15,
  3, 2, 2, 2, 3, 15]

/-- `_ATN`, tests/gen/simplelrparser.rs:492-493 -/
def atn : ATN := (Deserial.deserialize serialized).getD { grammarType := .parser, maxTokenType := 0 }

/-- Token types: ID 1, WS 2. -/
def rules : List RuleFn := [
  -- `s`, tests/gen/simplelrparser.rs:311-342
  .plain 0 none [⟨none, .call 4 1 0⟩],
  -- `a_rec`, tests/gen/simplelrparser.rs:420-489
  .recursive 2 none [⟨none, .tok 7 1⟩] 13 15 (.predict 0) none [⟨none, 9, 2, .tok 10 1⟩]]

def sim (I : Type) : Sim I where
  atn := atn
  mode := .LL
  sempred := fun _ _ _ _ _ => true
  ord := id
  hash := fun _ => 0

/-- The parser with the default or the bail strategy. -/
def cfg (bail : Bool) : Cfg CTS SimState where
  env :=
    { atn := atn
      fuel := 60
      display := fun _ => "x"
      ruleNames := ["s".toList, "a".toList]
      rangeText := fun i a b => i.base.getText a b }
  bail := bail
  guards := fun _ _ => true
  predict := (sim CTS).predict
  rules := rules

/-- A new parser for the tokens of these types. -/
def start (ts : List Nat) : GS CTS SimState where
  es := ⟨{}, P.new (CTS.withChannel (exSource ts) 0)⟩
  sim := ⟨(emptyDfas atn).getD [], []⟩

end Antlr.Gen.SimpleLR

namespace Antlr.Gen.Basic
open Antlr Prediction PredictionMode PredictionProps

/-- `_serializedATN`, tests/gen/visitorbasicparser.rs:363-367 -/
def serialized : List Nat := [
  3, 24715, 42794, 33075, 47597, 16764, 15335, 30598, 22884, 3, 3, 8, 4, 2, 9, 2, 3, 2, 3, 2, 3, 2, 3, 2,
  2, 2, 3, 2, 2, 2, 2, 6, 2, 4, 3, 2, 2, 2, 4, 5, 7, 3, 2, 2, 5, 6, 7, 2,
  2, 3, 6, 3, 3, 2, 2, 2, 2]

/-- `_ATN`, tests/gen/visitorbasicparser.rs:351-352 -/
def atn : ATN := (Deserial.deserialize serialized).getD { grammarType := .parser, maxTokenType := 0 }

/-- Token types: A 1. -/
def rules : List RuleFn := [
  -- `s`, tests/gen/visitorbasicparser.rs:317-347
  .plain 0 none [⟨none, .seq (.tok 2 1) (.tok 3 TOKEN_EOF)⟩]]

def sim (I : Type) : Sim I where
  atn := atn
  mode := .LL
  sempred := fun _ _ _ _ _ => true
  ord := id
  hash := fun _ => 0

/-- The parser with the default or the bail strategy. -/
def cfg (bail : Bool) : Cfg CTS SimState where
  env :=
    { atn := atn
      fuel := 60
      display := fun _ => "x"
      ruleNames := ["s".toList]
      rangeText := fun i a b => i.base.getText a b }
  bail := bail
  guards := fun _ _ => true
  predict := (sim CTS).predict
  rules := rules

/-- A new parser for the tokens of these types. -/
def start (ts : List Nat) : GS CTS SimState where
  es := ⟨{}, P.new (CTS.withChannel (exSource ts) 0)⟩
  sim := ⟨(emptyDfas atn).getD [], []⟩

end Antlr.Gen.Basic
