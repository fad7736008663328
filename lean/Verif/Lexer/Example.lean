import Verif.Lexer.Spec

/-!
# A small lexer grammar used as the concrete case beside the theorems

```
A  : 'a' ;            // type 1
WS : ' ' -> skip ;    // type 2
M  : 'm' -> more ;    // type 3
NL : '\n' ;           // type 4
X  : 'x' {action} ;   // type 5
```
-/

namespace Antlr.LexExample
open Antlr Lexer

def st (r : Nat) (ty : StateType) (trs : List Trans) : ATNState :=
  { ruleIndex := r, stateType := ty, transitions := trs, epsilonOnly := !trs.isEmpty && trs.all (·.isEpsilon) }

def exATN : ATN where
  grammarType := .lexer
  maxTokenType := 5
  decisionToState := [0]
  modeToStartState := [0]
  ruleToStartState := [1, 4, 8, 12, 15]
  ruleToStopState := [3, 7, 11, 14, 18]
  ruleToTokenType := [1, 2, 3, 4, 5]
  lexerActions := [.skip, .more, .custom 4 0]
  states := [
    st 0 (.decision 0 false .tokenStart) [.epsilon 1 0, .epsilon 4 0, .epsilon 8 0, .epsilon 12 0, .epsilon 15 0],
    st 0 (.ruleStart 3 false) [.epsilon 2 0], st 0 .basic [.atom 3 97], st 0 .ruleStop [],
    st 1 (.ruleStart 7 false) [.epsilon 5 0], st 1 .basic [.atom 6 32], st 1 .basic [.action 7 false 1 0 0],
      st 1 .ruleStop [],
    st 2 (.ruleStart 11 false) [.epsilon 9 0], st 2 .basic [.atom 10 109],
      st 2 .basic [.action 11 false 2 1 0], st 2 .ruleStop [],
    st 3 (.ruleStart 14 false) [.epsilon 13 0], st 3 .basic [.atom 14 10], st 3 .ruleStop [],
    st 4 (.ruleStart 18 false) [.epsilon 16 0], st 4 .basic [.atom 17 120],
      st 4 .basic [.action 18 false 4 2 0], st 4 .ruleStop []]

/-- A hash good enough for the example. -/
def exHash (l : List Config) : Nat := l.foldl (fun h c => h * 100 + c.state) 0

def exEnv : Env Str where
  atn := exATN
  hash := exHash
  sempred := fun _ _ _ => true
  action := fun _ _ L => L
  beforeEmit := id
  toChars := Str.chars

/-- The empty DFA of the only mode. -/
def exDFAs : List DFA := ((DFA.new exATN 0 0).toList)

/-- The input `a`, space, `m`, `a`, newline, `?`, `a`. -/
def exText : List Char := ['a', ' ', 'm', 'a', '\n', '?', 'a']

end Antlr.LexExample
