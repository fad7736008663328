import Verif.DFA.Model
import Verif.ErrorListener.Model

/-!
# Printing a DFA: `DFASerializer` (src/dfa_serializer.rs), `DFA::to_string`, `DFA::to_lexer_string` (src/dfa.rs:141-167)

Texts are lists of characters.  `none` is a panic.
-/

namespace Antlr

/-- `get_state_string`, src/dfa_serializer.rs:43-59; `none` = the subtraction underflows, or `unimplemented!()` -/
def stateString (s : DFAState) : Option (List Char) :=
  if s.stateNumber = 0 then none
  else if s.isAccept && !s.predicates.isEmpty then none
  else some ((if s.isAccept then [':'] else []) ++ ('s' :: showNat (s.stateNumber - 1)) ++
    (if s.requiresFullCtx then ['^'] else []) ++
    (if s.isAccept then '=' :: '>' :: showInt s.prediction else []))

/-- The body of the loops of `fmt`, src/dfa_serializer.rs:16-25; `none` = a panic in it (also of `dfa[edge]`) -/
def edgeString (states : List DFAState) (label : Nat → Option (List Char)) (source : DFAState) (i edge : Nat) :
    Option (List Char) :=
  if edge ≠ 0 ∧ edge ≠ ERROR_DFA_STATE_REF then
    (states[edge]?).bind fun target => (stateString source).bind fun a => (label i).bind fun l =>
      (stateString target).map fun b => a ++ '-' :: l ++ '-' :: '>' :: b ++ ['\n']
  else some []

/-- The inner loop of `fmt`, src/dfa_serializer.rs:16-27, from edge `i` on -/
def edgeStrings (states : List DFAState) (label : Nat → Option (List Char)) (source : DFAState) :
    Nat → List Nat → Option (List Char)
  | _, [] => some []
  | i, e :: es => (edgeString states label source i e).bind fun a =>
      (edgeStrings states label source (i + 1) es).map fun b => a ++ b

/-- The outer loop of `fmt`, src/dfa_serializer.rs:15-28 -/
def stateStrings (states : List DFAState) (label : Nat → Option (List Char)) : List DFAState → Option (List Char)
  | [] => some []
  | s :: ss => (edgeStrings states label s 0 s.edges).bind fun a =>
      (stateStrings states label ss).map fun b => a ++ b

/-- `char::try_from(x as u32).unwrap()`, src/dfa.rs:164 -/
def charOf (x : Nat) : Option Char :=
  if (x % 2 ^ 32).isValidChar then some (Char.ofNat (x % 2 ^ 32)) else none

namespace DFA

/-- `to_lexer_string`, src/dfa.rs:156-167 -/
def toLexerString (d : DFA) : Option (List Char) :=
  if d.s0 = none then some []
  else stateStrings d.states (fun x => (charOf x).map fun c => ['\'', c, '\'']) d.states

/-- `to_string`, src/dfa.rs:141-154 -/
def toString (d : DFA) (v : Vocabulary) : Option (List Char) :=
  if d.s0 = none then some []
  else stateStrings d.states (fun x => some (v.getDisplayName ((x : Int) - 1)).toList) d.states

end DFA
end Antlr
