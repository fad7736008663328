import Verif.DFA.Model

/-!
# What a printed DFA says

Independent of the serializer: the arrows of a DFA, and how a line `:s3=>7-'x'->s4` names an arrow.
-/

namespace Antlr.PrintSpec
open Antlr

/-- The DFA has an arrow from state `i` to state `j` labelled `c`: the entry `c` of the edges of `i` is `j`, neither
empty (0) nor a remembered failure. -/
def Arrow (d : DFA) (i c j : Nat) : Prop :=
  ∃ s : DFAState, d.states[i]? = some s ∧ s.edges[c]? = some j ∧ j ≠ 0 ∧ j ≠ ERROR_DFA_STATE_REF

/-- What a line says about one end of an arrow: its number (counted from 0 at state 1), what an accepting state
predicts, and whether the state calls for full context. -/
structure Mark where
  number : Nat
  predicts : Option Int
  full : Bool
deriving DecidableEq

/-- What there is to say about state `i`. -/
def Marked (d : DFA) (i : Nat) (m : Mark) : Prop :=
  ∃ s : DFAState, d.states[i]? = some s ∧ m.number + 1 = i ∧ m.full = s.requiresFullCtx ∧
    m.predicts = if s.isAccept then some s.prediction else none

/-- One end of an arrow in a line; `num` and `int` write numbers. -/
def Mark.text (num : Nat → List Char) (int : Int → List Char) (m : Mark) : List Char :=
  (if m.predicts.isSome then [':'] else []) ++ ('s' :: num m.number) ++ (if m.full then ['^'] else []) ++
    match m.predicts with
    | some p => '=' :: '>' :: int p
    | none => []

/-- The lines come by source state, then by label. -/
def Before (a b : Nat × Nat × Nat) : Prop := a.1 < b.1 ∨ a.1 = b.1 ∧ a.2.1 < b.2.1

/-- The names `0` to `m` can be told apart in a line, where `->` follows: none of them with `->` begins another with
`->`. -/
def Apart (name : Nat → List Char) (m : Nat) : Prop :=
  ∀ a b, a ≤ m → b ≤ m → name a ++ ['-', '>'] <+: name b ++ ['-', '>'] → a = b

end Antlr.PrintSpec
