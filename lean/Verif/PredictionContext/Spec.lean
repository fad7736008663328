import Verif.PredictionContext.Model

/-!
# What prediction contexts mean

A prediction context stands for a set of call stacks; a stack is the list of return states,
innermost first.
-/

namespace Antlr.StackSpec
open Antlr

/-- The stack `s` is one of the stacks the context stands for. -/
inductive HasStack : PC → List Int → Prop
  | bottomS : HasStack (.single none PC.EMPTY_RS) []
  | pushS {p r s} : HasStack p s → HasStack (.single (some p) r) (r :: s)
  | bottomA {l} : (none, PC.EMPTY_RS) ∈ l → HasStack (.array l) []
  | pushA {l p r s} : (some p, r) ∈ l → HasStack p s → HasStack (.array l) (r :: s)

/-- Local-context reading: the bottom of a stack stands for any caller. -/
def Allows (c : PC) (s : List Int) : Prop := ∃ t u, s = t ++ u ∧ HasStack c t

/-- Well-formed contexts: return states strictly increase, only the empty marker has no parent and
it comes last (it is the largest return state). -/
inductive WF : PC → Prop
  | empty : WF (.single none PC.EMPTY_RS)
  | single {p r} : r < PC.EMPTY_RS → WF p → WF (.single (some p) r)
  | array {l : List (Option PC × Int)} : 2 ≤ l.length → l.Pairwise (fun x y => x.2 < y.2) →
      (∀ r, (none, r) ∈ l → r = PC.EMPTY_RS) →
      (∀ p r, (some p, r) ∈ l → r < PC.EMPTY_RS) →
      (∀ p r, (some p, r) ∈ l → WF p) → WF (.array l)

/-- The stacks a context stands for in a mode: with the bottom as wildcard (local context) or not
(full context). -/
def Den (wild : Bool) (c : PC) (s : List Int) : Prop :=
  if wild then Allows c s else HasStack c s

end Antlr.StackSpec
