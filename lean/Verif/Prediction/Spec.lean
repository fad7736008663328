import Verif.LL1.Spec
import Verif.PredictionContext.Spec

/-!
# What an alternative of a decision can match

The ATN is read as a pushdown machine.  A thread is a state with the stack of the states to return to,
innermost first (`LL1Spec.Pos`); silent steps are `LL1Spec.Step`.  Nothing here refers to
configurations, contexts or the simulator.
-/

namespace Antlr.PredictionSpec
open Antlr LL1Spec IntervalSpec

/-- The edge reads the token type.  (The wildcard misses both ends of the range: `C41_false_wildcard`.) -/
def Takes (max : Int) : Trans → Int → Prop
  | .atom _ l, x => x = l
  | .range _ a b, x => a ≤ x ∧ x ≤ b
  | .set _ s, x => Mem s.intervals x
  | .notSet _ s, x => 0 ≤ x ∧ x ≤ max ∧ ¬ Mem s.intervals x
  | .wildcard _, x => 0 < x ∧ x < max
  | _, _ => False

/-- Reading one token. -/
def ReadStep (atn : ATN) (t : Int) (p q : Pos) : Prop :=
  ∃ st tr, atn.states[p.1]? = some st ∧ st.stateType ≠ .ruleStop ∧ tr ∈ st.transitions ∧
    Takes atn.maxTokenType tr t ∧ q = (tr.target, p.2)

/-- Threads of alternative `j` (counted from 1) of the decision `dec`, entered with the call stack
`σ`, after the tokens `v`.  EOF can be read any number of times. -/
inductive Live (atn : ATN) (dec : ATNState) (σ : List Nat) : Int → List Int → Pos → Prop
  | start {i : Nat} {tr : Trans} : dec.transitions[i]? = some tr →
      Live atn dec σ ((i + 1 : Nat) : Int) [] (tr.target, σ)
  | silent {j v p q} : Live atn dec σ j v p → Step atn p q → Live atn dec σ j v q
  | read {j v p q t} : Live atn dec σ j v p → ReadStep atn t p q → Live atn dec σ j (v ++ [t]) q
  | more {j v p q} : Live atn dec σ j (v ++ [TOKEN_EOF]) p → ReadStep atn TOKEN_EOF p q →
      Live atn dec σ j (v ++ [TOKEN_EOF]) q

/-- The thread is about to read a token. -/
def Waits (atn : ATN) (p : Pos) : Prop :=
  ∃ st, atn.states[p.1]? = some st ∧ st.stateType ≠ .ruleStop ∧ ∃ tr ∈ st.transitions, tr.isEpsilon = false

/-- The thread is at the end of the outermost rule. -/
def Ended (atn : ATN) (p : Pos) : Prop :=
  p.2 = [] ∧ ∃ st, atn.states[p.1]? = some st ∧ st.stateType = .ruleStop

/-- The stack is one that calls can leave behind in rule number `r`: its top is where a call of the rule
returns to, and the rest is such a stack of the calling rule. -/
inductive Proper (atn : ATN) : Nat → List Nat → Prop
  | nil {r} : Proper atn r []
  | call {r s : Nat} {st : ATNState} {t : Nat} {tst : ATNState} {f : Nat} {i p : Int} {k : List Nat} :
      atn.states[s]? = some st → Trans.rule t f i p ∈ st.transitions →
      atn.states[t]? = some tst → tst.ruleIndex = r → Proper atn st.ruleIndex k → Proper atn r (f :: k)

/-- Parser automata without predicates as the deserializer leaves them (C59, C68): edges stay inside
their rule except for calls, which return to it; the end of a rule has an edge to wherever a call of the
rule returns, and the marks `epsilonOnly` are right. -/
structure Plain (atn : ATN) : Prop where
  small : (atn.states.length : Int) ≤ PC.EMPTY_RS
  noPred : ∀ (s : Nat) (st : ATNState), atn.states[s]? = some st → ∀ tr ∈ st.transitions,
    tr.getPredicate = none
  noPrec : ∀ (s : Nat) (st : ATNState), atn.states[s]? = some st → ∀ n g l,
    st.stateType ≠ .decision n g (.starLoopEntry l true)
  follow : ∀ (s : Nat) (st : ATNState), atn.states[s]? = some st → ∀ t f r p,
    Trans.rule t f r p ∈ st.transitions → f < atn.states.length
  marks : ∀ (s : Nat) (st : ATNState), atn.states[s]? = some st →
    (st.epsilonOnly = true ↔ st.transitions ≠ [] ∧ ∀ tr ∈ st.transitions, tr.isEpsilon = true)
  sets : ∀ (s : Nat) (st : ATNState), atn.states[s]? = some st → ∀ tr ∈ st.transitions,
    match tr with
    | .set _ x | .notSet _ x => SortedDisjoint x.intervals
    | _ => True
  sameRule : ∀ (s : Nat) (st : ATNState), atn.states[s]? = some st → st.stateType ≠ .ruleStop →
    ∀ tr ∈ st.transitions, (∀ t f r p, tr ≠ .rule t f r p) →
    ∀ st', atn.states[tr.target]? = some st' → st'.ruleIndex = st.ruleIndex
  followRule : ∀ (s : Nat) (st : ATNState), atn.states[s]? = some st → ∀ t f r p,
    Trans.rule t f r p ∈ st.transitions → ∀ st', atn.states[f]? = some st' → st'.ruleIndex = st.ruleIndex
  returns : ∀ (s : Nat) (st : ATNState), atn.states[s]? = some st → st.stateType = .ruleStop →
    ∀ (c : Nat) (cst : ATNState), atn.states[c]? = some cst → ∀ t f r p,
    Trans.rule t f r p ∈ cst.transitions → ∀ tst, atn.states[t]? = some tst →
    tst.ruleIndex = st.ruleIndex → ∃ x, .epsilon f x ∈ st.transitions
  stops : ∀ (s : Nat) (st : ATNState), atn.states[s]? = some st → st.stateType = .ruleStop →
    ∀ tr ∈ st.transitions, ∃ f x, tr = .epsilon f x ∧ ∃ (c : Nat) (cst : ATNState) (t : Nat) (r p : Int)
      (tst : ATNState), atn.states[c]? = some cst ∧ Trans.rule t f r p ∈ cst.transitions ∧
      atn.states[t]? = some tst ∧ tst.ruleIndex = st.ruleIndex
  targets : ∀ (s : Nat) (st : ATNState), atn.states[s]? = some st → ∀ tr ∈ st.transitions,
    tr.target < atn.states.length

end Antlr.PredictionSpec
