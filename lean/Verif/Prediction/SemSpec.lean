import Verif.Prediction.TotalSpec

/-!
# Automata with predicates on which prediction returns

The automata of grammars with left-recursive rules have precedence predicates; grammars may have predicates of
their own.  `Tame` is what `Plain` says of an automaton apart from predicates.
-/

namespace Antlr.PredictionSpec
open Antlr LL1Spec IntervalSpec

/-- The automaton is as ANTLR makes it: targets and follow states exist, a state is marked `epsilonOnly` if it has
edges and none of them reads, sets are sorted, edges other than calls stay in the rule, the ends of rules are left
by epsilon edges, the loop of a left-recursive rule begins with a block, and a state that calls a rule or has a
predicate does not read tokens as well. -/
structure Tame (atn : ATN) : Prop where
  small : (atn.states.length : Int) ≤ PC.EMPTY_RS
  follow : ∀ (s : Nat) (st : ATNState), atn.states[s]? = some st → ∀ t f r p,
    Trans.rule t f r p ∈ st.transitions → f < atn.states.length
  marks : ∀ (s : Nat) (st : ATNState), atn.states[s]? = some st →
    (st.epsilonOnly = true ↔ st.transitions ≠ [] ∧ ∀ tr ∈ st.transitions, tr.isEpsilon = true)
  sets : ∀ (s : Nat) (st : ATNState), atn.states[s]? = some st → ∀ tr ∈ st.transitions,
    match tr with
    | .set _ x | .notSet _ x => SortedDisjoint x.intervals
    | _ => True
  sameRule : ∀ (s : Nat) (st : ATNState), atn.states[s]? = some st → st.stateType ≠ .ruleStop →
    ∀ tr ∈ st.transitions, (∀ t f r p, tr ≠ .rule t f r p) →
    ∀ st', atn.states[tr.target]? = some st' → st'.ruleIndex = st.ruleIndex
  followRule : ∀ (s : Nat) (st : ATNState), atn.states[s]? = some st → ∀ t f r p,
    Trans.rule t f r p ∈ st.transitions → ∀ st', atn.states[f]? = some st' → st'.ruleIndex = st.ruleIndex
  stops : ∀ (s : Nat) (st : ATNState), atn.states[s]? = some st → st.stateType = .ruleStop →
    ∀ tr ∈ st.transitions, ∃ f x, tr = .epsilon f x
  targets : ∀ (s : Nat) (st : ATNState), atn.states[s]? = some st → ∀ tr ∈ st.transitions,
    tr.target < atn.states.length
  loops : ∀ (s : Nat) (st : ATNState), atn.states[s]? = some st → ∀ n g l,
    st.stateType = .decision n g (.starLoopEntry l true) →
    ∃ tr block, st.transitions.head? = some tr ∧ atn.states[tr.target]? = some block ∧
      ∃ n' g' e k, block.stateType = .decision n' g' (.blockStart e k)
  unmixed : ∀ (s : Nat) (st : ATNState), atn.states[s]? = some st → ∀ tr ∈ st.transitions,
    (∃ t f r p, tr = .rule t f r p) ∨ tr.getPredicate ≠ none → ∀ tr' ∈ st.transitions, tr'.isEpsilon = true

/-- `Plain` automata are. -/
theorem Plain.tame {atn : ATN} (ha : Plain atn) (hu : Unmixed atn) : Tame atn where
  small := ha.small
  follow := ha.follow
  marks := ha.marks
  sets := ha.sets
  sameRule := ha.sameRule
  followRule := ha.followRule
  stops := fun s st h1 h2 tr h3 => by obtain ⟨f, x, h, -⟩ := ha.stops s st h1 h2 tr h3; exact ⟨f, x, h⟩
  targets := ha.targets
  loops := fun s st h n g l h' => absurd h' (ha.noPrec s st h n g l)
  unmixed := by
    rintro s st h1 tr h2 (⟨t, f, r, p, rfl⟩ | h3)
    · exact hu s st h1 t f r p h2
    · exact absurd (ha.noPred s st h1 tr h2) h3

/-- A predicate of the automaton. -/
def IsPred (atn : ATN) (p : SC) : Prop :=
  ∃ (s : Nat) (st : ATNState) (tr : Trans), atn.states[s]? = some st ∧ tr ∈ st.transitions ∧ tr.getPredicate = some p

end Antlr.PredictionSpec
