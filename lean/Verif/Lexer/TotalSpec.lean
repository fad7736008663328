import Verif.Lexer.PathSpec

/-!
# Lexer automata on which matching returns

Three conditions on the automaton alone: nothing it refers to is missing, it has no loop without
reading, and no rule matches without reading a character.
-/

namespace Antlr.LexTotal
open Antlr Lexer LexPaths

/-- A step that reads no character, with every predicate taken to hold and with EOF taken to be there
to be read. -/
abbrev Idle (atn : ATN) : Thread → Thread → Prop := Silent atn (fun _ _ => True) True

/-- `n` steps in a row without reading a character can be made from `x`. -/
def Chain (atn : ATN) : Nat → Thread → Prop
  | 0, _ => True
  | n + 1, x => ∃ y, Idle atn x y ∧ Chain atn n y

/-- There is no loop without reading: `n` such steps in a row are too much, whatever the state. -/
def NoLoop (atn : ATN) (n : Nat) : Prop := ∀ s, ¬ Chain atn n ⟨s, [], []⟩

/-- Nothing the automaton refers to is missing: edges and calls lead to states, actions exist, rules
have token types, modes have start states.  Calls start in states that read nothing, edges out of stop
states are jumps, there are no precedence predicates, and if an edge reads EOF then there are no
predicates (evaluating one at the end of the input panics, C28). -/
structure Whole (atn : ATN) : Prop where
  small : (atn.states.length : Int) ≤ PC.EMPTY_RS
  target : ∀ (s : Nat) (st : ATNState), atn.states[s]? = some st → ∀ tr ∈ st.transitions,
    tr.target < atn.states.length
  follow : ∀ (s : Nat) (st : ATNState), atn.states[s]? = some st → ∀ t f r p, Trans.rule t f r p ∈ st.transitions →
    f < atn.states.length ∧ st.epsilonOnly = true
  action : ∀ (s : Nat) (st : ATNState), atn.states[s]? = some st → ∀ t b r a p,
    Trans.action t b r a p ∈ st.transitions → 0 ≤ a ∧ a.toNat < atn.lexerActions.length
  parserOnly : ∀ (s : Nat) (st : ATNState), atn.states[s]? = some st → ∀ t p, Trans.precedence t p ∉ st.transitions
  stop : ∀ (s : Nat) (st : ATNState), atn.states[s]? = some st → st.stateType = .ruleStop →
    st.ruleIndex < atn.ruleToTokenType.length ∧ ∀ tr ∈ st.transitions, ∃ t p, tr = .epsilon t p
  mode : ∀ ss ∈ atn.modeToStartState, ss < atn.states.length
  eof : (∀ (s : Nat) (st : ATNState), atn.states[s]? = some st → ∀ t b r p, Trans.predicate t b r p ∉ st.transitions) ∨
    ∀ (s : Nat) (st : ATNState), atn.states[s]? = some st → ∀ tr ∈ st.transitions, ¬ ReadsSym tr EOF

/-- No token rule matches without reading a character. -/
def NoEmpty (atn : ATN) : Prop :=
  ∀ ss ∈ atn.modeToStartState, ∀ st, atn.states[ss]? = some st → ∀ tr ∈ st.transitions, ∀ s acts t,
    atn.states[s]? = some t → t.stateType = .ruleStop →
    ¬ Relation.ReflTransGen (Idle atn) ⟨tr.target, [], []⟩ ⟨s, [], acts⟩

end Antlr.LexTotal
