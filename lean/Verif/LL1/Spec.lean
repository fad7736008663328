import Verif.LL1.Model
import Verif.IntervalSet.Spec

/-!
# What can come next

Reachability over pairs of an ATN state and a stack of return states; nothing here refers to
contexts, visited sets or the analysis itself.
-/

namespace Antlr.LL1Spec
open Antlr IntervalSpec

/-- A state with the stack of the states to return to, innermost first. -/
abbrev Pos := Nat × List Nat

/-- The edge matches the token type `x` (`lo`–`hi` = the token types of the grammar). -/
def Matches (max : Int) : Trans → Int → Prop
  | .atom _ l, x => x = l
  | .range _ a b, x => a ≤ x ∧ x ≤ b
  | .set _ s, x => Mem s.intervals x
  | .notSet _ s, x => 1 ≤ x ∧ x ≤ max ∧ ¬ Mem s.intervals x
  | .wildcard _, x => 1 ≤ x ∧ x ≤ max
  | _, _ => False

/-- An edge followed without consuming and without calling a rule. -/
def Free : Trans → Prop
  | .epsilon .. => True
  | .predicate .. => True
  | .action .. => True
  | .precedence .. => True
  | _ => False

/-- One step that consumes nothing: a free edge, a rule call, or the return at the end of a rule. -/
inductive Step (atn : ATN) : Pos → Pos → Prop
  | free {s k st tr} : atn.states[s]? = some st → st.stateType ≠ .ruleStop → tr ∈ st.transitions →
      Free tr → Step atn (s, k) (tr.target, k)
  | call {s k st t f r p} : atn.states[s]? = some st → st.stateType ≠ .ruleStop →
      .rule t f r p ∈ st.transitions → Step atn (s, k) (t, f :: k)
  | ret {s f k st} : atn.states[s]? = some st → st.stateType = .ruleStop →
      Step atn (s, f :: k) (f, k)

/-- Any number of such steps. -/
inductive Reach (atn : ATN) (p : Pos) : Pos → Prop
  | refl : Reach atn p p
  | tail {q r} : Reach atn p q → Step atn q r → Reach atn p r

/-- From position `p` the token type `x` can be matched next. -/
def CanMatch (atn : ATN) (p : Pos) (x : Int) : Prop :=
  ∃ s k st tr, Reach atn p (s, k) ∧ atn.states[s]? = some st ∧ st.stateType ≠ .ruleStop ∧
    tr ∈ st.transitions ∧ Matches atn.maxTokenType tr x

/-- From position `p` the end of the outermost rule is reached without consuming. -/
def CanEnd (atn : ATN) (p : Pos) : Prop :=
  ∃ s st, Reach atn p (s, []) ∧ atn.states[s]? = some st ∧ st.stateType = .ruleStop

/-- Well-formed ATNs: edges stay inside the ATN, calls return to the calling rule, other edges stay
inside their rule, sets are sorted and no edge is labelled with the marker `EPSILON`. -/
structure WFAtn (atn : ATN) : Prop where
  small : (atn.states.length : Int) ≤ PC.EMPTY_RS
  target : ∀ (s : Nat) (st : ATNState) (tr : Trans), atn.states[s]? = some st →
    tr ∈ st.transitions → tr.target < atn.states.length
  follow : ∀ (s : Nat) (st : ATNState) (t f : Nat) (r p : Int), atn.states[s]? = some st →
    .rule t f r p ∈ st.transitions → f < atn.states.length
  sorted : ∀ (s : Nat) (st : ATNState) (t : Nat) (set : IntervalSet), atn.states[s]? = some st →
    .notSet t set ∈ st.transitions → SortedDisjoint set.intervals
  noEpsilon : ∀ (s : Nat) (st : ATNState) (tr : Trans), atn.states[s]? = some st →
    tr ∈ st.transitions → ¬ Matches atn.maxTokenType tr TOKEN_EPSILON
  sameRule : ∀ (s : Nat) (st : ATNState) (tr : Trans) (st' : ATNState), atn.states[s]? = some st →
    st.stateType ≠ .ruleStop → tr ∈ st.transitions → Free tr →
    atn.states[tr.target]? = some st' → st'.ruleIndex = st.ruleIndex
  followRule : ∀ (s : Nat) (st : ATNState) (t f : Nat) (r p : Int) (st' : ATNState),
    atn.states[s]? = some st → st.stateType ≠ .ruleStop → .rule t f r p ∈ st.transitions →
    atn.states[f]? = some st' → st'.ruleIndex = st.ruleIndex

/-- `t` is where some call enters a rule. -/
def Entry (atn : ATN) (t : Nat) : Prop :=
  ∃ (s : Nat) (st : ATNState) (f : Nat) (r p : Int),
    atn.states[s]? = some st ∧ .rule t f r p ∈ st.transitions

/-- No rule can call itself before consuming a token. -/
def NoLeftRecursion (atn : ATN) : Prop :=
  ¬ ∃ (e : Nat) (est : ATNState) (s : Nat) (st : ATNState) (k : List Nat) (t f : Nat) (r p : Int)
      (tst : ATNState), Entry atn e ∧ atn.states[e]? = some est ∧
    Reach atn (e, []) (s, k) ∧ atn.states[s]? = some st ∧ st.stateType ≠ .ruleStop ∧
    .rule t f r p ∈ st.transitions ∧ atn.states[t]? = some tst ∧ tst.ruleIndex = est.ruleIndex

end Antlr.LL1Spec
