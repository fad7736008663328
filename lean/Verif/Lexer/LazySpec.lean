import Verif.Lexer.OrderSpec

/-!
# Token rules of the form `OPEN .*? CLOSE`

What the automaton of such a rule looks like, and what its tokens should look like.
-/

namespace Antlr.LexLazy
open Antlr Lexer LexSpec LexPaths LexOrder

variable {D : Type} [InputData D]

/-- The edge is always passed without reading: a jump, a predicate that always holds, an action of the grammar. -/
def Skips (env : Env D) : Trans → Prop
  | .epsilon _ _ => True
  | .predicate _ _ r p => ∀ L, env.sempred r p L = true
  | .action _ _ _ a _ => 0 ≤ a ∧ a.toNat < env.atn.lexerActions.length
  | _ => False

/-- A line of states, each with one edge, that reads the word. -/
inductive Line (env : Env D) : Nat → List Int → Nat → Prop
  | done (s : Nat) : Line env s [] s
  | pass {s t : Nat} {st : ATNState} {tr : Trans} {word : List Int} : env.atn.states[s]? = some st →
      st.stateType ≠ .ruleStop → st.transitions = [tr] → Skips env tr → Line env tr.target word t → Line env s word t
  | read {s t : Nat} {st : ATNState} {u : Nat} {c : Int} {word : List Int} : env.atn.states[s]? = some st →
      st.stateType ≠ .ruleStop → st.transitions = [.atom u c] → c ≠ EOF → Line env u word t → Line env s (c :: word) t

/-- The edge of a dot or of a complement like `~'x'`. -/
def Dot : Trans → Prop
  | .wildcard _ | .notSet _ _ => True
  | _ => False

/-- The rule that begins in state `s` is `OPEN DOT*? CLOSE`: a line for `OPEN` up to the decision of the loop, whose
first edge leaves the loop for a line for `CLOSE` up to the end of the rule, and whose second edge leads through `dot`
back to the decision. -/
structure LazyRule (env : Env D) (s : Nat) (op : List Int) (dot : Trans) (cl : List Int) : Prop where
  form : ∃ (e x b d z : Nat) (num p p' : Int) (kind : DecisionState) (se sd sz : ATNState), s ≠ e ∧ Line env s op e ∧
    env.atn.states[e]? = some se ∧ se.stateType = .decision num true kind ∧ se.transitions = [.epsilon x p, .epsilon b p'] ∧
    Line env b [] d ∧ env.atn.states[d]? = some sd ∧ sd.stateType ≠ .ruleStop ∧ sd.transitions = [dot] ∧ Dot dot ∧
    Line env dot.target [] e ∧ Line env x cl z ∧ env.atn.states[z]? = some sz ∧ sz.stateType = .ruleStop

/-- The word stands in the text at position `p`. -/
def Stands (cs : List Int) (p : Nat) (word : List Int) : Prop := word <+: cs.drop p

/-- From position `n` on there is `OPEN`, a body, and `CLOSE`, which ends `k` symbols after `n` and does not occur
earlier after `OPEN`. -/
def ClosedAt (cs : List Int) (n : Nat) (op cl : List Int) (k : Nat) : Prop :=
  ∃ body, k = (op ++ body ++ cl).length ∧ Stands cs n (op ++ body ++ cl) ∧
    ∀ q, op.length ≤ q → Stands cs (n + q) cl → k ≤ q + cl.length

end Antlr.LexLazy
