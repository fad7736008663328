import Verif.Gen.Erase
import Verif.Prediction.Verdict

/-!
# What it means that a parser accepts what its automaton accepts

The ATN of a grammar is read as a pushdown machine (`LL1Spec.Pos`, as in `Prediction/Spec.lean`).  `Path` and
`Wins` say which inputs the machine accepts; `Leads` says which piece of the machine a piece of generated
code stands for.  Nothing here refers to the execution of the code.
-/

namespace Antlr.GenSpec
open Antlr LL1Spec PredictionSpec Gen

/-- The machine gets from `p`, having read `n` tokens, to `q`, having read `n'` tokens, in so many steps.
EOF can be read any number of times. -/
inductive Path (atn : ATN) (w : Nat → Int) : Nat → Nat → Pos → Nat → Pos → Prop
  | nil {n p} : Path atn w 0 n p n p
  | step {k n p q n' r} : Step atn p q → Path atn w k n q n' r → Path atn w (k + 1) n p n' r
  | read {k n p q n' r} : w n ≠ TOKEN_EOF → ReadStep atn (w n) p q → Path atn w k (n + 1) q n' r →
      Path atn w (k + 1) n p n' r
  | eof {k n p q n' r} : w n = TOKEN_EOF → ReadStep atn TOKEN_EOF p q → Path atn w k n q n' r →
      Path atn w (k + 1) n p n' r

/-- From `p` the machine can read all the input, from token `n` on, and end, in a state `E`. -/
def Wins (atn : ATN) (E : Nat → Prop) (w : Nat → Int) (k n : Nat) (p : Pos) : Prop :=
  ∃ n' q, Path atn w k n p n' q ∧ Ended atn q ∧ w n' = TOKEN_EOF ∧ E q.1

/-- No rule calls rule `r`: its end leads nowhere. -/
def Uncalled (atn : ATN) (r : Nat) : Prop :=
  ∀ (a : Nat) (st : ATNState), atn.states[a]? = some st → st.stateType = .ruleStop → st.ruleIndex = r → st.transitions = []

/-- A state that leads nowhere. -/
def Dead (atn : ATN) (a : Nat) : Prop := ∀ st, atn.states[a]? = some st → st.transitions = []

/-- The only way on from state `a` is silent and leads to `b`. -/
def Plainly (atn : ATN) (a b : Nat) : Prop :=
  ∃ st tr, atn.states[a]? = some st ∧ st.stateType ≠ .ruleStop ∧ st.transitions = [tr] ∧ Free tr ∧ tr.target = b

/-- The only transition of state `a`, which is not the end of a rule. -/
def Single (atn : ATN) (a : Nat) (tr : Trans) : Prop :=
  ∃ st, atn.states[a]? = some st ∧ st.stateType ≠ .ruleStop ∧ st.transitions = [tr]

/-- State `a` is a decision between the given transitions, which are silent. -/
structure Decision (atn : ATN) (a : Nat) (dec : ATNState) : Prop where
  state : atn.states[a]? = some dec
  inner : dec.stateType ≠ .ruleStop
  silent : ∀ tr ∈ dec.transitions, ∃ t x, tr = .epsilon t x
  few : dec.transitions.length < 2 ^ 63

/-- The numbers of the loop's alternatives fit to the two transitions of the decision. -/
def Sides (dec : ATNState) (bodyAlt exit : Int) (body out : Nat) : Prop :=
  (bodyAlt = 1 ∧ exit = 2 ∧ ∃ x y, dec.transitions = [.epsilon body x, .epsilon out y]) ∨
  (bodyAlt = 2 ∧ exit = 1 ∧ ∃ x y, dec.transitions = [.epsilon out x, .epsilon body y])

/-- The code does what the machine does between the states `a` and `b`, for inputs of tokens `Ok`; `Ch`: the
choice is right for the decision state. -/
inductive Leads (atn : ATN) (Ok : Int → Prop) (Ch : Choice → Nat → Prop) : Code → Nat → Nat → Prop
  | skip {c a a' b} : Plainly atn a a' → Leads atn Ok Ch c a' b → Leads atn Ok Ch c a b
  | rest {c a b' b} : Leads atn Ok Ch c a b' → Plainly atn b' b → Leads atn Ok Ch c a b
  | nop {a} : Leads atn Ok Ch .nop a a
  | seq {x y a b d} : Leads atn Ok Ch x a b → Leads atn Ok Ch y b d → Leads atn Ok Ch (.seq x y) a d
  | tok {a b t} : Single atn a (.atom b t) → Leads atn Ok Ch (.tok (a : Nat) t) a b
  | set {a tr types invert} : Single atn a tr → tr.isEpsilon = false →
      (∀ x, Ok x → (Takes atn.maxTokenType tr x ↔ inSet types invert x = true)) →
      Leads atn Ok Ch (.set (a : Nat) types invert) a tr.target
  | any {a b} : Single atn a (.wildcard b) → (∀ x, Ok x → x < atn.maxTokenType) →
      Leads atn Ok Ch (.any (a : Nat)) a b
  | call {a t f r : Nat} {p q : Int} : Single atn a (.rule t f (r : Nat) p) → atn.ruleToStartState[r]? = some t →
      Leads atn Ok Ch (.call (a : Nat) r q) a f
  | block {a dec ch alts b} : Decision atn a dec → Ch ch a → alts.length = dec.transitions.length →
      (∀ (i : Nat) c tr, alts[i]? = some c → dec.transitions[i]? = some tr → Leads atn Ok Ch c tr.target b) →
      Leads atn Ok Ch (.block (a : Nat) ch alts) a b
  | opt {a dec ch alts last b} : Decision atn a dec → Ch ch a → alts.length + 1 = dec.transitions.length →
      (∀ (i : Nat) c tr, alts[i]? = some c → dec.transitions[i]? = some tr → Leads atn Ok Ch c tr.target b) →
      dec.transitions[alts.length]? = some last → Leads atn Ok Ch .nop last.target b →
      Leads atn Ok Ch (.opt (a : Nat) ch 0 alts) a b
  | optLazy {a dec ch alts first b} : Decision atn a dec → Ch ch a → alts.length + 1 = dec.transitions.length →
      (∀ (i : Nat) c tr, alts[i]? = some c → dec.transitions[i + 1]? = some tr → Leads atn Ok Ch c tr.target b) →
      dec.transitions[0]? = some first → Leads atn Ok Ch .nop first.target b →
      Leads atn Ok Ch (.opt (a : Nat) ch 1 alts) a b
  | star {a back dec ch exit bodyAlt body x y b} : Decision atn a dec → Ch ch a → Sides dec bodyAlt exit x y →
      Leads atn Ok Ch body x back → Plainly atn back a → Leads atn Ok Ch .nop y b →
      Leads atn Ok Ch (.star (a : Nat) (back : Nat) ch exit bodyAlt body) a b
  | plus {a back dec ch exit bodyAlt body y b} : Decision atn back dec → Ch ch back → Sides dec bodyAlt exit a y →
      Leads atn Ok Ch body a back → Leads atn Ok Ch .nop y b →
      Leads atn Ok Ch (.plus (a : Nat) (back : Nat) ch exit bodyAlt body) a b

/-- The rule function does what the machine does in the rule, from its start to its end. -/
inductive Mirrors (atn : ATN) (Ok : Int → Prop) (Ch : Choice → Nat → Prop) (r : Nat) : RuleFn → Prop
  | one {start stop : Nat} {a : Alt} {sst : ATNState} : atn.ruleToStartState[r]? = some start →
      atn.states[stop]? = some sst → sst.stateType = .ruleStop → sst.ruleIndex = r → Leads atn Ok Ch a.code start stop →
      Mirrors atn Ok Ch r (.plain (start : Nat) none [a])
  | many {start stop a : Nat} {dec sst : ATNState} {ch : Choice} {alts : List Alt} :
      atn.ruleToStartState[r]? = some start →
      atn.states[stop]? = some sst → sst.stateType = .ruleStop → sst.ruleIndex = r → Leads atn Ok Ch .nop start a →
      Decision atn a dec → Ch ch a → alts.length = dec.transitions.length →
      (∀ (i : Nat) x tr, alts[i]? = some x → dec.transitions[i]? = some tr → Leads atn Ok Ch x.code tr.target stop) →
      Mirrors atn Ok Ch r (.plain (start : Nat) (some ((a : Nat), ch)) alts)

/-- The generated code does what the machine does. -/
def Mirror (atn : ATN) (Ok : Int → Prop) (Ch : Choice → Nat → Prop) (rules : List RuleFn) : Prop :=
  ∀ (r : Nat) fn, rules[r]? = some fn → Mirrors atn Ok Ch r fn

/-- The answer of a test of the next token. -/
def look (sets : List (List Int)) (other : Option Int) (x : Int) : Option Int :=
  match sets.findIdx? (·.contains x), other with
  | some k, _ => some ((k : Int) + 1)
  | none, o => o

/-- The test of the next token names the alternative that reads it (or, if it is EOF, ends), whatever the
calls that led to the decision.  The input ends in states `E`. -/
def Tells (atn : ATN) (E : Nat → Prop) (Ok : Int → Prop) (a : Nat) (sets : List (List Int)) (other : Option Int) : Prop :=
  ∀ dec, atn.states[a]? = some dec → ∀ σ, Proper atn dec.ruleIndex σ → ∀ x, Ok x → ∀ j p,
    (Live atn dec σ j [x] p ∨ (x = TOKEN_EOF ∧ Live atn dec σ j [] p ∧ Ended atn p ∧ E p.1)) →
    look sets other x = some j

/-- What choices are right: tests of the next token that tell, and predictions for the decision. -/
def Chosen (atn : ATN) (E : Nat → Prop) (Ok : Int → Prop) : Choice → Nat → Prop
  | .look sets other, a => Tells atn E Ok a sets other
  | .predict d, a => atn.decisionToState[d]? = some a

/-- Tests of the next token only. -/
def Tested (atn : ATN) (E : Nat → Prop) (Ok : Int → Prop) : Choice → Nat → Prop
  | .look sets other, a => Tells atn E Ok a sets other
  | .predict _, _ => False

/-- The end of rule `r`. -/
def EndOf (atn : ATN) (r b : Nat) : Prop :=
  ∃ st, atn.states[b]? = some st ∧ st.stateType = .ruleStop ∧ st.ruleIndex = r

end Antlr.GenSpec
