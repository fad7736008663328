import Verif.Lexer.PathSpec

/-!
# Which match of a token rule is taken

In every state the edges are tried in their order.  A way through a token rule is a thread with the choices it
made, so ways are ordered by their first difference.  Once a rule has matched at some position, the ways of the
rule that come later in this order are given up there, provided they have come to a non-greedy decision.
-/

namespace Antlr.LexOrder
open Antlr Lexer LexSpec LexPaths

/-- A way through a token rule: the number of the rule, where the way has come to, the edges chosen since the last
symbol was read, the edges chosen before each symbol (the last one first), and whether a non-greedy decision was
among the states. -/
structure Way where
  rule : Int
  thread : Thread
  now : List Nat
  before : List (List Nat)
  passed : Bool

/-- The first difference decides.  (Lists of numbers are compared by `<` in the same way, letter by letter.) -/
def Earlier : List (List Nat) → List (List Nat) → Prop
  | s :: p, s' :: p' => Earlier p p' ∨ (p = p' ∧ s < s')
  | _, _ => False

/-- Rules in their order, and the ways of a rule in the order of their choices. -/
def Before (w u : Way) : Prop :=
  w.rule < u.rule ∨ (w.rule = u.rule ∧ Earlier (w.now :: w.before) (u.now :: u.before))

/-- The same choices. -/
def Same (w u : Way) : Prop := w.rule = u.rule ∧ w.now = u.now ∧ w.before = u.before

/-- Is the state the decision of a non-greedy operator? -/
def choosy (atn : ATN) (s : Nat) : Bool :=
  match atn.states[s]? with
  | some st =>
    match st.stateType with
    | .decision _ nongreedy _ => nongreedy
    | _ => false
  | none => false

/-- The way goes on to `y` by edge number `i`. -/
def Way.move (atn : ATN) (w : Way) (i : Nat) (y : Thread) : Way :=
  { w with thread := y, now := w.now ++ [i], passed := w.passed || choosy atn y.state }

/-- The way reads a symbol and goes on to state `s`. -/
def Way.eat (atn : ATN) (w : Way) (s : Nat) : Way :=
  { w with thread := { w.thread with state := s }, now := [], before := w.now :: w.before,
           passed := w.passed || choosy atn s }

/-- One step without reading. -/
inductive Choice (atn : ATN) (holds : Int → Int → Prop) (past : Prop) : Way → Way → Prop
  | edge {w : Way} {y : Thread} {st : ATNState} {tr : Trans} {i : Nat} : atn.states[w.thread.state]? = some st →
      st.stateType ≠ .ruleStop → st.transitions[i]? = some tr → Free atn holds past tr w.thread y →
      Choice atn holds past w (w.move atn i y)
  | ret {w : Way} {st : ATNState} {f : Nat} {k : List Nat} : atn.states[w.thread.state]? = some st →
      st.stateType = .ruleStop → w.thread.stack = f :: k →
      Choice atn holds past w (w.move atn 0 { w.thread with state := f, stack := k })

/-- The way reads the symbol and goes on. -/
def Takes (atn : ATN) (holds : Int → Int → Prop) (past : Prop) (t : Int) (w u : Way) : Prop :=
  ∃ st tr, atn.states[w.thread.state]? = some st ∧ tr ∈ st.transitions ∧ ReadsSym tr t ∧
    Relation.ReflTransGen (Choice atn holds past) (w.eat atn tr.target) u

/-- The way has come to the end of its token rule. -/
def Accepts (atn : ATN) (w : Way) : Prop :=
  ∃ st, atn.states[w.thread.state]? = some st ∧ st.stateType = .ruleStop ∧ w.thread.stack = []

/-- The way is given up, among the ways `R` at the same position: it has come to a non-greedy decision, and its rule
has matched on a way before it. -/
def Cut (atn : ATN) (R : Way → Prop) (w : Way) : Prop :=
  w.passed = true ∧ ∃ u, R u ∧ Accepts atn u ∧ u.rule = w.rule ∧ Before u w

/-- The way edge number `i` of the start state begins. -/
def first (i : Nat) (tr : Trans) : Way := ⟨((i + 1 : Nat) : Int), ⟨tr.target, [], []⟩, [], [], false⟩

variable {D : Type} [InputData D]

/-- The ways after `k` symbols, for a match that begins at position `n` in mode start state `st`. -/
def Reached (env : Env D) (L : Lex D) (cs : List Int) (ix : Nat → Int) (n : Nat) (st : ATNState) : Nat → Way → Prop
  | 0, w => ∃ i tr, st.transitions[i]? = some tr ∧
      Relation.ReflTransGen (Choice env.atn (holdsAt env L cs ix n) (cs.length < n)) (first i tr) w
  | k + 1, w => ∃ u, Reached env L cs ix n st k u ∧ ¬ Cut env.atn (Reached env L cs ix n st k) u ∧ n + k ≤ cs.length ∧
      Takes env.atn (holdsAt env L cs ix (n + k + 1)) (cs.length < n + k + 1) ((cs[n + k]?).getD EOF) u w

/-- The way matches `k` symbols. -/
def Hit (env : Env D) (L : Lex D) (cs : List Int) (ix : Nat → Int) (n : Nat) (st : ATNState) (k : Nat) (w : Way) : Prop :=
  Reached env L cs ix n st k w ∧ Accepts env.atn w

/-- The way matches `k` symbols, no way matches more, and no way before it as much. -/
structure Preferred (env : Env D) (L : Lex D) (cs : List Int) (ix : Nat → Int) (n : Nat) (st : ATNState) (k : Nat)
    (w : Way) : Prop where
  hit : Hit env L cs ix n st k w
  longest : ∀ k' u, Hit env L cs ix n st k' u → k' ≤ k
  first : ∀ u, Hit env L cs ix n st k u → u = w ∨ Before w u

end Antlr.LexOrder
