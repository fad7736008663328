import Verif.Lexer.Spec
import Verif.IntervalSet.Spec
import Mathlib.Logic.Relation

/-!
# What the rules of a lexer mode match

The automaton is read as a pushdown machine with one thread per way through a token rule.  Positions
are characters of the input; the position after the last character is `cs.length`, and reading EOF there
leads to the position `cs.length + 1`, where EOF can be read any number of times.
-/

namespace Antlr.LexPaths
open Antlr Lexer LexSpec IntervalSpec

/-- A thread: its state, the states to continue in after the rules it is in, innermost first, and the
actions it passed in the token rule itself (not in rules called by it). -/
structure Thread where
  state : Nat
  stack : List Nat
  acts : List LexerAction

/-- The edge reads the symbol.  (The wildcard misses both ends of the range: `C41_false_wildcard`.) -/
def ReadsSym : Trans → Int → Prop
  | .atom _ l, x => x = l
  | .range _ a b, x => a ≤ x ∧ x ≤ b
  | .set _ s, x => Mem s.intervals x
  | .notSet _ s, x => 0 ≤ x ∧ x ≤ 0x10FFFF ∧ ¬ Mem s.intervals x
  | .wildcard _, x => 0 < x ∧ x < 0x10FFFF
  | _, _ => False

/-- The edge taken without reading leads from `x` to `y`: jumps, calls of other rules, predicates that
hold, actions, and at the very end also edges that read EOF. -/
def Free (atn : ATN) (holds : Int → Int → Prop) (past : Prop) (tr : Trans) (x y : Thread) : Prop :=
  match tr with
  | .epsilon t _ => y = { x with state := t }
  | .rule t f _ _ => y = { x with state := t, stack := f :: x.stack }
  | .predicate t _ r p => holds r p ∧ y = { x with state := t }
  | .action t _ _ a _ =>
    if x.stack = [] then
      ∃ act, 0 ≤ a ∧ atn.lexerActions[a.toNat]? = some act ∧ y = { x with state := t, acts := x.acts ++ [act] }
    else y = { x with state := t }
  | .atom t _ | .range t _ _ | .set t _ => past ∧ ReadsSym tr EOF ∧ y = { x with state := t }
  | _ => False

/-- One step without reading. -/
inductive Silent (atn : ATN) (holds : Int → Int → Prop) (past : Prop) : Thread → Thread → Prop
  | edge {x y : Thread} {st : ATNState} {tr : Trans} : atn.states[x.state]? = some st →
      st.stateType ≠ .ruleStop → tr ∈ st.transitions → Free atn holds past tr x y →
      Silent atn holds past x y
  | ret {x : Thread} {st : ATNState} {f : Nat} {k : List Nat} : atn.states[x.state]? = some st →
      st.stateType = .ruleStop → x.stack = f :: k →
      Silent atn holds past x { x with state := f, stack := k }

/-- The thread can read on, or has matched. -/
def Worth (atn : ATN) (x : Thread) : Prop :=
  ∃ st, atn.states[x.state]? = some st ∧
    ((st.stateType = .ruleStop ∧ x.stack = []) ∨ (st.stateType ≠ .ruleStop ∧ st.epsilonOnly = false))

variable {D : Type} [InputData D]

/-- The predicates at position `n`, on a lexer that is otherwise as `L`. -/
def holdsAt (env : Env D) (L : Lex D) (cs : List Int) (ix : Nat → Int) (n : Nat) (r p : Int) : Prop :=
  env.sempred r p { L with cur := at_ L.cur.input.data cs ix (min n cs.length) } = true

/-- Threads of the token rule number `a` (counted from 1) at position `v`, for a match that begins at
position `n` in mode start state `st`. -/
inductive Live (env : Env D) (L : Lex D) (cs : List Int) (ix : Nat → Int) (n : Nat) (st : ATNState) :
    Int → Nat → Thread → Prop
  | start {i : Nat} {tr : Trans} : st.transitions[i]? = some tr →
      Live env L cs ix n st ((i + 1 : Nat) : Int) n ⟨tr.target, [], []⟩
  | silent {a : Int} {v : Nat} {x y : Thread} : Live env L cs ix n st a v x →
      Silent env.atn (holdsAt env L cs ix v) (cs.length < v) x y → Live env L cs ix n st a v y
  | read {a : Int} {v : Nat} {x : Thread} {s : ATNState} {tr : Trans} : Live env L cs ix n st a v x →
      v ≤ cs.length → env.atn.states[x.state]? = some s → tr ∈ s.transitions →
      ReadsSym tr ((cs[v]?).getD EOF) → Live env L cs ix n st a (v + 1) { x with state := tr.target }

/-- Token rule number `a` matches the input from `n` to `v`, ending in stop state `s` having passed the
actions `acts`. -/
def Matches (env : Env D) (L : Lex D) (cs : List Int) (ix : Nat → Int) (n : Nat) (st : ATNState) (a : Int)
    (v s : Nat) (acts : List LexerAction) : Prop :=
  Live env L cs ix n st a v ⟨s, [], acts⟩ ∧ ∃ t, env.atn.states[s]? = some t ∧ t.stateType = .ruleStop

/-- ... and no rule matches more, and no earlier rule matches as much. -/
structure FirstLongest (env : Env D) (L : Lex D) (cs : List Int) (ix : Nat → Int) (n : Nat) (st : ATNState) (a : Int)
    (v s : Nat) (acts : List LexerAction) : Prop where
  matched : Matches env L cs ix n st a v s acts
  longest : ∀ a' v' s' acts', Matches env L cs ix n st a' v' s' acts' → v' ≤ v
  first : ∀ a' s' acts', Matches env L cs ix n st a' v s' acts' → a ≤ a'

/-- No rule matches anything. -/
def NoMatch (env : Env D) (L : Lex D) (cs : List Int) (ix : Nat → Int) (n : Nat) (st : ATNState) : Prop :=
  ∀ a v s acts, ¬ Matches env L cs ix n st a v s acts

/-- Some rule is not yet ruled out after reading the input from `n` to before `v`: a thread can read on
or has matched. -/
def Viable (env : Env D) (L : Lex D) (cs : List Int) (ix : Nat → Int) (n : Nat) (st : ATNState) (v : Nat) : Prop :=
  ∃ a x, Live env L cs ix n st a v x ∧ Worth env.atn x

/-- Every state belongs to the rule it has the number of: edges stay inside the rule, except calls,
whose follow state is in the rule, returns, and the edges of mode start states, which nothing leads to. -/
structure RuleWise (atn : ATN) : Prop where
  edge : ∀ (s : Nat) (st : ATNState), atn.states[s]? = some st → (∀ n g, st.stateType ≠ .decision n g .tokenStart) →
    st.stateType ≠ .ruleStop → ∀ tr ∈ st.transitions, (∀ t f r p, tr ≠ .rule t f r p) →
    ∀ t, atn.states[tr.target]? = some t → t.ruleIndex = st.ruleIndex
  call : ∀ (s : Nat) (st : ATNState), atn.states[s]? = some st → ∀ t f r p, Trans.rule t f r p ∈ st.transitions →
    ∀ u, atn.states[f]? = some u → u.ruleIndex = st.ruleIndex ∧ ∀ n g, u.stateType ≠ .decision n g .tokenStart
  into : ∀ (s : Nat) (st : ATNState), atn.states[s]? = some st → ∀ tr ∈ st.transitions,
    ∀ t, atn.states[tr.target]? = some t → ∀ n g, t.stateType ≠ .decision n g .tokenStart

/-- Lexer automata as the tool writes them: states that read have one edge, all other edges are free, and edges
lead to states. -/
structure Tidy (atn : ATN) : Prop where
  small : (atn.states.length : Int) ≤ PC.EMPTY_RS
  one : ∀ (s : Nat) (st : ATNState), atn.states[s]? = some st → st.epsilonOnly = false →
    st.stateType ≠ .ruleStop → st.transitions.length ≤ 1
  free : ∀ (s : Nat) (st : ATNState), atn.states[s]? = some st → st.epsilonOnly = true ∨ st.stateType = .ruleStop →
    ∀ tr ∈ st.transitions, tr.isEpsilon = true
  follow : ∀ (s : Nat) (st : ATNState), atn.states[s]? = some st → ∀ t f r p, Trans.rule t f r p ∈ st.transitions →
    f < atn.states.length
  sets : ∀ (s : Nat) (st : ATNState), atn.states[s]? = some st → ∀ tr ∈ st.transitions,
    match tr with
    | .set _ x | .notSet _ x => SortedDisjoint x.intervals
    | _ => True

/-- The state is not the decision of a non-greedy operator. -/
def Calm (atn : ATN) (s : Nat) : Prop :=
  ∀ (st : ATNState), atn.states[s]? = some st → ∀ n k, st.stateType ≠ .decision n true k

/-- ... written for grammars without non-greedy operators. -/
structure Greedy (atn : ATN) : Prop extends Tidy atn where
  greedy : ∀ s, Calm atn s

/-- The threads that have not come to a non-greedy decision. -/
inductive Eager (env : Env D) (L : Lex D) (cs : List Int) (ix : Nat → Int) (n : Nat) (st : ATNState) :
    Int → Nat → Thread → Prop
  | start {i : Nat} {tr : Trans} : st.transitions[i]? = some tr →
      Eager env L cs ix n st ((i + 1 : Nat) : Int) n ⟨tr.target, [], []⟩
  | silent {a : Int} {v : Nat} {x y : Thread} : Eager env L cs ix n st a v x →
      Silent env.atn (holdsAt env L cs ix v) (cs.length < v) x y → Calm env.atn y.state → Eager env L cs ix n st a v y
  | read {a : Int} {v : Nat} {x : Thread} {s : ATNState} {tr : Trans} : Eager env L cs ix n st a v x →
      v ≤ cs.length → env.atn.states[x.state]? = some s → tr ∈ s.transitions →
      ReadsSym tr ((cs[v]?).getD EOF) → Calm env.atn tr.target → Eager env L cs ix n st a (v + 1) { x with state := tr.target }

/-- Token rule number `a` matches the input from `n` to `v` without a non-greedy decision. -/
def EagerMatch (env : Env D) (L : Lex D) (cs : List Int) (ix : Nat → Int) (n : Nat) (st : ATNState) (a : Int)
    (v : Nat) : Prop :=
  ∃ s acts t, Eager env L cs ix n st a v ⟨s, [], acts⟩ ∧ env.atn.states[s]? = some t ∧ t.stateType = .ruleStop

/-- Token rule number `a` matches the input from `n` to `v`, and no rule matches more without a non-greedy
decision, and no earlier rule as much. -/
structure FirstOfEager (env : Env D) (L : Lex D) (cs : List Int) (ix : Nat → Int) (n : Nat) (st : ATNState) (a : Int)
    (v s : Nat) (acts : List LexerAction) : Prop where
  matched : Matches env L cs ix n st a v s acts
  longest : ∀ a' v', EagerMatch env L cs ix n st a' v' → v' ≤ v
  first : ∀ a', EagerMatch env L cs ix n st a' v → a ≤ a'

/-- Some thread that has not come to a non-greedy decision can read on after the input from `n` to before `v`,
or has matched. -/
def EagerViable (env : Env D) (L : Lex D) (cs : List Int) (ix : Nat → Int) (n : Nat) (st : ATNState) (v : Nat) : Prop :=
  ∃ a x, Eager env L cs ix n st a v x ∧ Worth env.atn x

end Antlr.LexPaths
