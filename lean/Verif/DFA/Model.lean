import Verif.ATN.Model
import Verif.ConfigSet.Model
import Verif.Vocabulary.Model

/-!
# Model of `src/dfa.rs`, `src/dfa_state.rs` and of the DFA updates of the two simulators

The 64-bit hash of a state is a parameter `hash` of the functions that use it.  Locks are
modelled apart, in `Concurrency/`.
-/

namespace Antlr

/-- `DFAState`, src/dfa_state.rs:26-41; edges hold state numbers, 0 = no edge and
`ERROR_DFA_STATE_REF` = error edge. -/
structure DFAState where
  stateNumber : Nat
  configs : ConfigSet
  edges : List Nat := []
  isAccept : Bool := false
  prediction : Int := 0
  executor : Option (List LexerAction) := none
  requiresFullCtx : Bool := false
  predicates : List (Int × SC) := []
deriving DecidableEq

/-- `ERROR_DFA_STATE_REF`, src/lexer_atn_simulator.rs:36 (`usize::MAX`) -/
def ERROR_DFA_STATE_REF : Nat := 2 ^ 64 - 1

/-- `new_dfastate`, src/dfa_state.rs:59-72 -/
def DFAState.new (n : Nat) (configs : ConfigSet) : DFAState := { stateNumber := n, configs := configs }

/-- `PartialEq for DFAState`, src/dfa_state.rs:43-47 -/
def DFAState.same (a b : DFAState) : Bool := a.configs.same b.configs

/-- `DFA`, src/dfa.rs:37-56; `statesMap` is the hash map from state hashes to state numbers. -/
structure DFA where
  atnStartState : Nat
  decision : Int
  states : List DFAState := []
  statesMap : List (Nat × List Nat) := []
  s0 : Option Nat := none
  isPrecedence : Bool := false
deriving DecidableEq

/-- `Vec::resize(n, 0)`, only used to grow -/
def growTo (edges : List Nat) (n : Nat) : List Nat := edges ++ List.replicate (n - edges.length) 0

/-- An edge as read by the `match` of src/dfa.rs:109-112 and its copies. -/
def readEdge (x : Nat) : Option Nat := if x = 0 then none else some x

/-- `map.entry(key).or_insert(vec![]).push(n)` -/
def mapPush (m : List (Nat × List Nat)) (key n : Nat) : List (Nat × List Nat) :=
  match m with
  | [] => [(key, [n])]
  | (k, l) :: m => if k = key then (k, l ++ [n]) :: m else (k, l) :: mapPush m key n

namespace DFA

/-- Is the state a precedence loop entry, the pattern of src/dfa.rs:77-84 -/
def isPrecedenceState (s : ATNState) : Bool :=
  match s.stateType with
  | .decision _ _ (.starLoopEntry _ true) => true
  | _ => false

/-- `DFA::new`, src/dfa.rs:59-97; `none` = the start state does not exist (panic). -/
def new (atn : ATN) (start : Nat) (decision : Int) : Option DFA :=
  let null := DFAState.new (2 ^ 64 - 1) (ConfigSet.newBase true)
  (atn.states[start]?).map fun s =>
    if isPrecedenceState s then
      { atnStartState := start, decision := decision, isPrecedence := true, s0 := some 1,
        states := [null, DFAState.new 1 (ConfigSet.newBase true)] }
    else { atnStartState := start, decision := decision, states := [null] }

/-- `get_precedence_start_state`, src/dfa.rs:99-113; outer `none` = panic -/
def getPrecedenceStart (d : DFA) (p : Int) : Option (Option Nat) :=
  if d.isPrecedence then
    match d.s0 with
    | none => some none
    | some s0 => (d.states[s0]?).map fun s => (s.edges[asUsize p]?).bind readEdge
  else none

/-- The edge update of `set_precedence_start_state`, src/dfa.rs:126-131 -/
def setPrecedenceEdge (p : Nat) (start : Nat) (s : DFAState) : DFAState :=
  { s with edges := ((if s.edges.length ≤ p then growTo s.edges (p + 1) else s.edges).set p start) }

/-- `set_precedence_start_state`, src/dfa.rs:115-133; `none` = panic -/
def setPrecedenceStart (d : DFA) (p : Int) (start : Nat) : Option DFA :=
  if d.isPrecedence then
    if p < 0 then some d
    else match d.s0 with
      | none => some d
      | some s0 => (d.states[s0]?).map fun s =>
          { d with states := d.states.set s0 (setPrecedenceEdge p.toNat start s) }
  else none

/-- `get_existing_target_state`, src/parser_atn_simulator.rs:361-373; outer `none` = index panic.
(`t + 1` cast to `usize`.) -/
def existingTarget (d : DFA) (prev : Nat) (t : Int) : Option (Option Nat) :=
  (d.states[prev]?).map fun s => (s.edges[asUsize (t + 1)]?).bind readEdge

/-- The body of `add_dfaedge`, src/parser_atn_simulator.rs:1416-1426; `none` = index panic -/
def edgeIn (maxTokenType : Int) (s : DFAState) (t : Int) (dst : Nat) : Option DFAState :=
  if t < -1 ∨ t > maxTokenType then some s
  else
    let edges := if s.edges.isEmpty then growTo s.edges (asUsize maxTokenType + 2) else s.edges
    if asUsize (t + 1) < edges.length then some { s with edges := edges.set (asUsize (t + 1)) dst }
    else none

/-- `add_dfaedge(&mut dfa.states[from], t, to)` -/
def addEdge (maxTokenType : Int) (d : DFA) (src : Nat) (t : Int) (dst : Nat) : Option DFA :=
  (d.states[src]?).bind fun s =>
    (edgeIn maxTokenType s t dst).map fun s' => { d with states := d.states.set src s' }

/-- The search of `add_dfastate`, src/parser_atn_simulator.rs:1437-1441; `none` inside the result of
`states[it]` (an index panic) cannot happen and counts as "not equal". -/
def findState (hash : ConfigSet → Nat) (d : DFA) (D : DFAState) : Option Nat :=
  ((d.statesMap.lookup (hash D.configs)).getD []).find? fun i =>
    match d.states[i]? with
    | some s => s.same D
    | none => false

/-- `add_dfastate`, src/parser_atn_simulator.rs:1428-1460.  `optimize_configs` is left out: it
replaces contexts by equal ones (C64).  No caller passes a state numbered `ERROR_DFA_STATE_REF`. -/
def addState (hash : ConfigSet → Nat) (d : DFA) (D : DFAState) : DFA × Nat :=
  if D.stateNumber = ERROR_DFA_STATE_REF then (d, ERROR_DFA_STATE_REF)
  else match findState hash d D with
    | some i => (d, i)
    | none =>
      ({ d with
          states := d.states ++ [{ D with stateNumber := d.states.length,
                                          configs := { D.configs with readOnly := true } }],
          statesMap := mapPush d.statesMap (hash D.configs) d.states.length }, d.states.length)

end DFA
end Antlr
