import Verif.IntervalSet.Model
import Verif.SemanticContext.Model

/-!
# Model of `src/atn.rs`, `src/atn_state.rs`, `src/transition.rs`

`usize` state numbers are `Nat`.
-/

namespace Antlr

/-- The transition types, src/transition.rs:83-372, in the order of `TransitionType` (37-48). -/
inductive Trans where
  | epsilon (target : Nat) (outermostPrecedenceReturn : Int)
  | range (target : Nat) (start stop : Int)
  | rule (target followState : Nat) (ruleIndex precedence : Int)
  | predicate (target : Nat) (isCtxDependent : Bool) (ruleIndex predIndex : Int)
  | atom (target : Nat) (label : Int)
  | action (target : Nat) (isCtxDependent : Bool) (ruleIndex actionIndex predIndex : Int)
  | set (target : Nat) (s : IntervalSet)
  | notSet (target : Nat) (s : IntervalSet)
  | wildcard (target : Nat)
  | precedence (target : Nat) (p : Int)
deriving DecidableEq, Repr

namespace Trans

/-- `get_target`, src/transition.rs:53 and the implementations -/
def target : Trans → Nat
  | epsilon t _ => t
  | range t _ _ => t
  | rule t _ _ _ => t
  | predicate t _ _ _ => t
  | atom t _ => t
  | action t _ _ _ _ => t
  | set t _ => t
  | notSet t _ => t
  | wildcard t => t
  | precedence t _ => t

/-- `is_epsilon`, src/transition.rs:55-57, 129-131, 156-158, 216-218, 322-324, 357-359 -/
def isEpsilon : Trans → Bool
  | epsilon .. => true
  | rule .. => true
  | action .. => true
  | predicate .. => true
  | precedence .. => true
  | _ => false

/-- `get_label`, src/transition.rs:58-60, 98-102, 184-188, 243-245, 270-272 -/
def label : Trans → Option IntervalSet
  | atom _ l => some (IntervalSet.new.addOne l)
  | range _ a b => some (IntervalSet.new.addRange a b)
  | set _ s => some s
  | notSet _ s => some s
  | _ => none

/-- `matches`, src/transition.rs:108-110, 137-139, 164-166, 194-196, 224-226, 251-253, 278-280,
300-302, 330-332, 365-367; `none` = the `unimplemented!()` panic of rule transitions. -/
def «matches» (t : Trans) (symbol minVocab maxVocab : Int) : Option Bool :=
  match t with
  | atom _ l => some (symbol = l)
  | rule .. => none
  | epsilon .. => some false
  | range _ a b => some (symbol ≥ a && symbol ≤ b)
  | action .. => some false
  | set _ s => some (s.contains symbol)
  | notSet _ s => some (symbol ≥ minVocab && symbol ≤ maxVocab && !s.contains symbol)
  | wildcard _ => some (symbol < maxVocab && symbol > minVocab)
  | predicate .. => some false
  | precedence .. => some false

/-- `get_predicate`, src/transition.rs:63-65, 334-340, 369-371 -/
def getPredicate : Trans → Option SC
  | predicate _ d r p => some (.predicate r p d)
  | precedence _ p => some (.precedence p)
  | _ => none

end Trans

/-- `LEXER_MIN_CHAR_VALUE`, src/lexer.rs:186 -/
def LEXER_MIN_CHAR_VALUE : Int := 0
/-- `LEXER_MAX_CHAR_VALUE`, src/lexer.rs:187 -/
def LEXER_MAX_CHAR_VALUE : Int := 0x10FFFF

/-- `Transition::get_reachable_target`, src/transition.rs:66-72; outer `none` = panic -/
def Trans.getReachableTarget (t : Trans) (symbol : Int) : Option (Option Nat) :=
  (t.matches symbol LEXER_MIN_CHAR_VALUE LEXER_MAX_CHAR_VALUE).map fun m =>
    if m then some t.target else none

/-- `ATNBlockStart`, src/atn_state.rs:61-65 -/
inductive BlockStart where
  | basic | star | plus (loopBack : Nat)
deriving DecidableEq, Repr

/-- `ATNDecisionState`, src/atn_state.rs:46-57 -/
inductive DecisionState where
  | starLoopEntry (loopBackState : Nat) (isPrecedence : Bool)
  | tokenStart
  | plusLoopBack
  | blockStart (endState : Nat) (en : BlockStart)
deriving DecidableEq, Repr

/-- `ATNStateType`, src/atn_state.rs:26-42 -/
inductive StateType where
  | ruleStart (stopState : Nat) (isLeftRecursive : Bool)
  | ruleStop
  | blockEnd (start : Nat)
  | loopEnd (loopBack : Nat)
  | starLoopback
  | basic
  | decision (decision : Int) (nongreedy : Bool) (state : DecisionState)
  | invalid
deriving DecidableEq, Repr

/-- `BaseATNState`, src/atn_state.rs:93-108 (without the cache cell) -/
structure ATNState where
  epsilonOnly : Bool := false
  ruleIndex : Nat := 0
  stateNumber : Nat := 0
  stateType : StateType := .invalid
  transitions : List Trans := []
deriving DecidableEq, Repr

/-- The duplicate test of `add_transition`, src/atn_state.rs:176-189 -/
def Trans.sameAs (existing trans : Trans) : Bool :=
  existing.target == trans.target &&
    ((existing.label.isSome && trans.label.isSome &&
        existing.label.map (·.intervals) == trans.label.map (·.intervals) &&
        existing.label.map (·.readOnly) == trans.label.map (·.readOnly)) ||
     (existing.isEpsilon && trans.isEpsilon))

/-- `add_transition`, src/atn_state.rs:168-193 -/
def ATNState.addTransition (s : ATNState) (trans : Trans) : ATNState :=
  let eo := if s.transitions.isEmpty then trans.isEpsilon else s.epsilonOnly && trans.isEpsilon
  if s.transitions.any (·.sameAs trans) then { s with epsilonOnly := eo }
  else { s with epsilonOnly := eo, transitions := s.transitions ++ [trans] }

/-- `LexerAction`, src/lexer_action.rs:15-31 -/
inductive LexerAction where
  | channel (c : Int)
  | custom (ruleIndex actionIndex : Int)
  | mode (m : Int)
  | more
  | popMode
  | pushMode (m : Int)
  | skip
  | type (t : Int)
  | indexedCustom (offset : Int) (action : LexerAction)
deriving DecidableEq, Repr

/-- `ATNType`, src/atn_type.rs:10-13 -/
inductive ATNType where
  | lexer | parser
deriving DecidableEq, Repr

/-- `ATN`, src/atn.rs:24-44.  `mode_name_to_start_state` is never filled or read. -/
structure ATN where
  decisionToState : List Nat := []
  grammarType : ATNType
  lexerActions : List LexerAction := []
  maxTokenType : Int
  modeToStartState : List Nat := []
  ruleToStartState : List Nat := []
  ruleToStopState : List Nat := []
  ruleToTokenType : List Int := []
  states : List ATNState := []
deriving DecidableEq, Repr

/-- `INVALID_ALT`, src/atn.rs:17 -/
def INVALID_ALT : Int := 0

/-- `atn.states[i]` for a signed state number cast to `usize`; `none` = index panic (a negative
number casts to a huge index). -/
def ATN.stateAt (atn : ATN) (i : Int) : Option ATNState :=
  if 0 ≤ i then atn.states[i.toNat]? else none

end Antlr
