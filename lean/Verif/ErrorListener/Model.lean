import Verif.Parser.Model
import Verif.DFA.Model
import Verif.BitSet

/-!
# Model of `src/error_listener.rs`

Reports of the prediction algorithm to the error listeners of a parser.  Only the diagnostic listener
reacts to them; what it does is to report a message to all error listeners through
`notify_error_listeners`.  `none` = panic.
-/

namespace Antlr

/-- The events of prediction, src/error_listener.rs:39-75; recognizer and DFA are separate arguments. -/
inductive DiagEvent where
  | ambiguity (start stop : Int) (exact : Bool) (alts : List Nat) (configs : ConfigSet)
  | attemptingFullContext (start stop : Int) (alts : List Nat) (configs : ConfigSet)
  | contextSensitivity (start stop : Int) (prediction : Int) (configs : ConfigSet)

/-- What the diagnostic listener asks of the recognizer besides reporting: the ATN, the rule names,
`get_text_from_interval` of the token stream; and which error listeners are diagnostic ones, with
their `exact_only` (src/error_listener.rs:192-202). -/
structure DiagEnv (I : Type) where
  atn : ATN
  ruleNames : List (List Char)
  rangeText : I → Int → Int → Option (List Char)
  diagnostic : Nat → Option Bool

/-- `Display for usize` -/
def showNat (n : Nat) : List Char := Nat.toDigits 10 n

/-- `Display for isize` -/
def showInt (i : Int) : List Char := if i < 0 then '-' :: showNat i.natAbs else showNat i.natAbs

/-- The members of a set with `, ` between them, part of `showAlts`. -/
def showMembers : List Nat → List Char
  | [] => []
  | [n] => showNat n
  | n :: l => showNat n ++ ", ".toList ++ showMembers l

/-- `Debug for BitSet` (the bit-set crate: `f.debug_set().entries(self)`) -/
def showAlts (alts : List Nat) : List Char := '{' :: showMembers alts ++ ['}']

namespace Diag
variable {I : Type} [TokStream I]

/-- `get_decision_description`, src/error_listener.rs:204-214 -/
def decisionDescription (env : DiagEnv I) (dfa : DFA) : Option (List Char) :=
  (env.atn.states[dfa.atnStartState]?).map fun s =>
    match env.ruleNames[s.ruleIndex]? with
    | some name => showInt dfa.decision ++ " (".toList ++ name ++ ")".toList
    | none => showInt dfa.decision

/-- `get_conflicting_alts`, src/error_listener.rs:218-233 -/
def getConflictingAlts (alts : Option (List Nat)) (configs : ConfigSet) : List Nat :=
  match alts with
  | some alts => alts
  | none => configs.configs.foldl (fun acc c => bitInsert (asUsize c.alt) acc) []

/-- The messages, src/error_listener.rs:250-257, 270-276, 289-295 -/
def message (env : DiagEnv I) (p : P I) (dfa : DFA) : DiagEvent → Option (List Char)
  | .ambiguity start stop _ alts _ =>
    (decisionDescription env dfa).bind fun d => (env.rangeText p.input start stop).map fun t =>
      "reportAmbiguity d=".toList ++ d ++ ": ambigAlts=".toList ++ showAlts alts ++
        ", input='".toList ++ t ++ "'".toList
  | .attemptingFullContext start stop _ _ =>
    (decisionDescription env dfa).bind fun d => (env.rangeText p.input start stop).map fun t =>
      "reportAttemptingFullContext d=".toList ++ d ++ ", input='".toList ++ t ++ "'".toList
  | .contextSensitivity start stop _ _ =>
    (decisionDescription env dfa).bind fun d => (env.rangeText p.input start stop).map fun t =>
      "reportContextSensitivity d=".toList ++ d ++ ", input='".toList ++ t ++ "'".toList

/-- The early return of `report_ambiguity`, src/error_listener.rs:247-249; the other two events have
none. -/
def silent (exactOnly : Bool) : DiagEvent → Bool
  | .ambiguity _ _ exact _ _ => exactOnly && !exact
  | _ => false

/-- `report_ambiguity`, `report_attempting_full_context`, `report_context_sensitivity` of
`DiagnosticErrorListener`, src/error_listener.rs:236-298 -/
def report (env : DiagEnv I) (exactOnly : Bool) (p : P I) (dfa : DFA) (ev : DiagEvent) : Option (P I) :=
  if silent exactOnly ev then some p
  else (message env p dfa ev).bind fun msg => p.notifyErrorListeners msg none

/-- `ProxyErrorListener`, src/error_listener.rs:99-178: the event goes to every error listener in
order; those that are not diagnostic ignore it (the default methods, 39-75). -/
def dispatchTo (env : DiagEnv I) (dfa : DFA) (ev : DiagEvent) : List Nat → P I → Option (P I)
  | [], p => some p
  | l :: ls, p =>
    (match env.diagnostic l with
     | none => some p
     | some exactOnly => report env exactOnly p dfa ev).bind fun p => dispatchTo env dfa ev ls p

/-- `get_error_lister_dispatch().report_…`, src/parser.rs:346-350 -/
def dispatch (env : DiagEnv I) (p : P I) (dfa : DFA) (ev : DiagEvent) : Option (P I) :=
  dispatchTo env dfa ev p.errListeners p

end Diag
end Antlr
