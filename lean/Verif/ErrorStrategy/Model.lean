import Verif.Parser.Model
import Verif.LL1.Model
import Verif.Tree.Model

/-!
# Model of `src/error_strategy.rs`, `src/errors.rs` and the matching functions of `src/parser.rs`

The strategy acts on the parser model `P`.  `none` = panic (or out of fuel of the look-ahead
analysis, excluded by `C42_terminates`).  The generated code, `match_token` and the strategy share
one pair of a strategy state and a parser.  Not modelled: the text of `FallThrough`, `OtherError` and
the other errors that are shown with `Debug` is a given list of characters, and the error object
handed to listeners.
-/

namespace Antlr

/-- The surroundings of a strategy: the ATN, the vocabulary's display names, the rule names and
`get_text_from_interval` of the token stream. -/
structure EEnv (I : Type) where
  atn : ATN
  fuel : Nat
  display : Int → String
  ruleNames : List (List Char)
  rangeText : I → Int → Int → Option (List Char)

/-- `BaseRecognitionError`, src/errors.rs:117-126 -/
structure Recog where
  message : List Char
  token : Tok
  state : Int
  stack : List Int
deriving DecidableEq

/-- `ANTLRError`, src/errors.rs:17-61.  `other` stands for the variants without an offending token
that are shown with `Debug`. -/
inductive PErr where
  | noAlt (base : Recog) (startTok : Tok)
  | mismatch (base : Recog)
  | predicate (base : Recog)
  | fallThrough (cause : PErr)
  | other (text : List Char)
deriving DecidableEq

/-- `get_offending_token`, src/errors.rs:97-104 -/
def PErr.offending : PErr → Option Tok
  | noAlt b _ => some b.token
  | mismatch b => some b.token
  | predicate b => some b.token
  | _ => none

/-- `DefaultErrorStrategy`, src/error_strategy.rs:143-149 -/
structure EH where
  mode : Bool := false
  lastIndex : Int := -1
  lastStates : Option IntervalSet := none
  ntState : Int := -1
  ntCtx : Option Nat := none
deriving DecidableEq

/-- `begin_error_condition`, src/error_strategy.rs:171-176 -/
def EH.begin (eh : EH) : EH := { eh with mode := true }

/-- `end_error_condition`, src/error_strategy.rs:178-185; also `reset` 402-404 and `report_match`
527-530 -/
def EH.end_ (eh : EH) : EH := { eh with mode := false, lastIndex := -1, lastStates := none }

section
variable {I : Type} [TokStream I]

namespace P

/-- `get_input_stream_mut().la(k)` -/
def la (p : P I) (k : Int) : Option (Int × P I) :=
  (TokStream.la p.input k).map fun r => (r.1, { p with input := r.2 })

/-- `states_stack`, src/rule_context.rs:43-58: at most `fuel` steps; parent links have no cycles, so
one step per context suffices. -/
def statesStackFrom (h : List Ctx) : Nat → Nat → Option (List Int)
  | 0, _ => none
  | fuel + 1, i => (h[i]?).bind fun c =>
    if c.invoking < 0 then some []
    else c.parent.bind fun q => (statesStackFrom h fuel q).map (c.invoking :: ·)

/-- `states_stack(ctx)` of a context -/
def statesStack (p : P I) (i : Nat) : Option (List Int) := statesStackFrom p.heap p.heap.length i

/-- The invoking states of a context and all its ancestors, read by
`PredictionContext::from_rule_context`. -/
def chainFrom (h : List Ctx) : Nat → Option Nat → Option (List Int)
  | _, none => some []
  | 0, some _ => none
  | fuel + 1, some i => (h[i]?).bind fun c => (chainFrom h fuel c.parent).map (c.invoking :: ·)

/-- `get_expected_tokens`, src/parser.rs:312-317 -/
def getExpectedTokens (env : EEnv I) (p : P I) : Option IntervalSet :=
  p.ctx.bind fun c => (p.statesStack c).bind fun stack =>
    Antlr.getExpectedTokens env.atn env.fuel p.state stack

/-- `BaseRecognitionError::new`, src/errors.rs:134-142 -/
def recog (p : P I) (message : List Char) : Option Recog :=
  p.getCurrentToken.bind fun t => p.ctx.bind fun c => (p.statesStack c).map fun stack =>
    { message, token := t.toOwned, state := p.state, stack }

end P

/-- `InputMisMatchError::new`, src/errors.rs:198-202 -/
def mismatchNew (p : P I) : Option PErr := (p.recog []).map .mismatch

/-- `InputMisMatchError::with_state`, src/errors.rs:204-214 -/
def mismatchWithState (p : P I) (state : Int) (ctx : Nat) : Option PErr :=
  (p.recog []).bind fun b => (p.statesStack ctx).map fun stack =>
    .mismatch { b with state := state, stack := stack }

/-- `NoViableAltError::new_full`, src/errors.rs:170-185 (`new` 156-169 passes the current token
twice) -/
def noAltNew (p : P I) (startTok offending : Tok) : Option PErr :=
  p.ctx.bind fun c => (p.statesStack c).map fun stack =>
    .noAlt { message := [], token := offending, state := p.state, stack } startTok

/-- `escape_ws_and_quote` of the token's text, src/error_strategy.rs:356-363 -/
def tokenErrorDisplay (t : Tok) : List Char :=
  ['\''] ++ PTree.escapeWhitespaces t.getText false ++ ['\'']

/-- `BaseRecognitionError::get_expected_tokens`, src/errors.rs:127-132 -/
def Recog.expected (env : EEnv I) (b : Recog) : Option IntervalSet :=
  Antlr.getExpectedTokens env.atn env.fuel b.state b.stack

/-- The message of `report_error`, src/error_strategy.rs:187-228, 517-522 -/
def errorMessage (env : EEnv I) (p : P I) : PErr → Option (List Char)
  | .noAlt b st =>
    (if st.ttype = TOKEN_EOF then some eofText
     else env.rangeText p.input st.index b.token.index).map fun txt =>
      "no viable alternative at input '".toList ++ txt ++ ['\'']
  | .mismatch b => (b.expected env).map fun e =>
      "mismatched input ".toList ++ tokenErrorDisplay b.token ++ " expecting ".toList ++
        (e.toTokenString env.display).toList
  | .predicate b => p.ctx.bind fun c => (p.heap[c]?).bind fun ctx => (env.ruleNames[ctx.rule]?).map
      fun n => "rule ".toList ++ n ++ [' '] ++ b.message
  | .fallThrough _ => some []
  | .other text => some text

/-- A strategy together with its parser. -/
structure ES (I : Type) where
  eh : EH
  p : P I

namespace ES

/-- `report_error`, src/error_strategy.rs:511-525 -/
def reportError (env : EEnv I) (s : ES I) (e : PErr) : Option (ES I) :=
  if s.eh.mode then some s
  else (errorMessage env s.p e).bind fun msg =>
    (s.p.notifyErrorListeners msg (e.offending.map (·.index))).map fun p => ⟨s.eh.begin, p⟩

/-- `report_match`, src/error_strategy.rs:527-530 -/
def reportMatch (s : ES I) : ES I := { s with eh := s.eh.end_ }

/-- `recognizer.consume(self)` -/
def consume (s : ES I) : Option (ES I) := (s.p.consume s.eh.mode).map fun p => { s with p }

/-- `report_unwanted_token`, src/error_strategy.rs:230-246 -/
def reportUnwanted (env : EEnv I) (s : ES I) : Option (ES I) :=
  if s.eh.mode then some s
  else (s.p.getExpectedTokens env).bind fun e => s.p.getCurrentToken.bind fun t =>
    (s.p.notifyErrorListeners ("extraneous input ".toList ++ tokenErrorDisplay t ++
      " expecting ".toList ++ (e.toTokenString env.display).toList) (some t.index)).map fun p =>
      ⟨s.eh.begin, p⟩

/-- `report_missing_token`, src/error_strategy.rs:248-268 -/
def reportMissing (env : EEnv I) (s : ES I) : Option (ES I) :=
  if s.eh.mode then some s
  else (s.p.getExpectedTokens env).bind fun e => s.p.getCurrentToken.bind fun t =>
    (s.p.notifyErrorListeners ("missing ".toList ++ (e.toTokenString env.display).toList ++
      " at ".toList ++ tokenErrorDisplay t) (some t.index)).map fun p => ⟨s.eh.begin, p⟩

/-- The look-ahead set of `single_token_insertion`, src/error_strategy.rs:276-286 -/
def afterExpected (env : EEnv I) (p : P I) : Option IntervalSet :=
  (env.atn.stateAt p.state).bind fun st => st.transitions.head?.bind fun tr =>
    (if tr.target < env.atn.states.length then some tr.target else none).bind fun next =>
      p.ctx.bind fun c => (P.chainFrom p.heap p.heap.length (some c)).bind fun chain =>
        nextTokensInCtx env.atn env.fuel next (some chain)

/-- `single_token_insertion`, src/error_strategy.rs:270-292 -/
def singleTokenInsertion (env : EEnv I) (s : ES I) : Option (Bool × ES I) :=
  (s.p.la 1).bind fun (cur, p) => (afterExpected env p).bind fun ll2 =>
    if ll2.contains cur then (reportMissing env { s with p }).map (true, ·)
    else some (false, { s with p })

/-- `single_token_deletion`, src/error_strategy.rs:294-309 -/
def singleTokenDeletion (env : EEnv I) (s : ES I) : Option (Option Tok × ES I) :=
  (s.p.la 2).bind fun (next, p) => (p.getExpectedTokens env).bind fun expecting =>
    if expecting.contains next then
      (reportUnwanted env { s with p }).bind fun (s : ES I) => s.consume.bind fun (s : ES I) =>
        let s := s.reportMatch
        s.p.getCurrentToken.map fun t => (some t, s)
    else some (none, { s with p })

/-- `get_missing_symbol`, src/error_strategy.rs:311-347 -/
def getMissingSymbol (env : EEnv I) (p : P I) : Option Tok :=
  (p.getExpectedTokens env).bind fun expected =>
    let ttype := expected.getMin.getD TOKEN_INVALID_TYPE
    let text := if ttype = TOKEN_EOF then "<missing EOF>".toList
      else "<missing ".toList ++ (env.display ttype).toList ++ ['>']
    p.getCurrentToken.bind fun cur =>
      (if cur.ttype = TOKEN_EOF then TokStream.get p.input (max (TokStream.index p.input - 1) 0)
       else some cur).bind fun cur =>
        createToken none ttype (some text) 0 (-1) (-1) cur.line cur.column

/-- `recover_inline`, src/error_strategy.rs:406-436 -/
def recoverInline (env : EEnv I) (s : ES I) : Option (Except PErr Tok × ES I) :=
  (singleTokenDeletion env s).bind fun (t, s) =>
  match t with
  | some t => s.consume.map fun s => (.ok t, s)
  | none =>
    (singleTokenInsertion env s).bind fun (b, s) =>
    if b then (getMissingSymbol env s.p).map fun t => (.ok t, s)
    else (match s.eh.ntCtx with
      | some c => mismatchWithState s.p s.eh.ntState c
      | none => mismatchNew s.p).map fun e => (.error e, s)

/-- The loop of `get_error_recovery_set`, src/error_strategy.rs:372-384 -/
def recoverySetLoop (env : EEnv I) (h : List Ctx) :
    Nat → Option Nat → IntervalSet → Option IntervalSet
  | _, none, set => some set
  | 0, some _, _ => none
  | fuel + 1, some i, set => (h[i]?).bind fun c =>
    if c.invoking < 0 then some set
    else (followOf env.atn c.invoking).bind fun f =>
      (if f < env.atn.states.length then nextTokens env.atn env.fuel f else none).bind fun follow =>
        recoverySetLoop env h fuel c.parent (set.addSet follow)

/-- `get_error_recovery_set`, src/error_strategy.rs:365-386 -/
def recoverySet (env : EEnv I) (p : P I) : Option IntervalSet :=
  p.ctx.bind fun c => (recoverySetLoop env p.heap p.heap.length (some c) IntervalSet.new).bind
    fun set => set.removeOne TOKEN_EPSILON

/-- `consume_until`, src/error_strategy.rs:388-398: at most `n` tokens are consumed before the fuel
runs out.  The Rust loop is unbounded; `C45_consume_until_terminates` bounds it. -/
def consumeUntil (set : IntervalSet) : Nat → ES I → Option (ES I)
  | 0, _ => none
  | n + 1, s => (s.p.la 1).bind fun (t, p) =>
    if t ≠ TOKEN_EOF ∧ !set.contains t then ({ s with p } : ES I).consume.bind (consumeUntil set n)
    else some { s with p }

/-- `recover`, src/error_strategy.rs:438-457; `n` bounds the tokens consumed. -/
def recover (env : EEnv I) (n : Nat) (s : ES I) : Option (ES I) :=
  (if s.eh.lastIndex = TokStream.index s.p.input ∧
      s.eh.lastStates.any (fun set => set.contains s.p.state) then s.consume else some s).bind fun (s : ES I) =>
  let s : ES I := { s with eh := { s.eh with
    lastIndex := TokStream.index s.p.input
    lastStates := some ((s.eh.lastStates.getD IntervalSet.new).addOne s.p.state) } }
  (recoverySet env s.p).bind fun follow => consumeUntil follow n s

/-- What kind of decision state a state type id (src/atn_state.rs:8-20) stands for, as distinguished
by `sync`, src/error_strategy.rs:484-502.  The id and the type are set together,
src/atn_deserializer.rs:537-590. -/
def syncKind : StateType → Option Bool
  | .decision _ _ (.blockStart ..) => some false
  | .decision _ _ (.starLoopEntry ..) => some false
  | .decision _ _ .plusLoopBack => some true
  | .starLoopback => some true
  | _ => none

/-- `sync`, src/error_strategy.rs:459-505 -/
def sync (env : EEnv I) (n : Nat) (s : ES I) : Option (Except PErr Unit × ES I) :=
  if s.eh.mode then some (.ok (), s)
  else
    (s.p.la 1).bind fun (next, p) => (env.atn.stateAt p.state).bind fun state =>
    (nextTokens env.atn env.fuel p.state.toNat).bind fun nextToks =>
    let s : ES I := { s with p }
    if nextToks.contains next then
      some (.ok (), { s with eh := { s.eh with ntState := -1, ntCtx := none } })
    else if nextToks.contains TOKEN_EPSILON then
      match s.eh.ntCtx with
      | some _ => some (.ok (), s)
      | none => s.p.ctx.map fun c =>
          (.ok (), { s with eh := { s.eh with ntState := s.p.state, ntCtx := some c } })
    else match syncKind state.stateType with
      | some false =>
        (singleTokenDeletion env s).bind fun (t, s) =>
        match t with
        | some _ => some (.ok (), s)
        | none => (mismatchNew s.p).map fun e => (.error e, s)
      | some true =>
        (reportUnwanted env s).bind fun (s : ES I) =>
          (s.p.getExpectedTokens env).bind fun expecting =>
          (recoverySet env s.p).bind fun follow =>
          (consumeUntil (expecting.addSet follow) n s).map fun s => (.ok (), s)
      | none => none

/-- `match_token`, src/parser.rs:424-447 -/
def matchToken (env : EEnv I) (s : ES I) (ttype : Int) : Option (Except PErr Tok × ES I) :=
  s.p.getCurrentToken.bind fun token =>
  if token.ttype = ttype then
    let s : ES I := if ttype = TOKEN_EOF then { s with p := { s.p with matchedEof := true } } else s
    s.reportMatch.consume.map fun s => (.ok token, s)
  else
    (recoverInline env s).bind fun (r, s) =>
    match r with
    | .error e => some (.error e, s)
    | .ok t => (s.p.addConjured t).map fun p => (.ok t, { s with p })

/-- `match_wildcard`, src/parser.rs:449-468 -/
def matchWildcard (env : EEnv I) (s : ES I) : Option (Except PErr Tok × ES I) :=
  s.p.getCurrentToken.bind fun token =>
  if token.ttype > 0 then s.reportMatch.consume.map fun s => (.ok token, s)
  else
    (recoverInline env s).bind fun (r, s) =>
    match r with
    | .error e => some (.error e, s)
    | .ok t => (s.p.addConjured t).map fun p => (.ok t, { s with p })

/-! ## `BailErrorStrategy`, src/error_strategy.rs:561-646 -/

/-- The loop of `process_error`, src/error_strategy.rs:578-585: `set_exception` does nothing
(src/parser_rule_context.rs:326-327), so it only climbs to the root. -/
def climb (h : List Ctx) : Nat → Nat → Option Unit
  | 0, _ => none
  | fuel + 1, i => (h[i]?).bind fun c =>
    match c.parent with
    | some q => climb h fuel q
    | none => some ()

/-- `process_error`, src/error_strategy.rs:573-587 -/
def processError (p : P I) (e : PErr) : Option PErr :=
  p.ctx.bind fun c => (climb p.heap p.heap.length c).map fun _ => .fallThrough e

/-- `recover_inline`, src/error_strategy.rs:612-621 -/
def bailRecoverInline (s : ES I) : Option (Except PErr Tok × ES I) :=
  (mismatchNew s.p).bind fun e => (processError s.p e).map fun e => (.error e, s)

/-- `recover`, src/error_strategy.rs:623-626 -/
def bailRecover (s : ES I) (e : PErr) : Option (Except PErr Unit × ES I) :=
  (processError s.p e).map fun e => (.error e, s)

/-- `sync`, src/error_strategy.rs:628-632 -/
def bailSync (s : ES I) : Except PErr Unit × ES I := (.ok (), s)

/-- `report_match`, src/error_strategy.rs:644-645 -/
def bailReportMatch (s : ES I) : ES I := s

/-- `match_token` with the bail strategy -/
def bailMatchToken (s : ES I) (ttype : Int) : Option (Except PErr Tok × ES I) :=
  s.p.getCurrentToken.bind fun token =>
  if token.ttype = ttype then
    let s : ES I := if ttype = TOKEN_EOF then { s with p := { s.p with matchedEof := true } } else s
    (bailReportMatch s).consume.map fun s => (.ok token, s)
  else
    (bailRecoverInline s).bind fun (r, s) =>
    match r with
    | .error e => some (.error e, s)
    | .ok t => (s.p.addConjured t).map fun p => (.ok t, { s with p })

/-- The error handling at the end of a rule function, templates/Rust.stg:560-575, 620-635, with the
default strategy: `some (.error e)` = the rule function returns the error at once. -/
def ruleEnd (env : EEnv I) (n : Nat) (s : ES I) (result : Except PErr Unit) :
    Option (Except PErr Unit × ES I) :=
  match result with
  | .ok _ => some (.ok (), s)
  | .error (.fallThrough e) => some (.error (.fallThrough e), s)
  | .error e => (reportError env s e).bind fun (s : ES I) => (recover env n s).map fun s => (.ok (), s)

/-- The same with the bail strategy. -/
def bailRuleEnd (env : EEnv I) (s : ES I) (result : Except PErr Unit) :
    Option (Except PErr Unit × ES I) :=
  match result with
  | .ok _ => some (.ok (), s)
  | .error (.fallThrough e) => some (.error (.fallThrough e), s)
  | .error e => (reportError env s e).bind fun (s : ES I) => bailRecover s e

end ES
end
end Antlr
