import Verif.ErrorStrategy.Model

/-!
# Model of generated rule functions

The code generator writes one function per rule from the templates of `templates/Rust.stg`.  Here a
generated function body is a value of `Code` (one constructor per template) and `run` executes it:
it calls the parser, the error strategy and the predictor exactly as the generated code does.
`none` = panic or out of fuel; `Except.error` = the `Err` passed on by `?`.

Not modelled: user actions, rule arguments and locals, labels of tokens and rule calls (they do not
influence the parse), `catch`/`finally` clauses.  The bit-set test of `TestSetInline`
(templates/Rust.stg:792-818) is membership in a list.
-/

namespace Antlr.Gen
open Antlr

/-- How a decision is made. -/
inductive Choice where
  /-- `adaptive_predict(decision)` -/
  | predict (decision : Nat)
  /-- a test of `la(1)`: the number of the first set containing it; if there is none, the given
  alternative or `NoViableAltError` -/
  | look (sets : List (List Int)) (other : Option Int)
deriving DecidableEq

/-- The code of an alternative.  Every `st` is the state number set before the step. -/
inductive Code where
  /-- an empty alternative, or a user action -/
  | nop
  /-- one step after another, templates/Rust.stg:653-659 -/
  | seq (a b : Code)
  /-- `MatchToken`, templates/Rust.stg:830-833 -/
  | tok (st ttype : Int)
  /-- `MatchSet` and `MatchNotSet`, templates/Rust.stg:844-860 -/
  | set (st : Int) (types : List Int) (invert : Bool)
  /-- `Wildcard`, templates/Rust.stg:862-865 -/
  | any (st : Int)
  /-- `InvokeRule`, templates/Rust.stg:824-828; `prec` is the argument of a left-recursive rule
  (0 for a call without argument, templates/Rust.stg:599-602) -/
  | call (st : Int) (rule : Nat) (prec : Int)
  /-- `SemPred`, templates/Rust.stg:876-882, with the text of the error -/
  | guard (st : Int) (pred : Nat) (msg : List Char)
  /-- `AltBlock`, `LL1AltBlock`, templates/Rust.stg:661-674, 726-739 -/
  | block (st : Int) (ch : Choice) (alts : List Code)
  /-- `OptionalBlock`, `LL1OptionalBlock`, `LL1OptionalBlockSingleAlt`, templates/Rust.stg:676-697,
  741-752; `off` is 1 for a non-greedy block and 0 otherwise -/
  | opt (st : Int) (ch : Choice) (off : Int) (alts : List Code)
  /-- `StarBlock`, `LL1StarBlockSingleAlt`, templates/Rust.stg:699-709, 754-767 -/
  | star (st back : Int) (ch : Choice) (exit bodyAlt : Int) (body : Code)
  /-- `PlusBlock`, `LL1PlusBlockSingleAlt`, templates/Rust.stg:711-722, 769-788 -/
  | plus (st back : Int) (ch : Choice) (exit bodyAlt : Int) (body : Code)

/-- An outermost alternative with its label, templates/Rust.stg:641-651 -/
structure Alt where
  label : Option Nat
  code : Code

/-- An operator alternative of a left-recursive rule: what follows the left operand, guarded by
`precpred`. -/
structure OpAlt where
  label : Option Nat
  predState : Int
  prec : Int
  code : Code

/-- A rule function.  `sel` chooses the alternative; it is absent if there is only one. -/
inductive RuleFn where
  /-- `RuleFunction`, templates/Rust.stg:531-581 -/
  | plain (start : Int) (sel : Option (Int × Choice)) (alts : List Alt)
  /-- `LeftRecursiveRuleFunction`, templates/Rust.stg:583-639, e.g.
  tests/gen/labelsparser.rs:958-1425: the primary alternatives and the loop over the operator
  alternatives. -/
  | recursive (start : Int) (sel : Option (Int × Choice)) (prims : List Alt)
      (entry back : Int) (ch : Choice) (opSel : Option (Int × Choice)) (ops : List OpAlt)

/-- Strategy with parser, and the state of the predictor. -/
structure GS (I S : Type) where
  es : ES I
  sim : S

/-- What the generated code uses. -/
structure Cfg (I S : Type) where
  env : EEnv I
  /-- `BailErrorStrategy` instead of `DefaultErrorStrategy` -/
  bail : Bool
  /-- user predicates -/
  guards : Nat → P I → Bool
  /-- `adaptive_predict` with fuel: it changes the position of the input for a while, reads the
  parser's contexts and precedence, and learns. -/
  predict : Nat → Nat → P I → S → Option (Except PErr Int × I × S)
  rules : List RuleFn

section
variable {I S : Type} [TokStream I]

abbrev Out (I S α : Type) := Option (Except PErr α × GS I S)

/-- The operator `?`. -/
def andThen {α β : Type} (r : Out I S α) (f : α → GS I S → Out I S β) : Out I S β :=
  r.bind fun x => match x.1 with
    | .ok a => f a x.2
    | .error e => some (.error e, x.2)

def ret {α : Type} (a : α) (s : GS I S) : Out I S α := some (.ok a, s)

namespace GS

/-- A call of a parser function. -/
def act (s : GS I S) (f : P I → Option (P I)) : Out I S Unit :=
  (f s.es.p).map fun p => (.ok (), { s with es := { s.es with p } })

/-- A call of a function of the error strategy. -/
def strat {α : Type} (s : GS I S) (r : Option (Except PErr α × ES I)) : Out I S α :=
  r.map fun x => (x.1, { s with es := x.2 })

/-- `set_state` -/
def setState (s : GS I S) (st : Int) : GS I S :=
  { s with es := { s.es with p := { s.es.p with state := st } } }

end GS

variable (C : Cfg I S)

/-- `err_handler.sync(..)?` -/
def sync (m : Nat) (s : GS I S) : Out I S Unit :=
  s.strat (if C.bail then some (ES.bailSync s.es) else ES.sync C.env m s.es)

/-- `match_token(..)?` -/
def matchTok (t : Int) (s : GS I S) : Out I S Tok :=
  s.strat (if C.bail then ES.bailMatchToken s.es t else ES.matchToken C.env s.es t)

/-- `match_wildcard` with the bail strategy, src/parser.rs:449-468 -/
def bailMatchWildcard (s : ES I) : Option (Except PErr Tok × ES I) :=
  s.p.getCurrentToken.bind fun token =>
  if token.ttype > 0 then (ES.bailReportMatch s).consume.map fun s => (.ok token, s)
  else
    (ES.bailRecoverInline s).bind fun (r, s) =>
    match r with
    | .error e => some (.error e, s)
    | .ok t => (s.p.addConjured t).map fun p => (.ok t, { s with p })

/-- `match_wildcard(..)?` -/
def matchAny (s : GS I S) : Out I S Tok :=
  s.strat (if C.bail then bailMatchWildcard s.es else ES.matchWildcard C.env s.es)

/-- The test of `CommonSetStuff`, templates/Rust.stg:852 -/
def inSet (types : List Int) (invert : Bool) (t : Int) : Bool :=
  if invert then decide (0 < t) && !types.contains t else types.contains t

/-- `CommonSetStuff`, templates/Rust.stg:848-860.  (The token recovered inline is not added to the
tree, unlike in `match_token`.) -/
def matchSet (types : List Int) (invert : Bool) (s : GS I S) : Out I S Unit :=
  (s.es.p.la 1).bind fun (t, p) =>
  let e : ES I := { s.es with p }
  if inSet types invert t then
    (e.p.la 1).bind fun (t, p) =>
    let e : ES I := { e with p := if t = TOKEN_EOF then { p with matchedEof := true } else p }
    let e := if C.bail then ES.bailReportMatch e else e.reportMatch
    e.consume.map fun e => (.ok (), { s with es := e })
  else
    (if C.bail then ES.bailRecoverInline e else ES.recoverInline C.env e).map fun x =>
      (x.1.map fun _ => (), { s with es := x.2 })

/-- `NoViableAltError::new`, src/errors.rs:158-171 -/
def noViable {α : Type} (s : GS I S) : Out I S α :=
  s.es.p.getCurrentToken.bind fun t => (noAltNew s.es.p t.toOwned t.toOwned).map fun e => (.error e, s)

/-- `FailedPredicateError::new`, src/errors.rs:230-263 -/
def failedPredicate {α : Type} (msg : List Char) (s : GS I S) : Out I S α :=
  (C.env.atn.stateAt s.es.p.state).bind fun st => st.transitions.head?.bind fun _ =>
    (s.es.p.recog msg).map fun b => (.error (.predicate b), s)

/-- The decision itself: `adaptive_predict(..)?` or the test of `la(1)` -/
def choose (m : Nat) (ch : Choice) (s : GS I S) : Out I S Int :=
  match ch with
  | .predict d => (C.predict m d s.es.p s.sim).map fun x =>
      (x.1, { es := { s.es with p := { s.es.p with input := x.2.1 } }, sim := x.2.2 })
  | .look sets other => (s.es.p.la 1).bind fun (t, p) =>
      let s : GS I S := { s with es := { s.es with p } }
      match sets.findIdx? (·.contains t), other with
      | some k, _ => ret ((k : Int) + 1) s
      | none, some k => ret k s
      | none, none => noViable s

/-- `set_state`, `sync`, decision: the head of every block -/
def head (m : Nat) (st : Int) (ch : Choice) (s : GS I S) : Out I S Int :=
  andThen (sync C m (s.setState st)) fun _ s => choose C m ch s

/-- The arm of a `match` for the alternative `k`, counting from 1; other numbers have none. -/
def pick {α : Type} (alts : List α) (k : Int) : Option α :=
  if 1 ≤ k then alts[(k - 1).toNat]? else none

/-- The choice between the outermost alternatives of a rule; `none` = the arm `_ => {}`. -/
def select {α : Type} (m : Nat) (sel : Option (Int × Choice)) (alts : List α) (s : GS I S) :
    Out I S (Option α) :=
  match sel with
  | none => ret alts.head? s
  | some (st, ch) => andThen (head C m st ch s) fun k s => ret (pick alts k) s

/-- The error handling at the end of a rule function. -/
def finish (m : Nat) (r : Except PErr Unit × GS I S) : Out I S Unit :=
  r.2.strat (if C.bail then ES.bailRuleEnd C.env r.2.es r.1 else ES.ruleEnd C.env m r.2.es r.1)

/-- `let tmp = XContextExt::new(&**_localctx); enter_outer_alt(..)`, templates/Rust.stg:641-651 -/
def enterAlt (label : Option Nat) (localctx : Nat) (p : P I) : Option (P I) :=
  (p.labelled label localctx).bind fun r => r.2.enterOuterAlt r.1

/-- `recRuleReplaceContext`, templates/Rust.stg:1218-1223 -/
def replaceCtx (label : Option Nat) (localctx : Nat) (p : P I) : Option (P I) :=
  (p.labelled label localctx).map P.useLabel

/-- `recRuleSetStopToken`, templates/Rust.stg:1181-1184 -/
def setStopTok (p : P I) : Option (P I) :=
  (p.lt (-1)).bind fun r => r.2.ctx.bind fun i => r.2.setStop i r.1

/-- `recRuleAltStartAction`, `recRuleLabeledAltStartAction`, templates/Rust.stg:1186-1216 -/
def pushCtx (rule : Nat) (label parent : Option Nat) (inv start : Int) (p : P I) : Option (P I) :=
  P.pushNewRecursionContext (p.alloc rule label parent inv).2 (p.alloc rule label parent inv).1 start

/-- The guard of an operator alternative, templates/Rust.stg:876-882, 1179 -/
def precGuard (o : OpAlt) (s : GS I S) : Out I S Unit :=
  if s.es.p.precpred o.prec then ret () s
  else failedPredicate C ("failed predicate: recog.precpred(None, ".toList ++
    (toString o.prec).toList ++ [')']) s

mutual
/-- The code of an alternative; every call uses up fuel. -/
def run : Nat → Code → GS I S → Out I S Unit
  | 0, _, _ => none
  | _ + 1, .nop, s => ret () s
  | m + 1, .seq a b, s => andThen (run m a s) fun _ s => run m b s
  | _ + 1, .tok st t, s => andThen (matchTok C t (s.setState st)) fun _ s => ret () s
  | _ + 1, .set st types invert, s => matchSet C types invert (s.setState st)
  | _ + 1, .any st, s => andThen (matchAny C (s.setState st)) fun _ s => ret () s
  | m + 1, .call st r q, s => andThen (runRule m r q (s.setState st)) fun _ s => ret () s
  | _ + 1, .guard st k msg, s =>
    let s := s.setState st
    if C.guards k s.es.p then ret () s else failedPredicate C msg s
  | m + 1, .block st ch alts, s => andThen (head C m st ch s) fun k s =>
    match pick alts k with
    | some a => run m a s
    | none => ret () s
  | m + 1, .opt st ch off alts, s => andThen (head C m st ch s) fun k s =>
    match pick alts (k - off) with
    | some a => run m a s
    | none => ret () s
  | m + 1, .star st back ch exit bodyAlt body, s => andThen (head C m st ch s) fun k s =>
    loop m back ch exit bodyAlt body k s
  | m + 1, .plus st back ch exit bodyAlt body, s =>
    andThen (sync C m (s.setState st)) fun _ s => plusLoop m back ch exit bodyAlt body bodyAlt s
/-- The loop of a `StarBlock`. -/
def loop : Nat → Int → Choice → Int → Int → Code → Int → GS I S → Out I S Unit
  | 0, _, _, _, _, _, _, _ => none
  | m + 1, back, ch, exit, bodyAlt, body, k, s =>
    if k = exit ∨ k = 0 then ret () s
    else andThen (if k = bodyAlt then run m body s else ret () s) fun _ s =>
      andThen (head C m back ch s) fun k s => loop m back ch exit bodyAlt body k s
/-- The loop of a `PlusBlock`. -/
def plusLoop : Nat → Int → Choice → Int → Int → Code → Int → GS I S → Out I S Unit
  | 0, _, _, _, _, _, _, _ => none
  | m + 1, back, ch, exit, bodyAlt, body, k, s =>
    andThen (if k = bodyAlt then run m body s else noViable s) fun _ s =>
      andThen (head C m back ch s) fun k s =>
        if k = exit ∨ k = 0 then ret () s else plusLoop m back ch exit bodyAlt body k s
/-- A call of a rule function with a precedence; the result is the context returned (`_localctx`,
which is assigned together with `recog.ctx`). -/
def runRule : Nat → Nat → Int → GS I S → Out I S (Option Nat)
  | 0, _, _, _ => none
  | m + 1, r, q, s =>
    let parent := s.es.p.ctx
    let inv := s.es.p.state
    let localctx := s.es.p.heap.length
    match C.rules[r]? with
    | none => none
    | some (.plain start sel alts) =>
      andThen (s.act fun p => P.enterRule (p.alloc r none p.ctx p.state).2 localctx start) fun _ s =>
      let body : Out I S Unit := andThen (select C m sel alts s) fun a s =>
        match a with
        | none => ret () s
        | some a => andThen (s.act (enterAlt a.label localctx)) fun _ s => run m a.code s
      body.bind fun x => andThen (finish C m x) fun _ s =>
        let root := s.es.p.ctx
        andThen (s.act P.exitRule) fun _ s => ret root s
    | some (.recursive start sel prims entry back ch opSel ops) =>
      andThen (s.act fun p => P.enterRecursionRule (p.alloc r none p.ctx p.state).2 localctx start q)
        fun _ s =>
      let body : Out I S Unit :=
        andThen (s.act fun p => p.enterOuterAlt none) fun _ s =>
        andThen (select C m sel prims s) fun a s =>
        andThen (match a with
          | none => ret () s
          | some a => andThen (s.act (replaceCtx a.label localctx)) fun _ s => run m a.code s) fun _ s =>
        andThen (s.act setStopTok) fun _ s =>
        andThen (head C m entry ch s) fun k s => opLoop m r start parent inv back ch opSel ops k s
      body.bind fun x => andThen (finish C m x) fun _ s =>
        let root := s.es.p.ctx
        andThen (s.act fun p => p.unrollRecursionContext parent) fun _ s => ret root s
/-- The operator loop of a left-recursive rule. -/
def opLoop : Nat → Nat → Int → Option Nat → Int → Int → Choice → Option (Int × Choice) →
    List OpAlt → Int → GS I S → Out I S Unit
  | 0, _, _, _, _, _, _, _, _, _, _ => none
  | m + 1, r, start, parent, inv, back, ch, opSel, ops, k, s =>
    if k = 2 ∨ k = 0 then ret () s
    else andThen (if k = 1 then
        andThen (s.act P.triggerExit) fun _ s => andThen (select C m opSel ops s) fun o s =>
        match o with
        | none => ret () s
        | some o => andThen (s.act (pushCtx r o.label parent inv start)) fun _ s =>
          andThen (precGuard C o (s.setState o.predState)) fun _ s => run m o.code s
      else ret () s) fun _ s =>
      andThen (head C m back ch s) fun k s =>
        opLoop m r start parent inv back ch opSel ops k s
end

end
end Antlr.Gen
