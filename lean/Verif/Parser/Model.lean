import Verif.TokenStream.Model
import Verif.Token.Model

/-!
# Model of `src/parser.rs` (`BaseParser`), of rule contexts, and of the code generated for rules

Rule contexts are reference counted objects with interior mutability; here they live in a heap
(a list) and are referred to by their position.  Parent links are `Weak` in the code; every context
whose parent is read during a parse is kept alive by the local variables of the active rule
functions, so a parent link is modelled by a plain reference.  The alternative number is not
modelled: `set_alt_number` does nothing for generated contexts (src/rule_context.rs:123-126).
A `none` result is a panic.
-/

namespace Antlr

/-- The part of the `TokenStream`/`IntStream` traits used by the parser, src/token_stream.rs:22-68,
src/int_stream.rs:12-56 -/
class TokStream (I : Type) where
  index : I → Int
  get : I → Int → Option Tok
  lt : I → Int → Option (Option Tok × I)
  la : I → Int → Option (Int × I)
  consume : I → Option I
  seek : I → Int → Option I
  mark : I → Int × I
  release : I → Int → Option I

/-- `CommonTokenStream`, src/common_token_stream.rs:18-96 -/
instance : TokStream CTS where
  index := CTS.index
  get s i := s.base.get i
  lt := CTS.lt
  la := CTS.la
  consume := CTS.consume
  seek := CTS.seek
  mark := CTS.mark
  release s m := some (s.release m)

/-- A child of a rule node: another rule node or a leaf (`TerminalNode`, `ErrorNode`,
src/tree.rs:117-245). -/
inductive Child where
  | ctx (id : Nat)
  | leaf (tok : Tok) (isError : Bool)
deriving DecidableEq

/-- `BaseParserRuleContext`, src/parser_rule_context.rs:227-237 with `BaseRuleContext`,
src/rule_context.rs:141-149.  `rule` and `label` stand for the generated context type: the rule
and, for a labelled alternative, the label. -/
structure Ctx where
  rule : Nat
  label : Option Nat
  parent : Option Nat
  invoking : Int
  start : Tok
  stop : Tok
  children : List Child
deriving DecidableEq

/-- What a parse listener hears, src/tree.rs:258-286 -/
inductive PEvent where
  | enter (rule : Nat) (label : Option Nat)
  | exit (rule : Nat) (label : Option Nat)
  | leaf (tok : Tok) (isError : Bool)
deriving DecidableEq

/-- A boxed parse listener: its address (from which `ListenerId` is made) and its identity. -/
structure PListener where
  addr : Nat
  who : Nat
deriving DecidableEq

/-- `BaseParser`, src/parser.rs:124-147.  `log` is what the parse listeners heard and `errLog` what
the error listeners heard: listener, offending token, line, column, message. -/
structure P (I : Type) where
  input : I
  heap : List Ctx
  ctx : Option Nat
  buildTrees : Bool
  matchedEof : Bool
  state : Int
  precStack : List Int
  listeners : List PListener
  log : List (Nat × PEvent)
  syntaxErrors : Nat
  errListeners : List Nat
  errLog : List (Nat × Tok × Int × Int × List Char)

namespace P
variable {I : Type} [TokStream I]

/-- `new_base_parser`, src/parser.rs:403-418; the console error listener is listener 0. -/
def new (input : I) : P I :=
  { input, heap := [], ctx := none, buildTrees := true, matchedEof := false, state := -1,
    precStack := [0], listeners := [], log := [], syntaxErrors := 0, errListeners := [0],
    errLog := [] }

/-- `get_current_token`, src/parser.rs:305-308 -/
def getCurrentToken (p : P I) : Option Tok := TokStream.get p.input (TokStream.index p.input)

/-- `input.lt(k).cloned()` -/
def lt (p : P I) (k : Int) : Option (Option Tok × P I) :=
  (TokStream.lt p.input k).map fun r => (r.1, { p with input := r.2 })

/-- Writing to a context through its `Rc`. -/
def modify (p : P I) (i : Nat) (f : Ctx → Ctx) : Option (P I) :=
  (p.heap[i]?).map fun c => { p with heap := p.heap.set i (f c) }

/-- `add_child`, src/parser_rule_context.rs:382-384 -/
def addChild (p : P I) (i : Nat) (ch : Child) : Option (P I) :=
  p.modify i fun c => { c with children := c.children ++ [ch] }

/-- `remove_last_child`, src/parser_rule_context.rs:386-388 -/
def removeLastChild (p : P I) (i : Nat) : Option (P I) :=
  p.modify i fun c => { c with children := c.children.dropLast }

/-- `set_start`, src/parser_rule_context.rs:329-331 -/
def setStart (p : P I) (i : Nat) (t : Option Tok) : Option (P I) :=
  p.modify i fun c => { c with start := t.getD createInvalid }

/-- `set_stop`, src/parser_rule_context.rs:347-349 -/
def setStop (p : P I) (i : Nat) (t : Option Tok) : Option (P I) :=
  p.modify i fun c => { c with stop := t.getD createInvalid }

/-- `new_parser_ctx`, src/parser_rule_context.rs:456-468 -/
def alloc (p : P I) (rule : Nat) (label parent : Option Nat) (invoking : Int) : Nat × P I :=
  (p.heap.length,
   { p with heap := p.heap ++ [{ rule, label, parent, invoking, start := createInvalid,
                                 stop := createInvalid, children := [] }] })

/-- `copy_from`, src/parser_rule_context.rs:469-484 -/
def copyFrom (p : P I) (i : Nat) (label : Option Nat) : Option (Nat × P I) :=
  (p.heap[i]?).map fun c => (p.heap.length, { p with heap := p.heap ++ [{ c with label }] })

/-- `trigger_enter_rule_event`, src/parser.rs:505-511 -/
def triggerEnter (p : P I) : Option (P I) :=
  p.ctx.bind fun i => (p.heap[i]?).map fun c =>
    { p with log := p.log ++ p.listeners.map fun l => (l.who, .enter c.rule c.label) }

/-- `trigger_exit_rule_event`, src/parser.rs:513-519 -/
def triggerExit (p : P I) : Option (P I) :=
  p.ctx.bind fun i => (p.heap[i]?).map fun c =>
    { p with log := p.log ++ p.listeners.reverse.map fun l => (l.who, .exit c.rule c.label) }

/-- `consume`, src/parser.rs:264-291; `recovering` is the answer of
`err_handler.in_error_recovery_mode`. -/
def consume (p : P I) (recovering : Bool) : Option (P I) :=
  p.getCurrentToken.bind fun o =>
    (if o.ttype ≠ TOKEN_EOF then
       (TokStream.consume p.input).map fun i => { p with input := i }
     else some p).bind fun (p : P I) =>
    if p.buildTrees ∨ p.listeners ≠ [] then
      p.ctx.bind fun c => (p.addChild c (.leaf o recovering)).map fun (p : P I) =>
        { p with log := p.log ++ p.listeners.map fun l => (l.who, .leaf o recovering) }
    else some p

/-- The matching case of `match_token`, src/parser.rs:430-436.  `report_match` has ended recovery
mode by the time the token is consumed. -/
def matchCurrent (p : P I) : Option (P I) :=
  p.getCurrentToken.bind fun t =>
    (if t.ttype = TOKEN_EOF then { p with matchedEof := true } else p).consume false

/-- What `match_token` and `match_wildcard` do with the token made up by inline recovery,
src/parser.rs:439-444, 460-465 -/
def addConjured (p : P I) (t : Tok) : Option (P I) :=
  if p.buildTrees ∧ t.index = -1 then p.ctx.bind fun c => p.addChild c (.leaf t true)
  else some p

/-- `precpred`, src/parser.rs:293-297, with `get_precedence`, 356-358 -/
def precpred (p : P I) (precedence : Int) : Bool := precedence ≥ p.precStack.getLast?.getD (-1)

/-- `add_context_to_parse_tree`, src/parser.rs:532-538 -/
def addContextToParseTree (p : P I) : Option (P I) :=
  p.ctx.bind fun i => (p.heap[i]?).bind fun c =>
    match c.parent with
    | some q => p.addChild q (.ctx i)
    | none => some p

/-- `enter_rule`, src/parser.rs:541-549 -/
def enterRule (p : P I) (localctx : Nat) (state : Int) : Option (P I) :=
  ({ p with state := state }.lt 1).bind fun r =>
    (r.2.setStart localctx r.1).bind fun (p : P I) =>
      let p := { p with ctx := some localctx }
      if p.buildTrees then p.addContextToParseTree else some p

/-- `exit_rule`, src/parser.rs:552-569 -/
def exitRule (p : P I) : Option (P I) :=
  (p.lt (if p.matchedEof then 1 else -1)).bind fun r => r.2.ctx.bind fun i =>
    (r.2.setStop i r.1).bind fun (p : P I) => p.triggerExit.bind fun (p : P I) =>
      (p.heap[i]?).map fun c => { p with state := c.invoking, ctx := c.parent }

/-- `enter_outer_alt`, src/parser.rs:573-589 -/
def enterOuterAlt (p : P I) (newCtx : Option Nat) : Option (P I) :=
  (match newCtx with
   | some n => p.ctx.bind fun i =>
      (if p.buildTrees ∧ n ≠ i then
         (p.heap[i]?).bind fun c =>
           match c.parent with
           | some q => (p.removeLastChild q).bind fun (p : P I) => p.addChild q (.ctx n)
           | none => some p
       else some p).map fun (p : P I) => { p with ctx := some n }
   | none => some p).bind fun (p : P I) => p.triggerEnter

/-- `enter_recursion_rule`, src/parser.rs:591-603 -/
def enterRecursionRule (p : P I) (localctx : Nat) (state prec : Int) : Option (P I) :=
  ({ p with state := state, precStack := p.precStack ++ [prec] }.lt 1).bind fun r =>
    (r.2.setStart localctx r.1).map fun (p : P I) => { p with ctx := some localctx }

/-- `push_new_recursion_context`, src/parser.rs:605-624 -/
def pushNewRecursionContext (p : P I) (localctx : Nat) (state : Int) : Option (P I) :=
  p.ctx.bind fun prev =>
    (p.modify prev fun c => { c with parent := some localctx, invoking := state }).bind fun (p : P I) =>
      (p.lt (-1)).bind fun r => (r.2.setStop prev r.1).bind fun (p : P I) =>
        (p.heap[prev]?).bind fun c => (p.setStart localctx (some c.start)).bind fun (p : P I) =>
          let p := { p with ctx := some localctx }
          (if p.buildTrees then p.addChild localctx (.ctx prev) else some p).bind fun (p : P I) =>
            p.triggerEnter

/-- The loop of `unroll_recursion_context`, src/parser.rs:631-636: at most `fuel` iterations. -/
def unrollLoop (parent : Option Nat) : Nat → P I → Option (P I)
  | 0, _ => none
  | fuel + 1, p =>
    if p.ctx ≠ parent then
      p.triggerExit.bind fun (p : P I) => p.ctx.bind fun i => (p.heap[i]?).bind fun c =>
        unrollLoop parent fuel { p with ctx := c.parent }
    else some p

/-- `unroll_recursion_context`, src/parser.rs:626-648.  (The Rust loop is unbounded; contexts have
no cyclic parent links, so it makes at most one round per context.) -/
def unrollRecursionContext (p : P I) (parentCtx : Option Nat) : Option (P I) :=
  { p with precStack := p.precStack.dropLast }.ctx.bind fun retctx =>
    ({ p with precStack := p.precStack.dropLast }.lt (-1)).bind fun r =>
      (r.2.setStop retctx r.1).bind fun (p : P I) =>
        (if p.listeners ≠ [] then unrollLoop parentCtx (p.heap.length + 1) p
         else some { p with ctx := parentCtx }).bind fun (p : P I) =>
          (p.modify retctx fun c => { c with parent := p.ctx }).bind fun (p : P I) =>
            if p.buildTrees then
              match p.ctx with
              | some q => p.addChild q (.ctx retctx)
              | none => some p
            else some p

/-- `add_parse_listener`, src/parser.rs:477-484 -/
def addParseListener (p : P I) (l : PListener) : Nat × P I :=
  (l.addr, { p with listeners := p.listeners ++ [l] })

/-- `remove_parse_listener`, src/parser.rs:488-498: the listener handed back. -/
def removeParseListener (p : P I) (id : Nat) : Option (PListener × P I) :=
  (p.listeners.find? (·.addr = id)).map fun l =>
    (l, { p with listeners := p.listeners.eraseP (·.addr = id) })

/-- `remove_parse_listeners`, src/parser.rs:501-503 -/
def removeParseListeners (p : P I) : P I := { p with listeners := [] }

/-- `add_error_listener`, `remove_error_listeners`: src/parser.rs:319-325 -/
def addErrorListener (p : P I) (l : Nat) : P I := { p with errListeners := p.errListeners ++ [l] }
def removeErrorListeners (p : P I) : P I := { p with errListeners := [] }

/-- `notify_error_listeners`, src/parser.rs:327-344.  The error object passed on is not modelled. -/
def notifyErrorListeners (p : P I) (msg : List Char) (offending : Option Int) : Option (P I) :=
  (match offending with
   | none => p.getCurrentToken
   | some x => TokStream.get p.input x).map fun (t : Tok) =>
    { p with
      syntaxErrors := p.syntaxErrors + 1
      errLog := p.errLog ++ p.errListeners.map fun l => (l, t, t.line, t.column, msg) }

end P

/-! ## The code generated for rules

A rule function is a fixed frame of calls of the functions above around the code of an alternative.
Which alternative is taken and which recovery happens is decided by prediction and by the error
strategy; here that is all the possible *behaviours* of the generated code, given as a program. -/

/-- Steps that do not call rules. -/
inductive Prim where
  /-- the current token matched -/
  | matchTok
  /-- `consume` called by recovery, inline recovery or `match_wildcard` -/
  | consume (recovering : Bool)
  /-- a token made up by inline recovery -/
  | conjure (tok : Tok)
  /-- `set_state` before every step -/
  | setState (s : Int)
  /-- `recog.ctx.set_stop(lt(-1))` after the primary alternative of a left-recursive rule,
  e.g. tests/gen/labelsparser.rs:1113-1114 -/
  | markStop

mutual
/-- A step of a rule's code. -/
inductive Act where
  | prim (p : Prim)
  /-- A call of an ordinary rule, e.g. tests/gen/csvparser.rs:702-754, templates/Rust.stg: `pre` is
  done before the alternative is chosen (recovery in `sync`), then the alternative, possibly
  labelled, with its body including recovery at the end. -/
  | rule (idx : Nat) (st : Int) (pre : List Prim) (label : Option Nat) (body : Acts)
  /-- A call of an ordinary rule where no alternative could be chosen: the error is caught and
  `exit_rule` called although `enter_outer_alt` was not reached. -/
  | noAlt (idx : Nat) (st : Int) (pre : List Prim)
  /-- A call of a left-recursive rule, e.g. tests/gen/labelsparser.rs:958-1425,
  templates/Rust.stg:583-638 -/
  | recRule (idx : Nat) (st prec : Int) (pre : List Prim) (label : Option Nat) (primary : Acts)
      (tail : Iters)
inductive Acts where
  | nil
  | cons (a : Act) (rest : Acts)
/-- The rest of a left-recursive rule after the primary alternative. -/
inductive Iters where
  /-- loop left, or an error raised by the last body -/
  | done
  /-- an error raised between `trigger_exit_rule_event` and `push_new_recursion_context` -/
  | abort (pre : List Prim)
  /-- one iteration -/
  | iter (pre : List Prim) (label : Option Nat) (body : Acts) (rest : Iters)
end

section
variable {I : Type} [TokStream I]

def Prim.run (p : P I) : Prim → Option (P I)
  | matchTok => p.matchCurrent
  | consume r => p.consume r
  | conjure t => p.addConjured t
  | setState s => some { p with state := s }
  | markStop => (p.lt (-1)).bind fun r => r.2.ctx.bind fun i => r.2.setStop i r.1

def runPrims : List Prim → P I → Option (P I)
  | [], p => some p
  | x :: xs, p => (x.run p).bind (runPrims xs)

/-- `let tmp = XContextExt::new(&**_localctx)` of a labelled alternative. -/
def P.labelled (p : P I) (label : Option Nat) (localctx : Nat) : Option (Option Nat × P I) :=
  match label with
  | none => some (none, p)
  | some l => (p.copyFrom localctx (some l)).map fun r => (some r.1, r.2)

/-- `recog.ctx = Some(tmp.clone())` of a labelled primary alternative. -/
def P.useLabel (r : Option Nat × P I) : P I :=
  match r.1 with
  | some n => { r.2 with ctx := some n }
  | none => r.2

mutual
def Act.run : Act → P I → Option (P I)
  | .prim x, p => x.run p
  | .rule idx st pre label body, p =>
    let localctx := (p.alloc idx none p.ctx p.state).1
    (P.enterRule (p.alloc idx none p.ctx p.state).2 localctx st).bind fun (p : P I) =>
      (runPrims pre p).bind fun (p : P I) => (p.labelled label localctx).bind fun r =>
        (r.2.enterOuterAlt r.1).bind fun (p : P I) => (Acts.run body p).bind fun (p : P I) => p.exitRule
  | .noAlt idx st pre, p =>
    (P.enterRule (p.alloc idx none p.ctx p.state).2 (p.alloc idx none p.ctx p.state).1 st).bind
      fun (p : P I) => (runPrims pre p).bind fun (p : P I) => p.exitRule
  | .recRule idx st prec pre label primary tail, p =>
    let localctx := (p.alloc idx none p.ctx p.state).1
    let parentctx := p.ctx
    let parentState := p.state
    (P.enterRecursionRule (p.alloc idx none p.ctx p.state).2 localctx st prec).bind fun (p : P I) =>
      (p.enterOuterAlt none).bind fun (p : P I) => (runPrims pre p).bind fun (p : P I) =>
        (p.labelled label localctx).bind fun r =>
          (Acts.run primary (P.useLabel r)).bind fun (p : P I) =>
            (Iters.run tail idx st parentctx parentState p).bind fun (p : P I) =>
              p.unrollRecursionContext parentctx
def Acts.run : Acts → P I → Option (P I)
  | .nil, p => some p
  | .cons a rest, p => (Act.run a p).bind fun (p : P I) => Acts.run rest p
def Iters.run : Iters → Nat → Int → Option Nat → Int → P I → Option (P I)
  | .done, _, _, _, _, p => some p
  | .abort pre, _, _, _, _, p => p.triggerExit.bind fun (p : P I) => runPrims pre p
  | .iter pre label body rest, idx, st, parentctx, parentState, p =>
    p.triggerExit.bind fun (p : P I) => (runPrims pre p).bind fun (p : P I) =>
      (P.pushNewRecursionContext (p.alloc idx label parentctx parentState).2
        (p.alloc idx label parentctx parentState).1 st).bind fun (p : P I) =>
        (Acts.run body p).bind fun (p : P I) => Iters.run rest idx st parentctx parentState p
end
end

end Antlr
