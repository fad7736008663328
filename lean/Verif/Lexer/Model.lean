import Verif.DFA.Model
import Verif.Token.Model

/-!
# Model of `src/lexer_atn_simulator.rs`, `src/lexer_action.rs`, `src/lexer_action_executor.rs` and
`src/lexer.rs`

* `none` = a panic, or the fuel of one of the loops ran out (the recursion of `closure` and the loops
  of `exec_atn` and `next_token` are not bounded in the code).
* `mark`/`release` of character streams do nothing (C10) and are left out; locks are in `Concurrency/`.
* The fields `start_index`, `mode` and `prev_accept` of the simulator are assigned at the start of
  each `match_token` (or, for the position fields of `prev_accept`, not read before being assigned):
  here they are local.
* `get_state_number()` of a state is its index in the ATN.
* Semantic predicates are functions of the lexer's state (they get a `&mut` lexer; see
  `evaluatePredicate` for predicates with effects); actions are arbitrary transformers of it.
* The 64-bit hash of a set of configurations is the parameter `hash`.
-/

namespace Antlr
namespace Lexer

/-- `LEXER_MORE`, src/lexer.rs:174 -/
def LEXER_MORE : Int := -2
/-- `LEXER_SKIP`, src/lexer.rs:178 -/
def LEXER_SKIP : Int := -3

/-- What `match_token` moves: the input and `LexerPosition`, src/lexer.rs:111-115 -/
structure Cursor (D : Type) where
  input : InputStream D
  line : Int
  col : Int
deriving DecidableEq, Repr

/-- A report to the error listeners, src/lexer.rs:434-443 -/
structure Report (D : Type) where
  line : Int
  col : Int
  text : D
deriving DecidableEq, Repr

/-- Ghost record of one `match_token` call (not in the code): the input range it consumed, including
what recovery consumed, and the token type it ended up with. -/
structure Piece where
  start : Int
  stop : Int
  kind : Int
  failed : Bool
deriving DecidableEq, Repr

/-- `BaseLexer`, src/lexer.rs:78-109, without interpreter, recognizer and factory; `pieces` is ghost
state. -/
structure Lex (D : Type) where
  cur : Cursor D
  startIndex : Int := 0
  startLine : Int := 0
  startCol : Int := 0
  ttype : Int := TOKEN_INVALID_TYPE
  token : Option Tok := none
  hitEof : Bool := false
  channel : Int := 0
  modeStack : List Nat := []
  mode : Nat := 0
  text : Option (List Char) := none
  reports : List (Report D) := []
  pieces : List Piece := []
deriving DecidableEq

variable {D : Type} [InputData D]

/-- `new_base_lexer`, src/lexer.rs:284-316 -/
def Lex.new (input : InputStream D) : Lex D := { cur := ⟨input, 1, 0⟩ }

/-! ## Mode stack, src/lexer.rs:463-497 -/

/-- `push_mode`, src/lexer.rs:470-473; the stack's top is the head of the list -/
def Lex.pushMode (L : Lex D) (m : Nat) : Lex D := { L with modeStack := L.mode :: L.modeStack, mode := m }

/-- `pop_mode`, src/lexer.rs:475-480 -/
def Lex.popMode (L : Lex D) : Option Nat × Lex D :=
  match L.modeStack with
  | [] => (none, L)
  | m :: ms => (some m, { L with modeStack := ms, mode := m })

/-- `set_mode`, src/lexer.rs:486-488 -/
def Lex.setMode (L : Lex D) (m : Nat) : Lex D := { L with mode := m }

/-- `set_type`, src/lexer.rs:482-484 -/
def Lex.setType (L : Lex D) (t : Int) : Lex D := { L with ttype := t }

/-- `set_channel`, src/lexer.rs:466-468 -/
def Lex.setChannel (L : Lex D) (c : Int) : Lex D := { L with channel := c }

/-- `set_text`, src/lexer.rs:263-265 -/
def Lex.setText (L : Lex D) (t : List Char) : Lex D := { L with text := some t }

/-- `input.seek(i)` -/
def Lex.seek (L : Lex D) (i : Int) : Lex D :=
  { L with cur := { L.cur with input := L.cur.input.seek i } }

/-- What generated code and the environment provide: the ATN, the hash of configuration lists, the
predicates and actions of the grammar, `before_emit` (src/lexer.rs:72) and the conversion of a slice
of the input into token text. -/
structure Env (D : Type) where
  atn : ATN
  hash : List Config → Nat
  sempred : Int → Int → Lex D → Bool
  action : Int → Int → Lex D → Lex D
  beforeEmit : Lex D → Lex D
  toChars : D → List Char

/-! ## Actions -/

/-- `is_position_dependent`, src/lexer_action.rs:43-49 -/
def isPositionDependent : LexerAction → Bool
  | .custom _ _ => true
  | .indexedCustom _ _ => true
  | _ => false

/-- `LexerAction::execute`, src/lexer_action.rs:50-69 -/
def executeAction (action : Int → Int → Lex D → Lex D) : LexerAction → Lex D → Lex D
  | .channel c, L => L.setChannel c
  | .custom r a, L => action r a L
  | .mode m, L => L.setMode (asUsize m)
  | .more, L => L.setType LEXER_MORE
  | .popMode, L => L.popMode.2
  | .pushMode m, L => L.pushMode (asUsize m)
  | .skip, L => L.setType LEXER_SKIP
  | .type t, L => L.setType t
  | .indexedCustom _ a, L => executeAction action a L

/-- `new_copy_append`, src/lexer_action_executor.rs:42-51; an executor is its list of actions -/
def newCopyAppend (old : Option (List LexerAction)) (a : LexerAction) : List LexerAction :=
  old.getD [] ++ [a]

/-- The body of the loop of `fix_offset_before_match`, src/lexer_action_executor.rs:55-66 -/
def fixAction (offset : Int) : LexerAction → LexerAction
  | .indexedCustom o a => .indexedCustom o a
  | a => if isPositionDependent a then .indexedCustom offset a else a

/-- `fix_offset_before_match`, src/lexer_action_executor.rs:53-69 -/
def fixOffset (offset : Int) (as : List LexerAction) : List LexerAction := as.map (fixAction offset)

/-- The loop of `execute`, src/lexer_action_executor.rs:74-83 -/
def executeLoop (action : Int → Int → Lex D → Lex D) (start stop : Int) :
    List LexerAction → Lex D → Bool → Lex D × Bool
  | [], L, rs => (L, rs)
  | a :: as, L, rs =>
    match a with
    | .indexedCustom o _ =>
      executeLoop action start stop as (executeAction action a (L.seek (start + o)))
        (decide (start + o ≠ stop))
    | _ =>
      if isPositionDependent a then
        executeLoop action start stop as (executeAction action a (L.seek stop)) false
      else executeLoop action start stop as (executeAction action a L) rs

/-- `LexerActionExecutor::execute`, src/lexer_action_executor.rs:71-87 -/
def executeActions (action : Int → Int → Lex D → Lex D) (as : List LexerAction) (L : Lex D)
    (start : Int) : Lex D :=
  let stop := L.cur.input.index
  let r := executeLoop action start stop as L false
  if r.2 then r.1.seek stop else r.1

/-! ## The simulator -/

/-- `consume`, src/lexer_atn_simulator.rs:123-132; 10 is `'\n'` -/
def Cursor.consume (c : Cursor D) : Option (Cursor D) :=
  (c.input.la 1).bind fun ch =>
    c.input.consume.map fun i =>
      if ch = 10 then ⟨i, c.line + 1, 0⟩ else ⟨i, c.line, c.col + 1⟩

/-- `recover`, src/lexer_atn_simulator.rs:53-57 -/
def Cursor.recover (c : Cursor D) : Option (Cursor D) :=
  (c.input.la 1).bind fun ch => if ch = EOF then some c else c.consume

/-- `evaluate_predicate`, src/lexer_atn_simulator.rs:604-630, for a predicate `p` that may do anything
to the cursor and to other state `S` -/
def evaluatePredicate {S : Type} (p : Cursor D × S → Option (Bool × Cursor D × S)) (speculative : Bool)
    (c : Cursor D) (s : S) : Option (Bool × Cursor D × S) :=
  if speculative then
    c.consume.bind fun c1 => (p (c1, s)).map fun r =>
      (r.1, { input := r.2.1.input.seek c.input.index, line := c.line, col := c.col }, r.2.2)
  else p (c, s)

/-- The value of a predicate without effects. -/
def predValue (sp : Int → Int → Cursor D → Bool) (r p : Int) (speculative : Bool) (c : Cursor D) :
    Option Bool :=
  (evaluatePredicate (S := Unit) (fun x => some (sp r p x.1, x.1, ())) speculative c ()).map (·.1)

/-- `get_lexer_executor` -/
def execOf (c : Config) : Option (List LexerAction) :=
  match c.kind with
  | .lexer e _ => e
  | .base => none

/-- `passed_through_non_greedy_decision`, false for other kinds of configurations -/
def passedOf (c : Config) : Bool :=
  match c.kind with
  | .lexer _ p => p
  | .base => false

/-- `check_non_greedy_decision`, src/atn_config.rs:246-261 -/
def checkNonGreedy (c : Config) (target : ATNState) : Bool :=
  passedOf c ||
    match target.stateType with
    | .decision _ nongreedy _ => nongreedy
    | _ => false

/-- `ATNConfig::cloned`, src/atn_config.rs:163-175 -/
def cloned (c : Config) (target : Nat) (tst : ATNState) : Config :=
  { c with
    state := target
    kind := match c.kind with
      | .lexer e _ => .lexer e (checkNonGreedy c tst)
      | .base => .base }

/-- `cloned_with_new_ctx`, src/atn_config.rs:177-186 -/
def clonedCtx (c : Config) (target : Nat) (tst : ATNState) (ctx : PC) : Config :=
  { cloned c target tst with ctx := ctx }

/-- `cloned_with_new_exec`, src/atn_config.rs:188-203 -/
def clonedExec (c : Config) (target : Nat) (tst : ATNState) (exec : Option (List LexerAction)) :
    Config :=
  { cloned c target tst with
    kind := match (cloned c target tst).kind with
      | .lexer _ p => .lexer exec p
      | .base => .base }

/-- `ATNConfigSet::add`, src/atn_config_set.rs:183-185 -/
def add (s : ConfigSet) (c : Config) : Option ConfigSet := (s.addCached c none).map (·.1)

/-- `get_epsilon_target`, src/lexer_atn_simulator.rs:528-602; `pred` is `evaluate_predicate` at the
current position.  Returns the set of configurations (whose flag may have been set) and the new
configuration. -/
def epsilonTarget (atn : ATN) (pred : Int → Int → Option Bool) (eof : Bool) (c : Config) (tr : Trans)
    (cs : ConfigSet) : Option (ConfigSet × Option Config) :=
  (atn.states[tr.target]?).bind fun tst =>
    match tr with
    | .epsilon t _ => some (cs, some (cloned c t tst))
    | .rule t f _ _ => some (cs, some (clonedCtx c t tst (.single (some c.ctx) f)))
    | .predicate t _ r p =>
      (pred r p).map fun b => ({ cs with hasSem := true }, if b then some (cloned c t tst) else none)
    | .action t _ _ a _ =>
      if c.ctx.hasEmptyPath then
        match c.kind with
        | .lexer e _ =>
          (if 0 ≤ a then atn.lexerActions[a.toNat]? else none).map fun act =>
            (cs, some (clonedExec c t tst (some (newCopyAppend e act))))
        | .base => some (cs, none)
      else some (cs, some (cloned c t tst))
    | .range t _ _ | .set t _ | .atom t _ =>
      if eof then
        (tr.matches EOF LEXER_MIN_CHAR_VALUE LEXER_MAX_CHAR_VALUE).map fun m =>
          (cs, if m then some (cloned c t tst) else none)
      else some (cs, none)
    | .wildcard _ => some (cs, none)
    | .notSet _ _ => some (cs, none)
    | .precedence _ _ => none

/-- The return states of a context other than the empty one, src/lexer_atn_simulator.rs:471-473. The
parent of such a return state always exists. -/
def returns (ctx : PC) : List (Option PC × Int) := ctx.entries.filter (fun e => e.2 != PC.EMPTY_RS)

/-- `closure`, src/lexer_atn_simulator.rs:437-526.  The Boolean carried along (and returned) is
`_current_alt_reached_accept_state`. -/
def closure (atn : ATN) (pred : Int → Int → Option Bool) (eof : Bool) :
    Nat → Config → ConfigSet × Bool → Option (ConfigSet × Bool)
  | 0, _, _ => none
  | fuel + 1, c, (cs, flag) =>
    (atn.states[c.state]?).bind fun st =>
      if st.stateType = .ruleStop then
        if c.ctx.hasEmptyPath && c.ctx.isEmpty then (add cs c).map fun cs' => (cs', true)
        else
          (if c.ctx.hasEmptyPath then
            (add cs (clonedCtx c c.state st PC.EMPTY)).map fun cs' => (cs', true)
          else some (cs, flag)).bind fun acc =>
            if c.ctx.isEmpty then some acc
            else (returns c.ctx).foldlM (fun acc e =>
              e.1.bind fun parent => (atn.stateAt e.2).bind fun rst =>
                closure atn pred eof fuel (clonedCtx c e.2.toNat rst parent) acc) acc
      else
        (if !st.epsilonOnly && (!flag || !passedOf c) then add cs c else some cs).bind fun cs1 =>
          st.transitions.foldlM (fun acc tr =>
            (epsilonTarget atn pred eof c tr acc.1).bind fun r =>
              match r.2 with
              | none => some (r.1, acc.2)
              | some c' => closure atn pred eof fuel c' (r.1, acc.2)) (cs1, flag)

/-- The inner loop of `get_reachable_config_set`, src/lexer_atn_simulator.rs:344-362: the transitions of
one configuration; returns whether the loop ended by `break`.  `off` is the offset of the current
character from the token start. -/
def reachTrans (atn : ATN) (pred : Int → Int → Option Bool) (fuel : Nat) (t off : Int) (c : Config)
    (flag : Bool) : List Trans → ConfigSet → Option (ConfigSet × Bool)
  | [], cs => some (cs, false)
  | tr :: trs, cs =>
    (tr.getReachableTarget t).bind fun m =>
      match m with
      | none => reachTrans atn pred fuel t off c flag trs cs
      | some target =>
        (atn.states[target]?).bind fun tst =>
          (closure atn pred (decide (t = EOF)) fuel
            (clonedExec c target tst ((execOf c).map (fixOffset off))) (cs, flag)).bind fun r =>
              if r.2 then some (r.1, true) else reachTrans atn pred fuel t off c flag trs r.1

/-- `get_reachable_config_set`, src/lexer_atn_simulator.rs:319-364 -/
def reachSet (atn : ATN) (pred : Int → Int → Option Bool) (fuel : Nat) (t off : Int) :
    List Config → Int → ConfigSet → Option ConfigSet
  | [], _, cs => some cs
  | c :: rest, skipAlt, cs =>
    let flag := decide (c.alt = skipAlt)
    if flag && passedOf c then reachSet atn pred fuel t off rest skipAlt cs
    else
      (atn.states[c.state]?).bind fun st =>
        (reachTrans atn pred fuel t off c flag st.transitions cs).bind fun r =>
          reachSet atn pred fuel t off rest (if r.2 then c.alt else skipAlt) r.1

/-- `compute_start_state`, src/lexer_atn_simulator.rs:416-435; `i` is the number of transitions
already handled -/
def startSet (atn : ATN) (pred : Int → Int → Option Bool) (fuel : Nat) :
    List Trans → Nat → ConfigSet → Option ConfigSet
  | [], _, cs => some cs
  | tr :: trs, i, cs =>
    (closure atn pred false fuel
      { state := tr.target, alt := ((i + 1 : Nat) : Int), ctx := PC.EMPTY, kind := .lexer none false }
      (cs, false)).bind fun r => startSet atn pred fuel trs (i + 1) r.1

/-- The search of `add_dfastate`, src/lexer_atn_simulator.rs:671-674 -/
def firstStop (atn : ATN) : List Config → Option (Option (Config × ATNState))
  | [] => some none
  | c :: cs => (atn.states[c.state]?).bind fun st =>
      if st.stateType = .ruleStop then some (some (c, st)) else firstStop atn cs

/-- The state built by `add_dfastate`, src/lexer_atn_simulator.rs:669-691, with number `n` -/
def mkState (atn : ATN) (n : Nat) (cs : ConfigSet) : Option DFAState :=
  (firstStop atn cs.configs).bind fun fs =>
    match fs with
    | none => some { stateNumber := n, configs := { cs with readOnly := true } }
    | some (c, st) => (atn.ruleToTokenType[st.ruleIndex]?).map fun tt =>
        { stateNumber := n, configs := { cs with readOnly := true }, isAccept := true,
          prediction := tt, executor := execOf c }

/-- `add_dfastate`, src/lexer_atn_simulator.rs:664-712: an existing state is found by hash only -/
def addState (atn : ATN) (hash : List Config → Nat) (d : DFA) (cs : ConfigSet) : Option (DFA × Nat) :=
  if cs.hasSem then none
  else (mkState atn d.states.length cs).bind fun s =>
    match d.statesMap.lookup (hash cs.configs) with
    | some l => l.head?.map fun i => (d, i)
    | none => some ({ d with
        states := d.states ++ [s],
        statesMap := d.statesMap ++ [(hash cs.configs, [d.states.length])] }, d.states.length)

/-- The body of `add_dfaedge`, src/lexer_atn_simulator.rs:651-662; `none` = index panic -/
def edgeIn (s : DFAState) (t : Int) (dst : Nat) : Option DFAState :=
  if t < 0 ∨ t > 127 then some s
  else
    let edges := if s.edges.length < 128 then growTo s.edges 128 else s.edges
    if t.toNat < edges.length then some { s with edges := edges.set t.toNat dst } else none

/-- `add_dfaedge` on a state of the DFA; `none` = index panic -/
def addEdge (d : DFA) (src : Nat) (t : Int) (dst : Nat) : Option DFA :=
  (d.states[src]?).bind fun s => (edgeIn s t dst).map fun s => { d with states := d.states.set src s }

/-- `get_existing_target_state`, src/lexer_atn_simulator.rs:264-277; outer `none` = index panic -/
def existingTarget (d : DFA) (s : Nat) (t : Int) : Option (Option Nat) :=
  (d.states[s]?).map fun st => (st.edges[asUsize t]?).bind readEdge

/-- `compute_target_state`, src/lexer_atn_simulator.rs:280-317 -/
def computeTarget (atn : ATN) (hash : List Config → Nat) (pred : Int → Int → Option Bool) (fc : Nat)
    (d : DFA) (s : Nat) (t off : Int) : Option (DFA × Nat) :=
  (d.states[s]?).bind fun st =>
    (reachSet atn pred fc t off st.configs.configs 0 ConfigSet.newOrdered).bind fun reach =>
      if reach.configs.isEmpty then
        (if reach.hasSem then some d else addEdge d s t ERROR_DFA_STATE_REF).map fun d =>
          (d, ERROR_DFA_STATE_REF)
      else
        (addState atn hash d { reach with hasSem := false }).bind fun r =>
          (if reach.hasSem then some r.1 else addEdge r.1 s t r.2).map fun d => (d, r.2)

/-- `SimState`, src/lexer_atn_simulator.rs:727-753, when `dfa_state` is set -/
structure Accept where
  index : Int
  line : Int
  col : Int
  state : Nat
deriving DecidableEq, Repr

/-- `capture_sim_state`, src/lexer_atn_simulator.rs:631-649; outer `none` = index panic.  Returns
whether the state accepts, and the new `prev_accept`. -/
def capture (d : DFA) (c : Cursor D) (s : Nat) (prev : Option Accept) : Option (Bool × Option Accept) :=
  (d.states[s]?).map fun st =>
    if st.isAccept then (true, some ⟨c.input.index, c.line, c.col, s⟩) else (false, prev)

/-- Where the loop of `exec_atn` stopped. -/
structure Stop (D : Type) where
  cur : Cursor D
  dfa : DFA
  prev : Option Accept
  symbol : Int

/-- The loop of `exec_atn`, src/lexer_atn_simulator.rs:233-257 -/
def execLoop (atn : ATN) (hash : List Config → Nat) (sp : Int → Int → Cursor D → Bool) (fc : Nat)
    (start : Int) : Nat → Cursor D → DFA → Nat → Int → Option Accept → Option (Stop D)
  | 0, _, _, _, _, _ => none
  | fuel + 1, c, d, s, symbol, prev =>
    (existingTarget d s symbol).bind fun et =>
      (match et with
       | some x => some (d, x)
       | none => computeTarget atn hash (fun r p => predValue sp r p true c) fc d s symbol
          (c.input.index - start)).bind fun r =>
        if r.2 = ERROR_DFA_STATE_REF then some ⟨c, r.1, prev, symbol⟩
        else
          (if symbol ≠ EOF then c.consume else some c).bind fun c =>
            (capture r.1 c r.2 prev).bind fun cap =>
              if cap.1 && decide (symbol = EOF) then some ⟨c, r.1, cap.2, symbol⟩
              else (c.input.la 1).bind fun symbol =>
                execLoop atn hash sp fc start fuel c r.1 r.2 symbol cap.2

/-- Results of `match_token`. -/
inductive MatchRes where
  | ok (ttype : Int)
  | noAlt (startIndex : Int)
  | illegalMode
deriving DecidableEq, Repr

/-- `fail_or_accept`, src/lexer_atn_simulator.rs:373-406, and `accept` 408-414 -/
def failOrAccept (action : Int → Int → Lex D → Lex D) (start : Int) (x : Stop D) (L : Lex D) :
    Option (MatchRes × Lex D) :=
  match x.prev with
  | some a =>
    (x.dfa.states[a.state]?).map fun st =>
      let L1 := { L with cur := ⟨x.cur.input.seek a.index, a.line, a.col⟩ }
      (.ok st.prediction,
        match st.executor with
        | some as => executeActions action as L1 start
        | none => L1)
  | none =>
    if x.symbol = EOF ∧ x.cur.input.index = start then some (.ok TOKEN_EOF, { L with cur := x.cur })
    else some (.noAlt start, { L with cur := x.cur })

/-- `exec_atn`, src/lexer_atn_simulator.rs:220-261 -/
def execAtn (env : Env D) (fc fe : Nat) (start : Int) (L : Lex D) (d : DFA) (ds0 : Nat) :
    Option (MatchRes × Lex D × DFA) :=
  (capture d L.cur ds0 none).bind fun cap =>
    (L.cur.input.la 1).bind fun symbol =>
      (execLoop env.atn env.hash (fun r p c => env.sempred r p { L with cur := c }) fc start fe L.cur d
        ds0 symbol cap.2).bind fun x =>
          (failOrAccept env.action start x L).map fun r => (r.1, r.2, x.dfa)

/-- `match_atn`, src/lexer_atn_simulator.rs:185-217 -/
def matchAtn (env : Env D) (fc fe : Nat) (L : Lex D) (d : DFA) : Option (MatchRes × Lex D × DFA) :=
  match env.atn.modeToStartState[L.mode]? with
  | none => some (.illegalMode, L, d)
  | some ss =>
    (env.atn.states[ss]?).bind fun st =>
      (startSet env.atn (fun r p => predValue (fun r p c => env.sempred r p { L with cur := c }) r p
        false L.cur) fc st.transitions 0 ConfigSet.newOrdered).bind fun s0 =>
          (addState env.atn env.hash d { s0 with hasSem := false }).bind fun r =>
            execAtn env fc fe L.cur.input.index L
              (if s0.hasSem then r.1 else { r.1 with s0 := some r.2 }) r.2

/-- `match_token`, src/lexer_atn_simulator.rs:78-105 -/
def matchToken (env : Env D) (fc fe : Nat) (L : Lex D) (dfas : List DFA) :
    Option (MatchRes × Lex D × List DFA) :=
  match dfas[L.mode]? with
  | none => some (.illegalMode, L, dfas)
  | some d =>
    (match d.s0 with
     | none => matchAtn env fc fe L d
     | some s0 => execAtn env fc fe L.cur.input.index L d s0).map
      fun (r : MatchRes × Lex D × DFA) => (r.1, r.2.1, dfas.set L.mode r.2.2)

/-! ## The lexer -/

/-- The text chosen by `create`, src/token_factory.rs:115-125, for any kind of input. -/
def createText (toChars : D → List Char) (source : Option (InputStream D)) (text : Option (List Char))
    (start stop : Int) : Option (List Char) :=
  match text, source with
  | some t, _ => some t
  | none, some x =>
    if stop ≥ x.size ∨ start ≥ x.size then some eofText else (x.getText start stop).map toChars
  | none, none => some []

/-- `emit`, src/lexer.rs:199-213 with `CommonTokenFactory::create`; `none` = panic in `get_text` -/
def emit (env : Env D) (L : Lex D) : Option (Lex D) :=
  let L := env.beforeEmit L
  (createText env.toChars (some L.cur.input) L.text L.startIndex (L.cur.input.index - 1)).map fun text =>
    { L with
      text := none
      token := some { ttype := L.ttype, channel := L.channel, start := L.startIndex,
                      stop := L.cur.input.index - 1, line := L.startLine, column := L.startCol,
                      index := -1, text := text } }

/-- `emit_eof`, src/lexer.rs:215-227 -/
def emitEof (L : Lex D) : Lex D :=
  { L with token := some { ttype := EOF, channel := 0, start := L.cur.input.index,
                           stop := L.cur.input.index - 1, line := L.cur.line, column := L.cur.col,
                           index := -1, text := [] } }

/-- The body of the inner loop of `next_token`, src/lexer.rs:346-374: one match with its error
handling.  The ghost record is added. -/
def matchStep (env : Env D) (fc fe : Nat) (L : Lex D) (dfas : List DFA) :
    Option (Lex D × List DFA) :=
  (matchToken env fc fe { L with ttype := TOKEN_INVALID_TYPE } dfas).bind fun r =>
    (match r.1 with
     | .ok tt => some (tt, r.2.1, false)
     | _ =>
       -- `notify_listeners`, src/lexer.rs:414-445
       (r.2.1.cur.input.getText r.2.1.startIndex r.2.1.cur.input.index).bind fun text =>
         r.2.1.cur.recover.map fun c =>
           (LEXER_SKIP, { r.2.1 with
              cur := c
              reports := r.2.1.reports ++ [Report.mk r.2.1.startLine r.2.1.startCol text] }, true)).bind
      fun (q : Int × Lex D × Bool) =>
        (q.2.1.cur.input.la 1).map fun la =>
          let L1 : Lex D := { q.2.1 with hitEof := q.2.1.hitEof || decide (la = EOF) }
          let L2 : Lex D := { L1 with ttype := if L1.ttype = TOKEN_INVALID_TYPE then q.1 else L1.ttype }
          ({ L2 with pieces := L2.pieces ++
              [Piece.mk L.cur.input.index L2.cur.input.index L2.ttype q.2.2] }, r.2.2)

/-- The start of an iteration of the outer loop, src/lexer.rs:332-344 -/
def beginToken (L : Lex D) : Lex D :=
  { L with token := none, channel := 0, startCol := L.cur.col, startLine := L.cur.line, text := none,
           startIndex := L.cur.input.index }

mutual
/-- The outer loop of `next_token`, src/lexer.rs:327-386 -/
def outerLoop (env : Env D) (fc fe : Nat) : Nat → Lex D → List DFA → Option (Lex D × List DFA)
  | 0, _, _ => none
  | fuel + 1, L, dfas =>
    if L.hitEof then some (emitEof L, dfas)
    else innerLoop env fc fe fuel (beginToken L) dfas
/-- The inner loop, src/lexer.rs:346-381, and what follows it in the outer loop -/
def innerLoop (env : Env D) (fc fe : Nat) : Nat → Lex D → List DFA → Option (Lex D × List DFA)
  | 0, _, _ => none
  | fuel + 1, L, dfas =>
    (matchStep env fc fe L dfas).bind fun r =>
      if r.1.ttype = LEXER_SKIP then outerLoop env fc fe fuel r.1 r.2
      else if r.1.ttype = LEXER_MORE then innerLoop env fc fe fuel r.1 r.2
      else if r.1.token.isNone then (emit env r.1).map fun L => (L, r.2)
      else outerLoop env fc fe fuel r.1 r.2
end

/-- `next_token`, src/lexer.rs:325-389 -/
def nextToken (env : Env D) (fc fe fn : Nat) (L : Lex D) (dfas : List DFA) :
    Option (Tok × Lex D × List DFA) :=
  (outerLoop env fc fe fn L dfas).bind fun r => r.1.token.map fun t => (t, { r.1 with token := none }, r.2)

end Lexer
end Antlr
