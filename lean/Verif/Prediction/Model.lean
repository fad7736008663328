import Verif.DFA.Model
import Verif.PredictionMode.Model
import Verif.Parser.Model

/-!
# Model of `src/parser_atn_simulator.rs`

* `none` = a panic, or the fuel of one of the loops ran out (the recursion of `closure` and the loops
  of `exec_atn` and `exec_atn_with_full_context` are not bounded in the code).
* The token stream is any `TokStream`.  Predicates are functions of the stream (which has a position)
  and do not change it.  Debug assertions are not modelled; locks are, in `Concurrency/`.
* Error listeners hear about reports and do nothing else; the reports are listed in the result.
* `get_state_number()` of a state is its index in the ATN.
* `optimize_configs` is left out: it replaces contexts by equal ones (C64).
* The hash of a set of configurations is the parameter `hash`, the iteration order of the hash sets
  of predicates the parameter `ord`.
-/

namespace Antlr
namespace Prediction
open PredictionMode

variable {I : Type}

/-- What `adaptive_predict` is given besides the DFA and the token stream: the ATN, the prediction
mode, the predicates of the grammar (at a position of the stream, in the current rule context), the
precedence of the parser, and the invoking states of the rule contexts (innermost first). -/
structure Params (I : Type) where
  atn : ATN
  mode : PredictionMode
  sempred : I → Bool → Int → Int → Bool
  prec : Int
  outer : List Int
  ord : List SC → List SC
  hash : ConfigSet → Nat

/-- `Local`, src/parser_atn_simulator.rs:91-99, and `start_index` (86), as far as they are fixed during
one call: the DFA's start state and whether it is a precedence DFA never change. -/
structure Local (I : Type) extends Params I where
  startIndex : Int
  isPrec : Bool
  atnStart : Nat

/-- What evaluation of predicates sees. -/
def Local.env (L : Local I) (inp : I) : SC.Env := ⟨L.sempred inp, L.prec⟩

/-- The things `closure` changes: the set being built, the busy set, the merge cache, the stream. -/
structure Work (I : Type) where
  configs : ConfigSet
  busy : List Config
  mc : PC.Cache
  inp : I

/-- `configs.add_cached(.., Some(merge_cache))` -/
def Work.add (w : Work I) (c : Config) : Option (Work I) :=
  (w.configs.addCached c (some w.mc)).bind fun r => r.2.map fun mc =>
    { w with configs := r.1, mc := mc }

/-- `closure_busy.contains(c)`; the hash set compares with `PartialEq` of `ATNConfig` -/
def Work.isBusy (w : Work I) (c : Config) : Bool := w.busy.any (·.same c)

/-- `can_drop_loop_entry_edge_in_left_recursive_rule`, src/parser_atn_simulator.rs:1191-1222: the test
for one return state; `none` = panic. -/
def canDropReturn (atn : ATN) (state blockEnd : Nat) (r : Int) : Option Bool :=
  (atn.stateAt r).bind fun ret =>
    match ret.transitions with
    | [tr] =>
      if tr.isEpsilon then
        (atn.states[tr.target]?).map fun target =>
          let isBlockEnd (s : ATNState) : Bool := match s.stateType with
            | .blockEnd _ => true
            | _ => false
          (isBlockEnd ret && decide (tr.target = state)) || decide (r = blockEnd) ||
            decide (tr.target = blockEnd) ||
            (isBlockEnd target && match target.transitions with
              | [tr'] => tr'.isEpsilon && decide (tr'.target = state)
              | _ => false)
      else some false
    | _ => some false

/-- The loop of 1191-1222 -/
def canDropLoop (atn : ATN) (state blockEnd : Nat) : List Int → Option Bool
  | [] => some true
  | r :: rs => (canDropReturn atn state blockEnd r).bind fun b =>
      if b then canDropLoop atn state blockEnd rs else some false

/-- The loop of 1172-1177: do all return states belong to the rule? -/
def sameRuleLoop (atn : ATN) (rule : Nat) : List Int → Option Bool
  | [] => some true
  | r :: rs => (atn.stateAt r).bind fun ret =>
      if ret.ruleIndex = rule then sameRuleLoop atn rule rs else some false

/-- `can_drop_loop_entry_edge_in_left_recursive_rule`, src/parser_atn_simulator.rs:1148-1226 -/
def canDrop (atn : ATN) (c : Config) : Option Bool :=
  (atn.states[c.state]?).bind fun st =>
    match st.stateType with
    | .decision _ _ (.starLoopEntry _ isPrecedence) =>
      if !isPrecedence || c.ctx.isEmpty || c.ctx.hasEmptyPath then some false
      else
        (sameRuleLoop atn st.ruleIndex (c.ctx.entries.map (·.2))).bind fun same =>
          if !same then some false
          else st.transitions.head?.bind fun tr => (atn.states[tr.target]?).bind fun block =>
            match block.stateType with
            | .decision _ _ (.blockStart endState _) =>
              canDropLoop atn c.state endState (c.ctx.entries.map (·.2))
            | _ => none
    | _ => some false

/-- `ATNConfig::cloned`, src/atn_config.rs:163-175, for a parser configuration; `none` = there is no
such state (panic). -/
def cloned (atn : ATN) (c : Config) (target : Nat) : Option Config :=
  (atn.states[target]?).map fun _ => { c with state := target }

/-- `eval_predicate`, src/parser_atn_simulator.rs:937-945 -/
def evalPredicate (L : Local I) (inp : I) (p : SC) : Bool := p.evaluate (L.env inp)

/-- `precedence_transition` and `pred_transition`, src/parser_atn_simulator.rs:1283-1353, which differ
only in the condition `test`. -/
def predTransition [TokStream I] (L : Local I) (full : Bool) (c : Config) (target : Nat) (p : SC)
    (test : Bool) (inp : I) : Option (Option Config × I) :=
  (cloned L.atn c target).bind fun c' =>
    if test then
      if full then
        (TokStream.seek inp L.startIndex).bind fun i1 =>
          (TokStream.seek i1 (TokStream.index inp)).map fun i2 =>
            (if evalPredicate L i1 p then some c' else none, i2)
      else some (some { c' with sem := SC.mkAnd L.ord (some c.sem) (some p) }, inp)
    else some (some c', inp)

/-- `get_epsilon_target`, src/parser_atn_simulator.rs:1230-1277, with `action_transition` 1279-1281 and
`rule_transition` 1355-1362 -/
def epsilonTarget [TokStream I] (L : Local I) (full eof : Bool) (c : Config) (tr : Trans)
    (collect inContext : Bool) (inp : I) : Option (Option Config × I) :=
  match tr with
  | .epsilon t _ => (cloned L.atn c t).map fun c' => (some c', inp)
  | .rule t follow _ _ =>
    (cloned L.atn c t).map fun c' => (some { c' with ctx := .single (some c.ctx) follow }, inp)
  | .predicate t d r p =>
    predTransition L full c t (.predicate r p d) (collect && (!d || (d && inContext))) inp
  | .action t _ _ _ _ => (cloned L.atn c t).map fun c' => (some c', inp)
  | .precedence t p => predTransition L full c t (.precedence p) (collect && inContext) inp
  | .atom t _ | .set t _ | .range t _ _ =>
    if eof then (tr.matches TOKEN_EOF 0 1).bind fun m =>
      if m then (cloned L.atn c t).map fun c' => (some c', inp) else some (none, inp)
    else some (none, inp)
  | .notSet _ _ => some (none, inp)
  | .wildcard _ => some (none, inp)

/-- Is it an action transition?  src/parser_atn_simulator.rs:1084-1085 -/
def isAction : Trans → Bool
  | .action .. => true
  | _ => false

/-- Is it a rule transition?  src/parser_atn_simulator.rs:1126 -/
def isRule : Trans → Bool
  | .rule .. => true
  | _ => false

/-- `outermost_precedence_return` of an epsilon transition, src/parser_atn_simulator.rs:1102-1105;
`none` = the failing cast. -/
def outermostReturn : Trans → Option Int
  | .epsilon _ r => some r
  | _ => none

/-- Lines 1101-1114: what is changed in a configuration that leaves a rule without knowing where
to. -/
def intoOuter (L : Local I) (tr : Trans) (c : Config) : Option Config :=
  if L.isPrec then
    (outermostReturn tr).bind fun r => (L.atn.states[L.atnStart]?).map fun start =>
      { c with
        suppressed := c.suppressed || decide (r = (start.ruleIndex : Int))
        reaches := c.reaches + 1 }
  else some { c with reaches := c.reaches + 1 }

/-- The recursive call: configuration, `collect_predicates`, `depth`. -/
abbrev Rec (I : Type) := Config → Bool → Int → Work I → Option (Work I)

/-- One turn of the loop of `closure_work`, src/parser_atn_simulator.rs:1079-1144, for transition `tr`
number `i` of the state `st` of `c` -/
def workStep [TokStream I] (L : Local I) (full eof : Bool) (rec : Rec I) (c : Config) (collect : Bool)
    (depth : Int) (st : ATNState) (tr : Trans) (i : Nat) (w : Work I) : Option (Work I) :=
  (if i = 0 then canDrop L.atn c else some false).bind fun drop =>
    if drop then some w
    else
      let cc := !isAction tr && collect
      (epsilonTarget L full eof c tr cc (decide (depth = 0)) w.inp).bind fun r =>
        match r.1 with
        | none => some { w with inp := r.2 }
        | some c' =>
          if st.stateType = .ruleStop then
            if full then none
            else (intoOuter L tr c').bind fun c'' =>
              if w.isBusy c'' then some { w with inp := r.2 }
              else rec c'' cc (depth - 1)
                { configs := { w.configs with dips := true }, busy := c'' :: w.busy, mc := w.mc,
                  inp := r.2 }
          else if !tr.isEpsilon && w.isBusy c' then some { w with inp := r.2 }
          else rec c' cc (if isRule tr ∧ 0 ≤ depth then depth + 1 else depth)
            { w with busy := if tr.isEpsilon then w.busy else c' :: w.busy, inp := r.2 }

/-- The loop of `closure_work` -/
def workLoop [TokStream I] (L : Local I) (full eof : Bool) (rec : Rec I) (c : Config) (collect : Bool)
    (depth : Int) (st : ATNState) : List (Trans × Nat) → Work I → Option (Work I)
  | [], w => some w
  | (tr, i) :: trs, w =>
    (workStep L full eof rec c collect depth st tr i w).bind fun w' =>
      workLoop L full eof rec c collect depth st trs w'

/-- `closure_work`, src/parser_atn_simulator.rs:1061-1146 -/
def closureWork [TokStream I] (L : Local I) (full eof : Bool) (rec : Rec I) (c : Config)
    (collect : Bool) (depth : Int) (w : Work I) : Option (Work I) :=
  (L.atn.states[c.state]?).bind fun st =>
    (if st.epsilonOnly then some w else w.add c).bind fun w' =>
      workLoop L full eof rec c collect depth st st.transitions.zipIdx w'

/-- The loop over the return states, src/parser_atn_simulator.rs:1013-1041.  A return state without
parent (never built, C30) would panic at the first use of the context. -/
def popLoop (rec : Rec I) (c : Config) (collect : Bool) (depth : Int) :
    List (Option PC × Int) → Work I → Option (Work I)
  | [], w => some w
  | (p, r) :: rest, w =>
    if r = PC.EMPTY_RS then if rest.isEmpty then some w else none
    else p.bind fun parent =>
      (rec { state := asUsize r, alt := c.alt, ctx := parent, sem := c.sem, reaches := c.reaches }
        collect (depth - 1) w).bind fun w' => popLoop rec c collect depth rest w'

/-- `closure_checking_stop_state`, src/parser_atn_simulator.rs:974-1059 -/
def closureCheck [TokStream I] (L : Local I) (full eof : Bool) : Nat → Rec I
  | 0, _, _, _, _ => none
  | n + 1, c, collect, depth, w =>
    (L.atn.states[c.state]?).bind fun st =>
      if st.stateType = .ruleStop then
        if !c.ctx.isEmpty then
          (if c.ctx.hasEmptyPath then
              if full then w.add { c with ctx := PC.EMPTY }
              else closureWork L full eof (closureCheck L full eof n) c collect depth w
            else some w).bind fun w' =>
              popLoop (closureCheck L full eof n) c collect depth c.ctx.entries w'
        else if full then w.add c
        else closureWork L full eof (closureCheck L full eof n) c collect depth w
      else closureWork L full eof (closureCheck L full eof n) c collect depth w

/-- `closure`, src/parser_atn_simulator.rs:947-972 -/
def closure [TokStream I] (L : Local I) (fuel : Nat) (full eof : Bool) (c : Config) (collect : Bool)
    (w : Work I) : Option (Work I) :=
  (closureCheck L full eof fuel c collect 0 w).bind fun w' =>
    if full && w'.configs.dips then none else some w'

/-- `all_configs_in_rule_stop_state`, src/parser_atn_simulator.rs:633-641, and
`has_config_in_rule_stop_state`, 624-631, test this. -/
def isStop (atn : ATN) (c : Config) : Bool :=
  match atn.states[c.state]? with
  | some st => decide (st.stateType = .ruleStop)
  | none => false

/-- `get_unique_alt`, src/parser_atn_simulator.rs:1403-1414 -/
def uniqueAltLoop : List Config → Int → Int
  | [], alt => alt
  | c :: cs, alt =>
    if alt = INVALID_ALT then uniqueAltLoop cs c.alt
    else if c.alt ≠ alt then INVALID_ALT
    else uniqueAltLoop cs alt

/-- `get_unique_alt`, src/parser_atn_simulator.rs:1403-1414 -/
def uniqueAlt (s : ConfigSet) : Int := uniqueAltLoop s.configs INVALID_ALT

/-- The inner loop of `compute_reach_set`, src/parser_atn_simulator.rs:563-568, with
`get_reachable_target` 769-774 -/
def reachTrans (atn : ATN) (t : Int) (c : Config) :
    List Trans → ConfigSet × PC.Cache → Option (ConfigSet × PC.Cache)
  | [], acc => some acc
  | tr :: trs, acc =>
    (tr.matches t 0 atn.maxTokenType).bind fun m =>
      if m then
        (cloned atn c tr.target).bind fun c' =>
          (acc.1.addCached c' (some acc.2)).bind fun r => r.2.bind fun mc =>
            reachTrans atn t c trs (r.1, mc)
      else reachTrans atn t c trs acc

/-- The first loop of `compute_reach_set`, src/parser_atn_simulator.rs:553-569: the configurations
after `t`, the skipped configurations, the merge cache. -/
def reachLoop (atn : ATN) (t : Int) (full : Bool) :
    List Config → ConfigSet × PC.Cache → List Config →
      Option (ConfigSet × PC.Cache × List Config)
  | [], acc, skipped => some (acc.1, acc.2, skipped)
  | c :: cs, acc, skipped =>
    (atn.states[c.state]?).bind fun st =>
      if st.stateType = .ruleStop then
        if c.ctx.isEmpty then
          reachLoop atn t full cs acc (if full || t == TOKEN_EOF then skipped ++ [c] else skipped)
        else none
      else (reachTrans atn t c st.transitions acc).bind fun acc' => reachLoop atn t full cs acc' skipped

/-- The second loop of `compute_reach_set`, src/parser_atn_simulator.rs:584-595; the busy set is
shared. -/
def closeAll [TokStream I] (L : Local I) (fuel : Nat) (full eof : Bool) :
    List Config → Work I → Option (Work I)
  | [], w => some w
  | c :: cs, w => (closure L fuel full eof c false w).bind fun w' => closeAll L fuel full eof cs w'

/-- A sequence of `add_cached` with the merge cache -/
def addEach : List Config → ConfigSet → PC.Cache → Option (ConfigSet × PC.Cache)
  | [], s, mc => some (s, mc)
  | c :: cs, s, mc =>
    (s.addCached c (some mc)).bind fun r => r.2.bind fun mc' => addEach cs r.1 mc'

/-- `remove_all_configs_not_in_rule_stop_state`, src/parser_atn_simulator.rs:643-677.  It is called
with `look_to_end_of_rule = false` only: the flag is set when `t` is not EOF (574), the call made when
it is (600). -/
def keepStops (atn : ATN) (s : ConfigSet) (mc : PC.Cache) : Option (ConfigSet × PC.Cache) :=
  if s.configs.all (isStop atn) then some (s, mc)
  else addEach (s.configs.filter (isStop atn)) (.newBase s.fullCtx) mc

/-- `compute_reach_set`, src/parser_atn_simulator.rs:541-622 -/
def computeReach [TokStream I] (L : Local I) (fuel : Nat) (cs : ConfigSet) (t : Int) (full : Bool)
    (mc : PC.Cache) (inp : I) : Option (Option ConfigSet × PC.Cache × I) :=
  (reachLoop L.atn t full cs.configs (.newBase full, mc) []).bind fun (im, mc, skipped) =>
    (if skipped.isEmpty && t != TOKEN_EOF &&
          (im.configs.length == 1 || uniqueAlt im != INVALID_ALT) then some (im, mc, inp)
      else (closeAll L fuel full (t == TOKEN_EOF) im.configs ⟨.newBase full, [], mc, inp⟩).map
        fun w => (w.configs, w.mc, w.inp)).bind fun (reach, mc, inp) =>
      (if t = TOKEN_EOF then keepStops L.atn reach mc else some (reach, mc)).bind fun (reach, mc) =>
        (if !skipped.isEmpty && (!full || !reach.configs.any (isStop L.atn)) then
            addEach skipped reach mc
          else some (reach, mc)).map fun (reach, mc) =>
            (if reach.configs.isEmpty then none else some reach, mc, inp)

/-- The loop of `compute_start_state`, src/parser_atn_simulator.rs:692-709; `i` transitions are done -/
def startLoop [TokStream I] (L : Local I) (fuel : Nat) (ctx : PC) (full : Bool) :
    List Trans → Nat → Work I → Option (Work I)
  | [], _, w => some w
  | tr :: trs, i, w =>
    (cloned L.atn { state := tr.target, alt := ((i + 1 : Nat) : Int), ctx := ctx } tr.target).bind
      fun c =>
        (closure L fuel full false c true { w with busy := [] }).bind fun w' =>
          startLoop L fuel ctx full trs (i + 1) w'

/-- `compute_start_state`, src/parser_atn_simulator.rs:679-713 -/
def computeStart [TokStream I] (L : Local I) (fuel : Nat) (ctx : PC) (full : Bool) (mc : PC.Cache)
    (inp : I) : Option (ConfigSet × PC.Cache × I) :=
  (L.atn.states[L.atnStart]?).bind fun st =>
    (startLoop L fuel ctx full st.transitions 0 ⟨.newBase full, [], mc, inp⟩).map fun w =>
      (w.configs, w.mc, w.inp)

/-- The first loop of `apply_precedence_filter`, src/parser_atn_simulator.rs:724-750; with it the map
from states to contexts (newest first). -/
def filterFirst (ord : List SC → List SC) (env : SC.Env) :
    List Config → List (Nat × PC) → ConfigSet → PC.Cache →
      Option (List (Nat × PC) × ConfigSet × PC.Cache)
  | [], m, s, mc => some (m, s, mc)
  | c :: cs, m, s, mc =>
    if c.alt ≠ 1 then filterFirst ord env cs m s mc
    else match c.sem.evalPrecedence ord env with
      | none => filterFirst ord env cs m s mc
      | some sem =>
        (s.addCached (if sem ≠ c.sem then { state := c.state, alt := c.alt, ctx := c.ctx, sem := sem }
            else c) (some mc)).bind fun r => r.2.bind fun mc' =>
          filterFirst ord env cs ((c.state, c.ctx) :: m) r.1 mc'

/-- The second loop, src/parser_atn_simulator.rs:752-764 -/
def filterRest (m : List (Nat × PC)) : List Config → ConfigSet → Option ConfigSet
  | [], s => some s
  | c :: cs, s =>
    if c.alt = 1 then filterRest m cs s
    else if !c.suppressed && m.lookup c.state == some c.ctx then filterRest m cs s
    else (s.addCached c none).bind fun r => filterRest m cs r.1

/-- `apply_precedence_filter`, src/parser_atn_simulator.rs:715-767 -/
def applyPrecedenceFilter (L : Local I) (cs : ConfigSet) (mc : PC.Cache) (inp : I) :
    Option (ConfigSet × PC.Cache) :=
  (filterFirst L.ord (L.env inp) cs.configs [] (.newBase cs.fullCtx) mc).bind fun (m, s, mc) =>
    (filterRest m cs.configs s).map fun s' => (s', mc)

/-! ## Predicates of DFA states -/

/-- `get_preds_for_ambig_alts`, src/parser_atn_simulator.rs:784-792: the predicate of alternative `a`,
or of all its configurations; `none` = no configuration -/
def predOf (ord : List SC → List SC) (cs : List Config) (a : Nat) : Option SC :=
  (cs.filter fun c => asUsize c.alt == a).foldl
    (fun acc c => some (SC.mkOr ord acc (some c.sem))) none

/-- `get_preds_for_ambig_alts`, src/parser_atn_simulator.rs:776-814; outer `none` = index panic (an
ambiguous alternative beyond `nalts`), inner `none` = no predicates. -/
def predsForAmbigAlts (ord : List SC → List SC) (ambig : List Nat) (cs : List Config) (nalts : Nat) :
    Option (Option (List SC)) :=
  if cs.any (fun c => ambig.contains (asUsize c.alt) && decide (nalts < asUsize c.alt)) then none
  else
    let preds := (List.range (nalts + 1)).map fun a =>
      if ambig.contains a then (predOf ord cs a).getD SC.NONE else SC.NONE
    some (if preds.all (· = SC.NONE) then none else some preds)

/-- `get_predicate_predictions`, src/parser_atn_simulator.rs:816-840 -/
def predicatePredictions (ambig : List Nat) (altToPred : List SC) : List (Int × SC) :=
  let tail := (altToPred.zipIdx.drop 1)
  if tail.any (fun e => e.1 ≠ SC.NONE) then
    (tail.filter fun e => ambig.contains e.2).map fun e => ((e.2 : Int), e.1)
  else []

/-- `predicate_dfa_state`, src/parser_atn_simulator.rs:436-456, with
`get_conflicting_alts_or_unique_alt` 1370-1378 -/
def predicateState (ord : List SC → List SC) (D : DFAState) (nalts : Nat) : Option DFAState :=
  let ambig := if D.configs.uniqueAlt ≠ INVALID_ALT then [asUsize D.configs.uniqueAlt]
    else D.configs.conflictingAlts
  (predsForAmbigAlts ord ambig D.configs.configs nalts).map fun r =>
    match r with
    | some preds =>
      { D with predicates := predicatePredictions ambig preds, prediction := INVALID_ALT }
    | none => { D with prediction := ((ambig.head?.getD 0 : Nat) : Int) }

/-- `compute_target_state`, src/parser_atn_simulator.rs:400-428: the new DFA state for a reach set;
`none` = panic -/
def targetState (L : Params I) (decision : Int) (reach : ConfigSet) : Option DFAState :=
  (if uniqueAlt reach ≠ INVALID_ALT then
      some { DFAState.new 0 { reach with uniqueAlt := uniqueAlt reach } with
        isAccept := true, prediction := uniqueAlt reach }
    else
      (if reach.configs.all (isStop L.atn) then some true
        else hasSllConflictTerminatingPrediction L.mode reach).bind fun stop =>
        if stop then
          (getAlts (conflictingAltSubsets reach)).head?.map fun m =>
            { DFAState.new 0
                { reach with conflictingAlts := getAlts (conflictingAltSubsets reach) } with
              isAccept := true, prediction := (m : Int), requiresFullCtx := true }
        else some (DFAState.new 0 reach)).bind fun D =>
    if D.isAccept && D.configs.hasSem then
      (L.atn.decisionToState[asUsize decision]?).bind fun s => (L.atn.states[s]?).bind fun st =>
        (predicateState L.ord D st.transitions.length).map fun D =>
          if D.predicates.isEmpty then D else { D with prediction := INVALID_ALT }
    else some D

/-- `compute_target_state`, src/parser_atn_simulator.rs:376-434 -/
def computeTarget [TokStream I] (L : Local I) (fuel : Nat) (d : DFA) (prev : Nat) (t : Int)
    (mc : PC.Cache) (inp : I) : Option (Nat × DFA × PC.Cache × I) :=
  (d.states[prev]?).bind fun p =>
    (computeReach L fuel p.configs t false mc inp).bind fun (reach, mc, inp) =>
      match reach with
      | none => (DFA.addEdge L.atn.maxTokenType d prev t ERROR_DFA_STATE_REF).map fun d' =>
          (ERROR_DFA_STATE_REF, d', mc, inp)
      | some reach =>
        (targetState L.toParams d.decision reach).bind fun D =>
          (DFA.addEdge L.atn.maxTokenType (DFA.addState L.hash d D).1 prev t
            (DFA.addState L.hash d D).2).map fun d' => ((DFA.addState L.hash d D).2, d', mc, inp)

/-! ## Prediction -/

/-- What `adaptive_predict` answers: an alternative or `NoViableAltError` (start and offending
token). -/
inductive Outcome where
  | alt (k : Int)
  | noAlt (start offending : Tok)
deriving DecidableEq

/-- What listeners hear, src/parser_atn_simulator.rs:1462-1539 (without DFA and configurations) -/
inductive Report where
  | fullContext (start stop : Int) (alts : List Nat)
  | sensitivity (start stop : Int) (k : Int)
  | ambiguity (start stop : Int) (exact : Bool) (alts : List Nat)
deriving DecidableEq

/-- The result of a prediction: the answer, the DFA, the stream, the reports. -/
structure Res (I : Type) where
  out : Outcome
  dfa : DFA
  inp : I
  reports : List Report := []

/-- `no_viable_alt`, src/parser_atn_simulator.rs:1386-1401 -/
def noViableAlt [TokStream I] (L : Local I) (inp : I) : Option (Outcome × I) :=
  (TokStream.get inp L.startIndex).bind fun s =>
    (TokStream.lt inp 1).bind fun r => r.1.map fun o => (.noAlt s o, r.2)

/-- `get_alt_that_finished_decision_entry_rule`, src/parser_atn_simulator.rs:893-904 -/
def altThatFinished (atn : ATN) (s : ConfigSet) : Int :=
  (((s.configs.filter fun c =>
      decide (0 < c.reaches) || (isStop atn c && c.ctx.hasEmptyPath)).foldl
        (fun (a : IntervalSet) c => a.addOne c.alt) IntervalSet.new).getMin).getD INVALID_ALT

/-- `split_according_to_semantic_validity`, src/parser_atn_simulator.rs:865-891: one of the two sets,
filled by `add` -/
def addPlain : List Config → ConfigSet → Option ConfigSet
  | [], s => some s
  | c :: cs, s => (s.addCached c none).bind fun r => addPlain cs r.1

/-- `get_syn_valid_or_sem_invalid_alt_that_finished_decision_entry_rule` with
`split_according_to_semantic_validity`, src/parser_atn_simulator.rs:842-891 -/
def synValidAlt (L : Local I) (cs : ConfigSet) (inp : I) : Option Int :=
  let ok (c : Config) : Bool := decide (c.sem = SC.NONE) || evalPredicate L inp c.sem
  (addPlain (cs.configs.filter ok) (.newBase cs.fullCtx)).bind fun succeeded =>
    (addPlain (cs.configs.filter fun c => !ok c) (.newBase cs.fullCtx)).map fun failed =>
      if altThatFinished L.atn succeeded ≠ INVALID_ALT then altThatFinished L.atn succeeded
      else if failed.configs.isEmpty then INVALID_ALT
      else altThatFinished L.atn failed

/-- `eval_semantic_context` with `complete`, src/parser_atn_simulator.rs:906-935 -/
def evalSemanticContext (L : Local I) (preds : List (Int × SC)) (inp : I) : List Nat :=
  preds.foldl (fun acc p =>
    if p.2 = SC.NONE ∨ evalPredicate L inp p.2 = true then bitInsert (asUsize p.1) acc else acc) []

/-- The end of `exec_atn_with_full_context`, src/parser_atn_simulator.rs:497-506: the decision for a
reach set without unique alternative; outer `none` = panic, inner `none` = look further. -/
def fullDecision (mode : PredictionMode) (s : ConfigSet) : Option (Option (Int × Bool)) :=
  let subsets := conflictingAltSubsets s
  if mode ≠ .LLExact then
    (getSingleViableAlt subsets).map fun k => if k ≠ INVALID_ALT then some (k, false) else none
  else if allSubsetsConflict subsets && allSubsetsEqual subsets then
    (getSingleViableAlt subsets).map fun k => some (k, true)
  else some none

/-- `get_alts` of a configuration set, src/atn_config_set.rs: the alternatives that occur -/
def altsOf (s : ConfigSet) : List Nat := s.configs.foldl (fun acc c => bitInsert (asUsize c.alt) acc) []

/-- The loop of `exec_atn_with_full_context`, src/parser_atn_simulator.rs:472-537 -/
def fullLoop [TokStream I] (L : Local I) (cf : Nat) (d : DFA) :
    Nat → ConfigSet → Int → PC.Cache → I → Option (Res I)
  | 0, _, _, _, _ => none
  | n + 1, prev, t, mc, inp =>
    (computeReach L cf prev t true mc inp).bind fun (reach, mc, inp) =>
      match reach with
      | none =>
        (TokStream.seek inp L.startIndex).bind fun inp =>
          (synValidAlt L prev inp).bind fun k =>
            if k ≠ INVALID_ALT then some { out := .alt k, dfa := d, inp := inp }
            else (noViableAlt L inp).map fun r => { out := r.1, dfa := d, inp := r.2 }
      | some reach =>
        if uniqueAlt reach ≠ INVALID_ALT then
          some { out := .alt (uniqueAlt reach), dfa := d, inp := inp,
                 reports := [.sensitivity L.startIndex (TokStream.index inp) (uniqueAlt reach)] }
        else (fullDecision L.mode reach).bind fun dec =>
          match dec with
          | some (k, exact) =>
            some { out := .alt k, dfa := d, inp := inp,
                   reports := [.ambiguity L.startIndex (TokStream.index inp) exact (altsOf reach)] }
          | none =>
            if t ≠ TOKEN_EOF then
              (TokStream.consume inp).bind fun inp => (TokStream.la inp 1).bind fun r =>
                fullLoop L cf d n reach r.1 mc r.2
            else fullLoop L cf d n reach t mc inp

/-- `exec_atn_with_full_context`, src/parser_atn_simulator.rs:458-538 -/
def execFull [TokStream I] (L : Local I) (cf n : Nat) (d : DFA) (s0 : ConfigSet) (mc : PC.Cache)
    (inp : I) : Option (Res I) :=
  (TokStream.seek inp L.startIndex).bind fun inp => (TokStream.la inp 1).bind fun r =>
    fullLoop L cf d n s0 r.1 mc r.2

/-- `exec_atn`, src/parser_atn_simulator.rs:277-292: the predicates of a state that needs full
context.  Returns the alternatives and the stream; if there is exactly one alternative the stream
stays at the start. -/
def conflictPreds [TokStream I] (L : Local I) (D : DFAState) (inp : I) : Option (List Nat × I) :=
  if D.predicates.isEmpty then some (D.configs.conflictingAlts, inp)
  else
    (if TokStream.index inp ≠ L.startIndex then TokStream.seek inp L.startIndex
      else some inp).bind fun i1 =>
      if (evalSemanticContext L D.predicates i1).length = 1 then
        some (evalSemanticContext L D.predicates i1, i1)
      else (if TokStream.index inp ≠ L.startIndex then TokStream.seek i1 (TokStream.index inp)
        else some i1).map fun i2 => (evalSemanticContext L D.predicates i1, i2)

/-- `exec_atn`, src/parser_atn_simulator.rs:275-315: a state that requires full context. -/
def needFull [TokStream I] (L : Local I) (cf n : Nat) (d : DFA) (D : DFAState) (mc : PC.Cache)
    (inp : I) : Option (Res I) :=
  (conflictPreds L D inp).bind fun (alts, i1) =>
    if D.predicates ≠ [] ∧ alts.length = 1 then
      alts.head?.map fun k => { out := .alt (k : Int), dfa := d, inp := i1 }
    else
      (PC.fromRuleContext L.atn L.outer).bind fun ctx =>
        (computeStart L cf ctx true mc i1).bind fun (s0, mc, i2) =>
          (execFull L cf n d s0 mc i2).map fun r =>
            { r with reports :=
                .fullContext L.startIndex (TokStream.index i1) alts :: r.reports }

/-- `exec_atn`, src/parser_atn_simulator.rs:317-349: an accept state. -/
def accepting [TokStream I] (L : Local I) (d : DFA) (D : DFAState) (inp : I) : Option (Res I) :=
  if D.predicates.isEmpty then some { out := .alt D.prediction, dfa := d, inp := inp }
  else
    (TokStream.seek inp L.startIndex).bind fun i1 =>
      match evalSemanticContext L D.predicates i1 with
      | [] => (noViableAlt L i1).map fun r => { out := r.1, dfa := d, inp := r.2 }
      | [k] => some { out := .alt (k : Int), dfa := d, inp := i1 }
      | k :: ks => some { out := .alt (k : Int), dfa := d, inp := i1,
                          reports := [.ambiguity L.startIndex (TokStream.index inp) false (k :: ks)] }

/-- `exec_atn`, src/parser_atn_simulator.rs:256-272: the error state was reached from `prev`. -/
def failing [TokStream I] (L : Local I) (d : DFA) (prev : DFAState) (inp : I) : Option (Res I) :=
  (noViableAlt L inp).bind fun err => (TokStream.seek err.2 L.startIndex).bind fun i1 =>
    (synValidAlt L prev.configs i1).map fun k =>
      if k ≠ INVALID_ALT then { out := .alt k, dfa := d, inp := i1 }
      else { out := err.1, dfa := d, inp := i1 }

/-- `exec_atn`, src/parser_atn_simulator.rs:250-251: the next state, from the DFA or computed. -/
def nextState [TokStream I] (L : Local I) (cf : Nat) (d : DFA) (prev : Nat) (t : Int) (mc : PC.Cache)
    (inp : I) : Option (Nat × DFA × PC.Cache × I) :=
  (d.existingTarget prev t).bind fun e =>
    match e with
    | some D => some (D, d, mc, inp)
    | none => computeTarget L cf d prev t mc inp

/-- The loop of `exec_atn`, src/parser_atn_simulator.rs:248-357 -/
def execLoop [TokStream I] (L : Local I) (cf : Nat) :
    Nat → DFA → Nat → Int → PC.Cache → I → Option (Res I)
  | 0, _, _, _, _, _ => none
  | n + 1, d, prev, t, mc, inp =>
    (nextState L cf d prev t mc inp).bind fun (D, d, mc, inp) =>
      if D = ERROR_DFA_STATE_REF then (d.states[prev]?).bind fun p => failing L d p inp
      else (d.states[D]?).bind fun Ds =>
        if Ds.requiresFullCtx ∧ L.mode ≠ .SLL then needFull L cf n d Ds mc inp
        else if Ds.isAccept then accepting L d Ds inp
        else if t ≠ TOKEN_EOF then
          (TokStream.consume inp).bind fun inp => (TokStream.la inp 1).bind fun r =>
            execLoop L cf n d D r.1 mc r.2
        else execLoop L cf n d D t mc inp

/-- `exec_atn`, src/parser_atn_simulator.rs:239-358 -/
def execAtn [TokStream I] (L : Local I) (cf n : Nat) (d : DFA) (s0 : Nat) (mc : PC.Cache) (inp : I) :
    Option (Res I) :=
  (TokStream.la inp 1).bind fun r => execLoop L cf n d s0 r.1 mc r.2

/-- `adaptive_predict`, src/parser_atn_simulator.rs:193-227: the start state, new if there is none. -/
def startState [TokStream I] (L : Local I) (cf : Nat) (d : DFA) (inp : I) :
    Option (Nat × DFA × PC.Cache × I) :=
  (if d.isPrecedence then d.getPrecedenceStart L.prec else some d.s0).bind fun s0 =>
    match s0 with
    | some s0 => some (s0, d, [], inp)
    | none =>
      (computeStart L cf PC.EMPTY false [] inp).bind fun (cs, mc, inp) =>
        if d.isPrecedence then
          d.s0.bind fun s0 => (applyPrecedenceFilter L cs mc inp).bind fun (cs', mc) =>
            (d.states[s0]?).bind fun s =>
              let r := DFA.addState L.hash { d with states := d.states.set s0 { s with configs := cs } }
                (DFAState.new 0 cs')
              (r.1.setPrecedenceStart L.prec r.2).map fun d' => (r.2, d', mc, inp)
        else
          let r := DFA.addState L.hash d (DFAState.new 0 cs)
          some (r.2, { r.1 with s0 := some r.2 }, mc, inp)

/-- What is fixed during the call. -/
def localOf [TokStream I] (P : Params I) (d : DFA) (inp : I) : Local I :=
  { P with startIndex := TokStream.index inp, isPrec := d.isPrecedence, atnStart := d.atnStartState }

/-- `adaptive_predict`, src/parser_atn_simulator.rs:162-236, for the DFA `d` of the decision.  On an
error the function returns (229) before the final `seek` and `release`.  `cf` bounds the recursion of
`closure`, `n` the two loops. -/
def adaptivePredict [TokStream I] (P : Params I) (cf n : Nat) (d : DFA) (inp : I) : Option (Res I) :=
  let L := localOf P d inp
  let m := TokStream.mark inp
  (startState L cf d m.2).bind fun (s0, d, mc, inp) =>
    (execAtn L cf n d s0 mc inp).bind fun r =>
      match r.out with
      | .alt _ => (TokStream.seek r.inp L.startIndex).bind fun i =>
          (TokStream.release i m.1).map fun i => { r with inp := i }
      | .noAlt _ _ => some r

end Prediction
end Antlr
