import Verif.ATN.Model
import Verif.Vocabulary.Model
import Verif.Deserializer.Decode

/-!
# Model of `src/atn_deserializer.rs`

The iterator of decoded numbers is a list; a reading function returns what is left of it.
`none` = panic (`unwrap` on the end of the data, index out of range, explicit `panic!`).
Numbers are read before they are used, where the code alternates reading and updating: the outcome
only differs in which of two panics comes first.
-/

namespace Antlr.Deserial
open Antlr

/-- A reading function. -/
abbrev Rd (α : Type) := List Int → Option (α × List Int)

/-- `data.next().unwrap()` -/
def next : Rd Int
  | [] => none
  | x :: r => some (x, r)

/-- `for _ in 0..n`, collecting. -/
def times {α : Type} (f : Rd α) : Nat → Rd (List α)
  | 0, r => some ([], r)
  | n + 1, r => (f r).bind fun a => (times f n a.2).map fun as => (a.1 :: as.1, as.2)

/-- `for i in k..k+n`, collecting. -/
def timesFrom {α : Type} (f : Nat → Rd α) (k : Nat) : Nat → Rd (List α)
  | 0, r => some ([], r)
  | n + 1, r => (f k r).bind fun a => (timesFrom f (k + 1) n a.2).map fun as => (a.1 :: as.1, as.2)

/-- A count read as `usize` (`data.next().unwrap() as usize`). -/
def countU : Rd Nat := fun r => (next r).map fun a => (asUsize a.1, a.2)

/-- A count used as the bound of a range of `isize`: a negative one means no iterations. -/
def countI : Rd Nat := fun r => (next r).map fun a => (a.1.toNat, a.2)

/-- A state number, `data.next().unwrap() as usize`. -/
def ref : Rd Nat := countU

/-- `atn.states[i]` updated in place; `none` = index out of range. -/
def upd (f : ATNState → ATNState) (sts : List ATNState) (i : Nat) : Option (List ATNState) :=
  (sts[i]?).map fun s => sts.set i (f s)

/-- A loop of updates of `atn.states`. -/
def updAll {β : Type} (f : β → ATNState → ATNState) : List (Nat × β) → List ATNState → Option (List ATNState)
  | [], sts => some sts
  | u :: us, sts => (upd (f u.2) sts u.1).bind fun sts => updAll f us sts

/-- `check_version`, src/atn_deserializer.rs:102-109 -/
def checkVersion (v : Int) : Option Unit := if v = 3 then some () else none

/-- `SUPPORTED_UUIDS`, src/atn_deserializer.rs:24-39, as bytes -/
def supportedUuids : List (List Nat) :=
  [[0x33, 0x76, 0x1B, 0x2D, 0x78, 0xBB, 0x4A, 0x43, 0x8B, 0x0B, 0x4F, 0x5B, 0xEE, 0x8A, 0xAC, 0xF3],
   [0x1D, 0xA0, 0xC5, 0x7D, 0x6C, 0x06, 0x43, 0x8A, 0x9B, 0x27, 0x10, 0xBC, 0xB3, 0xCE, 0x0F, 0x61],
   [0xAA, 0xDB, 0x8D, 0x7E, 0xAE, 0xEF, 0x44, 0x15, 0xAD, 0x2B, 0x82, 0x04, 0xD6, 0xCF, 0x04, 0x2E],
   [0x59, 0x62, 0x77, 0x84, 0x3B, 0xE5, 0x41, 0x7A, 0xB9, 0xEB, 0x81, 0x31, 0xA7, 0x28, 0x60, 0x89]]

/-- The little-endian bytes of `i as u16`. -/
def u16Bytes (i : Int) : List Nat := [(i % 0x100).toNat, (i / 0x100 % 0x100).toNat]

/-- `check_uuid`, src/atn_deserializer.rs:111-125 -/
def checkUuid : Rd (List Nat) := fun r =>
  let bytes := ((r.take 8).flatMap u16Bytes).reverse
  if bytes ∈ supportedUuids then some (bytes, r.drop 8) else none

/-- `state_factory`, src/atn_deserializer.rs:528-596 -/
def stateFactory (ty ruleIndex : Int) (i : Nat) : Option ATNState :=
  (if ty = 0 then some StateType.invalid
   else if ty = 1 then some .basic
   else if ty = 2 then some (.ruleStart 0 false)
   else if ty = 3 then some (.decision (-1) false (.blockStart 0 .basic))
   else if ty = 4 then some (.decision (-1) false (.blockStart 0 (.plus 0)))
   else if ty = 5 then some (.decision (-1) false (.blockStart 0 .star))
   else if ty = 6 then some (.decision (-1) false .tokenStart)
   else if ty = 7 then some .ruleStop
   else if ty = 8 then some (.blockEnd 0)
   else if ty = 9 then some .starLoopback
   else if ty = 10 then some (.decision (-1) false (.starLoopEntry 0 false))
   else if ty = 11 then some (.decision (-1) false .plusLoopBack)
   else if ty = 12 then some (.loopEnd 0)
   else none).map fun t => { ruleIndex := asUsize ruleIndex, stateNumber := i, stateType := t }

/-- The extra word of block starts and loop ends, src/atn_deserializer.rs:158-167 -/
def readAux (t : StateType) : Rd StateType := fun r =>
  match t with
  | .decision d n (.blockStart _ en) => (ref r).map fun a => (.decision d n (.blockStart a.1 en), a.2)
  | .loopEnd _ => (ref r).map fun a => (.loopEnd a.1, a.2)
  | t => some (t, r)

/-- One state, src/atn_deserializer.rs:145-169; a state of type -1 panics (147-150). -/
def readState (i : Nat) : Rd ATNState := fun r =>
  (next r).bind fun ty =>
    if ty.1 = -1 then none
    else (next ty.2).bind fun ri =>
      (stateFactory ty.1 (if ri.1 = 0xFFFF then -1 else ri.1) i).bind fun s =>
        (readAux s.stateType ri.2).map fun t => ({ s with stateType := t.1 }, t.2)

/-- src/atn_deserializer.rs:176-180 -/
def setNonGreedy (s : ATNState) : ATNState :=
  match s.stateType with
  | .decision d _ k => { s with stateType := .decision d true k }
  | _ => s

/-- src/atn_deserializer.rs:188-194 -/
def setLeftRecursive (s : ATNState) : ATNState :=
  match s.stateType with
  | .ruleStart stop _ => { s with stateType := .ruleStart stop true }
  | _ => s

/-- `read_states`, src/atn_deserializer.rs:140-195 -/
def readStates : Rd (List ATNState) := fun r =>
  (countU r).bind fun n => (timesFrom readState 0 n.1 n.2).bind fun sts =>
    (countI sts.2).bind fun ng => (times ref ng.1 ng.2).bind fun gs =>
      (updAll (fun _ => setNonGreedy) (gs.1.map fun i => (i, ())) sts.1).bind fun states =>
        (countI gs.2).bind fun np => (times ref np.1 np.2).bind fun ps =>
          (updAll (fun _ => setLeftRecursive) (ps.1.map fun i => (i, ())) states).map fun states =>
            (states, ps.2)

/-- One rule: its start state and, in lexers, its token type, src/atn_deserializer.rs:204-212 -/
def readRule (lexer : Bool) : Rd (Nat × Option Int) := fun r =>
  (ref r).bind fun s =>
    if lexer then (next s.2).map fun t => ((s.1, some t.1), t.2) else some ((s.1, none), s.2)

/-- src/atn_deserializer.rs:226-231 -/
def setStop (stop : Nat) (s : ATNState) : ATNState :=
  match s.stateType with
  | .ruleStart _ lr => { s with stateType := .ruleStart stop lr }
  | _ => s

/-- The stop states in order with their rules, src/atn_deserializer.rs:218-221 -/
def stopStates (sts : List ATNState) : List (Nat × Nat) :=
  sts.zipIdx.filterMap fun p => if p.1.stateType = .ruleStop then some (p.1.ruleIndex, p.2) else none

/-- `atn.rule_to_stop_state[rule_index] = i`, src/atn_deserializer.rs:222 -/
def setStops : List (Nat × Nat) → List Nat → Option (List Nat)
  | [], l => some l
  | u :: us, l => if u.1 < l.length then setStops us (l.set u.1 u.2) else none

/-- The start states to be given their stop states, src/atn_deserializer.rs:223-226; `none` = index
panic -/
def startsOf (starts : List Nat) : List (Nat × Nat) → Option (List (Nat × Nat))
  | [] => some []
  | u :: us => (starts[u.1]?).bind fun s => (startsOf starts us).map fun l => (s, u.2) :: l

/-- `read_rules`, src/atn_deserializer.rs:197-234 -/
def readRules (atn : ATN) : Rd ATN := fun r =>
  (countU r).bind fun n =>
    (times (readRule (atn.grammarType = .lexer)) n.1 n.2).bind fun rules =>
      (setStops (stopStates atn.states) (List.replicate n.1 0)).bind fun stops =>
        (startsOf (rules.1.map (·.1)) (stopStates atn.states)).bind fun us =>
          (updAll setStop us atn.states).map fun states =>
            ({ atn with
                ruleToStartState := rules.1.map (·.1)
                ruleToTokenType := rules.1.filterMap (·.2)
                ruleToStopState := stops
                states := states }, rules.2)

/-- `read_modes`, src/atn_deserializer.rs:236-241 -/
def readModes : Rd (List Nat) := fun r => (countI r).bind fun n => times ref n.1 n.2

/-- A boundary in the first table of sets, src/atn_deserializer.rs:74-76 -/
def bound16 : Rd Int := fun r => (next r).map fun a => (asU16 a.1, a.2)

/-- A boundary in the second table, src/atn_deserializer.rs:78-80: the two halves do not overlap if
the high half is not negative, so `|` is `+`. -/
def bound32 : Rd Int := fun r =>
  (next r).bind fun lo => (next lo.2).map fun hi => (asU16 lo.1 + hi.1 * 0x10000, hi.2)

/-- One interval, src/atn_deserializer.rs:262 -/
def readInterval (bound : Rd Int) : Rd Interval := fun r =>
  (bound r).bind fun a => (bound a.2).map fun b => (⟨a.1, b.1⟩, b.2)

/-- One set, src/atn_deserializer.rs:251-265 -/
def readSet (bound : Rd Int) : Rd IntervalSet := fun r =>
  (countI r).bind fun n => (next n.2).bind fun eof =>
    (times (readInterval bound) n.1 eof.2).map fun ivs =>
      (ivs.1.foldl IntervalSet.addInterval
        (if eof.1 ≠ 0 then IntervalSet.new.addOne (-1) else IntervalSet.new), ivs.2)

/-- `read_sets`, src/atn_deserializer.rs:243-268 -/
def readSets (bound : Rd Int) : Rd (List IntervalSet) := fun r =>
  (countI r).bind fun n => times (readSet bound) n.1 n.2

/-- `edge_factory`, src/atn_deserializer.rs:452-526 -/
def edgeFactory (sets : List IntervalSet) (ty : Int) (target : Nat) (a1 a2 a3 : Int) : Option Trans :=
  if ty = 1 then some (.epsilon target 0)
  else if ty = 2 then some (.range target (if a3 ≠ 0 then -1 else a1) a2)
  else if ty = 3 then some (.rule (asUsize a1) target a2 a3)
  else if ty = 4 then some (.predicate target (a3 ≠ 0) a1 a2)
  else if ty = 5 then some (.atom target (if a3 ≠ 0 then -1 else a1))
  else if ty = 6 then some (.action target (a3 ≠ 0) a1 a2 0)
  else if ty = 7 then (sets[asUsize a1]?).map fun s => .set target s
  else if ty = 8 then (sets[asUsize a1]?).map fun s => .notSet target s
  else if ty = 9 then some (.wildcard target)
  else if ty = 10 then some (.precedence target a1)
  else none

/-- One edge with its source, src/atn_deserializer.rs:279-288 -/
def readEdge (sets : List IntervalSet) : Rd (Nat × Trans) := fun r =>
  (ref r).bind fun src => (ref src.2).bind fun trg => (next trg.2).bind fun ty =>
    (next ty.2).bind fun a1 => (next a1.2).bind fun a2 => (next a2.2).bind fun a3 =>
      (edgeFactory sets ty.1 trg.1 a1.1 a2.1 a3.1).map fun t => ((src.1, t), a3.2)

/-- Is the rule of the state left recursive, src/atn_deserializer.rs:300-307, 411-416; `none` = index
panic -/
def ruleLeftRecursive (atn : ATN) (rule : Nat) : Option Bool :=
  (atn.ruleToStartState[rule]?).bind fun i => (atn.states[i]?).map fun s =>
    match s.stateType with
    | .ruleStart _ true => true
    | _ => false

/-- The return edge of a transition, with the stop state it leaves, src/atn_deserializer.rs:291-331 -/
def returnEdge (atn : ATN) (t : Trans) : Option (Option (Nat × Trans)) :=
  match t with
  | .rule target follow _ precedence =>
    (atn.states[target]?).bind fun s => (ruleLeftRecursive atn s.ruleIndex).bind fun lr =>
      (atn.ruleToStopState[s.ruleIndex]?).map fun stop =>
        some (stop, .epsilon follow (if lr = true ∧ precedence = 0 then (s.ruleIndex : Int) else -1))
  | _ => some none

/-- `new_tr`, src/atn_deserializer.rs:290-332 -/
def returnEdges (atn : ATN) : List Trans → Option (List (Nat × Trans))
  | [] => some []
  | t :: ts => (returnEdge atn t).bind fun e => (returnEdges atn ts).map fun l => e.toList ++ l

/-- `add_transition` as an update. -/
def addTr (t : Trans) (s : ATNState) : ATNState := s.addTransition t

/-- `read_edges`, src/atn_deserializer.rs:270-365 (the loop at 337-364 does nothing) -/
def readEdges (atn : ATN) (sets : List IntervalSet) : Rd ATN := fun r =>
  (countI r).bind fun n => (times (readEdge sets) n.1 n.2).bind fun es =>
    (updAll addTr es.1 atn.states).bind fun states =>
      (returnEdges { atn with states := states } (states.flatMap (·.transitions))).bind fun rs =>
        (updAll addTr rs states).map fun states => ({ atn with states := states }, es.2)

/-- src/atn_deserializer.rs:373-375 -/
def setDecision (d : Nat) (s : ATNState) : ATNState :=
  match s.stateType with
  | .decision _ n k => { s with stateType := .decision d n k }
  | _ => s

/-- `read_decisions`, src/atn_deserializer.rs:367-377 -/
def readDecisions (atn : ATN) : Rd ATN := fun r =>
  (countI r).bind fun n => (times ref n.1 n.2).bind fun ds =>
    (updAll setDecision ds.1.zipIdx atn.states).map fun states =>
      ({ atn with states := states, decisionToState := ds.1 }, ds.2)

/-- `lexer_action_factory`, src/atn_deserializer.rs:598-613 -/
def actionFactory (ty d1 d2 : Int) : Option LexerAction :=
  if ty = 0 then some (.channel d1)
  else if ty = 1 then some (.custom d1 d2)
  else if ty = 2 then some (.mode d1)
  else if ty = 3 then some .more
  else if ty = 4 then some .popMode
  else if ty = 5 then some (.pushMode d1)
  else if ty = 6 then some .skip
  else if ty = 7 then some (.type d1)
  else none

/-- One lexer action, src/atn_deserializer.rs:384-398 -/
def readAction : Rd LexerAction := fun r =>
  (next r).bind fun ty => (next ty.2).bind fun d1 => (next d1.2).bind fun d2 =>
    (actionFactory ty.1 (if d1.1 = 0xFFFF then -1 else d1.1) (if d2.1 = 0xFFFF then -1 else d2.1)).map
      fun a => (a, d2.2)

/-- `read_lexer_actions`, src/atn_deserializer.rs:379-399 -/
def readLexerActions : Rd (List LexerAction) := fun r =>
  (countU r).bind fun n => times readAction n.1 n.2

/-- Is the state a star loop entry? -/
def isStarLoopEntry (s : ATNState) : Bool :=
  match s.stateType with
  | .decision _ _ (.starLoopEntry _ _) => true
  | _ => false

/-- The test of `mark_precedence_decisions`, src/atn_deserializer.rs:404-430; `none` = panic -/
def isPrecedenceLoop (atn : ATN) (s : ATNState) : Option Bool :=
  if isStarLoopEntry s then
    (ruleLeftRecursive atn s.ruleIndex).bind fun lr =>
      if lr then
        s.transitions.getLast?.bind fun t => (atn.states[t.target]?).bind fun e =>
          match e.stateType with
          | .loopEnd _ =>
            if e.epsilonOnly then
              e.transitions.head?.bind fun t => (atn.states[t.target]?).map fun q =>
                decide (q.stateType = .ruleStop)
            else some false
          | _ => some false
      else some false
  else some false

/-- `precedence_states`, src/atn_deserializer.rs:402-431 -/
def precedenceLoops (atn : ATN) : List ATNState → Option (List Nat)
  | [] => some []
  | s :: ss => (isPrecedenceLoop atn s).bind fun b =>
      (precedenceLoops atn ss).map fun l => (if b then [s.stateNumber] else []) ++ l

/-- src/atn_deserializer.rs:432-443 -/
def setPrecedence (s : ATNState) : ATNState :=
  match s.stateType with
  | .decision d n (.starLoopEntry lb _) => { s with stateType := .decision d n (.starLoopEntry lb true) }
  | _ => s

/-- `mark_precedence_decisions`, src/atn_deserializer.rs:401-444 -/
def markPrecedence (atn : ATN) : Option ATN :=
  (precedenceLoops atn atn.states).bind fun l =>
    (updAll (fun _ => setPrecedence) (l.map fun i => (i, ())) atn.states).map fun states =>
      { atn with states := states }

/-- `read_atn`, src/atn_deserializer.rs:127-138 -/
def readAtn : Rd ATN := fun r =>
  (next r).bind fun ty =>
    (if ty.1 = 0 then some ATNType.lexer else if ty.1 = 1 then some .parser else none).bind fun g =>
      (next ty.2).map fun m => ({ grammarType := g, maxTokenType := m.1 }, m.2)

/-- `deserialize` on the decoded numbers, src/atn_deserializer.rs:64-97.  `verify_atn` is empty. -/
def readAll (r : List Int) : Option ATN :=
  (next r).bind fun v => (checkVersion (v.1 + 2)).bind fun _ => (checkUuid v.2).bind fun u =>
    (readAtn u.2).bind fun a => (readStates a.2).bind fun sts =>
      (readRules { a.1 with states := sts.1 } sts.2).bind fun b => (readModes b.2).bind fun ms =>
        (readSets bound16 ms.2).bind fun s16 => (readSets bound32 s16.2).bind fun s32 =>
          (readEdges { b.1 with modeToStartState := ms.1 } (s16.1 ++ s32.1) s32.2).bind fun c =>
            (readDecisions c.1 c.2).bind fun d =>
              (if d.1.grammarType = .lexer then
                 (readLexerActions d.2).map fun as => { d.1 with lexerActions := as.1 }
               else some d.1).bind markPrecedence

/-- `ATNDeserializer::deserialize`, src/atn_deserializer.rs:55-98, on the code points of the
serialized text -/
def deserialize (data : List Nat) : Option ATN := readAll (decodeChars data)

end Antlr.Deserial
