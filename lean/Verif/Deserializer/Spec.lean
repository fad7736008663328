import Verif.ATN.Model
import Verif.IntervalSet.Spec

/-!
# The serialized form of an ATN

An automaton as the ANTLR tool has it, how the tool writes it down (version 3, the UUID of the
format with 32-bit sets; this is the tool's `ATNSerializer`, which is not part of the runtime), and
what a deserialized ATN has to look like.  Nothing here refers to the deserializer.
-/

namespace Antlr.SerialSpec
open Antlr IntervalSpec

/-- The kinds of states with what is written about them. -/
inductive SKind where
  | basic
  | ruleStart (leftRecursive : Bool)
  | blockStart (endState : Nat)
  | plusBlockStart (endState : Nat)
  | starBlockStart (endState : Nat)
  | tokenStart
  | ruleStop
  | blockEnd
  | starLoopBack
  | starLoopEntry
  | plusLoopBack
  | loopEnd (loopBack : Nat)
deriving DecidableEq

/-- Can a state of this kind be a decision? -/
def SKind.isDecision : SKind → Bool
  | blockStart _ | plusBlockStart _ | starBlockStart _ | tokenStart | starLoopEntry | plusLoopBack => true
  | _ => false

/-- A state: kind, rule (some states have none), non-greedy mark, outgoing edges in order.  Edges from
rule stop states back to the callers are not part of it. -/
structure SState where
  kind : SKind
  rule : Option Nat
  nonGreedy : Bool := false
  edges : List Trans := []
deriving DecidableEq

/-- An automaton: `rules` are start states with token types (for lexers). -/
structure Src where
  grammarType : ATNType
  maxTokenType : Nat
  states : List SState
  rules : List (Nat × Int)
  modes : List Nat := []
  decisions : List Nat := []
  actions : List LexerAction := []

/-! ## How it is written -/

/-- The code of a kind. -/
def SKind.code : SKind → Int
  | basic => 1 | ruleStart _ => 2 | blockStart _ => 3 | plusBlockStart _ => 4 | starBlockStart _ => 5
  | tokenStart => 6 | ruleStop => 7 | blockEnd => 8 | starLoopBack => 9 | starLoopEntry => 10
  | plusLoopBack => 11 | loopEnd _ => 12

/-- The word that follows some kinds. -/
def SKind.aux : SKind → List Int
  | blockStart e | plusBlockStart e | starBlockStart e => [(e : Int)]
  | loopEnd b => [(b : Int)]
  | _ => []

/-- The rule of a state; no rule is written as -1, that is `0xFFFF`. -/
def ruleWord : Option Nat → Int
  | some r => (r : Int)
  | none => -1

/-- One state. -/
def stateWords (s : SState) : List Int := [s.kind.code, ruleWord s.rule] ++ s.kind.aux

/-- The numbers of the states with a property. -/
def numbersOf (f : SState → Bool) (sts : List SState) : List Nat :=
  (sts.zipIdx.filter fun p => f p.1).map (·.2)

/-- Is it the start state of a left-recursive rule? -/
def isLeftRecursive (s : SState) : Bool :=
  match s.kind with
  | .ruleStart true => true
  | _ => false

/-- A list with its length first. -/
def counted (l : List Nat) : List Int := (l.length : Int) :: l.map (fun (n : Nat) => (n : Int))

/-- All states, then the non-greedy ones, then the starts of left-recursive rules. -/
def statesWords (sts : List SState) : List Int :=
  (sts.length : Int) :: sts.flatMap stateWords ++ counted (numbersOf (·.nonGreedy) sts) ++
    counted (numbersOf isLeftRecursive sts)

/-- The rules. -/
def rulesWords (g : ATNType) (rules : List (Nat × Int)) : List Int :=
  (rules.length : Int) :: rules.flatMap fun r => if g = .lexer then [(r.1 : Int), r.2] else [(r.1 : Int)]

/-- The set an edge carries. -/
def carried : Trans → List (List Interval)
  | .set _ s | .notSet _ s => [s.intervals]
  | _ => []

/-- All sets on edges, each once. -/
def allSets (src : Src) : List (List Interval) :=
  ((src.states.flatMap (·.edges)).flatMap carried).eraseDups

/-- Does a set fit the first table? -/
def isSmall (l : List Interval) : Bool := l.all fun i => i.b ≤ 0xFFFF

/-- The two tables of sets. -/
def smallSets (src : Src) : List (List Interval) := (allSets src).filter isSmall
def bigSets (src : Src) : List (List Interval) := (allSets src).filter fun l => !isSmall l

/-- The position of a set in the tables. -/
def setIndex (src : Src) (l : List Interval) : Nat := (smallSets src ++ bigSets src).idxOf l

/-- Does the set contain EOF? -/
def hasEof (l : List Interval) : Bool := l.any fun i => i.a ≤ -1 && -1 ≤ i.b

/-- The intervals as written: without EOF. -/
def written (l : List Interval) : List Interval :=
  l.filterMap fun i => if i.a = -1 then (if i.b = -1 then none else some ⟨0, i.b⟩) else some i

/-- One set; `bound` writes a boundary. -/
def setWords (bound : Int → List Int) (l : List Interval) : List Int :=
  [((written l).length : Int), if hasEof l then 1 else 0] ++
    (written l).flatMap fun i => bound i.a ++ bound i.b

/-- A table of sets. -/
def setsWords (bound : Int → List Int) (ls : List (List Interval)) : List Int :=
  (ls.length : Int) :: ls.flatMap (setWords bound)

/-- A boundary in the first table. -/
def word16 (b : Int) : List Int := [b]
/-- A boundary in the second table: low and high half. -/
def word32 (b : Int) : List Int := [b % 0x10000, b / 0x10000]

/-- One edge: source, target, code, three arguments. -/
def edgeWords (src : Src) (i : Nat) (t : Trans) : List Int :=
  (i : Int) :: match t with
  | .epsilon t _ => [(t : Int), 1, 0, 0, 0]
  | .range t a b => if a = -1 then [(t : Int), 2, 0, b, 1] else [(t : Int), 2, a, b, 0]
  | .rule t f r p => [(f : Int), 3, (t : Int), r, p]
  | .predicate t d r p => [(t : Int), 4, r, p, if d then 1 else 0]
  | .atom t l => if l = -1 then [(t : Int), 5, 0, 0, 1] else [(t : Int), 5, l, 0, 0]
  | .action t d r a _ => [(t : Int), 6, r, a, if d then 1 else 0]
  | .set t s => [(t : Int), 7, (setIndex src s.intervals : Int), 0, 0]
  | .notSet t s => [(t : Int), 8, (setIndex src s.intervals : Int), 0, 0]
  | .wildcard t => [(t : Int), 9, 0, 0, 0]
  | .precedence t p => [(t : Int), 10, p, 0, 0]

/-- The edges with their sources. -/
def allEdges (src : Src) : List (Nat × Trans) :=
  src.states.zipIdx.flatMap fun p => p.1.edges.map fun t => (p.2, t)

/-- All edges. -/
def edgesWords (src : Src) : List Int :=
  ((allEdges src).length : Int) :: (allEdges src).flatMap fun e => edgeWords src e.1 e.2

/-- One lexer action. -/
def actionWords : LexerAction → List Int
  | .channel c => [0, c, 0]
  | .custom r a => [1, r, a]
  | .mode m => [2, m, 0]
  | .more => [3, 0, 0]
  | .popMode => [4, 0, 0]
  | .pushMode m => [5, m, 0]
  | .skip => [6, 0, 0]
  | .type t => [7, t, 0]
  | .indexedCustom _ _ => []

/-- The lexer actions, in lexers. -/
def actionsWords (src : Src) : List Int :=
  if src.grammarType = .lexer then (src.actions.length : Int) :: src.actions.flatMap actionWords else []

/-- The UUID 59627784-3BE5-417A-B9EB-8131A7286089, in words of 16 bits, last word first. -/
def uuidWords : List Int :=
  [0x6089, 0xA728, 0x8131, 0xB9EB, 0x417A, 0x3BE5, 0x7784, 0x5962]

/-- The type of the grammar. -/
def grammarWord : ATNType → Int
  | .lexer => 0
  | .parser => 1

/-- Everything before the sets. -/
def front (src : Src) : List Int :=
  [grammarWord src.grammarType, (src.maxTokenType : Int)] ++
    statesWords src.states ++ rulesWords src.grammarType src.rules ++ counted src.modes

/-- Everything after the sets. -/
def back (src : Src) : List Int := edgesWords src ++ counted src.decisions ++ actionsWords src

/-- All the numbers written after version and UUID. -/
def body (src : Src) : List Int :=
  front src ++ setsWords word16 (smallSets src) ++ setsWords word32 (bigSets src) ++ back src

/-- The character for a number: `number + 2 mod 2^16`, surrogates (which a Rust `char` cannot hold)
shifted above the basic plane. -/
def charOf (v : Int) : Nat :=
  let w := ((v + 2) % 0x10000).toNat
  if 0xD800 ≤ w ∧ w ≤ 0xDFFF then w + 0x3000 else w

/-- The serialized text: the version is written as it is. -/
def serialize (src : Src) : List Nat := 3 :: (uuidWords ++ body src).map charOf

/-! ## Well-formed automata -/

/-- Numbers that survive the decoding (see C58): not `0xFFFE` and `0xFFFF`, which come back as -2
and -1. -/
def Fits (v : Int) : Prop := -2 ≤ v ∧ v < 0xFFFE

/-- The rule index of a state in the ATN: a state without rule has index `usize::MAX`. -/
def ruleNumber (s : SState) : Nat := s.rule.getD (2 ^ 64 - 1)

/-- An edge as the tool makes it. -/
def GoodEdge (src : Src) : Trans → Prop
  | .epsilon _ o => o = 0
  | .action _ _ _ _ p => p = 0
  | .set _ s | .notSet _ s =>
    s.readOnly = false ∧ Canonical s.intervals ∧ ∀ i ∈ s.intervals, -1 ≤ i.a ∧ i.b ≤ 0x10FFFF
  | .rule t _ _ _ => ∃ s, src.states[t]? = some s ∧ ruleNumber s < src.rules.length
  | _ => True

/-- Well-formed automata. -/
structure WF (src : Src) : Prop where
  /-- the numbers written fit (boundaries of sets need not) -/
  fits : ∀ v ∈ front src ++ back src, Fits v
  fewSets : (allSets src).length < 0xFFFE
  fewIntervals : ∀ l ∈ allSets src, l.length < 0xFFFE
  targets : ∀ s ∈ src.states, ∀ t ∈ s.edges, t.target < src.states.length
  edges : ∀ s ∈ src.states, ∀ t ∈ s.edges, GoodEdge src t
  /-- an edge is there once: no two with the same target that are both silent or have the same label -/
  distinct : ∀ s ∈ src.states, s.edges.Pairwise fun t u => t.target = u.target →
    ¬ (t.isEpsilon = true ∧ u.isEpsilon = true) ∧ (t.label.isSome → t.label ≠ u.label)
  /-- nothing leaves a rule stop state -/
  stopEdges : ∀ s ∈ src.states, s.kind = .ruleStop → s.edges = []
  nonGreedy : ∀ s ∈ src.states, s.nonGreedy = true → s.kind.isDecision = true
  /-- every rule has a start state of its own -/
  starts : ∀ r (h : r < src.rules.length), ∃ s, src.states[src.rules[r].1]? = some s ∧ s.rule = some r ∧
    ∃ lr, s.kind = .ruleStart lr
  onlyStarts : ∀ (i : Nat) (s : SState), src.states[i]? = some s → ∀ lr, s.kind = .ruleStart lr → i ∈ src.rules.map (·.1)
  /-- and exactly one stop state -/
  stops : ∀ r, r < src.rules.length → ∃ i : Nat, ∃ s : SState, src.states[i]? = some s ∧ s.rule = some r ∧ s.kind = .ruleStop
  oneStop : ∀ (i j : Nat) (s t : SState), src.states[i]? = some s → src.states[j]? = some t → s.kind = .ruleStop →
    t.kind = .ruleStop → s.rule = t.rule → i = j
  stopRule : ∀ s ∈ src.states, s.kind = .ruleStop → ruleNumber s < src.rules.length
  /-- loop entries belong to rules and lead somewhere -/
  loops : ∀ s ∈ src.states, s.kind = .starLoopEntry → ruleNumber s < src.rules.length ∧ s.edges ≠ []
  decisions : src.decisions.Nodup ∧ ∀ i ∈ src.decisions, i < src.states.length
  actions : ∀ a ∈ src.actions, ∀ o b, a ≠ .indexedCustom o b
  parserActions : src.grammarType = .parser → src.actions = []

/-! ## What the ATN must be -/

/-- The stop state of a rule. -/
def stopOf (src : Src) (r : Nat) : Nat :=
  src.states.findIdx fun s => s.kind = .ruleStop ∧ ruleNumber s = r

/-- Is the rule left recursive? -/
def LeftRec (src : Src) (r : Nat) : Prop :=
  ∃ i s, (src.rules.map (·.1))[r]? = some i ∧ src.states[i]? = some s ∧ s.kind = .ruleStart true

/-- The number of the decision made in state `i`, -1 if there is none. -/
def decisionOf (src : Src) (i : Nat) : Int :=
  if i ∈ src.decisions then (src.decisions.idxOf i : Int) else -1

/-- Is the loop entry that of the operator loop of a left-recursive rule: the last way out of it is
the loop end, from which only silent edges lead and first to the end of the rule. -/
def OperatorLoop (src : Src) (s : SState) : Prop :=
  LeftRec src (ruleNumber s) ∧ ∃ t e u, s.edges.getLast? = some t ∧ src.states[t.target]? = some e ∧
    (∃ b, e.kind = .loopEnd b) ∧ (∀ t ∈ e.edges, t.isEpsilon = true) ∧ e.edges.head? = some u ∧
    ∃ q, src.states[u.target]? = some q ∧ q.kind = .ruleStop

open Classical in
/-- The type of state number `i`. -/
noncomputable def typeOf (src : Src) (i : Nat) (s : SState) : StateType :=
  match s.kind with
  | .basic => .basic
  | .ruleStart lr => .ruleStart (stopOf src (ruleNumber s)) lr
  | .blockStart e => .decision (decisionOf src i) s.nonGreedy (.blockStart e .basic)
  | .plusBlockStart e => .decision (decisionOf src i) s.nonGreedy (.blockStart e (.plus 0))
  | .starBlockStart e => .decision (decisionOf src i) s.nonGreedy (.blockStart e .star)
  | .tokenStart => .decision (decisionOf src i) s.nonGreedy .tokenStart
  | .ruleStop => .ruleStop
  | .blockEnd => .blockEnd 0
  | .starLoopBack => .starLoopback
  | .starLoopEntry =>
    .decision (decisionOf src i) s.nonGreedy (.starLoopEntry 0 (decide (OperatorLoop src s)))
  | .plusLoopBack => .decision (decisionOf src i) s.nonGreedy .plusLoopBack
  | .loopEnd b => .loopEnd b

/-- A call of rule `r` that returns to `follow`. -/
def Call (src : Src) (r follow : Nat) (precedence : Int) : Prop :=
  ∃ s ∈ src.states, ∃ target ri, .rule target follow ri precedence ∈ s.edges ∧
    ∃ t, src.states[target]? = some t ∧ ruleNumber t = r

/-- The ATN is the automaton. -/
structure Described (src : Src) (atn : ATN) : Prop where
  grammarType : atn.grammarType = src.grammarType
  maxTokenType : atn.maxTokenType = src.maxTokenType
  starts : atn.ruleToStartState = src.rules.map (·.1)
  tokenTypes : atn.ruleToTokenType = if src.grammarType = .lexer then src.rules.map (·.2) else []
  stops : atn.ruleToStopState = (List.range src.rules.length).map (stopOf src)
  modes : atn.modeToStartState = src.modes
  decisions : atn.decisionToState = src.decisions
  actions : atn.lexerActions = src.actions
  length : atn.states.length = src.states.length
  states : ∀ (i : Nat) (s : SState) (a : ATNState), src.states[i]? = some s → atn.states[i]? = some a →
    a.stateNumber = i ∧ a.ruleIndex = ruleNumber s ∧ a.stateType = typeOf src i s ∧
    a.epsilonOnly = (!a.transitions.isEmpty && a.transitions.all (·.isEpsilon))
  edges : ∀ (i : Nat) (s : SState) (a : ATNState), src.states[i]? = some s → atn.states[i]? = some a → s.kind ≠ .ruleStop →
    a.transitions = s.edges

/-- The edges of rule stop states: silent, one for every place to return to, marked with the rule if
it is left recursive and called with precedence 0. -/
structure Returns (src : Src) (atn : ATN) : Prop where
  silent : ∀ (i : Nat) (s : SState) (a : ATNState), src.states[i]? = some s → atn.states[i]? = some a → s.kind = .ruleStop →
    ∀ t ∈ a.transitions, ∃ f p, Call src (ruleNumber s) f p ∧
      ∃ o : Int, t = .epsilon f o ∧ (o = ruleNumber s ↔ LeftRec src (ruleNumber s) ∧ p = 0) ∧
        (o = ruleNumber s ∨ o = -1)
  all : ∀ (i : Nat) (s : SState) (a : ATNState), src.states[i]? = some s → atn.states[i]? = some a → s.kind = .ruleStop →
    ∀ f p, Call src (ruleNumber s) f p → f ∈ a.transitions.map (·.target)
  once : ∀ (i : Nat) (s : SState) (a : ATNState), src.states[i]? = some s → atn.states[i]? = some a → s.kind = .ruleStop →
    (a.transitions.map (·.target)).Nodup

end Antlr.SerialSpec
