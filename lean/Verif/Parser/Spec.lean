import Verif.Parser.Model

/-!
# What a parse should produce

The token stream is abstracted to the sequence `T 0, T 1, …` of tokens the parser sees (ending in
EOF for ever) and a position in it.  A rule call then denotes a tree, a number of tokens consumed and
a sequence of events, defined here without any heap, stream or listener.
-/

namespace Antlr.ParserSpec
open Antlr

/-- `V s n`: the stream state `s` shows the tokens `T n, T (n+1), …` to the parser. -/
structure IsView {I : Type} [TokStream I] (T : Nat → Tok) (V : I → Nat → Prop) : Prop where
  current : ∀ s n, V s n → TokStream.get s (TokStream.index s) = some (T n)
  lt_one : ∀ s n, V s n → ∃ s', TokStream.lt s 1 = some (some (T n), s') ∧ V s' n
  lt_prev : ∀ s n, V s n →
    ∃ s', TokStream.lt s (-1) = some (if n = 0 then none else some (T (n - 1)), s') ∧ V s' n
  la : ∀ s n (k : Nat), V s n → 1 ≤ k →
    ∃ s', TokStream.la s k = some ((T (n + k - 1)).ttype, s') ∧ V s' n
  consume : ∀ s n, V s n → (T n).ttype ≠ TOKEN_EOF →
    ∃ s', TokStream.consume s = some s' ∧ V s' (n + 1)
  eof_stays : ∀ n, (T n).ttype = TOKEN_EOF → T (n + 1) = T n

/-- A parse tree with everything a rule node stores. -/
inductive Node where
  | leaf (tok : Tok) (isError : Bool)
  | rule (idx : Nat) (label : Option Nat) (invoking : Int) (start stop : Tok) (kids : List Node)

/-- Where the parser is: position, whether EOF has been matched, and its state number. -/
structure St where
  pos : Nat
  eof : Bool
  state : Int
deriving DecidableEq

section
variable (T : Nat → Tok)

/-- The token before the position; the invalid token at the very start. -/
def prevTok (n : Nat) : Tok := if n = 0 then createInvalid else T (n - 1)

def advance (s : St) : St := if (T s.pos).ttype = TOKEN_EOF then s else { s with pos := s.pos + 1 }

/-- Leaves added by a step and where it leads. -/
def primDen : Prim → St → List Node × St
  | .matchTok, s =>
    ([.leaf (T s.pos) false],
     advance T (if (T s.pos).ttype = TOKEN_EOF then { s with eof := true } else s))
  | .consume r, s => ([.leaf (T s.pos) r], advance T s)
  | .conjure t, s => (if t.index = -1 then [.leaf t true] else [], s)
  | .setState n, s => ([], { s with state := n })
  | .markStop, s => ([], s)

def primsDen : List Prim → St → List Node × St
  | [], s => ([], s)
  | x :: xs, s => ((primDen T x s).1 ++ (primsDen xs (primDen T x s).2).1,
                   (primsDen xs (primDen T x s).2).2)

/-- The last token of a rule left at `s`. -/
def stopTok (s : St) : Tok := if s.eof then T s.pos else prevTok T s.pos

mutual
/-- The nodes a step adds to the current rule node, and where it leads. -/
def actDen : Act → St → List Node × St
  | .prim x, s => primDen T x s
  | .rule idx st pre label body, s =>
    let a := primsDen T pre { s with state := st }
    let b := actsDen body a.2
    ([.rule idx label s.state (T s.pos) (stopTok T b.2) (a.1 ++ b.1)], { b.2 with state := s.state })
  | .noAlt idx st pre, s =>
    let a := primsDen T pre { s with state := st }
    ([.rule idx none s.state (T s.pos) (stopTok T a.2) a.1], { a.2 with state := s.state })
  | .recRule idx st _ pre label primary tail, s =>
    let a := primsDen T pre { s with state := st }
    let b := actsDen primary a.2
    let r := itersDen tail idx st (T s.pos) label (a.1 ++ b.1) b.2
    ([.rule idx r.1 s.state (T s.pos) (prevTok T r.2.2.pos) r.2.1], r.2.2)
def actsDen : Acts → St → List Node × St
  | .nil, s => ([], s)
  | .cons a rest, s =>
    ((actDen a s).1 ++ (actsDen rest (actDen a s).2).1, (actsDen rest (actDen a s).2).2)
/-- The operator loop of a left-recursive rule, given label and children of the operand built so
far: label and children of the final node.  Each iteration wraps what was built so far as the first
child of a new node. -/
def itersDen : Iters → Nat → Int → Tok → Option Nat → List Node → St → Option Nat × List Node × St
  | .done, _, _, _, label, kids, s => (label, kids, s)
  | .abort pre, _, _, _, label, kids, s => (label, kids ++ (primsDen T pre s).1, (primsDen T pre s).2)
  | .iter pre label' body rest, idx, st, start, label, kids, s =>
    let a := primsDen T pre s
    let prev := Node.rule idx label st start (prevTok T a.2.pos) (kids ++ a.1)
    let b := actsDen body a.2
    itersDen rest idx st start label' (prev :: b.1) b.2
end

/-! ## Events of one listener -/

def primEv : Prim → St → List PEvent
  | .matchTok, s => [.leaf (T s.pos) false]
  | .consume r, s => [.leaf (T s.pos) r]
  | _, _ => []

def primsEv : List Prim → St → List PEvent
  | [], _ => []
  | x :: xs, s => primEv T x s ++ primsEv xs (primDen T x s).2

mutual
def actEv : Act → St → List PEvent
  | .prim x, s => primEv T x s
  | .rule idx st pre label body, s =>
    primsEv T pre { s with state := st } ++ .enter idx label ::
      actsEv body (primsDen T pre { s with state := st }).2 ++ [.exit idx label]
  | .noAlt idx st pre, s => primsEv T pre { s with state := st } ++ [.exit idx none]
  | .recRule idx st _ pre label primary tail, s =>
    let a := primsDen T pre { s with state := st }
    .enter idx none :: primsEv T pre { s with state := st } ++ actsEv primary a.2 ++
      itersEv tail idx label (actsDen T primary a.2).2
def actsEv : Acts → St → List PEvent
  | .nil, _ => []
  | .cons a rest, s => actEv a s ++ actsEv rest (actDen T a s).2
def itersEv : Iters → Nat → Option Nat → St → List PEvent
  | .done, idx, label, _ => [.exit idx label]
  | .abort pre, idx, label, s => .exit idx label :: primsEv T pre s ++ [.exit idx label]
  | .iter pre label' body rest, idx, label, s =>
    .exit idx label :: primsEv T pre s ++ .enter idx label' ::
      actsEv body (primsDen T pre s).2 ++
      itersEv rest idx label' (actsDen T body (primsDen T pre s).2).2
end

/-- How one event reaches several listeners: exits in reverse order of registration. -/
def dispatch (ls : List PListener) : PEvent → List (Nat × PEvent)
  | .exit r l => ls.reverse.map fun x => (x.who, .exit r l)
  | e => ls.map fun x => (x.who, e)

end

/-! ## Reading a tree off the heap -/

mutual
/-- The context `i` with parent `par` is the root of the tree `n`, all of whose contexts are in
`S`. -/
def Reads (h : List Ctx) (S : Nat → Prop) : Option Nat → Nat → Node → Prop
  | _, _, .leaf _ _ => False
  | par, i, .rule idx label inv start stop kids =>
    S i ∧ ∃ c, h[i]? = some c ∧ c.rule = idx ∧ c.label = label ∧ c.parent = par ∧
      c.invoking = inv ∧ c.start = start ∧ c.stop = stop ∧ ReadsKids h S i c.children kids
def ReadsKid (h : List Ctx) (S : Nat → Prop) : Nat → Child → Node → Prop
  | _, .leaf t e, .leaf t' e' => t = t' ∧ e = e'
  | par, .ctx i, n => Reads h S (some par) i n
  | _, .leaf _ _, .rule .. => False
def ReadsKids (h : List Ctx) (S : Nat → Prop) : Nat → List Child → List Node → Prop
  | _, [], [] => True
  | par, c :: cs, n :: ns => ReadsKid h S par c n ∧ ReadsKids h S par cs ns
  | _, _, _ => False
end

end Antlr.ParserSpec
