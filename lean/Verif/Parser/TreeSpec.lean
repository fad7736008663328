import Verif.Parser.Spec

/-!
# What may be expected of a parse, in terms of the operations performed

`Act.flat` is the sequence of consuming operations of a parse in the order performed, with the rule
calls forgotten; `Act.calls` is the nesting of its rule calls with the operations forgotten.
-/

namespace Antlr.ParserSpec
open Antlr

mutual
/-- The leaves of a tree from left to right. -/
def leaves : Node → List (Tok × Bool)
  | .leaf t e => [(t, e)]
  | .rule _ _ _ _ _ kids => leavesL kids
def leavesL : List Node → List (Tok × Bool)
  | [] => []
  | n :: ns => leaves n ++ leavesL ns
end

mutual
/-- The operations of a call, in order. -/
def flatAct : Act → List Prim
  | .prim x => [x]
  | .rule _ _ pre _ body => pre ++ flatActs body
  | .noAlt _ _ pre => pre
  | .recRule _ _ _ pre _ primary tail => pre ++ flatActs primary ++ flatIters tail
def flatActs : Acts → List Prim
  | .nil => []
  | .cons a rest => flatAct a ++ flatActs rest
def flatIters : Iters → List Prim
  | .done => []
  | .abort pre => pre
  | .iter pre _ body rest => pre ++ flatActs body ++ flatIters rest
end

section
variable (T : Nat → Tok)

/-- The tokens operations put into the tree when started at token `n`: the current token, moving on
unless it is EOF; `true` marks error nodes. -/
def trace : List Prim → Nat → List (Tok × Bool)
  | [], _ => []
  | .matchTok :: xs, n => (T n, false) :: trace xs (if (T n).ttype = TOKEN_EOF then n else n + 1)
  | .consume r :: xs, n => (T n, r) :: trace xs (if (T n).ttype = TOKEN_EOF then n else n + 1)
  | .conjure t :: xs, n => if t.index = -1 then (t, true) :: trace xs n else trace xs n
  | .setState _ :: xs, n => trace xs n
  | .markStop :: xs, n => trace xs n

/-- Where they end. -/
def moved : List Prim → Nat → Nat
  | [], n => n
  | .matchTok :: xs, n => moved xs (if (T n).ttype = TOKEN_EOF then n else n + 1)
  | .consume _ :: xs, n => moved xs (if (T n).ttype = TOKEN_EOF then n else n + 1)
  | _ :: xs, n => moved xs n
end

/-- Nesting of rule nodes. -/
inductive Skel where
  | mk (idx : Nat) (label : Option Nat) (kids : List Skel)

mutual
/-- The rule nodes of a tree, with their nesting. -/
def skel : Node → List Skel
  | .leaf _ _ => []
  | .rule idx label _ _ _ kids => [.mk idx label (skelL kids)]
def skelL : List Node → List Skel
  | [] => []
  | n :: ns => skel n ++ skelL ns
end

mutual
/-- The rule calls of a program, with their nesting; an operator loop nests to the left. -/
def callsAct : Act → List Skel
  | .prim _ => []
  | .rule idx _ _ label body => [.mk idx label (callsActs body)]
  | .noAlt idx _ _ => [.mk idx none []]
  | .recRule idx _ _ _ label primary tail => [callsIters tail idx (.mk idx label (callsActs primary))]
def callsActs : Acts → List Skel
  | .nil => []
  | .cons a rest => callsAct a ++ callsActs rest
def callsIters : Iters → Nat → Skel → Skel
  | .done, _, k => k
  | .abort _, _, k => k
  | .iter _ label body rest, idx, k => callsIters rest idx (.mk idx label (k :: callsActs body))
end

/-- Properly nested events: each enter is closed by an exit of the same rule. -/
inductive Balanced : List PEvent → Prop
  | nil : Balanced []
  | leaf (t : Tok) (e : Bool) : Balanced [.leaf t e]
  | wrap (r : Nat) (l l' : Option Nat) (evs : List PEvent) : Balanced evs →
      Balanced (.enter r l :: evs ++ [.exit r l'])
  | append (a b : List PEvent) : Balanced a → Balanced b → Balanced (a ++ b)

mutual
/-- No rule call failed before its alternative was chosen, and no operator loop was left by an error
between two operands. -/
def cleanAct : Act → Prop
  | .prim _ => True
  | .rule _ _ _ _ body => cleanActs body
  | .noAlt _ _ _ => False
  | .recRule _ _ _ _ _ primary tail => cleanActs primary ∧ cleanIters tail
def cleanActs : Acts → Prop
  | .nil => True
  | .cons a rest => cleanAct a ∧ cleanActs rest
def cleanIters : Iters → Prop
  | .done => True
  | .abort _ => False
  | .iter _ _ body rest => cleanActs body ∧ cleanIters rest
end

mutual
/-- Walking a tree: enter, children, exit. -/
def walkEv : Node → List PEvent
  | .leaf t e => [.leaf t e]
  | .rule idx label _ _ _ kids => .enter idx label :: walkEvL kids ++ [.exit idx label]
def walkEvL : List Node → List PEvent
  | [] => []
  | n :: ns => walkEv n ++ walkEvL ns
end

/-- No token is made up. -/
def plainPrim : Prim → Prop
  | .conjure _ => False
  | _ => True

/-- Nothing is consumed. -/
def plainPre : Prim → Prop
  | .setState _ => True
  | .markStop => True
  | _ => False

mutual
/-- No left recursion, nothing made up, and nothing consumed before an alternative is chosen. -/
def plainAct : Act → Prop
  | .prim x => plainPrim x
  | .rule _ _ pre _ body => (∀ x ∈ pre, plainPre x) ∧ plainActs body
  | .noAlt _ _ _ => False
  | .recRule .. => False
def plainActs : Acts → Prop
  | .nil => True
  | .cons a rest => plainAct a ∧ plainActs rest
end

/-- The leaves announced by events. -/
def evLeaves : List PEvent → List (Tok × Bool)
  | [] => []
  | .leaf t e :: rest => (t, e) :: evLeaves rest
  | _ :: rest => evLeaves rest

/-- What the listener `who` heard. -/
def heard (who : Nat) (log : List (Nat × PEvent)) : List PEvent :=
  (log.filter (·.1 = who)).map (·.2)

end Antlr.ParserSpec
