/-!
# Model of `src/semantic_context.rs`
-/

namespace Antlr

/-- `SemanticContext`, src/semantic_context.rs:22-31 -/
inductive SC where
  | predicate (ruleIndex predIndex : Int) (isCtxDependent : Bool)
  | precedence (p : Int)
  | and (ops : List SC)
  | or (ops : List SC)
deriving Repr

/-! `#[derive(PartialEq, Eq)]`, src/semantic_context.rs:21 -/
mutual
def SC.decEq : (a b : SC) → Decidable (a = b)
  | .predicate r p d, .predicate r' p' d' =>
    if h : r = r' ∧ p = p' ∧ d = d' then isTrue (by rw [h.1, h.2.1, h.2.2])
    else isFalse (by intro e; injection e with h1 h2 h3; exact h ⟨h1, h2, h3⟩)
  | .precedence p, .precedence p' =>
    if h : p = p' then isTrue (by rw [h]) else isFalse (by intro e; injection e; contradiction)
  | .and l, .and m =>
    match SC.decEqList l m with
    | isTrue h => isTrue (by rw [h])
    | isFalse h => isFalse (by intro e; injection e; contradiction)
  | .or l, .or m =>
    match SC.decEqList l m with
    | isTrue h => isTrue (by rw [h])
    | isFalse h => isFalse (by intro e; injection e; contradiction)
  | .predicate .., .precedence _ => isFalse (by intro e; cases e)
  | .predicate .., .and _ => isFalse (by intro e; cases e)
  | .predicate .., .or _ => isFalse (by intro e; cases e)
  | .precedence _, .predicate .. => isFalse (by intro e; cases e)
  | .precedence _, .and _ => isFalse (by intro e; cases e)
  | .precedence _, .or _ => isFalse (by intro e; cases e)
  | .and _, .predicate .. => isFalse (by intro e; cases e)
  | .and _, .precedence _ => isFalse (by intro e; cases e)
  | .and _, .or _ => isFalse (by intro e; cases e)
  | .or _, .predicate .. => isFalse (by intro e; cases e)
  | .or _, .precedence _ => isFalse (by intro e; cases e)
  | .or _, .and _ => isFalse (by intro e; cases e)
def SC.decEqList : (l m : List SC) → Decidable (l = m)
  | [], [] => isTrue rfl
  | [], _ :: _ => isFalse (by intro e; cases e)
  | _ :: _, [] => isFalse (by intro e; cases e)
  | a :: l, b :: m =>
    match SC.decEq a b, SC.decEqList l m with
    | isTrue h1, isTrue h2 => isTrue (by rw [h1, h2])
    | isFalse h, _ => isFalse (by intro e; injection e; contradiction)
    | _, isFalse h => isFalse (by intro e; injection e; contradiction)
end

instance : DecidableEq SC := SC.decEq

namespace SC

/-- `SemanticContext::NONE`, src/semantic_context.rs:34-38 -/
def NONE : SC := .predicate (-1) (-1) false

/-- What evaluation asks of the parser (in a fixed outer context): user predicates — with or without
the context, `Parser::sempred` — and the precedence on top of the precedence stack. -/
structure Env where
  sempred : Bool → Int → Int → Bool
  prec : Int

/-- `precpred`, src/parser.rs:293-297 -/
def Env.precpred (env : Env) (p : Int) : Bool := decide (p ≥ env.prec)

/-! `evaluate`, src/semantic_context.rs:39-61 -/
mutual
def evaluate (env : Env) : SC → Bool
  | .predicate r p d => env.sempred d r p
  | .precedence p => env.precpred p
  | .and ops => evalAll env ops
  | .or ops => evalAny env ops
def evalAll (env : Env) : List SC → Bool
  | [] => true
  | o :: os => o.evaluate env && evalAll env os
def evalAny (env : Env) : List SC → Bool
  | [] => false
  | o :: os => o.evaluate env || evalAny env os
end

/-- A `HashSet` is a duplicate-free list; `insert`. -/
def insertSet (l : List SC) (x : SC) : List SC := if x ∈ l then l else l ++ [x]

/-- `extend` -/
def extendSet (l m : List SC) : List SC := m.foldl insertSet l

/-- Is this a precedence predicate? -/
def prec? : SC → Option Int
  | .precedence p => some p
  | _ => none

/-- `min_by(sort_prec_pred)` on a non-empty list of precedence predicates. -/
def minPrec : List Int → Option Int
  | [] => none
  | x :: xs => some (xs.foldl min x)

/-- `max_by(sort_prec_pred)` -/
def maxPrec : List Int → Option Int
  | [] => none
  | x :: xs => some (xs.foldl max x)

/-- The operands of `new_and`: nested `and`s are flattened, src/semantic_context.rs:139-153 -/
def operandsAnd (a b : SC) : List SC :=
  let operands := match a with
    | .and ops => extendSet [] ops
    | a => insertSet [] a
  match b with
  | .and ops => extendSet operands ops
  | b => insertSet operands b

/-- `filter_precedence_predicate`, src/semantic_context.rs:242-253, and keeping only the
lowest precedence.  `ord` is the iteration order of the hash sets. -/
def reduceAnd (ord : List SC → List SC) (operands : List SC) : List SC :=
  let rest := operands.filter fun o => o.prec?.isNone
  match minPrec ((ord operands).filterMap prec?) with
  | some m => insertSet rest (.precedence m)
  | none => rest

/-- `new_and`, src/semantic_context.rs:139-163 -/
def newAnd (ord : List SC → List SC) (a b : SC) : SC :=
  match reduceAnd ord (operandsAnd a b) with
  | [o] => o
  | ops => .and (ord ops)

/-- The operands of `new_or`: nested `or`s are flattened, src/semantic_context.rs:165-179 -/
def operandsOr (a b : SC) : List SC :=
  let operands := match a with
    | .or ops => extendSet [] ops
    | a => insertSet [] a
  match b with
  | .or ops => extendSet operands ops
  | b => insertSet operands b

/-- `filter_precedence_predicate`, src/semantic_context.rs:242-253, and keeping only the
highest precedence.  `ord` is the iteration order of the hash sets. -/
def reduceOr (ord : List SC → List SC) (operands : List SC) : List SC :=
  let rest := operands.filter fun o => o.prec?.isNone
  match maxPrec ((ord operands).filterMap prec?) with
  | some m => insertSet rest (.precedence m)
  | none => rest

/-- `new_or`, src/semantic_context.rs:165-191 -/
def newOr (ord : List SC → List SC) (a b : SC) : SC :=
  match reduceOr ord (operandsOr a b) with
  | [o] => o
  | ops => .or (ord ops)

/-- `and`, src/semantic_context.rs:193-213 -/
def mkAnd (ord : List SC → List SC) : Option SC → Option SC → SC
  | none, none => NONE
  | none, some b => b
  | some a, none => a
  | some a, some b => if a = NONE then b else if b = NONE then a else newAnd ord a b

/-- `or`, src/semantic_context.rs:215-232 -/
def mkOr (ord : List SC → List SC) : Option SC → Option SC → SC
  | none, none => NONE
  | none, some b => b
  | some a, none => a
  | some a, some b => if a = NONE ∨ b = NONE then NONE else newOr ord a b

/-! `eval_precedence`, src/semantic_context.rs:62-137.  The loops over the operands either return
from the whole function (`Sum.inl`) or end with `differs` and the collected operands.  The
comparison `context == evaluated` is the code's. -/
mutual
def evalPrecedence (ord : List SC → List SC) (env : Env) : SC → Option SC
  | .predicate r p d => some (.predicate r p d)
  | .precedence p => if env.precpred p then some NONE else none
  | .or ops =>
    match orLoop ord env ops false [] with
    | .inl r => r
    | .inr (differs, operands) =>
      if !differs then some (.or ops)
      else match operands with
        | [] => none
        | o :: os => some (os.foldl (fun acc it => mkOr ord (some acc) (some it)) o)
  | .and ops =>
    match andLoop ord env ops false [] with
    | .inl r => r
    | .inr (differs, operands) =>
      if !differs then some (.and ops)
      else match operands with
        | [] => some NONE
        | o :: os => some (os.foldl (fun acc it => mkAnd ord (some acc) (some it)) o)
def orLoop (ord : List SC → List SC) (env : Env) :
    List SC → Bool → List SC → Sum (Option SC) (Bool × List SC)
  | [], d, acc => .inr (d, acc)
  | c :: cs, d, acc =>
    match c.evalPrecedence ord env with
    | none => orLoop ord env cs d acc
    | some e =>
      if e = NONE then .inl (some NONE)
      else orLoop ord env cs (d || decide (c = e)) (acc ++ [e])
def andLoop (ord : List SC → List SC) (env : Env) :
    List SC → Bool → List SC → Sum (Option SC) (Bool × List SC)
  | [], d, acc => .inr (d, acc)
  | c :: cs, d, acc =>
    match c.evalPrecedence ord env with
    | none => .inl none
    | some e =>
      andLoop ord env cs (d || decide (c = e)) (if e ≠ NONE then acc ++ [e] else acc)
end

end SC
end Antlr
