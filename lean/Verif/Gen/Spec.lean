import Verif.Parser.Spec

/-!
# What a grammar says about parse trees

A grammar is given by right-hand sides in EBNF; nothing here refers to generated code, streams,
prediction or the ATN.  `Builds G r q n`: the tree `n` is a tree of rule `r` in which, if `r` is
left recursive, every operator on the left edge of the expression has precedence at least `q`.
-/

namespace Antlr.GenSpec
open Antlr ParserSpec

/-- An EBNF expression. -/
inductive Ebnf where
  | eps
  /-- no alternative left -/
  | fail
  | tok (ttype : Int)
  /-- one token of the set -/
  | set (types : List Int)
  /-- one token not of the set -/
  | notSet (types : List Int)
  /-- any one token -/
  | any
  /-- a rule with the least precedence its operators may have -/
  | rule (r : Nat) (q : Int)
  | seq (a b : Ebnf)
  | alt (a b : Ebnf)
  | star (a : Ebnf)

/-- Right-hand side of a rule: alternatives with labels, and for a left-recursive rule primary
alternatives and operator alternatives `r op ...` (label, precedence, what follows the left
operand). -/
inductive Rhs where
  | plain (alts : List (Option Nat × Ebnf))
  | recursive (prims : List (Option Nat × Ebnf)) (ops : List (Option Nat × Int × Ebnf))

abbrev Grammar := Nat → Option Rhs

mutual
/-- The sequence of trees matches the expression.  Only tokens that are no error nodes match. -/
inductive Yields (G : Grammar) : Ebnf → List Node → Prop
  | eps : Yields G .eps []
  | tok {t : Tok} : Yields G (.tok t.ttype) [.leaf t false]
  | set {ts : List Int} {t : Tok} : t.ttype ∈ ts → Yields G (.set ts) [.leaf t false]
  | notSet {ts : List Int} {t : Tok} : 0 < t.ttype → t.ttype ∉ ts →
      Yields G (.notSet ts) [.leaf t false]
  | any {t : Tok} : 0 < t.ttype → Yields G .any [.leaf t false]
  | rule {r : Nat} {q : Int} {n : Node} : Builds G r q n → Yields G (.rule r q) [n]
  | seq {a b : Ebnf} {x y : List Node} : Yields G a x → Yields G b y → Yields G (.seq a b) (x ++ y)
  | altL {a b : Ebnf} {x : List Node} : Yields G a x → Yields G (.alt a b) x
  | altR {a b : Ebnf} {x : List Node} : Yields G b x → Yields G (.alt a b) x
  | starNil {a : Ebnf} : Yields G (.star a) []
  | starCons {a : Ebnf} {x y : List Node} : Yields G a x → Yields G (.star a) y →
      Yields G (.star a) (x ++ y)
/-- The tree is a tree of the rule. -/
inductive Builds (G : Grammar) : Nat → Int → Node → Prop
  | plain {r : Nat} {q inv : Int} {alts : List (Option Nat × Ebnf)} {label : Option Nat} {e : Ebnf}
      {start stop : Tok} {kids : List Node} : G r = some (.plain alts) → (label, e) ∈ alts →
      Yields G e kids → Builds G r q (.rule r label inv start stop kids)
  | prim {r : Nat} {q inv : Int} {prims : List (Option Nat × Ebnf)}
      {ops : List (Option Nat × Int × Ebnf)} {label : Option Nat} {e : Ebnf}
      {start stop : Tok} {kids : List Node} : G r = some (.recursive prims ops) →
      (label, e) ∈ prims → Yields G e kids → Builds G r q (.rule r label inv start stop kids)
  | op {r : Nat} {q inv prec : Int} {prims : List (Option Nat × Ebnf)}
      {ops : List (Option Nat × Int × Ebnf)} {label : Option Nat} {e : Ebnf}
      {start stop : Tok} {left : Node} {kids : List Node} : G r = some (.recursive prims ops) →
      (label, prec, e) ∈ ops → q ≤ prec → Builds G r q left → Yields G e kids →
      Builds G r q (.rule r label inv start stop (left :: kids))
end

mutual
/-- The tokens of a tree, left to right. -/
def tokens : Node → List Tok
  | .leaf t _ => [t]
  | .rule _ _ _ _ _ kids => tokensAll kids
def tokensAll : List Node → List Tok
  | [] => []
  | n :: ns => tokens n ++ tokensAll ns
end

/-- Reading the tokens `l` leads from position `n` to position `m`: they are the tokens of the input
between the two positions, where the EOF token can be read any number of times. -/
inductive Consumes (T : Nat → Tok) : Nat → List Tok → Nat → Prop
  | nil {n} : Consumes T n [] n
  | tok {n l m} : (T n).ttype ≠ TOKEN_EOF → Consumes T (n + 1) l m → Consumes T n (T n :: l) m
  | eof {n l m} : (T n).ttype = TOKEN_EOF → Consumes T n l m → Consumes T n (T n :: l) m

end Antlr.GenSpec
