import Verif.Gen.Model
import Verif.Gen.Spec

/-! # The grammar a generated parser was made from -/

namespace Antlr.Gen
open Antlr GenSpec

mutual
/-- The EBNF expression of a piece of generated code. -/
def Code.ebnf : Code → Ebnf
  | .nop => .eps
  | .seq a b => .seq a.ebnf b.ebnf
  | .tok _ t => .tok t
  | .set _ ts invert => if invert then .notSet ts else .set ts
  | .any _ => .any
  | .call _ r q => .rule r q
  | .guard .. => .eps
  | .block _ _ alts => altsEbnf alts
  | .opt _ _ _ alts => .alt (altsEbnf alts) .eps
  | .star _ _ _ _ _ body => .star body.ebnf
  | .plus _ _ _ _ _ body => .seq body.ebnf (.star body.ebnf)
def altsEbnf : List Code → Ebnf
  | [] => .fail
  | c :: cs => .alt c.ebnf (altsEbnf cs)
end

/-- The right-hand side of a rule function. -/
def RuleFn.rhs : RuleFn → Rhs
  | .plain _ _ alts => .plain (alts.map fun a => (a.label, a.code.ebnf))
  | .recursive _ _ prims _ _ _ _ ops =>
    .recursive (prims.map fun a => (a.label, a.code.ebnf))
      (ops.map fun o => (o.label, o.prec, o.code.ebnf))

/-- The grammar of a list of rule functions. -/
def grammar (rules : List RuleFn) : Grammar := fun r => (rules[r]?).map RuleFn.rhs

end Antlr.Gen
