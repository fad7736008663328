import Verif.ErrorStrategy.Model
import Verif.Parser.Spec

/-!
# What error recovery should do

The token stream is seen through a view (`IsView`) that also knows token indexes.  What recovery
does to a parser is described by `after`: tokens added as leaves of the current rule node, and
reports made.
-/

namespace Antlr.ErrorSpec
open Antlr ParserSpec

/-- A view of a stream whose tokens carry their stream index `ix n`. -/
structure IsIndexed {I : Type} [TokStream I] (T : Nat → Tok) (V : I → Nat → Prop)
    (ix : Nat → Int) : Prop extends IsView T V where
  index : ∀ s n, V s n → TokStream.index s = ix n
  tokIndex : ∀ n, (T n).index = ix n
  mono : ∀ n, (T n).ttype ≠ TOKEN_EOF → ix n < ix (n + 1)
  back : ∀ s n, V s n → ∃ t, TokStream.get s (max (ix n - 1) 0) = some t

/-- The position after the token at `n`; EOF is never passed. -/
def next (T : Nat → Tok) (n : Nat) : Nat := if (T n).ttype = TOKEN_EOF then n else n + 1

/-- The parser `p` after the leaves were added to node `c` and the reports (token, message) were
made, with the stream at `i`.  Everything else is unchanged. -/
def after {I : Type} (p : P I) (i : I) (c : Nat) (leaves : List (Tok × Bool))
    (reports : List (Tok × List Char)) : P I :=
  { p with
    input := i
    heap := if p.buildTrees ∨ p.listeners ≠ [] then
        p.heap.modify c fun x =>
          { x with children := x.children ++ leaves.map fun l => .leaf l.1 l.2 }
      else p.heap
    log := p.log ++ leaves.flatMap fun l => p.listeners.map fun x => (x.who, .leaf l.1 l.2)
    syntaxErrors := p.syntaxErrors + reports.length
    errLog := p.errLog ++ reports.flatMap fun r =>
      p.errListeners.map fun l => (l, r.1, r.1.line, r.1.column, r.2) }

/-- The parser stands at token `n` inside the rule node `c`. -/
structure Ready {I : Type} (V : I → Nat → Prop) (p : P I) (n c : Nat) : Prop where
  view : V p.input n
  ctx : p.ctx = some c
  mem : c < p.heap.length

/-- The text of a token as shown in messages: quoted, line breaks and tabs escaped. -/
def quoted (t : Tok) : List Char := ['\''] ++ PTree.escapeWhitespaces t.getText false ++ ['\'']

/-- The report of a token to be skipped. -/
def extraneous (display : Int → String) (E : IntervalSet) (t : Tok) : List Char :=
  "extraneous input ".toList ++ quoted t ++ " expecting ".toList ++ (E.toTokenString display).toList

/-- The report of a token to be made up. -/
def missing (display : Int → String) (E : IntervalSet) (t : Tok) : List Char :=
  "missing ".toList ++ (E.toTokenString display).toList ++ " at ".toList ++ quoted t

/-- At most one report: none in recovery mode. -/
def unlessRecovering (eh : EH) (r : Tok × List Char) : List (Tok × List Char) :=
  if eh.mode then [] else [r]

/-- Exactly `m` tokens from position `n` are to be skipped to get to a token of the set or EOF. -/
def Skips (T : Nat → Tok) (set : IntervalSet) (n m : Nat) : Prop :=
  (∀ j, j < m → (T (n + j)).ttype ≠ TOKEN_EOF ∧ set.contains (T (n + j)).ttype = false) ∧
    ((T (n + m)).ttype = TOKEN_EOF ∨ set.contains (T (n + m)).ttype = true)

/-- The tokens from `n` on, as leaves with the given error flag. -/
def skipped (T : Nat → Tok) (n m : Nat) (flag : Bool) : List (Tok × Bool) :=
  (List.range m).map fun j => (T (n + j), flag)

end Antlr.ErrorSpec
