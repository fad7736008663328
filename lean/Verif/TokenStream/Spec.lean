import Verif.TokenStream.Model

/-!
# Specification vocabulary for token streams

A stream is specified by its source alone: token number `n`, the index of the EOF token, and — for a
channel — which positions are visible.
-/

namespace Antlr.TokenSpec
open Antlr

/-- Index of the (first) EOF token of a source. -/
def eofIdx (src : Source) : Nat := src.pre.length

/-- Token number `n` of a source as a stream must hand it out: numbered with its index. -/
def tok (src : Source) (n : Nat) : Tok := { src.next n with index := n }

/-- Position `n` is visible on channel `c`: it is the EOF token or an earlier token on channel `c`. -/
def Visible (src : Source) (c : Int) (n : Nat) : Prop :=
  n = eofIdx src ∨ (n < eofIdx src ∧ (src.next n).channel = c)

/-- Position `n` holds a (non-EOF) token of channel `c`. -/
def OnChannel (src : Source) (c : Int) (n : Nat) : Prop :=
  n < eofIdx src ∧ (src.next n).channel = c

instance (src : Source) (c : Int) (n : Nat) : Decidable (Visible src c n) := by
  unfold Visible; infer_instance
instance (src : Source) (c : Int) (n : Nat) : Decidable (OnChannel src c n) := by
  unfold OnChannel; infer_instance

/-- The text of the tokens `a..=b`, stopping before EOF. -/
def textOf (src : Source) (a b : Nat) : List Char :=
  ((List.range' a (b + 1 - a)).filter (· < eofIdx src)).flatMap fun n => (src.next n).text

end Antlr.TokenSpec
