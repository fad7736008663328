import Verif.Prediction.Verdict

/-!
# Comparing predictions made with different caches (C39): vocabulary of the theorems
-/

namespace Antlr.Prediction
open Antlr PredictionSpec PredictionMode

variable {I : Type}

/-- The same outcome, for the parser. -/
def Agree (r r' : Res I) : Prop := r.out = r'.out ∧ r.reports = r'.reports

/-- Both look at the context, for the same reason. -/
def BothFull (r r' : Res I) : Prop :=
  ∃ a b l x x', r.reports = Report.fullContext a b l :: x ∧ r'.reports = Report.fullContext a b l :: x'

/-- Both ran out of viable alternatives.  Each reports the same error, or falls back on an alternative that ended the rule before it. -/
def BothLost (r r' : Res I) : Prop :=
  r.reports = [] ∧ r'.reports = [] ∧ ∃ a b, (r.out = .noAlt a b ∨ ∃ k, r.out = .alt k) ∧ (r'.out = .noAlt a b ∨ ∃ k, r'.out = .alt k)

/-- Precedences that fit an index. -/
def PrecOk (p : Int) : Prop := 0 ≤ p ∧ p < 2 ^ 63

/-- The start state in the DFA. -/
def startRef (d : DFA) (p : Int) : Option (Option Nat) := if d.isPrecedence then d.getPrecedenceStart p else some d.s0

/-- The loop ends at this state. -/
def ends (m : PredictionMode) (D : DFAState) : Bool := (D.requiresFullCtx && decide (m ≠ .SLL)) || D.isAccept

/-- The DFA leads from state `i` by the tokens from `w n` on to an end; `bad`: to the error state. -/
inductive Leads (mode : PredictionMode) (d : DFA) (w : Nat → Int) (bad : Bool) : Nat → Nat → Prop
  | error {i n : Nat} : bad = true → d.existingTarget i (w n) = some (some ERROR_DFA_STATE_REF) → Leads mode d w bad i n
  | stop {i n j : Nat} {D : DFAState} : bad = false → d.existingTarget i (w n) = some (some j) → j ≠ ERROR_DFA_STATE_REF →
      d.states[j]? = some D → ends mode D = true → Leads mode d w bad i n
  | step {i n j : Nat} {D : DFAState} : d.existingTarget i (w n) = some (some j) → j ≠ ERROR_DFA_STATE_REF →
      d.states[j]? = some D → ends mode D = false → Leads mode d w bad j (if w n = TOKEN_EOF then n else n + 1) → Leads mode d w bad i n

/-- The DFA has a start state for the precedence `p` and leads from there by the tokens `w` to an end. -/
def Knows (mode : PredictionMode) (d : DFA) (p : Int) (w : Nat → Int) (bad : Bool) : Prop :=
  ∃ i, startRef d p = some (some i) ∧ Leads mode d w bad i 0

end Antlr.Prediction
