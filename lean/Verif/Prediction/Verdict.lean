import Verif.Prediction.Model
import Verif.Prediction.Spec

/-!
# When the answer of a prediction is right
-/

namespace Antlr.PredictionSpec
open Antlr LL1Spec Prediction

/-- The threads worth going on with: about to read, or at the end of the outermost rule (if the rule's
callers are unknown: the end of a rule that no one calls). -/
def Worth (atn : ATN) (full : Bool) (p : Pos) : Prop :=
  Waits atn p ∨ (Ended atn p ∧ (full = true ∨ ∀ st, atn.states[p.1]? = some st → st.transitions = []))

/-- A thread to be taken into account after the tokens `v`: worth going on with, and at an end if the
last token is EOF. -/
def Counts (atn : ATN) (full : Bool) (v : List Int) (p : Pos) : Prop :=
  Worth atn full p ∧ (v.getLast? = some TOKEN_EOF → Ended atn p)

/-- A thread of alternative `j` after the tokens `v`.  Without context also one that was at the end of the
outermost rule before EOF, and stays there.  (With context such threads are dropped if others read EOF.) -/
def Alive (atn : ATN) (dec : ATNState) (full : Bool) (σ : List Nat) (j : Int) (v : List Int) (p : Pos) : Prop :=
  Live atn dec σ j v p ∨ (full = false ∧ ∃ u, v = u ++ [TOKEN_EOF] ∧ Live atn dec σ j u p ∧ Ended atn p)

/-- The first `n` token types -/
def pre (w : Nat → Int) (n : Nat) : List Int := (List.range n).map w

/-- `v` are the first token types of the input, at most up to EOF. -/
def Ahead (w : Nat → Int) (v : List Int) : Prop :=
  ∃ n, v = pre w n ∧ ∀ i, i + 1 < n → w i ≠ TOKEN_EOF

theorem alive_full {atn : ATN} {dec : ATNState} {σ : List Nat} {j : Int} {v : List Int} {p : Pos} :
    Alive atn dec true σ j v p ↔ Live atn dec σ j v p := by
  simp [Alive]

section
variable (atn : ATN) (dec : ATNState) (S : List Nat → Prop)

/-- In a context of `S` alternative `k` can match the tokens `v`, or has matched a beginning of them up to
the end of the outermost rule. -/
def Matches (v : List Int) (k : Int) : Prop :=
  ∃ σ, S σ ∧ ((∃ p, Live atn dec σ k v p) ∨ ∃ u p, u <+: v ∧ Live atn dec σ k u p ∧ Ended atn p)

/-- No alternative but `k` can match the tokens `v` in a context of `S` (and go on). -/
def Sole (full : Bool) (v : List Int) (k : Int) : Prop :=
  ∀ σ, S σ → ∀ j p, Alive atn dec full σ j v p → Counts atn full v p → j = k

/-- No alternative can match the tokens `v` in a context of `S` (and go on). -/
def Stuck (full : Bool) (v : List Int) : Prop :=
  ∀ σ, S σ → ∀ j p, Alive atn dec full σ j v p → ¬ Counts atn full v p

/-- Alternative `k` is the first of those that can match the tokens `v`, and can go on in all ways in which
any of them can go on. -/
def Best (v : List Int) (k : Int) : Prop :=
  ∀ σ, S σ → ∀ j p, Live atn dec σ j v p → Counts atn true v p →
    k ≤ j ∧ (Live atn dec σ k v p ∨ ∃ u p', u <+: v ∧ Live atn dec σ k u p' ∧ Ended atn p')

/-- The alternative is not above any that can match the tokens `v` in a context of `S` (and go on). -/
def First (v : List Int) (k : Int) : Prop :=
  ∀ σ, S σ → ∀ j p, Alive atn dec false σ j v p → Counts atn false v p → k ≤ j

end

/-- What the phase with context says is right in the context `σ`; `clean`: nothing misleads it. -/
def FullRight (atn : ATN) (dec : ATNState) (σ : List Nat) (w : Nat → Int) (clean : Prop) : Outcome → Prop
  | .alt k => ∃ v, Ahead w v ∧ Matches atn dec (· = σ) v k ∧
      (clean → Sole atn dec (· = σ) true v k ∨ Best atn dec (· = σ) v k ∨
        ∃ v', Ahead w v' ∧ v <+: v' ∧ Stuck atn dec (· = σ) true v')
  | .noAlt _ _ => clean → ∃ v, Ahead w v ∧ Stuck atn dec (· = σ) true v

/-- What prediction without context says is right. -/
def LocalRight (atn : ATN) (dec : ATNState) (w : Nat → Int) (mode : PredictionMode) : Outcome → Prop
  | .alt k => ∃ v, Ahead w v ∧ Matches atn dec (Proper atn dec.ruleIndex) v k ∧
      (Sole atn dec (Proper atn dec.ruleIndex) false v k ∨
        (mode = .SLL ∧ First atn dec (Proper atn dec.ruleIndex) v k) ∨
        ∃ v', Ahead w v' ∧ v <+: v' ∧ Stuck atn dec (Proper atn dec.ruleIndex) false v')
  | .noAlt _ _ => ∃ v, Ahead w v ∧ Stuck atn dec (Proper atn dec.ruleIndex) false v

/-- From the position the token type can be read next. -/
def CanTake (atn : ATN) (p : Pos) (t : Int) : Prop :=
  ∃ q r, Reach atn p q ∧ ReadStep atn t q r

/-- Alternative `k` of the decision can get to the end of the rule without a token. -/
def Falls (atn : ATN) (dec : ATNState) (k : Int) : Prop :=
  ∃ (i : Nat) (tr : Trans), k = ((i + 1 : Nat) : Int) ∧ dec.transitions[i]? = some tr ∧ CanEnd atn (tr.target, [])

/-- Alternative `k` of the decision can begin with the token type `t`, or get to the end of the rule without
a token. -/
def Begins (atn : ATN) (dec : ATNState) (t : Int) (k : Int) : Prop :=
  ∃ (i : Nat) (tr : Trans), k = ((i + 1 : Nat) : Int) ∧ dec.transitions[i]? = some tr ∧
    (CanTake atn (tr.target, []) t ∨ CanEnd atn (tr.target, []))

/-- The alternative answered, if any, can begin with the token type `t` or be empty. -/
def BeginsWell (atn : ATN) (dec : ATNState) (t : Int) (o : Outcome) : Prop :=
  ∀ k, o = .alt k → Begins atn dec t k

/-- The thread has got to the end of the rule of the decision, or beyond it. -/
def Finished (atn : ATN) (c : Config) : Prop :=
  0 < c.reaches ∨ (∃ st, atn.states[c.state]? = some st ∧ st.stateType = .ruleStop) ∧ StackSpec.HasStack c.ctx []

/-- The phase with context was entered. -/
def WentFull (r : Res I) : Prop := ∃ a b l, Report.fullContext a b l ∈ r.reports

end Antlr.PredictionSpec
