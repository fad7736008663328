import Verif.Prediction.Range
import Verif.Prediction.InterruptLemmas
import Verif.Gen.Calc

/-! # C73: the answer of a prediction is an alternative of the decision -/

namespace Antlr.PredictionProps
open Antlr Prediction PredictionMode

/-- A DFA of decision state `s` after any number of predictions: by parsers on streams of any type,
with any predicates, precedence, call stack and mode; some were interrupted by a panic in their middle. -/
inductive Predicted (atn : ATN) (s : Nat) : DFA → Prop
  | new {n : Int} {d : DFA} : DFA.new atn s n = some d → Predicted atn s d
  | after {I : Type} [TokStream I] {P : Params I} {cf n : Nat} {d : DFA} {i : I} {r : Res I} : Predicted atn s d →
      P.atn = atn → adaptivePredict P cf n d i = some r → Predicted atn s r.dfa
  | cut {I : Type} [TokStream I] {P : Params I} {cf : Nat} {d d' : DFA} {i : I} : Predicted atn s d →
      P.atn = atn → Interrupted P cf d i d' → Predicted atn s d'

theorem predicted_good {atn : ATN} {s : Nat} {st : ATNState} (hst : atn.states[s]? = some st)
    (hn : st.transitions.length < 2 ^ 64) {d : DFA} (h : Predicted atn s d) :
    GoodDfa (Upto st.transitions.length) d ∧ d.atnStartState = s := by
  induction h with
  | new h =>
    obtain ⟨h1, h2⟩ := goodDfa_new (A := Upto st.transitions.length) h
    exact ⟨h1, h2⟩
  | after _ e h ih =>
    subst e
    obtain ⟨g, es⟩ := ih
    obtain ⟨-, h2, h3⟩ := adaptivePredict_good (by rw [es]; exact hst) hn g h
    exact ⟨h2, h3.trans es⟩
  | cut _ e h ih =>
    subst e
    obtain ⟨g, es⟩ := ih
    obtain ⟨h2, h3⟩ := interrupted_good (by rw [es]; exact hst) (upto_casts hn) g h
    exact ⟨h2, h3.trans es⟩

/-- **C73** A prediction that answers names an alternative of the decision, counted from 1: for every
ATN (predicates, precedence rules, left recursion, loops), mode, stream, call stack, and DFA with any
history. -/
theorem C73_range {atn : ATN} {s : Nat} {st : ATNState} (hst : atn.states[s]? = some st)
    (hn : st.transitions.length < 2 ^ 64) {d : DFA} (hd : Predicted atn s d) {I : Type} [TokStream I]
    (P : Params I) (hP : P.atn = atn) (cf n : Nat) (i : I) (r : Res I) (h : adaptivePredict P cf n d i = some r)
    (k : Int) (hk : r.out = .alt k) : 1 ≤ k ∧ k ≤ st.transitions.length := by
  subst hP
  obtain ⟨g, es⟩ := predicted_good hst hn hd
  exact (adaptivePredict_good (by rw [es]; exact hst) hn g h).1 k hk

/-- The same for what the DFA remembers: the answer of an accepting state that has no predicates to
try, the alternatives whose predicates it tries, and those of its configurations. -/
theorem C73_cached {atn : ATN} {s : Nat} {st : ATNState} (hst : atn.states[s]? = some st)
    (hn : st.transitions.length < 2 ^ 64) {d : DFA} (hd : Predicted atn s d) (D : DFAState) (hD : D ∈ d.states) :
    (D.isAccept = true → D.predicates = [] → 1 ≤ D.prediction ∧ D.prediction ≤ (st.transitions.length : Int)) ∧
      (∀ p ∈ D.predicates, 1 ≤ p.1 ∧ p.1 ≤ (st.transitions.length : Int)) ∧
      ∀ c ∈ D.configs.configs, 1 ≤ c.alt ∧ c.alt ≤ (st.transitions.length : Int) := by
  have := (predicted_good hst hn hd).1 D hD
  exact ⟨this.accept, this.preds, this.configs.configs⟩

/-! ### Example: the loop of the left-recursive rule of tests/gen/visitorcalcparser.rs (decision 1) -/

open Gen.Calc in
/-- A prediction for the loop with a precedence and a new DFA: the answer and the number of DFA
states afterwards. -/
def calcLoop (prec : Int) (ts : List Nat) : Option (Option Int × Nat) :=
  (atn.decisionToState[1]?).bind fun s => (DFA.new atn s 1).bind fun d =>
    (adaptivePredict ⟨atn, .LL, fun _ _ _ _ => true, prec, [7, -1], id, fun _ => 0⟩ 60 60 d
      (CTS.withChannel (exSource ts) 0)).map fun r =>
        ((match r.out with | .alt k => some k | .noAlt _ _ => none), r.dfa.states.length)

set_option synthInstance.maxSize 2000 in
/-- On `+ 1` the loop is entered with precedence 0 and left with precedence 2; alternatives 1 and 2
are all there are. -/
example : calcLoop 0 [4, 1] = some (some 1, 4) ∧ calcLoop 2 [4, 1] = some (some 2, 4) ∧
    Gen.Calc.atn.decisionToState[1]? = some 18 ∧
    (Gen.Calc.atn.states[18]?).map (fun st => st.transitions.length) = some 2 := by decide +kernel
/-- So every answer for it is 1 or 2. -/
example (d : DFA) (hd : Predicted Gen.Calc.atn 18 d) (P : Params CTS) (hP : P.atn = Gen.Calc.atn) (cf n : Nat)
    (i : CTS) (r : Res CTS) (h : adaptivePredict P cf n d i = some r) (k : Int) (hk : r.out = .alt k) :
    k = 1 ∨ k = 2 := by
  have e : (Gen.Calc.atn.states[18]?).map (fun st => st.transitions.length) = some 2 := by decide +kernel
  obtain ⟨st, hst, e⟩ := Option.map_eq_some_iff.1 e
  have := C73_range hst (by rw [e]; decide) hd P hP cf n i r h k hk
  rw [e] at this
  omega

end Antlr.PredictionProps
