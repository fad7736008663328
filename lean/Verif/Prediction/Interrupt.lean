import Verif.Prediction.Model

/-!
# The DFA when a prediction is interrupted

A panic in the middle of `adaptive_predict` (in a predicate of the grammar, an error listener, the lexer) drops the
guard of the DFA, which other threads then go on to use (parking_lot has no poisoning).  `Interrupted` lists what
the DFA can look like then: after each of its changes, src/parser_atn_simulator.rs:193-227 and 376-434.
-/

namespace Antlr.Prediction

variable {I : Type}

/-- `exec_atn` was interrupted.  It was in DFA state `prev`, about to look at token type `t`, when the DFA was `d`. -/
inductive Mid [TokStream I] (L : Local I) (cf : Nat) : DFA → Nat → Int → PC.Cache → I → DFA → Prop
  /-- before the change -/
  | here (d prev t mc inp) : Mid L cf d prev t mc inp d
  /-- within `compute_target_state`: there is a new state, but no edge to it -/
  | half {d prev t mc inp p reach mc' inp' D} : d.states[prev]? = some p →
      computeReach L cf p.configs t false mc inp = some (some reach, mc', inp') →
      targetState L.toParams d.decision reach = some D → Mid L cf d prev t mc inp (DFA.addState L.hash d D).1
  | after {d prev t mc inp D d' mc' inp'} : nextState L cf d prev t mc inp = some (D, d', mc', inp') →
      Mid L cf d prev t mc inp d'
  /-- in a later round of the loop -/
  | later {d prev t mc inp D d' mc' inp' Ds t' inp'' x} : nextState L cf d prev t mc inp = some (D, d', mc', inp') →
      D ≠ ERROR_DFA_STATE_REF → d'.states[D]? = some Ds → ¬ (Ds.requiresFullCtx = true ∧ L.mode ≠ .SLL) → Ds.isAccept = false →
      (if t ≠ TOKEN_EOF then (TokStream.consume inp').bind fun i => TokStream.la i 1 else some (t, inp')) = some (t', inp'') →
      Mid L cf d' D t' mc' inp'' x → Mid L cf d prev t mc inp x

/-- `adaptive_predict` was interrupted. -/
inductive Interrupted [TokStream I] (P : Params I) (cf : Nat) (d : DFA) (inp : I) : DFA → Prop
  | before : Interrupted P cf d inp d
  /-- a new start state that is not yet noted as such -/
  | added {cs mc i} : d.isPrecedence = false →
      computeStart (localOf P d inp) cf PC.EMPTY false [] (TokStream.mark inp).2 = some (cs, mc, i) →
      Interrupted P cf d inp (DFA.addState P.hash d (DFAState.new 0 cs)).1
  /-- precedence DFA: `states[s0].configs` is new -/
  | closure {cs mc i s0 s} : computeStart (localOf P d inp) cf PC.EMPTY false [] (TokStream.mark inp).2 = some (cs, mc, i) →
      d.isPrecedence = true → d.s0 = some s0 → d.states[s0]? = some s →
      Interrupted P cf d inp { d with states := d.states.set s0 { s with configs := cs } }
  /-- precedence DFA: a new start state that is not yet noted as such -/
  | filtered {cs mc i s0 s cs' mc'} :
      computeStart (localOf P d inp) cf PC.EMPTY false [] (TokStream.mark inp).2 = some (cs, mc, i) →
      d.isPrecedence = true → d.s0 = some s0 → d.states[s0]? = some s →
      applyPrecedenceFilter (localOf P d inp) cs mc i = some (cs', mc') →
      Interrupted P cf d inp (DFA.addState P.hash { d with states := d.states.set s0 { s with configs := cs } }
        (DFAState.new 0 cs')).1
  | started {s0 d' mc i} : startState (localOf P d inp) cf d (TokStream.mark inp).2 = some (s0, d', mc, i) →
      Interrupted P cf d inp d'
  | mid {s0 d' mc i t i' x} : startState (localOf P d inp) cf d (TokStream.mark inp).2 = some (s0, d', mc, i) →
      TokStream.la i 1 = some (t, i') → Mid (localOf P d inp) cf d' s0 t mc i' x → Interrupted P cf d inp x

end Antlr.Prediction
