import Verif.Lexer.Model

/-!
# The DFA of a lexer mode when a match is interrupted

Like `Prediction/Interrupt.lean`: a panic in the middle of `match_token` (in a predicate or an action of the grammar)
leaves the DFA as it is then, after one of the changes of src/lexer_atn_simulator.rs:185-217 and 280-317.
-/

namespace Antlr.Lexer

variable {D : Type} [InputData D]

/-- The target of the DFA state `s` under `symbol`, src/lexer_atn_simulator.rs:234-236 -/
def target (atn : ATN) (hash : List Config → Nat) (sp : Int → Int → Cursor D → Bool) (fc : Nat) (start : Int)
    (c : Cursor D) (d : DFA) (s : Nat) (symbol : Int) : Option (DFA × Nat) :=
  (existingTarget d s symbol).bind fun et =>
    match et with
    | some x => some (d, x)
    | none => computeTarget atn hash (fun r p => predValue sp r p true c) fc d s symbol (c.input.index - start)

/-- `exec_atn` was interrupted.  It was in DFA state `s`, about to look at `symbol`, when the DFA was `d`. -/
inductive Mid (atn : ATN) (hash : List Config → Nat) (sp : Int → Int → Cursor D → Bool) (fc : Nat) (start : Int) :
    Cursor D → DFA → Nat → Int → DFA → Prop
  /-- before the change -/
  | here (c d s symbol) : Mid atn hash sp fc start c d s symbol d
  /-- within `compute_target_state`: there is a new state, but no edge to it -/
  | half {c d s symbol st reach r} : d.states[s]? = some st →
      reachSet atn (fun r p => predValue sp r p true c) fc symbol (c.input.index - start) st.configs.configs 0
        ConfigSet.newOrdered = some reach → reach.configs.isEmpty = false →
      addState atn hash d { reach with hasSem := false } = some r → Mid atn hash sp fc start c d s symbol r.1
  | after {c d s symbol r} : target atn hash sp fc start c d s symbol = some r → Mid atn hash sp fc start c d s symbol r.1
  /-- in a later round of the loop -/
  | later {c d s symbol r c' symbol' x} : target atn hash sp fc start c d s symbol = some r →
      r.2 ≠ ERROR_DFA_STATE_REF → (if symbol ≠ EOF then c.consume else some c) = some c' →
      c'.input.la 1 = some symbol' → Mid atn hash sp fc start c' r.1 r.2 symbol' x →
      Mid atn hash sp fc start c d s symbol x

/-- The start state of `match_atn`, src/lexer_atn_simulator.rs:191-208: the DFA with the new state, its number, and
whether the state is not to be noted as start. -/
def started (env : Env D) (fc : Nat) (L : Lex D) (d : DFA) : Option (DFA × Nat × Bool) :=
  (env.atn.modeToStartState[L.mode]?).bind fun ss => (env.atn.states[ss]?).bind fun st =>
    (startSet env.atn (fun r p => predValue (fun r p c => env.sempred r p { L with cur := c }) r p false L.cur) fc
      st.transitions 0 ConfigSet.newOrdered).bind fun s0 =>
        (addState env.atn env.hash d { s0 with hasSem := false }).map fun r => (r.1, r.2, s0.hasSem)

/-- `match_token` was interrupted. -/
inductive Interrupted (env : Env D) (fc : Nat) (L : Lex D) (d : DFA) : DFA → Prop
  | before : Interrupted env fc L d d
  /-- a new start state that is not (yet) noted as such -/
  | added {r} : d.s0 = none → started env fc L d = some r → Interrupted env fc L d r.1
  /-- a new start state -/
  | start {r} : d.s0 = none → started env fc L d = some r → r.2.2 = false →
      Interrupted env fc L d { r.1 with s0 := some r.2.1 }
  | warm {s0 symbol x} : d.s0 = some s0 → L.cur.input.la 1 = some symbol →
      Mid env.atn env.hash (fun r p c => env.sempred r p { L with cur := c }) fc L.cur.input.index L.cur d s0 symbol x →
      Interrupted env fc L d x
  | cold {r symbol x} : d.s0 = none → started env fc L d = some r → L.cur.input.la 1 = some symbol →
      Mid env.atn env.hash (fun r p c => env.sempred r p { L with cur := c }) fc L.cur.input.index L.cur
        (if r.2.2 then r.1 else { r.1 with s0 := some r.2.1 }) r.2.1 symbol x →
      Interrupted env fc L d x

end Antlr.Lexer
