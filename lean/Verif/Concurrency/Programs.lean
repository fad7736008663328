import Verif.Concurrency.Model
import Verif.Prediction.Model
import Verif.Lexer.Model

/-!
# Prediction and lexing as programs with locks

The functions of `Prediction/Model.lean` and `Lexer/Model.lean` again, this time as the sequence of their lock
operations and of their uses and changes of the DFA.  What does not touch the DFA is taken from there.

While the guard is held other code runs: the lexer when tokens are looked at, predicates, listeners and actions of the
user.  It may use other locks; it is the program `side`, run wherever that can happen.
-/

namespace Antlr.Conc
open Antlr Prediction

/-- What a DFA is locked for: a prediction, or a match of the lexer. -/
inductive Task (I C : Type) where
  | predict (P : Params I) (cf n : Nat) (inp : I)
  | lex (env : Lexer.Env C) (fc fe : Nat) (L : Lexer.Lex C)

/-- What comes out of it. -/
inductive Answer (I C : Type) where
  | predict (out : Outcome) (inp : I) (reports : List Prediction.Report)
  | lex (r : Lexer.MatchRes) (L : Lexer.Lex C)

/-- Programs with DFAs. -/
abbrev P (I C : Type) (α : Type) := Prog DFA (Task I C) (Answer I C) α

variable {I C : Type}

section
variable [TokStream I] (side : I → P I C Unit) (o : Nat) (L : Local I) (cf : Nat)

/-- `compute_target_state`, src/parser_atn_simulator.rs:376-434 -/
def targetProg (prev : Nat) (t : Int) (mc : PC.Cache) (inp : I) : P I C (Nat × PC.Cache × I) :=
  .read o <| .look o fun d =>
    (Prog.lift d.states[prev]?).bind fun p =>
    (side inp).bind fun _ =>
    (Prog.lift (computeReach L cf p.configs t false mc inp)).bind fun (reach, mc, inp) =>
    .unread o <| .upgrade o <| .look o fun d =>
      match reach with
      | none =>
        (Prog.lift (DFA.addEdge L.atn.maxTokenType d prev t ERROR_DFA_STATE_REF)).bind fun d' =>
        .store o d' <| .downgrade o <| .ret (ERROR_DFA_STATE_REF, mc, inp)
      | some reach =>
        (Prog.lift (targetState L.toParams d.decision reach)).bind fun D =>
        .store o (DFA.addState L.hash d D).1 <| .look o fun d1 =>
        (Prog.lift (DFA.addEdge L.atn.maxTokenType d1 prev t (DFA.addState L.hash d D).2)).bind fun d' =>
        .store o d' <| .downgrade o <| .ret ((DFA.addState L.hash d D).2, mc, inp)

/-- `exec_atn`, src/parser_atn_simulator.rs:250-251 -/
def nextProg (prev : Nat) (t : Int) (mc : PC.Cache) (inp : I) : P I C (Nat × PC.Cache × I) :=
  .look o fun d =>
    (Prog.lift (d.existingTarget prev t)).bind fun e =>
      match e with
      | some D => .ret (D, mc, inp)
      | none => targetProg side o L cf prev t mc inp

/-- The end of a prediction, which uses the DFA but does not change it. -/
def endProg (inp : I) (f : DFA → Option (Res I)) : P I C (Outcome × I × List Prediction.Report) :=
  (side inp).bind fun _ => .look o fun d => (Prog.lift (f d)).bind fun r => .ret (r.out, r.inp, r.reports)

/-- The loop of `exec_atn`, src/parser_atn_simulator.rs:248-357 -/
def loopProg : Nat → Nat → Int → PC.Cache → I → P I C (Outcome × I × List Prediction.Report)
  | 0, _, _, _, _ => .panic
  | n + 1, prev, t, mc, inp =>
    (nextProg side o L cf prev t mc inp).bind fun (D, mc, inp) =>
    .look o fun d =>
      if D = ERROR_DFA_STATE_REF then
        (Prog.lift d.states[prev]?).bind fun p => endProg side o inp fun d => failing L d p inp
      else (Prog.lift d.states[D]?).bind fun Ds =>
        if Ds.requiresFullCtx ∧ L.mode ≠ .SLL then endProg side o inp fun d => needFull L cf n d Ds mc inp
        else if Ds.isAccept then endProg side o inp fun d => accepting L d Ds inp
        else if t ≠ TOKEN_EOF then
          (side inp).bind fun _ =>
          (Prog.lift ((TokStream.consume inp).bind fun inp => TokStream.la inp 1)).bind fun r => loopProg n D r.1 mc r.2
        else loopProg n D t mc inp

/-- `adaptive_predict`, src/parser_atn_simulator.rs:193-227 -/
def startProg (inp : I) : P I C (Nat × PC.Cache × I) :=
  .look o fun d =>
    (Prog.lift (if d.isPrecedence then d.getPrecedenceStart L.prec else some d.s0)).bind fun s0 =>
      match s0 with
      | some s0 => .ret (s0, [], inp)
      | none =>
        (side inp).bind fun _ =>
        (Prog.lift (computeStart L cf PC.EMPTY false [] inp)).bind fun (cs, mc, inp) =>
        .upgrade o <| .look o fun d =>
          if d.isPrecedence then
            (Prog.lift d.s0).bind fun s0 =>
            (Prog.lift (applyPrecedenceFilter L cs mc inp)).bind fun (cs', mc) =>
            (Prog.lift d.states[s0]?).bind fun s =>
            .store o { d with states := d.states.set s0 { s with configs := cs } } <| .look o fun d1 =>
            .store o (DFA.addState L.hash d1 (DFAState.new 0 cs')).1 <| .look o fun d2 =>
            (Prog.lift (d2.setPrecedenceStart L.prec (DFA.addState L.hash d1 (DFAState.new 0 cs')).2)).bind fun d' =>
            .store o d' <| .downgrade o <| .ret ((DFA.addState L.hash d1 (DFAState.new 0 cs')).2, mc, inp)
          else
            .store o (DFA.addState L.hash d (DFAState.new 0 cs)).1 <| .look o fun d1 =>
            .store o { d1 with s0 := some (DFA.addState L.hash d (DFAState.new 0 cs)).2 } <| .downgrade o <|
            .ret ((DFA.addState L.hash d (DFAState.new 0 cs)).2, mc, inp)

end

/-- `adaptive_predict`, src/parser_atn_simulator.rs:162-236, for the decision whose DFA has number `o`.  The guard is
dropped at the end with `local`; on an error (229) `seek` and `release` do not happen. -/
def predictProg [TokStream I] (side : I → P I C Unit) (o : Nat) (P : Params I) (cf n : Nat) (inp : I) :
    Conc.P I C (Outcome × I × List Prediction.Report) :=
  .acquire o (.predict P cf n inp) <| .look o fun d =>
    (startProg side o (localOf P d inp) cf (TokStream.mark inp).2).bind fun (s0, mc, inp1) =>
    (side inp1).bind fun _ =>
    (Prog.lift (TokStream.la inp1 1)).bind fun r =>
    (loopProg side o (localOf P d inp) cf n s0 r.1 mc r.2).bind fun (out, inp2, reports) =>
      match out with
      | .alt _ =>
        (Prog.lift ((TokStream.seek inp2 (TokStream.index inp)).bind fun i =>
          TokStream.release i (TokStream.mark inp).1)).bind fun i =>
        .release o (.predict out i reports) <| .ret (out, i, reports)
      | .noAlt _ _ => .release o (.predict out inp2 reports) <| .ret (out, inp2, reports)

/-! ## The lexer -/

section
variable [InputData C] (side : Lexer.Lex C → P I C Unit) (o : Nat) (env : Lexer.Env C) (fc : Nat) (start : Int) (L : Lexer.Lex C)

/-- `compute_target_state`, src/lexer_atn_simulator.rs:280-317 -/
def lexTargetProg (pred : Int → Int → Option Bool) (c : Lexer.Cursor C) (s : Nat) (t off : Int) : P I C Nat :=
  .look o fun d =>
    (Prog.lift d.states[s]?).bind fun st =>
    (side { L with cur := c }).bind fun _ =>
    (Prog.lift (Lexer.reachSet env.atn pred fc t off st.configs.configs 0 ConfigSet.newOrdered)).bind fun reach =>
    .upgrade o <| .look o fun d =>
      if reach.configs.isEmpty then
        if reach.hasSem then .downgrade o <| .ret ERROR_DFA_STATE_REF
        else
          (Prog.lift (Lexer.addEdge d s t ERROR_DFA_STATE_REF)).bind fun d' =>
          .store o d' <| .downgrade o <| .ret ERROR_DFA_STATE_REF
      else
        (Prog.lift (Lexer.addState env.atn env.hash d { reach with hasSem := false })).bind fun r =>
        .store o r.1 <| .look o fun d1 =>
          if reach.hasSem then .downgrade o <| .ret r.2
          else
            (Prog.lift (Lexer.addEdge d1 s t r.2)).bind fun d' => .store o d' <| .downgrade o <| .ret r.2

/-- The loop of `exec_atn`, src/lexer_atn_simulator.rs:233-257: returns the cursor, `prev_accept` and the symbol -/
def lexLoopProg (sp : Int → Int → Lexer.Cursor C → Bool) :
    Nat → Lexer.Cursor C → Nat → Int → Option Lexer.Accept → P I C (Lexer.Cursor C × Option Lexer.Accept × Int)
  | 0, _, _, _, _ => .panic
  | fuel + 1, c, s, symbol, prev =>
    .look o fun d =>
      (Prog.lift (Lexer.existingTarget d s symbol)).bind fun et =>
      (match et with
        | some x => Prog.ret x
        | none => lexTargetProg side o env fc L (fun r p => Lexer.predValue sp r p true c) c s symbol
            (c.input.index - start)).bind fun x =>
        if x = ERROR_DFA_STATE_REF then .ret (c, prev, symbol)
        else
          (Prog.lift (if symbol ≠ EOF then c.consume else some c)).bind fun c =>
          .look o fun d =>
            (Prog.lift (Lexer.capture d c x prev)).bind fun (cap : Bool × Option Lexer.Accept) =>
            if cap.1 && decide (symbol = EOF) then .ret (c, cap.2, symbol)
            else (Prog.lift (c.input.la 1)).bind fun symbol => lexLoopProg sp fuel c x symbol cap.2

/-- `exec_atn`, src/lexer_atn_simulator.rs:220-261 -/
def lexExecProg (fe : Nat) (ds0 : Nat) : P I C (Lexer.MatchRes × Lexer.Lex C) :=
  .look o fun d =>
    (Prog.lift (Lexer.capture d L.cur ds0 none)).bind fun cap =>
    (Prog.lift (L.cur.input.la 1)).bind fun symbol =>
    (lexLoopProg side o env fc start L (fun r p c => env.sempred r p { L with cur := c }) fe L.cur ds0 symbol
      cap.2).bind fun (c, prev, symbol) =>
    (side { L with cur := c }).bind fun _ =>
    .look o fun d => (Prog.lift (Lexer.failOrAccept env.action start ⟨c, d, prev, symbol⟩ L)).bind fun r => .ret r

end

/-- `match_token`, src/lexer_atn_simulator.rs:78-105, and `match_atn`, 185-217, for a mode that exists; its DFA has
number `o`. -/
def matchProg [InputData C] (side : Lexer.Lex C → P I C Unit) (o : Nat) (env : Lexer.Env C) (fc fe : Nat) (L : Lexer.Lex C) :
    P I C (Lexer.MatchRes × Lexer.Lex C) :=
  .acquire o (.lex env fc fe L) <|
    (Prog.look o fun d =>
      match d.s0 with
      | some s0 => lexExecProg side o env fc L.cur.input.index L fe s0
      | none =>
        match env.atn.modeToStartState[L.mode]? with
        | none => .ret (.illegalMode, L)
        | some ss =>
          (Prog.lift env.atn.states[ss]?).bind fun st =>
          (side L).bind fun _ =>
          (Prog.lift (Lexer.startSet env.atn (fun r p => Lexer.predValue
            (fun r p c => env.sempred r p { L with cur := c }) r p false L.cur) fc st.transitions 0
            ConfigSet.newOrdered)).bind fun s0 =>
          .upgrade o <| .look o fun d =>
            (Prog.lift (Lexer.addState env.atn env.hash d { s0 with hasSem := false })).bind fun r =>
            .store o r.1 <|
            (if s0.hasSem then Prog.ret () else .look o fun d1 => .store o { d1 with s0 := some r.2 } <| .ret ()).bind
              fun _ => .downgrade o <| lexExecProg side o env fc L.cur.input.index L fe r.2).bind fun (r, L') =>
    .release o (.lex r L') <| .ret (r, L')

end Antlr.Conc
