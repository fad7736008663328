import Verif.Concurrency.Programs

/-!
# Sessions: what a thread does with the DFAs

A thread makes predictions, matches tokens and looks at DFAs (`dump_dfa`, src/parser.rs:663-), and what it does next
depends on the answers.  Code that runs in the middle of a prediction or match (the lexer below the parser,
predicates, listeners, actions) is a session again.
-/

namespace Antlr.Conc
open Antlr Prediction

inductive Session (I C : Type) where
  | stop
  | predict (side : I → Session I C) (o : Nat) (P : Params I) (cf n : Nat) (inp : I)
      (k : Outcome × I × List Prediction.Report → Session I C)
  | lex (side : Lexer.Lex C → Session I C) (o : Nat) (env : Lexer.Env C) (fc fe : Nat) (L : Lexer.Lex C)
      (k : Lexer.MatchRes × Lexer.Lex C → Session I C)
  | dump (o : Nat) (k : DFA → Session I C)

/-- The lock operations of a session. -/
def Session.prog {I C : Type} [TokStream I] [InputData C] : Session I C → P I C Unit
  | .stop => .ret ()
  | .predict side o P cf n inp k => (predictProg (fun i => (side i).prog) o P cf n inp).bind fun a => (k a).prog
  | .lex side o env fc fe L k => (matchProg (fun L => (side L).prog) o env fc fe L).bind fun a => (k a).prog
  | .dump o k => .read o <| .look o fun d => .unread o (k d).prog

/-- Locks are taken in order: whatever runs in the middle of a prediction or match uses DFAs of lower levels only. -/
def Session.Ordered {I C : Type} (level : Nat → Nat) (b : Nat) : Session I C → Prop
  | .stop => True
  | .predict side o _ _ _ _ k => level o < b ∧ (∀ i, (side i).Ordered level (level o)) ∧ ∀ a, (k a).Ordered level b
  | .lex side o _ _ _ _ k => level o < b ∧ (∀ L, (side L).Ordered level (level o)) ∧ ∀ a, (k a).Ordered level b
  | .dump o k => level o < b ∧ ∀ d, (k d).Ordered level b

end Antlr.Conc
