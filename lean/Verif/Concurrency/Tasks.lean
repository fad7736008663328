import Verif.Concurrency.Spec
import Verif.Concurrency.Programs
import Verif.Prediction.Interrupt
import Verif.Lexer.Interrupt

/-!
# What visits of DFAs do

Nothing here mentions locks or programs: a prediction that nobody disturbs is `adaptivePredict`, a match `matchToken`.
-/

namespace Antlr.Conc
open Antlr Prediction

variable {I C : Type}

/-- What a task does to a DFA it has for itself. -/
def Does [TokStream I] [InputData C] : Task I C → DFA → Option (Answer I C) → DFA → Prop
  | .predict P cf n inp, d, some (.predict out inp' reports), d' => adaptivePredict P cf n d inp = some ⟨out, d', inp', reports⟩
  | .predict P cf _ inp, d, none, d' => Prediction.Interrupted P cf d inp d'
  | .lex env fc fe L, d, some (.lex r L'), d' => ∀ dfas : List DFA, dfas[L.mode]? = some d →
      Lexer.matchToken env fc fe L dfas = some (r, L', dfas.set L.mode d')
  | .lex env fc _ L, d, none, d' => Lexer.Interrupted env fc L d d'
  | _, _, _, _ => False

/-- The program uses objects in `use` only, and takes guards for tasks in `task` only. -/
def Uses {D T R α : Type} (use : Nat → Prop) (task : Nat → T → Prop) : Prog D T R α → Prop
  | .ret _ => True
  | .panic => True
  | .acquire o t k => use o ∧ task o t ∧ Uses use task k
  | .look o k => use o ∧ ∀ d, Uses use task (k d)
  | .read o k => use o ∧ Uses use task k
  | .unread o k => use o ∧ Uses use task k
  | .upgrade o k => use o ∧ Uses use task k
  | .await o k => use o ∧ Uses use task k
  | .store o _ k => use o ∧ Uses use task k
  | .downgrade o k => use o ∧ Uses use task k
  | .release o _ k => use o ∧ Uses use task k

/-- The program uses objects of levels below `b` only. -/
abbrev Under {D T R α : Type} (level : Nat → Nat) (b : Nat) (p : Prog D T R α) : Prop :=
  Uses (fun o => level o < b) (fun _ _ => True) p

/-- Programs a thread can run while it holds DFAs of level `b` or above: they use DFAs of lower levels, and these properly. -/
structure Aside [TokStream I] [InputData C] (level : Nat → Nat) (b : Nat) (p : P I C Unit) : Prop where
  under : Under level b p
  safe : SafeThread level p
  faithful : Faithful (fun _ => Does) p

end Antlr.Conc
