import Verif.Concurrency.Session

/-!
# What a thread says it did

`Session.Trace`: the tasks of a session and their answers, in the order in which they end.  Each continuation is given
the answer of its task.  Tasks of what runs in the middle of a task come before it.
-/

namespace Antlr.Conc
open Antlr Prediction

/-- Any number of lists of the kind `S` one after the other. -/
inductive Many {E : Type} (S : List E → Prop) : List E → Prop
  | nil : Many S []
  | cons {l l'} : S l → Many S l' → Many S (l ++ l')

/-- The DFA, the task and the answer. -/
abbrev Said (I C : Type) := Nat × Task I C × Answer I C

variable {I C : Type}

/-- The whole session. -/
def Session.Trace : Session I C → List (Said I C) → Prop
  | .stop, l => l = []
  | .predict side o P cf n inp k, l => ∃ a out inp' reports rest, Many (fun x => ∃ i, (side i).Trace x) a ∧
      (k (out, inp', reports)).Trace rest ∧ l = a ++ (o, .predict P cf n inp, .predict out inp' reports) :: rest
  | .lex side o env fc fe L k, l => ∃ a r L' rest, Many (fun x => ∃ L, (side L).Trace x) a ∧
      (k (r, L')).Trace rest ∧ l = a ++ (o, .lex env fc fe L, .lex r L') :: rest
  | .dump _ k, l => ∃ d, (k d).Trace l

/-- A beginning of the session. -/
def Session.Part : Session I C → List (Said I C) → Prop
  | .stop, l => l = []
  | .predict side o P cf n inp k, l =>
      (∃ a x, Many (fun x => ∃ i, (side i).Trace x) a ∧ (x = [] ∨ ∃ i, (side i).Part x) ∧ l = a ++ x) ∨
      ∃ a out inp' reports rest, Many (fun x => ∃ i, (side i).Trace x) a ∧
        (k (out, inp', reports)).Part rest ∧ l = a ++ (o, .predict P cf n inp, .predict out inp' reports) :: rest
  | .lex side o env fc fe L k, l =>
      (∃ a x, Many (fun x => ∃ L, (side L).Trace x) a ∧ (x = [] ∨ ∃ L, (side L).Part x) ∧ l = a ++ x) ∨
      ∃ a r L' rest, Many (fun x => ∃ L, (side L).Trace x) a ∧
        (k (r, L')).Part rest ∧ l = a ++ (o, .lex env fc fe L, .lex r L') :: rest
  | .dump _ k, l => l = [] ∨ ∃ d, (k d).Part l

/-- The tasks thread `i` ended, with their answers. -/
def toldBy {T R : Type} (i : Nat) (log : List (Event T R)) : List (Nat × T × R) :=
  log.filterMap fun e => if e.thread = i then e.result.map fun r => (e.obj, e.task, r) else none

end Antlr.Conc
