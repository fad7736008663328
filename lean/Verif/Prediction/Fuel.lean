import Verif.Prediction.Model

/-!
Helper lemmas: the bounds on recursion and loops do not change what a prediction does.
-/

namespace Antlr.Prediction
open Antlr

variable {I : Type} [TokStream I]

/-- What `a` gives `b` gives too. -/
def Below {α : Type} (a b : Option α) : Prop := ∀ x, a = some x → b = some x

theorem Below.refl {α : Type} (a : Option α) : Below a a := fun _ h => h

theorem Below.none {α : Type} (a : Option α) : Below .none a := fun _ h => by simp at h

theorem Below.bind {α β : Type} {a b : Option α} {f g : α → Option β} (h : Below a b) (hf : ∀ x, Below (f x) (g x)) :
    Below (a.bind f) (b.bind g) := by
  intro y hy
  rw [Option.bind_eq_some_iff] at hy ⊢
  obtain ⟨x, h1, h2⟩ := hy
  exact ⟨x, h _ h1, hf _ _ h2⟩

theorem Below.map {α β : Type} {a b : Option α} (h : Below a b) (f : α → β) : Below (a.map f) (b.map f) := by
  intro y hy
  rw [Option.map_eq_some_iff] at hy ⊢
  obtain ⟨x, h1, h2⟩ := hy
  exact ⟨x, h _ h1, h2⟩

theorem Below.ite {α : Type} {p : Prop} [Decidable p] {a b c d : Option α} (h : Below a c) (h' : Below b d) :
    Below (if p then a else b) (if p then c else d) := by split <;> assumption

/-- `rec'` goes at least as far as `rec`. -/
def RecBelow (rec rec' : Rec I) : Prop := ∀ c b d w, Below (rec c b d w) (rec' c b d w)

section
variable {L : Local I} {full eof : Bool} {rec rec' : Rec I}

theorem workStep_below (hr : RecBelow rec rec') (c : Config) (collect : Bool) (depth : Int) (st : ATNState) (tr : Trans) (i : Nat) (w : Work I) :
    Below (workStep L full eof rec c collect depth st tr i w) (workStep L full eof rec' c collect depth st tr i w) := by
  unfold workStep
  refine (Below.refl _).bind fun drop => Below.ite (.refl _) ?_
  dsimp only
  refine (Below.refl _).bind fun r => ?_
  cases r.1 with
  | none => exact .refl _
  | some c' => exact Below.ite (Below.ite (.refl _) ((Below.refl _).bind fun c'' => Below.ite (.refl _) (hr _ _ _ _))) (Below.ite (.refl _) (hr _ _ _ _))

theorem workLoop_below (hr : RecBelow rec rec') (c : Config) (collect : Bool) (depth : Int) (st : ATNState) (l : List (Trans × Nat)) (w : Work I) :
    Below (workLoop L full eof rec c collect depth st l w) (workLoop L full eof rec' c collect depth st l w) := by
  induction l generalizing w with
  | nil => exact .refl _
  | cons x l ih => exact (workStep_below hr _ _ _ _ _ _ _).bind fun w' => ih w'

theorem closureWork_below (hr : RecBelow rec rec') (c : Config) (collect : Bool) (depth : Int) (w : Work I) :
    Below (closureWork L full eof rec c collect depth w) (closureWork L full eof rec' c collect depth w) :=
  (Below.refl _).bind fun _ => (Below.refl _).bind fun _ => workLoop_below hr _ _ _ _ _ _

omit [TokStream I] in
theorem popLoop_below (hr : RecBelow rec rec') (c : Config) (collect : Bool) (depth : Int) (l : List (Option PC × Int)) (w : Work I) :
    Below (popLoop rec c collect depth l w) (popLoop rec' c collect depth l w) := by
  induction l generalizing w with
  | nil => exact .refl _
  | cons x l ih => exact Below.ite (.refl _) ((Below.refl _).bind fun _ => (hr _ _ _ _).bind fun w' => ih w')

theorem closureCheck_below (n m : Nat) (h : n ≤ m) : RecBelow (closureCheck L full eof n) (closureCheck L full eof m) := by
  induction n generalizing m with
  | zero => intro c b d w; exact .none _
  | succ n ih =>
    cases m with
    | zero => omega
    | succ m =>
      have hr := ih m (by omega)
      intro c b d w
      exact (Below.refl _).bind fun st => Below.ite
        (Below.ite ((Below.ite (Below.ite (.refl _) (closureWork_below hr _ _ _ _)) (.refl _)).bind fun w' => popLoop_below hr _ _ _ _ _)
          (Below.ite (.refl _) (closureWork_below hr _ _ _ _)))
        (closureWork_below hr _ _ _ _)

variable {cf cf' : Nat} (hc : cf ≤ cf')
include hc

theorem closure_below (c : Config) (collect : Bool) (w : Work I) :
    Below (closure L cf full eof c collect w) (closure L cf' full eof c collect w) :=
  (closureCheck_below _ _ hc _ _ _ _).bind fun _ => .refl _

theorem closeAll_below (l : List Config) (w : Work I) : Below (closeAll L cf full eof l w) (closeAll L cf' full eof l w) := by
  induction l generalizing w with
  | nil => exact .refl _
  | cons x l ih => exact (closure_below hc _ _ _).bind fun w' => ih w'

theorem computeReach_below (cs : ConfigSet) (t : Int) (mc : PC.Cache) (inp : I) :
    Below (computeReach L cf cs t full mc inp) (computeReach L cf' cs t full mc inp) := by
  unfold computeReach
  refine (Below.refl _).bind fun x => ?_
  obtain ⟨im, m1, sk⟩ := x
  exact (Below.ite (.refl _) ((closeAll_below hc _ _).map _)).bind fun _ => .refl _

theorem startLoop_below (ctx : PC) (l : List Trans) (i : Nat) (w : Work I) :
    Below (startLoop L cf ctx full l i w) (startLoop L cf' ctx full l i w) := by
  induction l generalizing w i with
  | nil => exact .refl _
  | cons x l ih => exact (Below.refl _).bind fun c => (closure_below hc _ _ _).bind fun w' => ih _ w'

theorem computeStart_below (ctx : PC) (mc : PC.Cache) (inp : I) :
    Below (computeStart L cf ctx full mc inp) (computeStart L cf' ctx full mc inp) :=
  (Below.refl _).bind fun _ => (startLoop_below hc _ _ _ _).map _

theorem computeTarget_below (d : DFA) (prev : Nat) (t : Int) (mc : PC.Cache) (inp : I) :
    Below (computeTarget L cf d prev t mc inp) (computeTarget L cf' d prev t mc inp) := by
  unfold computeTarget
  refine (Below.refl _).bind fun p => (computeReach_below hc _ _ _ _).bind fun x => ?_
  exact .refl _

theorem nextState_below (d : DFA) (prev : Nat) (t : Int) (mc : PC.Cache) (inp : I) :
    Below (nextState L cf d prev t mc inp) (nextState L cf' d prev t mc inp) := by
  unfold nextState
  refine (Below.refl _).bind fun e => ?_
  cases e with
  | some D => exact .refl _
  | none => exact computeTarget_below hc _ _ _ _ _

theorem startState_below (d : DFA) (inp : I) : Below (startState L cf d inp) (startState L cf' d inp) := by
  unfold startState
  refine (Below.refl _).bind fun e => ?_
  cases e with
  | some D => exact .refl _
  | none => exact (computeStart_below hc _ _ _).bind fun _ => .refl _

theorem fullLoop_below (d : DFA) (n n' : Nat) (hn : n ≤ n') (cs : ConfigSet) (t : Int) (mc : PC.Cache) (inp : I) :
    Below (fullLoop L cf d n cs t mc inp) (fullLoop L cf' d n' cs t mc inp) := by
  induction n generalizing n' cs t mc inp with
  | zero => exact .none _
  | succ n ih =>
    cases n' with
    | zero => omega
    | succ n' =>
      have hr := ih n' (by omega)
      rw [fullLoop, fullLoop]
      refine (computeReach_below hc _ _ _ _).bind fun x => ?_
      obtain ⟨o, m1, i1⟩ := x
      dsimp only
      cases o with
      | none => exact .refl _
      | some reach =>
        refine Below.ite (.refl _) ((Below.refl _).bind fun dec => ?_)
        cases dec with
        | some q => exact .refl _
        | none => exact Below.ite ((Below.refl _).bind fun _ => (Below.refl _).bind fun _ => hr _ _ _ _) (hr _ _ _ _)

theorem needFull_below (d : DFA) (D : DFAState) (n n' : Nat) (hn : n ≤ n') (mc : PC.Cache) (inp : I) :
    Below (needFull L cf n d D mc inp) (needFull L cf' n' d D mc inp) := by
  unfold needFull
  refine (Below.refl _).bind fun x => ?_
  obtain ⟨alts, i1⟩ := x
  exact Below.ite (.refl _) ((Below.refl _).bind fun ctx => (computeStart_below hc _ _ _).bind fun x =>
    Below.map ((Below.refl _).bind fun _ => (Below.refl _).bind fun _ => fullLoop_below hc _ _ _ hn _ _ _ _) _)

theorem execLoop_below (d : DFA) (n n' : Nat) (hn : n ≤ n') (prev : Nat) (t : Int) (mc : PC.Cache) (inp : I) :
    Below (execLoop L cf n d prev t mc inp) (execLoop L cf' n' d prev t mc inp) := by
  induction n generalizing n' d prev t mc inp with
  | zero => exact .none _
  | succ n ih =>
    cases n' with
    | zero => omega
    | succ n' =>
      have hn' : n ≤ n' := by omega
      have hr := fun d => ih d n' hn'
      rw [execLoop, execLoop]
      refine (nextState_below hc _ _ _ _ _).bind fun x => ?_
      obtain ⟨j, d1, m1, i1⟩ := x
      dsimp only
      exact Below.ite (.refl _) ((Below.refl _).bind fun D => Below.ite (needFull_below hc _ _ _ _ hn' _ _) (Below.ite (.refl _)
        (Below.ite ((Below.refl _).bind fun _ => (Below.refl _).bind fun _ => hr _ _ _ _ _) (hr _ _ _ _ _))))

/-- With greater bounds a prediction that came to an end does the same. -/
theorem predict_below (P : Params I) (d : DFA) (n n' : Nat) (hn : n ≤ n') (inp : I) :
    Below (adaptivePredict P cf n d inp) (adaptivePredict P cf' n' d inp) := by
  unfold adaptivePredict
  exact (startState_below hc _ _).bind fun x => Below.bind ((Below.refl _).bind fun _ => execLoop_below hc _ _ _ hn _ _ _ _) fun _ => .refl _

end

/-- The bounds do not matter. -/
theorem predict_det {P : Params I} {d : DFA} {inp : I} {cf n cf' n' : Nat} {r r' : Res I} (h : adaptivePredict P cf n d inp = some r)
    (h' : adaptivePredict P cf' n' d inp = some r') : r = r' := by
  have h1 := predict_below (Nat.le_max_left cf cf') P d n (max n n') (Nat.le_max_left _ _) inp _ h
  have h2 := predict_below (Nat.le_max_right cf cf') P d n' (max n n') (Nat.le_max_right _ _) inp _ h'
  rw [h1, Option.some.injEq] at h2
  exact h2

end Antlr.Prediction
