import Verif.Gen.Stale

/-!
# Contexts that are gone

The model keeps all contexts.  In the code a context refers to its parent by a `Weak` pointer
(src/rule_context.rs:145, 219-225): the parent is there as long as somebody holds it: the rule function it belongs to, the
tree, the error strategy (`next_tokens_ctx`) or the user.  `states_stack` unwraps the parent (src/rule_context.rs:43-58).
-/

namespace Antlr.WeakProps
open Antlr Gen

/-- The contexts still there, if these are held: with a context, its children. -/
inductive Alive (h : List Ctx) (held : List Nat) : Nat → Prop
  | held {i} : i ∈ held → Alive h held i
  | child {i q x} : Alive h held q → h[q]? = some x → .ctx i ∈ x.children → Alive h held i

/-- What `states_stack` collects, if it does not panic. -/
inductive Stack (h : List Ctx) (held : List Nat) : Nat → List Int → Prop
  | root {i x} : h[i]? = some x → x.invoking < 0 → Stack h held i []
  | up {i x q l} : h[i]? = some x → 0 ≤ x.invoking → x.parent = some q → Alive h held q → Stack h held q l →
      Stack h held i (x.invoking :: l)

/-- The grammar `s : o 'z' ;  o : i ;  i : 'a' 'b'? ;` with 'a' 1, 'b' 2, 'z' 3. -/
def atn : ATN where
  grammarType := .parser
  maxTokenType := 3
  decisionToState := [11]
  ruleToStartState := [0, 2, 4]
  ruleToStopState := [1, 3, 5]
  states := [
    Stale.st 0 0 (.ruleStart 1 false) [.epsilon 6 0],
    Stale.st 0 1 .ruleStop [],
    Stale.st 1 2 (.ruleStart 3 false) [.epsilon 9 0],
    Stale.st 1 3 .ruleStop [.epsilon 7 (-1)],
    Stale.st 2 4 (.ruleStart 5 false) [.epsilon 10 0],
    Stale.st 2 5 .ruleStop [.epsilon 14 (-1)],
    Stale.st 0 6 .basic [.rule 2 7 1 0],
    Stale.st 0 7 .basic [.atom 8 3],
    Stale.st 0 8 .basic [.epsilon 1 0],
    Stale.st 1 9 .basic [.rule 4 14 2 0],
    Stale.st 2 10 .basic [.atom 11 1],
    Stale.st 2 11 (.decision 0 false (.blockStart 13 .basic)) [.epsilon 12 0, .epsilon 13 0],
    Stale.st 2 12 .basic [.atom 13 2],
    Stale.st 2 13 (.blockEnd 11) [.epsilon 5 0],
    Stale.st 1 14 .basic [.epsilon 3 0]]

/-- Its rule functions; those of one-element optional blocks test `la(1)` (templates/Rust.stg:741-752). -/
def rules : List RuleFn := [
  .plain 0 none [⟨none, .seq (.call 6 1 0) (.tok 7 3)⟩],
  .plain 2 none [⟨none, .call 9 2 0⟩],
  .plain 4 none [⟨none, .seq (.tok 10 1) (.opt 11 (.look [[2]] (some 2)) 0 [.tok 12 2])⟩]]

def cfg (fuel : Nat) : Cfg CTS Unit where
  env := { atn := atn, fuel := fuel, display := fun _ => "x", ruleNames := ["s".toList, "o".toList, "i".toList],
           rangeText := fun i a b => i.base.getText a b }
  bail := false
  guards := fun _ _ => true
  predict := fun _ _ _ _ => none
  rules := rules

/-- The parser in `s`, before `o` is called, on the tokens of these types. -/
def inS (trees : Bool) (ts : List Nat) : Option (GS CTS Unit) :=
  ((P.enterRule (({ P.new (CTS.withChannel (PredictionProps.exSource ts) 0) with buildTrees := trees }).alloc 0 none none (-1)).2 0 0)).map
    fun p => ⟨⟨{}, p⟩, ()⟩

/-- The parser in `s`, after the call of `o`. -/
def afterO (trees : Bool) (ts : List Nat) : Option (GS CTS Unit) :=
  (inS trees ts).bind fun s => (run (cfg 60) 60 (.call 6 1 0) s).map (·.2)

/-- The stack of the error that `match_token` for 'z' gives. -/
def stackOf (s : GS CTS Unit) : Option (List Int) :=
  (matchTok (cfg 60) 3 (s.setState 7)).bind fun x => match x.1 with
    | .error (.mismatch b) => some b.stack
    | _ => none

theorem afterO_no (s : GS CTS Unit) (h : afterO false [1, 1] = some s) : s.es.eh.ntCtx = some 2 ∧ s.es.p.heap.length = 3 ∧
    (∀ x ∈ s.es.p.heap, x.children = []) ∧ (s.es.p.heap.map (·.parent)) = [none, some 0, some 1] ∧
    (s.es.p.heap.map (·.invoking)) = [-1, 6, 9] ∧ s.es.p.ctx = some 0 ∧ stackOf s = some [9, 6] := by
  have key : (afterO false [1, 1]).any (fun s => decide (s.es.eh.ntCtx = some 2 ∧ s.es.p.heap.length = 3 ∧
      (∀ x ∈ s.es.p.heap, x.children = []) ∧ (s.es.p.heap.map (·.parent)) = [none, some 0, some 1] ∧
      (s.es.p.heap.map (·.invoking)) = [-1, 6, 9] ∧ s.es.p.ctx = some 0 ∧ stackOf s = some [9, 6])) = true := by
    decide +kernel
  rw [h] at key
  simpa using key

/-- **C77** fails for parsers that do not build trees (`build_parse_trees = false`): on `a a` the parser for
`s : o 'z' ;  o : i ;  i : 'a' 'b'? ;` has left `i` and `o`, whose contexts are 2 and 1; the strategy has kept context 2.  Matching
'z' fails, and the error is made with the stack of context 2 (`stackOf`: the calls of `i` and of `o`), whose parent is gone: held are
the context of `s`, by its rule function, and context 2.  So `states_stack` unwraps `None`. -/
theorem C77_false_freed : ∃ s, afterO false [1, 1] = some s ∧ s.es.eh.ntCtx = some 2 ∧ s.es.p.ctx = some 0 ∧
    stackOf s = some [9, 6] ∧ ¬ Alive s.es.p.heap [0, 2] 1 ∧ ¬ ∃ l, Stack s.es.p.heap [0, 2] 2 l := by
  obtain ⟨s, hs⟩ : ∃ s, afterO false [1, 1] = some s := Option.isSome_iff_exists.1 (by decide +kernel)
  obtain ⟨h1, h2, h3, h4, h5, h6, h7⟩ := afterO_no s hs
  have ha : ∀ i, Alive s.es.p.heap [0, 2] i → i ≠ 1 := by
    intro i hi
    cases hi with
    | held h => rintro rfl; simp at h
    | child h hx hc =>
      rw [h3 _ (List.mem_of_getElem? hx)] at hc
      cases hc
  refine ⟨s, hs, h1, h6, h7, fun h => ha 1 h rfl, ?_⟩
  rintro ⟨l, hl⟩
  cases hl with
  | root hx hn =>
    have := congrArg (fun l => l[2]?) h5
    simp only [List.getElem?_map, hx] at this
    simp only [Option.map_some, List.getElem?_cons_succ, List.getElem?_cons_zero, Option.some.injEq] at this
    omega
  | up hx _ hp hq _ =>
    have := congrArg (fun l => l[2]?) h4
    simp only [List.getElem?_map, hx] at this
    simp only [Option.map_some, List.getElem?_cons_succ, List.getElem?_cons_zero, Option.some.injEq] at this
    rw [this] at hp
    injection hp with hp
    exact ha _ hq hp.symm

theorem of_three {α : Type} {l : List α} (h : l.length = 3) : ∃ a b c, l = [a, b, c] := by
  match l, h with
  | [a, b, c], _ => exact ⟨a, b, c, rfl⟩

/-- With trees, all contexts are held by the root, and the stack is there. -/
example : ∃ s, afterO true [1, 1] = some s ∧ s.es.eh.ntCtx = some 2 ∧ stackOf s = some [9, 6] ∧
    Stack s.es.p.heap [0, 2] 2 [9, 6] := by
  have key : (afterO true [1, 1]).any (fun s => decide (s.es.eh.ntCtx = some 2 ∧ stackOf s = some [9, 6] ∧
      (s.es.p.heap.map fun c => (c.parent, c.invoking, c.children)) =
        [(none, -1, [.ctx 1]), (some 0, 6, [.ctx 2]), (some 1, 9, [.leaf (PredictionProps.exTok 1 0) false])])) = true := by
    decide +kernel
  obtain ⟨s, hs⟩ : ∃ s, afterO true [1, 1] = some s := Option.isSome_iff_exists.1 (by decide +kernel)
  rw [hs] at key
  simp only [Option.any_some, decide_eq_true_eq] at key
  obtain ⟨h1, h2, h3⟩ := key
  obtain ⟨x0, x1, x2, hx⟩ : ∃ a b c, s.es.p.heap = [a, b, c] := of_three (by
    simpa only [List.length_map, List.length_cons, List.length_nil] using congrArg List.length h3)
  rw [hx] at h3
  simp only [List.map_cons, List.map_nil, List.cons.injEq, Prod.mk.injEq, and_true] at h3
  obtain ⟨⟨a1, a2, a3⟩, ⟨b1, b2, b3⟩, c1, c2, c3⟩ := h3
  have l1 : Alive [x0, x1, x2] [0, 2] 1 := .child (.held (by simp)) (q := 0) rfl (by simp [a3])
  refine ⟨s, hs, h1, h2, ?_⟩
  rw [← c2, ← b2, hx]
  exact .up rfl (by omega) c1 l1 (.up rfl (by omega) b1 (.held (by simp)) (.root rfl (by omega)))

end Antlr.WeakProps
