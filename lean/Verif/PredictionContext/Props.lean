import Verif.PredictionContext.Lemmas

/-!
# Properties of prediction contexts (C29 - C32, C63, C64)
-/

namespace Antlr.StackProps
open Antlr StackSpec PC

/-- Contexts used in the examples: `$`, `[1 $]`, `[2 1 $]`, `[1 2 $]` and `{[1 $], $}`. -/
def ctx1 : PC := .single (some EMPTY) 1
def ctx21 : PC := .single (some ctx1) 2
def ctx12 : PC := .single (some (.single (some EMPTY) 2)) 1
def ctxA : PC := .array [(some EMPTY, 1), (none, EMPTY_RS)]

theorem wf_ctx1 : WF ctx1 := .single (by decide) .empty
theorem wf_ctx21 : WF ctx21 := .single (by decide) wf_ctx1
theorem wf_ctx12 : WF ctx12 := .single (by decide) (.single (by decide) .empty)
theorem wf_ctxA : WF ctxA := by
  refine .array (by decide) (by simp [EMPTY_RS]) (by simp) ?_ ?_
  · intro p r h; simp at h; rw [h.2]; decide
  · intro p r h; simp at h; rw [h.1]; exact .empty

/-! ## C29, C30: merging is union, keeps contexts well-formed and never panics -/

/-- Full-context mode: exactly the union of the stacks; the result is well-formed; no panic. -/
theorem C29_merge_full (a b : PC) (ha : WF a) (hb : WF b) :
    ∃ r, merge a b false none = some (r, none) ∧
      ∀ s, HasStack r s ↔ HasStack a s ∨ HasStack b s := by
  obtain ⟨r, c', h, hg, hc⟩ := merge_ok false false id a b ha hb none (by intro cc h; simp at h)
  have : c' = none := by
    cases c' with
    | none => rfl
    | some c => exact absurd h (merge_none_cache _ _ _ _ _)
  subst this
  exact ⟨r, h, fun s => by simpa [Den] using hg.2 s⟩

example : WF ctxA ∧ WF ctx21 ∧ merge ctxA ctx21 false none =
    some (.array [(some EMPTY, 1), (some ctx1, 2), (none, EMPTY_RS)], none) :=
  ⟨wf_ctxA, wf_ctx21, by decide +kernel⟩

/-- Local-context mode: the union of the stacks when the bottom of a stack reads as any caller. -/
theorem C29_merge_local (a b : PC) (ha : WF a) (hb : WF b) :
    ∃ r, merge a b true none = some (r, none) ∧ ∀ s, Allows r s ↔ Allows a s ∨ Allows b s := by
  obtain ⟨r, c', h, hg, hc⟩ := merge_ok true true id a b ha hb none (by intro cc h; simp at h)
  have : c' = none := by
    cases c' with
    | none => rfl
    | some c => exact absurd h (merge_none_cache _ _ _ _ _)
  subst this
  exact ⟨r, h, fun s => by simpa [Den] using hg.2 s⟩

example : WF ctx12 ∧ WF ctx1 ∧ merge ctx12 ctx1 true none = some (ctx1, none) :=
  ⟨wf_ctx12, wf_ctx1, by decide +kernel⟩

/-- Well-formed contexts never panic in a merge and the result is well-formed, whatever the mode
and the (correct) cache. -/
theorem C30_merge_wf (w : Bool) (a b : PC) (ha : WF a) (hb : WF b) :
    ∃ r, merge a b w none = some (r, none) ∧ WF r := by
  obtain ⟨r, c', h, hg, hc⟩ := merge_ok w w id a b ha hb none (by intro cc h; simp at h)
  have : c' = none := by
    cases c' with
    | none => rfl
    | some c => exact absurd h (merge_none_cache _ _ _ _ _)
  subst this
  exact ⟨r, h, hg.1⟩

example : WF ctxA ∧ WF ctx12 ∧ (merge ctxA ctx12 false none).isSome :=
  ⟨wf_ctxA, wf_ctx12, by decide +kernel⟩

/-- The hypothesis matters: with an ill-formed context (a bottom marker whose return state another
context also uses with a parent) the merge does panic. -/
theorem C30_illformed_panics : merge (.single none 1) ctx1 false none = none := by decide +kernel

/-- Well-formed contexts are canonical: two that stand for the same stacks are equal.  So in
full-context mode the result of a merge depends on the stacks only. -/
theorem C29_canonical (a b : PC) (ha : WF a) (hb : WF b)
    (h : ∀ s, HasStack a s ↔ HasStack b s) : a = b := wf_canonical a b ha hb h

example : WF ctxA ∧ WF ctx12 ∧ ¬ (∀ s, HasStack ctxA s ↔ HasStack ctx12 s) := by
  refine ⟨wf_ctxA, wf_ctx12, fun h => ?_⟩
  have := (h []).mp (.bottomA (by simp))
  cases this

/-- `has_empty_path` tells whether the empty stack is among those a context stands for, and `is_empty`
whether it is the only one. -/
theorem C29_has_empty_path (c : PC) (h : WF c) :
    (c.hasEmptyPath = true ↔ HasStack c []) ∧ (c.isEmpty = true ↔ ∀ s, HasStack c s ↔ s = []) := by
  constructor
  · cases h with
    | empty => simp [hasEmptyPath, entries, HasStack.bottomS]
    | @single p r h1 h2 =>
      constructor
      · intro e; simp [hasEmptyPath, entries] at e; omega
      · intro e; cases e
    | @array l h1 h2 h3 h4 h5 =>
      have hw := wf_entries (.array h1 h2 h3 h4 h5)
      simp only [hasEmptyPath, entries] at hw ⊢
      constructor
      · intro e
        obtain ⟨x, hx, e⟩ := (Option.any_eq_true _ _).mp e
        have hm := List.mem_of_getLast? hx
        obtain ⟨p, r⟩ := x
        simp only [beq_iff_eq] at e; subst e
        cases p with
        | none => exact .bottomA hm
        | some p => have := h4 _ _ hm; omega
      · intro e
        cases e with
        | bottomA hm =>
          obtain ⟨l1, l2, rfl⟩ := List.append_of_mem hm
          cases l2 with
          | nil => simp
          | cons y l2 =>
            have := (List.pairwise_append.mp h2).2.1
            have hy := (List.pairwise_cons.mp this).1 y (by simp)
            have := eok_le (hw.2 y (by simp))
            simp only at hy; omega
  · rw [wf_isEmpty h]
    constructor
    · rintro rfl s
      constructor
      · intro e; cases e; rfl
      · rintro rfl; exact .bottomS
    · intro e
      exact C29_canonical _ _ h .empty fun s => (e s).trans
        ⟨fun e => by subst e; exact .bottomS, fun e => by cases e; rfl⟩

example : WF ctxA ∧ ctxA.hasEmptyPath = true ∧ ctxA.isEmpty = false :=
  ⟨wf_ctxA, by decide +kernel, by decide +kernel⟩

/-! ## C31: the merge cache -/

/-- Caches reachable by merges of well-formed contexts in one mode, starting empty. -/
inductive Reachable (w : Bool) : Cache → Prop
  | new : Reachable w []
  | merge {c a b r c'} : Reachable w c → WF a → WF b → PC.merge a b w (some c) = some (r, some c') →
      Reachable w c'

theorem reachable_ok {w : Bool} {c : Cache} (h : Reachable w c) : CacheOk w (some c) := by
  induction h with
  | new => intro cc h x hx; simp at h; subst h; simp at hx
  | @merge c a b r c' _ ha hb hm ih =>
    obtain ⟨r', c'', h1, _, h3⟩ := merge_ok w w id a b ha hb (some c) ih
    rw [hm] at h1
    simp only [Option.some.injEq, Prod.mk.injEq] at h1
    rw [h1.2]; exact h3

/-- Merging with any cache filled by earlier merges of the same mode stands for the same stacks as
merging without a cache, and never panics. -/
theorem C31_cache_transparent (w : Bool) (c : Cache) (hc : Reachable w c) (a b : PC)
    (ha : WF a) (hb : WF b) :
    ∃ r r' c', merge a b w (some c) = some (r, c') ∧ merge a b w none = some (r', none) ∧
      WF r ∧ ∀ s, Den w r s ↔ Den w r' s := by
  obtain ⟨r, c', h, hg, _⟩ := merge_ok w w id a b ha hb (some c) (reachable_ok hc)
  obtain ⟨r', c'', h', hg', _⟩ := merge_ok w w id a b ha hb none (by intro cc h; simp at h)
  have : c'' = none := by
    cases c'' with
    | none => rfl
    | some c => exact absurd h' (merge_none_cache _ _ _ _ _)
  subst this
  exact ⟨r, r', c', h, h', hg.1, fun s => by rw [hg.2, hg'.2]⟩

/-- In full-context mode it is even the very same context. -/
theorem C31_cache_same_result (c : Cache) (hc : Reachable false c) (a b : PC)
    (ha : WF a) (hb : WF b) :
    ∃ r c', merge a b false (some c) = some (r, c') ∧ merge a b false none = some (r, none) := by
  obtain ⟨r, c', h, hg, _⟩ := merge_ok false false id a b ha hb (some c) (reachable_ok hc)
  obtain ⟨r', c'', h', hg', _⟩ := merge_ok false false id a b ha hb none (by intro cc h; simp at h)
  have : c'' = none := by
    cases c'' with
    | none => rfl
    | some c => exact absurd h' (merge_none_cache _ _ _ _ _)
  subst this
  have : r = r' := wf_canonical r r' hg.1 hg'.1 (fun s => by
    have h1 := hg.2 s
    have h2 := hg'.2 s
    simp only [Den, Bool.false_eq_true, if_false] at h1 h2
    rw [h1, h2])
  subst this
  exact ⟨r, c', h, h'⟩

example : Reachable false [((ctx1, EMPTY), ctxA)] ∧ merge EMPTY ctx1 false (some [((ctx1, EMPTY), ctxA)]) =
    some (ctxA, some [((ctx1, EMPTY), ctxA)]) :=
  ⟨.merge .new wf_ctx1 .empty (by decide +kernel : merge ctx1 EMPTY false (some []) = some (ctxA, _)),
    by decide +kernel⟩

/-! ## C63: one cache for both modes is not transparent

`adaptive_predict` creates one merge cache (parser_atn_simulator.rs:168) and uses it first for
local-context merges and then, after a conflict, for full-context merges. -/

/-- A cache filled by one local-context merge makes a later full-context merge of the same contexts
lose a stack. -/
theorem C63_false_shared_cache : ∃ (c : Cache) (a b r : PC), Reachable true c ∧ WF a ∧ WF b ∧
    (∃ c', merge a b false (some c) = some (r, c')) ∧ HasStack a [1] ∧ ¬ HasStack r [1] := by
  refine ⟨[((ctx1, EMPTY), EMPTY)], ctx1, EMPTY, EMPTY, ?_, wf_ctx1, .empty, ⟨some [((ctx1, EMPTY), EMPTY)], by decide +kernel⟩,
    .pushS .bottomS, ?_⟩
  · exact .merge .new wf_ctx1 .empty
      (by decide +kernel : merge ctx1 EMPTY true (some []) = some (EMPTY, some [((ctx1, EMPTY), EMPTY)]))
  · intro h; cases h

/-- Caches reachable by merges of well-formed contexts in any mix of modes, as in one call of
`adaptive_predict`. -/
inductive MixedReachable : Cache → Prop
  | new : MixedReachable []
  | merge {c a b r c'} (w : Bool) : MixedReachable c → WF a → WF b →
      PC.merge a b w (some c) = some (r, some c') → MixedReachable c'

theorem mixed_ok {c : Cache} (h : MixedReachable c) : CacheOk true (some c) := by
  induction h with
  | new => intro cc h x hx; simp at h; subst h; simp at hx
  | @merge c a b r c' w _ ha hb hm ih =>
    obtain ⟨r', c'', h1, _, h3⟩ := merge_ok w true (fun _ => rfl) a b ha hb (some c) ih
    rw [hm] at h1
    simp only [Option.some.injEq, Prod.mk.injEq] at h1
    rw [h1.2]; exact h3

/-- What does hold with one cache for both modes: a merge never panics, and in the local-context
reading the result still allows exactly what the arguments allow.  So no viable caller is cut off;
what is lost (and what `C63` asks for) is the exact set of stacks in full-context mode. -/
theorem C63_shared_cache_partial (c : Cache) (hc : MixedReachable c) (w : Bool) (a b : PC)
    (ha : WF a) (hb : WF b) :
    ∃ r c', merge a b w (some c) = some (r, c') ∧ WF r ∧
      ∀ s, Allows r s ↔ Allows a s ∨ Allows b s := by
  obtain ⟨r, c', h, hg, _⟩ := merge_ok w true (fun _ => rfl) a b ha hb (some c) (mixed_ok hc)
  exact ⟨r, c', h, hg.1, fun s => by simpa [Den] using hg.2 s⟩

example : MixedReachable [((ctx1, EMPTY), EMPTY)] ∧
    merge EMPTY ctx1 false (some [((ctx1, EMPTY), EMPTY)]) = some (EMPTY, some [((ctx1, EMPTY), EMPTY)]) :=
  ⟨.merge true .new wf_ctx1 .empty
      (by decide +kernel : merge ctx1 EMPTY true (some []) = some (EMPTY, _)),
    by decide +kernel⟩

/-! ## Algebraic laws in full-context mode -/

/-- The order of the arguments does not matter. -/
theorem C29_merge_comm (a b : PC) (ha : WF a) (hb : WF b) :
    merge a b false none = merge b a false none := by
  obtain ⟨r, h, hd⟩ := C29_merge_full a b ha hb
  obtain ⟨r', h', hd'⟩ := C29_merge_full b a hb ha
  obtain ⟨r1, h1, hw1⟩ := C30_merge_wf false a b ha hb
  obtain ⟨r2, h2, hw2⟩ := C30_merge_wf false b a hb ha
  rw [h] at h1
  rw [h'] at h2
  simp only [Option.some.injEq, Prod.mk.injEq, and_true] at h1 h2
  subst h1 h2
  rw [h, h', wf_canonical r r' hw1 hw2 (fun s => by rw [hd, hd', Or.comm])]

/-- Nor does the grouping. -/
theorem C29_merge_assoc (a b c : PC) (ha : WF a) (hb : WF b) (hc : WF c) :
    ∃ ab bc r, merge a b false none = some (ab, none) ∧ merge b c false none = some (bc, none) ∧
      merge ab c false none = some (r, none) ∧ merge a bc false none = some (r, none) := by
  obtain ⟨ab, h1, d1⟩ := C29_merge_full a b ha hb
  obtain ⟨ab', h1', w1⟩ := C30_merge_wf false a b ha hb
  obtain ⟨bc, h2, d2⟩ := C29_merge_full b c hb hc
  obtain ⟨bc', h2', w2⟩ := C30_merge_wf false b c hb hc
  rw [h1] at h1'
  rw [h2] at h2'
  simp only [Option.some.injEq, Prod.mk.injEq, and_true] at h1' h2'
  subst h1' h2'
  obtain ⟨r, h3, d3⟩ := C29_merge_full ab c w1 hc
  obtain ⟨r', h3', w3⟩ := C30_merge_wf false ab c w1 hc
  obtain ⟨q, h4, d4⟩ := C29_merge_full a bc ha w2
  obtain ⟨q', h4', w4⟩ := C30_merge_wf false a bc ha w2
  rw [h3] at h3'
  rw [h4] at h4'
  simp only [Option.some.injEq, Prod.mk.injEq, and_true] at h3' h4'
  subst h3' h4'
  have : r = q := wf_canonical r q w3 w4 (fun s => by rw [d3, d4, d1, d2, or_assoc])
  subst this
  exact ⟨ab, bc, r, h1, h2, h3, h4⟩

/-! ## C32: rule contexts -/

/-- The rule invocation chain `chain` (invoking states, innermost first, up to the context nobody
invoked) has the return stack `stack`: each invoking state's first transition calls a rule and
returns to the follow state. -/
inductive Calls (atn : ATN) : List Int → List Int → Prop
  | root (i : Int) : Calls atn [i] []
  | nobody (rest : List Int) : Calls atn (-1 :: rest) []
  | call {rest stack : List Int} (n : Nat) (st : ATNState) (target follow rule : Nat) (prec : Int)
      (ts : List Trans) :
      rest ≠ [] → atn.states[n]? = some st → st.transitions = .rule target follow rule prec :: ts →
      Calls atn rest stack → Calls atn ((n : Int) :: rest) ((follow : Int) :: stack)

/-- The context made from a rule invocation chain stands for exactly one stack: the follow states
of the invoking transitions, innermost first. -/
theorem C32_from_rule_context (atn : ATN) (chain stack : List Int) (h : Calls atn chain stack) :
    ∃ c, fromRuleContext atn chain = some c ∧ ∀ s, HasStack c s ↔ s = stack := by
  induction h with
  | root i =>
    refine ⟨EMPTY, rfl, fun s => ⟨fun h => by cases h; rfl, fun h => by subst h; exact .bottomS⟩⟩
  | nobody rest =>
    refine ⟨EMPTY, ?_, fun s => ⟨fun h => by cases h; rfl, fun h => by subst h; exact .bottomS⟩⟩
    cases rest <;> simp [fromRuleContext]
  | @call rest stack n st target follow rule prec ts hne hst htr _ ih =>
    obtain ⟨c, hc, hs⟩ := ih
    refine ⟨.single (some c) follow, ?_, fun s => ⟨fun h => ?_, fun h => ?_⟩⟩
    · match rest, hne with
      | j :: rest, _ =>
        rw [fromRuleContext.eq_def]
        simp only [show ¬ ((n : Int) = -1) by omega, if_false, hc]
        simp [ATN.stateAt, hst, htr]
    · cases h with
      | pushS h => rw [(hs _).mp h]
    · subst h; exact .pushS ((hs _).mpr rfl)

/-- It is well-formed when the follow states are real state numbers. -/
theorem C32_well_formed (atn : ATN) (chain stack : List Int) (h : Calls atn chain stack)
    (hlt : ∀ f ∈ stack, f < EMPTY_RS) :
    ∃ c, fromRuleContext atn chain = some c ∧ WF c := by
  induction h with
  | root i => exact ⟨EMPTY, rfl, .empty⟩
  | nobody rest => exact ⟨EMPTY, by cases rest <;> simp [fromRuleContext], .empty⟩
  | @call rest stack n st target follow rule prec ts hne hst htr _ ih =>
    obtain ⟨c, hc, hw⟩ := ih (fun f hf => hlt f (by simp [hf]))
    refine ⟨.single (some c) follow, ?_, .single (hlt _ (by simp)) hw⟩
    match rest, hne with
    | j :: rest, _ =>
      rw [fromRuleContext.eq_def]
      simp only [show ¬ ((n : Int) = -1) by omega, if_false, hc]
      simp [ATN.stateAt, hst, htr]

/-- An ATN with a rule calling itself: state 0 calls rule 0 and returns to state 1. -/
def exampleATN : ATN :=
  { grammarType := .parser, maxTokenType := 1,
    states := [{ transitions := [.rule 0 1 0 0] }, {}] }

example : Calls exampleATN [0, 0, -1] [1, 1] :=
  .call 0 _ 0 1 0 0 [] (by simp) rfl rfl (.call 0 _ 0 1 0 0 [] (by simp) rfl rfl (.root _))

/-! ## C64: sharing contexts -/

/-- Caches reachable from an empty one by sharing contexts. -/
inductive SharedCache : List (PC × PC) → Prop
  | new : SharedCache []
  | share {cache} (c : PC) : SharedCache cache → SharedCache (getSharedContext cache c).2

/-- Replacing a context by a shared one never changes what it is, whatever was shared before. -/
theorem C64_shared_context (cache : List (PC × PC)) (h : SharedCache cache) (c : PC) :
    (getSharedContext cache c).1 = c := by
  have inv : ∀ x ∈ cache, x.1 = x.2 := by
    induction h with
    | new => simp
    | @share cache d _ ih =>
      intro x hx
      simp only [getSharedContext] at hx
      split at hx
      · exact ih x hx
      · split at hx
        · exact ih x hx
        · rcases List.mem_cons.mp hx with rfl | hx
          · rfl
          · exact ih x hx
  simp only [getSharedContext]
  split
  · rfl
  · split
    · rename_i old ho
      have : (c, old) ∈ cache := by
        clear inv h
        induction cache with
        | nil => simp at ho
        | cons x l ih =>
          obtain ⟨k, v⟩ := x
          rw [List.lookup_cons] at ho
          by_cases hk : c = k
          · subst hk; simp at ho; subst ho; simp
          · have : (c == k) = false := by simp [hk]
            rw [this] at ho
            exact List.mem_cons_of_mem _ (ih ho)
      exact (inv _ this).symm
    · rfl

example : SharedCache (getSharedContext [] ctx1).2 ∧
    getSharedContext (getSharedContext [] ctx1).2 ctx1 = (ctx1, [(ctx1, ctx1)]) :=
  ⟨.share ctx1 .new, by decide +kernel⟩

end Antlr.StackProps
