import Verif.Prediction.Pure
import Verif.PredictionContext.Props

/-!
# The merge cache without full context (C31)
-/

namespace Antlr.StackProps
open Antlr StackSpec PC Prediction

/-- Contexts as they arise without full context: from the empty one by calls and merges. -/
inductive Local : PC → Prop
  | empty : Local EMPTY
  | call {p r} : Local p → r < EMPTY_RS → Local (.single (some p) r)
  | merge {a b r} : Local a → Local b → PC.merge a b true none = some (r, none) → Local r

/-- Caches filled by merges of such contexts. -/
inductive LocalCache : Cache → Prop
  | new : LocalCache []
  | merge {c a b r c'} : LocalCache c → Local a → Local b → PC.merge a b true (some c) = some (r, some c') → LocalCache c'

theorem Local.fit {a : PC} (h : Local a) : Fit false a := by
  induction h with
  | empty => exact .empty _
  | call _ hr ih =>
    refine ⟨.single hr ih.wf, fun _ => .push (by simp [entries]) fun p r h => ?_⟩
    simp only [entries, List.mem_singleton, Prod.mk.injEq, Option.some.injEq] at h
    exact h.1 ▸ ih.loc rfl
  | merge _ _ h ih1 ih2 => exact (merge_fit ih1 ih2 .none h).1

theorem LocalCache.fit {c : Cache} (h : LocalCache c) : LFit (some c) := by
  induction h with
  | new => exact .nil
  | merge _ ha hb h ih => exact (merge_fit ha.fit hb.fit ih h).2.1

/-- **C31** Without full context, too, merging with a cache filled by earlier merges gives the very context that merging without a cache
gives, for all contexts that arise. -/
theorem C31_cache_same_local {c : Cache} (hc : LocalCache c) {a b : PC} (ha : Local a) (hb : Local b) :
    ∃ r c', merge a b true (some c) = some (r, c') ∧ merge a b true none = some (r, none) := by
  obtain ⟨r, c', h, -, -⟩ := merge_ok true true id a b ha.fit.wf hb.fit.wf (some c) hc.fit.1
  obtain ⟨r', c'', h', -, -⟩ := merge_ok true true id a b ha.fit.wf hb.fit.wf none LFit.none.1
  have : c'' = none := by
    cases c'' with
    | none => rfl
    | some c => exact absurd h' (merge_none_cache _ _ _ _ _)
  subst this
  obtain rfl := merge_pure ha.fit hb.fit hc.fit .none h h'
  exact ⟨r, c', h, h'⟩

/-- Merging `[1 $]` and `[2 1 $]` with a cache that knows the merge in the other order. -/
example : ∃ c r c', LocalCache c ∧ c ≠ [] ∧ Local ctx1 ∧ Local ctx21 ∧ r = PC.array [(some EMPTY, 1), (some ctx1, 2)] ∧
    merge ctx1 ctx21 true (some c) = some (r, c') ∧ merge ctx1 ctx21 true none = some (r, none) := by
  have l1 : Local ctx1 := .call .empty (by decide)
  have l2 : Local ctx21 := .call l1 (by decide)
  have e : merge ctx21 ctx1 true (some []) = some (PC.array [(some EMPTY, 1), (some ctx1, 2)],
      some [((ctx21, ctx1), PC.array [(some EMPTY, 1), (some ctx1, 2)])]) := by decide +kernel
  have hc := LocalCache.merge .new l2 l1 e
  obtain ⟨r, c', h1, h2⟩ := C31_cache_same_local hc l1 l2
  refine ⟨_, r, c', hc, by simp, l1, l2, ?_, h1, h2⟩
  have : merge ctx1 ctx21 true none = some (PC.array [(some EMPTY, 1), (some ctx1, 2)], none) := by decide +kernel
  rw [this] at h2
  simpa using h2.symm

end Antlr.StackProps
