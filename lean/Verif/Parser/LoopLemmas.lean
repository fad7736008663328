import Verif.Parser.RuleLemmas

/-! # Left-recursive rule calls -/

namespace Antlr.ParserLemmas
open Antlr ParserSpec

set_option linter.unusedSectionVars false
variable {I : Type} [TokStream I] {T : Nat → Tok} {V : I → Nat → Prop}

/-- The parser is inside a left-recursive rule, `r` being the operand built so far. -/
structure LoopAt (V : I → Nat → Prop) (h0 : List Ctx) (o : Option Nat) (idx : Nat) (inv : Int)
    (start : Tok) (p : P I) (s : St) (r : Nat) (label : Option Nat) (kids : List Node) : Prop where
  here : At V p s r
  base : h0.length ≤ r
  mem : ∀ c, o = some c → c < h0.length
  grown : Grown h0 p.heap o []
  cur : ∃ stop ch, p.heap[r]? = some ⟨idx, label, o, inv, start, stop, ch⟩ ∧
    (p.buildTrees = true →
      ReadsKids p.heap (fun i => h0.length ≤ i ∧ i < p.heap.length ∧ i ≠ r) r ch kids)

variable {h0 : List Ctx} {o : Option Nat} {idx : Nat} {inv : Int} {start : Tok}

theorem LoopAt.step {p : P I} {s s' : St} {r : Nat} {label : Option Nat} {kids nodes : List Node}
    {run : Option (P I)} {evs : List PEvent} (hl : LoopAt V h0 o idx inv start p s r label kids)
    (hs : Step V p r run nodes s' evs) :
    ∃ i' h', run = some (res p i' h' s' evs) ∧
      LoopAt V h0 o idx inv start (res p i' h' s' evs) s' r label (kids ++ nodes) := by
  obtain ⟨i', h', new, stop', c0, e, hv, hle, hf, hc0, hc, hk⟩ := hs
  obtain ⟨stop, ch, hcur, hkids⟩ := hl.cur
  have hb := hl.base
  refine ⟨i', h', e, at_res hl.here hv hle, hl.base, hl.mem, ?_, ?_⟩
  · exact hl.grown.frame hl.base hl.mem hle hf
  · rw [hcur, Option.some.injEq] at hc0
    subst hc0
    refine ⟨stop', ch ++ new, hc, ?_⟩
    intro hb
    simp only [res] at hb ⊢
    refine readsKids_append (readsKids_frame ?_ ?_ _ _ _ (hkids hb))
      (readsKids_frame ?_ ?_ _ _ _ (hk hb))
    · rintro i ⟨x, y, z⟩; exact ⟨x, by omega, z⟩
    · rintro i ⟨x, y, z⟩; exact hf i z y
    · rintro i ⟨x, y⟩
      have := hl.here.mem
      exact ⟨by omega, y, by omega⟩
    · intros; rfl

/-- Only the log differs. -/
theorem LoopAt.log {p : P I} {s : St} {r : Nat} {label : Option Nat} {kids : List Node}
    (hl : LoopAt V h0 o idx inv start p s r label kids) (lg : List (Nat × PEvent)) :
    LoopAt V h0 o idx inv start { p with log := lg } s r label kids :=
  ⟨⟨hl.here.view, hl.here.meof, hl.here.state, hl.here.ctx, hl.here.mem⟩, hl.base, hl.mem, hl.grown,
    hl.cur⟩

theorem LoopAt.triggerExit {p : P I} {s : St} {r : Nat} {label : Option Nat} {kids : List Node}
    (hl : LoopAt V h0 o idx inv start p s r label kids) :
    p.triggerExit = some { p with log := p.log ++ dispatch p.listeners (.exit idx label) } := by
  obtain ⟨stop, ch, hcur, -⟩ := hl.cur
  simp [P.triggerExit, hl.here.ctx, hcur, dispatch]

theorem LoopAt.push (hv : IsView T V) {p : P I} {s : St} {r : Nat} {label : Option Nat}
    {kids : List Node} (hl : LoopAt V h0 o idx inv start p s r label kids) (label' : Option Nat)
    (st : Int) :
    ∃ i' h', P.pushNewRecursionContext (p.alloc idx label' o inv).2 p.heap.length st =
        some { p with
          input := i', heap := h', ctx := some p.heap.length,
          log := p.log ++ dispatch p.listeners (.enter idx label') } ∧
      LoopAt V h0 o idx inv start { p with
          input := i', heap := h', ctx := some p.heap.length,
          log := p.log ++ dispatch p.listeners (.enter idx label') } s p.heap.length label'
        [.rule idx label st start (prevTok T s.pos) kids] := by
  obtain ⟨stop, ch, hcur, hkids⟩ := hl.cur
  obtain ⟨i', hlt, hv'⟩ := hv.lt_prev _ _ hl.here.view
  have hm := hl.here.mem
  have hb := hl.base
  have hctx := hl.here.ctx
  let prev : Ctx := ⟨idx, label, some p.heap.length, st, start, prevTok T s.pos, ch⟩
  let new0 : Ctx := ⟨idx, label', o, inv, createInvalid, createInvalid, []⟩
  let new1 : Ctx := ⟨idx, label', o, inv, start, createInvalid,
    if p.buildTrees then [.ctx r] else []⟩
  let hA := p.heap ++ [new0]
  have hAr : hA[r]? = some ⟨idx, label, o, inv, start, stop, ch⟩ := by
    simp only [hA]; rw [List.getElem?_append_left hm, hcur]
  have hlenA : hA.length = p.heap.length + 1 := by simp [hA]
  have hAn : hA[p.heap.length]? = some new0 := by simp [hA]
  refine ⟨i', (hA.set r prev).set p.heap.length new1, ?_, ?_⟩
  · have key : ∀ x, P.setStart { p with input := i', ctx := x, heap := (hA.set r prev) }
        p.heap.length (some start) = some { p with
          input := i', ctx := x,
          heap := (hA.set r prev).set p.heap.length { new0 with start := start } } := by
      intro x
      simp only [P.setStart, P.modify]
      rw [List.getElem?_set_ne (by omega), hAn]
      simp
    have key2 : ∀ x, (if p.buildTrees = true then
          P.addChild { p with
            input := i', ctx := x,
            heap := (hA.set r prev).set p.heap.length { new0 with start := start } }
            p.heap.length (.ctx r)
        else some { p with
            input := i', ctx := x,
            heap := (hA.set r prev).set p.heap.length { new0 with start := start } }) =
        some { p with
          input := i', ctx := x, heap := (hA.set r prev).set p.heap.length new1 } := by
      intro x
      by_cases hbt : p.buildTrees
      · rw [if_pos hbt]
        simp only [P.addChild, P.modify]
        rw [List.getElem?_set_self (by simp [hlenA])]
        simp [new1, new0, hbt]
      · rw [if_neg hbt]
        simp [new1, new0, hbt]
    simp only [P.pushNewRecursionContext, P.alloc, hctx, Option.bind_some, P.modify]
    have e0 : (p.heap ++ [(⟨idx, label', o, inv, createInvalid, createInvalid, []⟩ : Ctx)]) = hA := rfl
    simp only [e0, hAr, Option.map_some, Option.bind_some, P.lt, hlt, P.setStop, P.modify]
    rw [List.getElem?_set_self (by omega)]
    simp only [Option.map_some, Option.bind_some, List.set_set, prevTok_getD]
    rw [List.getElem?_set_self (by omega)]
    simp only [Option.bind_some]
    have := key (some r)
    simp only [prev] at this
    rw [this, Option.bind_some]
    have := key2 (some p.heap.length)
    simp only [prev] at this
    simp only
    rw [this, Option.bind_some]
    simp only [P.triggerEnter, Option.bind_some]
    rw [List.getElem?_set_self (by simp [hlenA])]
    simp [dispatch, new1, prev]
  · have g := hl.grown
    refine ⟨⟨hv', hl.here.meof, hl.here.state, rfl, by simp [hlenA]⟩, Nat.le_trans hb (Nat.le_of_lt hm), hl.mem, ?_, ?_⟩
    · obtain ⟨g1, g2, g3⟩ := g
      refine ⟨by simp [hlenA]; omega, ?_, ?_⟩
      · intro i h1 h2
        simp only
        rw [List.getElem?_set_ne (by omega), List.getElem?_set_ne (by omega)]
        simp only [hA]
        rw [List.getElem?_append_left (by omega), g2 i h1 h2]
      · intro c c0 h1 h2
        have := hl.mem c h1
        simp only
        rw [List.getElem?_set_ne (by omega), List.getElem?_set_ne (by omega)]
        simp only [hA]
        rw [List.getElem?_append_left (by omega), g3 c c0 h1 h2]
    · refine ⟨createInvalid, if p.buildTrees then [.ctx r] else [], ?_, ?_⟩
      · simp only
        rw [List.getElem?_set_self (by simp [hlenA])]
      · intro hbt
        simp only at hbt ⊢
        rw [if_pos hbt]
        simp only [ReadsKids, ReadsKid, and_true]
        rw [Reads]
        refine ⟨⟨hb, by simp [hlenA]; omega, by omega⟩, prev, ?_, rfl, rfl, rfl, rfl, rfl, rfl, ?_⟩
        · rw [List.getElem?_set_ne (by omega), List.getElem?_set_self (by omega)]
        · refine readsKids_frame ?_ ?_ _ _ _ (hkids hbt)
          · rintro i ⟨x, y, z⟩; exact ⟨x, by simp [hlenA]; omega, by omega⟩
          · rintro i ⟨x, y, z⟩
            rw [List.getElem?_set_ne (by omega), List.getElem?_set_ne (Ne.symm z)]
            simp only [hA]
            rw [List.getElem?_append_left y]

theorem LoopAt.unroll (hv : IsView T V) {p : P I} {s : St} {r : Nat} {label : Option Nat}
    {kids : List Node} (hl : LoopAt V h0 o idx inv start p s r label kids) :
    ∃ i' h', p.unrollRecursionContext o =
        some { p with
          input := i', heap := h', ctx := o, precStack := p.precStack.dropLast,
          log := p.log ++ dispatch p.listeners (.exit idx label) } ∧
      V i' s.pos ∧ Grown h0 h' o (if p.buildTrees then [.ctx r] else []) ∧
      (p.buildTrees = true → Reads h' (fun i => h0.length ≤ i ∧ i < h'.length) o r
        (.rule idx label inv start (prevTok T s.pos) kids)) := by
  obtain ⟨stop, ch, hcur, hkids⟩ := hl.cur
  obtain ⟨i', hlt, hv'⟩ := hv.lt_prev _ _ hl.here.view
  have hm := hl.here.mem
  have hb := hl.base
  have hctx := hl.here.ctx
  have hne : some r ≠ o := by
    intro h
    have := hl.mem r h.symm
    omega
  let fin : Ctx := ⟨idx, label, o, inv, start, prevTok T s.pos, ch⟩
  let hA := p.heap.set r fin
  have hAr : hA[r]? = some fin := List.getElem?_set_self hm
  have hset : hA.set r fin = hA := by simp [hA]
  have main : p.unrollRecursionContext o =
      (if p.buildTrees then
        match o with
        | some q => P.addChild { p with
            input := i', heap := hA, ctx := o, precStack := p.precStack.dropLast,
            log := p.log ++ dispatch p.listeners (.exit idx label) } q (.ctx r)
        | none => some { p with
            input := i', heap := hA, ctx := o, precStack := p.precStack.dropLast,
            log := p.log ++ dispatch p.listeners (.exit idx label) }
      else some { p with
            input := i', heap := hA, ctx := o, precStack := p.precStack.dropLast,
            log := p.log ++ dispatch p.listeners (.exit idx label) }) := by
    unfold P.unrollRecursionContext
    simp only [hctx, Option.bind_some, P.lt, hlt, Option.map_some, P.setStop, P.modify, hcur,
      prevTok_getD]
    have e0 : (p.heap.set r ⟨idx, label, o, inv, start, prevTok T s.pos, ch⟩) = hA := rfl
    simp only [e0]
    have e1 : (if p.listeners ≠ [] then
        P.unrollLoop o (hA.length + 1) { p with
          input := i', heap := hA, ctx := some r, precStack := p.precStack.dropLast }
        else some { p with
          input := i', heap := hA, ctx := o, precStack := p.precStack.dropLast }) =
        some { p with
          input := i', heap := hA, ctx := o, precStack := p.precStack.dropLast,
          log := p.log ++ dispatch p.listeners (.exit idx label) } := by
      by_cases hls : p.listeners = []
      · simp [hls, dispatch]
      · rw [if_pos hls]
        have hlen : hA.length = p.heap.length := by simp [hA]
        obtain ⟨n, hn⟩ : ∃ n, hA.length = n + 1 := ⟨hA.length - 1, by omega⟩
        rw [hn, P.unrollLoop, if_pos hne]
        simp only [P.triggerExit, Option.bind_some, hAr, Option.map_some, fin]
        rw [P.unrollLoop, if_neg (by simp)]
        simp [dispatch]
    rw [e1, Option.bind_some]
    simp only [hAr, Option.map_some, Option.bind_some]
    have e2 : ({ fin with parent := o } : Ctx) = fin := rfl
    rw [e2, hset]
    cases o <;> rfl
  have hlenA : hA.length = p.heap.length := by simp [hA]
  obtain ⟨g1, g2, g3⟩ := hl.grown
  have hAf : ∀ i, i ≠ r → hA[i]? = p.heap[i]? := fun i hi => get_set _ i hi
  by_cases hbt : p.buildTrees
  · rw [main, if_pos hbt]
    cases o with
    | none =>
      refine ⟨i', hA, rfl, hv', ⟨by omega, ?_, by simp⟩, ?_⟩
      · intro i h1 h2; rw [hAf i (by omega), g2 i h1 h2]
      · intro _
        rw [Reads]
        refine ⟨⟨hb, by omega⟩, fin, hAr, rfl, rfl, rfl, rfl, rfl, rfl, ?_⟩
        refine readsKids_frame ?_ ?_ _ _ _ (hkids hbt)
        · rintro i ⟨x, y, z⟩; exact ⟨x, by omega⟩
        · rintro i ⟨x, y, z⟩; exact hAf i z
    | some q =>
      have hq := hl.mem q rfl
      have hq0 : h0[q]? = some h0[q] := List.getElem?_eq_getElem hq
      have hq1 := g3 q _ rfl hq0
      have hAq : hA[q]? = some h0[q] := by rw [hAf q (by omega), hq1]; simp
      refine ⟨i', hA.set q (withKid h0[q] r), ?_, hv', ⟨by simp; omega, ?_, ?_⟩, ?_⟩
      · simp [P.addChild, P.modify, hAq, withKid]
      · intro i h1 h2
        rw [get_set _ i (fun h => h1 (by rw [h])), hAf i (by omega), g2 i h1 h2]
      · intro c c0 h1 h2
        simp only [Option.some.injEq] at h1
        subst h1
        rw [hq0, Option.some.injEq] at h2
        subst h2
        rw [List.getElem?_set_self (by omega)]
        simp [hbt, withKid]
      · intro _
        rw [Reads]
        refine ⟨⟨hb, by simp; omega⟩, fin, ?_, rfl, rfl, rfl, rfl, rfl, rfl, ?_⟩
        · rw [get_set _ r (by omega), hAr]
        refine readsKids_frame ?_ ?_ _ _ _ (hkids hbt)
        · rintro i ⟨x, y, z⟩; exact ⟨x, by simp; omega⟩
        · rintro i ⟨x, y, z⟩; rw [get_set _ i (by omega), hAf i z]
  · rw [main, if_neg hbt]
    refine ⟨i', hA, rfl, hv', ?_, fun h => absurd h hbt⟩
    rw [if_neg hbt]
    refine ⟨by omega, ?_, ?_⟩
    · intro i h1 h2; rw [hAf i (by omega), g2 i h1 h2]
    · intro c c0 h1 h2
      have := hl.mem c h1
      rw [hAf c (by omega), g3 c c0 h1 h2]

end Antlr.ParserLemmas
