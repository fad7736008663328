import Verif.Gen.Model
import Verif.Parser.MainLemma

/-! # The frame of a rule function around arbitrary code -/

namespace Antlr.ParserLemmas
open Antlr ParserSpec Gen

set_option linter.unusedSectionVars false
variable {I : Type} [TokStream I] {T : Nat → Tok} {V : I → Nat → Prop}

theorem Step.at {p p' : P I} {s s' : St} {c : Nat} {n : List Node} {e : List PEvent}
    (ha : At V p s c) (h : Step V p c (some p') n s' e) : At V p' s' c := by
  obtain ⟨i', h', new, stop', c0, h1, h2, h3, -⟩ := h
  cases h1
  exact at_res ha h2 h3

theorem Step.trans {p p1 p2 : P I} {s s1 s2 : St} {c : Nat}
    {n1 n2 : List Node} {e1 e2 : List PEvent} (ha : At V p s c) (h1 : Step V p c (some p1) n1 s1 e1)
    (h2 : Step V p1 c (some p2) n2 s2 e2) :
    Step V p c (some p2) (n1 ++ n2) s2 (e1 ++ e2) := by
  have hm := ha.mem
  obtain ⟨i', h', new, stop', c0, a1, a2, a3, a4, a5, a6, a7⟩ := h1
  cases a1
  obtain ⟨i2, h2', new2, stop2, c1, b1, b2, b3, b4, b5, b6, b7⟩ := h2
  rw [b1, res_res]
  simp only [res] at b3 b4 b5 b7
  rw [a6] at b5
  simp only [Option.some.injEq] at b5
  subst b5
  refine ⟨i2, h2', new ++ new2, stop2, c0, rfl, b2, by omega, ?_, a5, by simpa using b6, ?_⟩
  · intro i hi hi2
    rw [b4 i hi (by omega), a4 i hi hi2]
  · intro hb
    refine readsKids_append (readsKids_frame ?_ ?_ _ _ _ (a7 hb))
      (readsKids_frame ?_ ?_ _ _ _ (b7 hb))
    · rintro i ⟨x, y⟩; exact ⟨x, by omega⟩
    · rintro i ⟨x, y⟩; exact b4 i (by omega) y
    · rintro i ⟨x, y⟩; exact ⟨by omega, y⟩
    · intros; rfl

/-- Only the input, within the same view, and the state number change. -/
theorem Step.look {p : P I} {s : St} {c : Nat} (ha : At V p s c) {i : I} (hv : V i s.pos)
    (st : Int) : Step V p c (some { p with input := i, state := st }) [] { s with state := st } [] := by
  have hm := ha.mem
  refine ⟨i, p.heap, [], (p.heap[c]).stop, p.heap[c], ?_, hv, Nat.le_refl _, fun _ _ _ => rfl,
    by simp [hm], by simp [hm], fun _ => by simp [ReadsKids]⟩
  simp [res, ← ha.meof]

/-- What a rule call that returned `root` did. -/
def CallAt (V : I → Nat → Prop) (p : P I) (o : Option Nat) (p' : P I) (root : Nat) (node : Node)
    (s' : St) : Prop :=
  ∃ i' h' evs, p' = res p i' h' s' evs ∧ V i' s'.pos ∧
    Grown p.heap h' o (if p.buildTrees then [.ctx root] else []) ∧
    (p.buildTrees = true →
      Reads h' (fun i => p.heap.length ≤ i ∧ i < h'.length) o root node)

theorem CallAt.step {p p' : P I} {s s' : St} {c root : Nat} {node : Node} (ha : At V p s c)
    (h : CallAt V p (some c) p' root node s') : ∃ evs, Step V p c (some p') [node] s' evs := by
  obtain ⟨i', h', evs, rfl, h2, h3, h4⟩ := h
  exact ⟨evs, CallStep.step ha ⟨i', h', root, rfl, h2, h3, h4⟩⟩

/-- The frame of `RuleFunction`. -/
theorem plainFrame (hv : IsView T V) {p : P I} {s : St} {o : Option Nat} (ha : Ready V p s o)
    (idx : Nat) (st : Int) :
    ∃ p1, P.enterRule (p.alloc idx none p.ctx p.state).2 p.heap.length st = some p1 ∧
      At V p1 { s with state := st } p.heap.length ∧ p1.syntaxErrors = p.syntaxErrors ∧
    ∀ (i2 : I) (st2 : Int), V i2 s.pos → ∀ label, ∃ p3 r,
      enterAlt label p.heap.length { p1 with input := i2, state := st2 } = some p3 ∧
      At V p3 { s with state := st2 } r ∧
    ∀ p4 nodes s4 evs, Step V p3 r (some p4) nodes s4 evs → ∃ p5, p4.ctx = some r ∧
      p4.exitRule = some p5 ∧
      CallAt V p o p5 r (.rule idx label s.state (T s.pos) (stopTok T s4) nodes)
        { s4 with state := s.state } := by
  obtain ⟨i1, h1, e1, hv1, hl1, hr1, hg1⟩ := enterRule_ok hv ha idx st
  have ha1 := at_enter (st := st) ha hv1 hl1
  refine ⟨_, e1, ha1, rfl, ?_⟩
  intro i2 st2 hv2 label
  obtain ⟨r, h3, e3, h3r, hrl, hl3, hr3, hf3, hg3⟩ :=
    enterAlt_ok (p := { p with input := i2, heap := h1, ctx := some p.heap.length, state := st2 })
      label rfl hr1 (o := o) rfl rfl p.heap rfl ha.mem hg1
  simp only [freshCtx] at e3 hl3 hr3 hf3 hg3
  have ha3 : At V { p with
      input := i2, heap := h3, ctx := some r, state := st2,
      log := p.log ++ dispatch p.listeners (.enter idx label) } { s with state := st2 } r :=
    ⟨hv2, ha.meof, rfl, rfl, hrl⟩
  refine ⟨_, r, e3, ha3, ?_⟩
  intro p4 nodes s4 ev4 hstep
  obtain ⟨i4, h4, new4, stop4, c4, e4, hv4, hl4, hf4, hc4, hr4, hk4⟩ := hstep
  simp only at hl4 hf4 hc4 hr4 hk4
  rw [hr3, Option.some.injEq] at hc4
  subst hc4
  cases e4
  have ha4 := at_res (evs := ev4) ha3 hv4 hl4
  obtain ⟨i5, h5, e5, hv5, hh5⟩ := exitRule_ok hv ha4 (c := _) hr4
  simp only [res] at hh5
  have hm4 : r < h4.length := by omega
  refine ⟨_, rfl, e5, i5, h5, (.enter idx label :: ev4) ++ [.exit idx label], ?_, hv5, ?_, ?_⟩
  · simp [res, ha.ctx, ha.state, List.flatMap_append]
  · refine hg3.frame (r := r) h3r ha.mem ?_ ?_
    · simp [hh5]; omega
    · intro i hi hi2
      rw [hh5, get_set _ i hi, hf4 i hi hi2]
  · intro hb
    subst hh5
    rw [Reads]
    refine ⟨⟨h3r, by simp; omega⟩, _, List.getElem?_set_self hm4, ?_⟩
    refine ⟨rfl, rfl, rfl, ha.state, rfl, rfl, ?_⟩
    simp only [List.nil_append]
    refine readsKids_frame ?_ ?_ _ _ _ (hk4 hb)
    · rintro i ⟨x, y⟩; exact ⟨by omega, by simp; omega⟩
    · rintro i ⟨x, y⟩; exact get_set _ i (by omega)

/-! ## Left-recursive rules -/

/-- `p'` differs from `p` only in what a parse changes; `evs` is what listeners heard. -/
def Sib (p p' : P I) : Prop :=
  ∃ i h b st c, ∃ evs : List PEvent, p' = { p with
    input := i, heap := h, matchedEof := b, state := st, ctx := c,
    log := p.log ++ evs.flatMap (dispatch p.listeners) }

theorem Sib.refl (p : P I) : Sib p p := ⟨p.input, p.heap, p.matchedEof, p.state, p.ctx, [], by simp⟩

theorem Sib.trans {a b c : P I} (h1 : Sib a b) (h2 : Sib b c) : Sib a c := by
  obtain ⟨i, h, f, st, x, e, rfl⟩ := h1
  obtain ⟨i', h', f', st', x', e', rfl⟩ := h2
  exact ⟨i', h', f', st', x', e ++ e', by simp [List.flatMap_append]⟩

theorem Sib.ofStep {p p' : P I} {c : Nat} {n : List Node} {s' : St} {e : List PEvent}
    (h : Step V p c (some p') n s' e) : Sib p p' := by
  obtain ⟨i', h', new, stop', c0, h1, -⟩ := h
  cases h1
  exact ⟨i', h', s'.eof, s'.state, p.ctx, e, rfl⟩

section
variable {h0 : List Ctx} {o : Option Nat} {idx : Nat} {inv : Int} {start : Tok}

theorem LoopAt.stepTo {p p' : P I} {s s' : St} {r : Nat} {label : Option Nat}
    {kids nodes : List Node} {evs : List PEvent} (hl : LoopAt V h0 o idx inv start p s r label kids)
    (hs : Step V p r (some p') nodes s' evs) :
    LoopAt V h0 o idx inv start p' s' r label (kids ++ nodes) := by
  obtain ⟨i', h', e, hl'⟩ := hl.step hs
  cases e
  exact hl'

/-- `recRuleSetStopToken` -/
theorem LoopAt.setStop (hv : IsView T V) {p : P I} {s : St} {r : Nat} {label : Option Nat}
    {kids : List Node} (hl : LoopAt V h0 o idx inv start p s r label kids) :
    ∃ p', setStopTok p = some p' ∧ Sib p p' ∧ LoopAt V h0 o idx inv start p' s r label kids := by
  have h := (prim_ok hv hl.here .markStop).step
  have e : Prim.run p .markStop = setStopTok p := rfl
  rw [e] at h
  obtain ⟨i', h', new, stop', c0, h1, -⟩ := id h
  rw [h1] at h
  refine ⟨_, h1, Sib.ofStep h, ?_⟩
  have := hl.stepTo h
  simpa [primDen] using this

/-- Taking the context of a labelled primary alternative. -/
theorem LoopAt.replace {p : P I} {s : St} {c : Nat} (label : Option Nat)
    (hl : LoopAt V h0 o idx inv start p s c none []) :
    ∃ p' r, replaceCtx label c p = some p' ∧ Sib p p' ∧
      LoopAt V h0 o idx inv start p' s r label [] := by
  obtain ⟨stop, ch, hcur, hkids⟩ := hl.cur
  have hm := hl.here.mem
  have hb := hl.base
  cases label with
  | none =>
    exact ⟨p, c, by simp [replaceCtx, P.labelled, P.useLabel], .refl _, hl⟩
  | some l =>
    refine ⟨{ p with
        heap := p.heap ++ [⟨idx, some l, o, inv, start, stop, ch⟩]
        ctx := some p.heap.length }, p.heap.length, ?_, ?_, ?_⟩
    · simp [replaceCtx, P.labelled, P.copyFrom, hcur, P.useLabel]
    · exact ⟨p.input, p.heap ++ [⟨idx, some l, o, inv, start, stop, ch⟩], p.matchedEof, p.state,
        some p.heap.length, [], by simp⟩
    · refine ⟨⟨hl.here.view, hl.here.meof, hl.here.state, rfl, by simp⟩, Nat.le_trans hb (Nat.le_of_lt hm), hl.mem, ?_, ?_⟩
      · refine hl.grown.frame (r := p.heap.length) (Nat.le_trans hb (Nat.le_of_lt hm)) hl.mem
          (by simp) ?_
        intro i _ hi
        simp only
        rw [List.getElem?_append_left hi]
      · refine ⟨stop, ch, by simp, ?_⟩
        intro hbt
        have := hkids hbt
        cases ch with
        | nil => simp [ReadsKids]
        | cons a l => simp [ReadsKids] at this

/-- Start of `LeftRecursiveRuleFunction`. -/
theorem recEnter (hv : IsView T V) {p : P I} {s : St} {o : Option Nat} (ha : Ready V p s o)
    (idx : Nat) (st prec : Int) :
    ∃ p1 p2, P.enterRecursionRule (p.alloc idx none p.ctx p.state).2 p.heap.length st prec = some p1 ∧
      p1.enterOuterAlt none = some p2 ∧ p1.syntaxErrors = p.syntaxErrors ∧
      Sib { p with precStack := p.precStack ++ [prec] } p2 ∧
      LoopAt V p.heap o idx s.state (T s.pos) p2 { s with state := st } p.heap.length none [] := by
  obtain ⟨i1, hl, hv1⟩ := hv.lt_one _ _ ha.view
  let p1 : P I := { p with
    input := i1, heap := p.heap ++ [freshCtx T p idx o s], ctx := some p.heap.length, state := st,
    precStack := p.precStack ++ [prec] }
  have e1 : P.enterRecursionRule (p.alloc idx none p.ctx p.state).2 p.heap.length st prec =
      some p1 := by
    simp [P.enterRecursionRule, P.alloc, P.lt, hl, P.setStart, P.modify, freshCtx, p1, ha.ctx]
  let p2 : P I := { p1 with log := p.log ++ dispatch p.listeners (.enter idx none) }
  have e2 : p1.enterOuterAlt none = some p2 := by
    simp [P.enterOuterAlt, P.triggerEnter, p1, p2, freshCtx, dispatch]
  refine ⟨p1, p2, e1, e2, rfl, ⟨i1, p.heap ++ [freshCtx T p idx o s], p.matchedEof, st, some p.heap.length, [.enter idx none], ?_⟩, ?_⟩
  · simp only [p2, p1, List.flatMap_cons, List.flatMap_nil, List.append_nil]
  refine ⟨⟨hv1, ha.meof, rfl, rfl, by simp [p2, p1]⟩, Nat.le_refl _, ha.mem, ?_, ?_⟩
  · refine ⟨by simp [p2, p1], ?_, ?_⟩
    · intro i _ h2
      simp only [p2, p1]
      rw [List.getElem?_append_left h2]
    · intro c c0 h1 h2
      have := ha.mem c h1
      simp only [p2, p1]
      rw [List.getElem?_append_left this, h2]
      simp
  · refine ⟨createInvalid, [], ?_, fun _ => by simp [ReadsKids]⟩
    simp [p2, p1, freshCtx, ha.state]

/-- `trigger_exit_rule_event` before an operator. -/
theorem LoopAt.exitEvent {p : P I} {s : St} {r : Nat} {label : Option Nat} {kids : List Node}
    (hl : LoopAt V h0 o idx inv start p s r label kids) :
    ∃ p', p.triggerExit = some p' ∧ Sib p p' ∧ LoopAt V h0 o idx inv start p' s r label kids := by
  refine ⟨_, hl.triggerExit, ⟨p.input, p.heap, p.matchedEof, p.state, p.ctx, [.exit idx label], ?_⟩,
    hl.log _⟩
  simp

theorem LoopAt.pushOp (hv : IsView T V) {p : P I} {s : St} {r : Nat} {label : Option Nat}
    {kids : List Node} (hl : LoopAt V h0 o idx inv start p s r label kids) (label' : Option Nat)
    (st : Int) :
    ∃ p' r', pushCtx idx label' o inv st p = some p' ∧ Sib p p' ∧
      LoopAt V h0 o idx inv start p' s r' label'
        [.rule idx label st start (prevTok T s.pos) kids] := by
  obtain ⟨i', h', e, hl'⟩ := hl.push hv label' st
  refine ⟨_, _, e, ⟨i', h', p.matchedEof, p.state, some p.heap.length,
    [.enter idx label'], ?_⟩, hl'⟩
  simp

/-- End of `LeftRecursiveRuleFunction`. -/
theorem LoopAt.leave (hv : IsView T V) {p q : P I} {s : St} {r : Nat} {label : Option Nat}
    {kids : List Node} {prec : Int} (hl : LoopAt V p.heap o idx inv start q s r label kids)
    (hp : p.ctx = o) (hs : Sib { p with precStack := p.precStack ++ [prec] } q) :
    ∃ p', q.ctx = some r ∧ q.unrollRecursionContext o = some p' ∧
      CallAt V p o p' r (.rule idx label inv start (prevTok T s.pos) kids) s := by
  obtain ⟨i7, h7, e7, hv7, g7, hr7⟩ := hl.unroll hv
  refine ⟨_, hl.here.ctx, e7, ?_⟩
  have hst := hl.here.state
  have hme := hl.here.meof
  obtain ⟨i, h, b, st, c, evs, rfl⟩ := hs
  simp only at hst hme
  refine ⟨i7, h7, evs ++ [.exit idx label], ?_, hv7, g7, hr7⟩
  simp [res, List.flatMap_append, hp, hst, hme]

end
end Antlr.ParserLemmas
