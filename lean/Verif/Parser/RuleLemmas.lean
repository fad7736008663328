import Verif.Parser.CallLemmas

/-! # Rule calls, continued -/

namespace Antlr.ParserLemmas
open Antlr ParserSpec

set_option linter.unusedSectionVars false
variable {I : Type} [TokStream I] {T : Nat → Tok} {V : I → Nat → Prop}

theorem Grown.frame {h h' h'' : List Ctx} {o : Option Nat} {ch : List Child} {r : Nat}
    (hg : Grown h h' o ch) (hr : h.length ≤ r) (hm : ∀ c, o = some c → c < h.length)
    (hl : h'.length ≤ h''.length)
    (hf : ∀ i, i ≠ r → i < h'.length → h''[i]? = h'[i]?) : Grown h h'' o ch := by
  obtain ⟨a, b, d⟩ := hg
  refine ⟨by omega, ?_, ?_⟩
  · intro i h1 h2
    rw [hf i (by omega) (by omega), b i h1 h2]
  · intro c c0 h1 h2
    have := hm c h1
    rw [hf c (by omega) (by omega), d c c0 h1 h2]

/-- What a rule call does: it yields a new tree `root`, appended to the children of the caller. -/
def CallStep (V : I → Nat → Prop) (p : P I) (o : Option Nat) (r : Option (P I)) (node : Node)
    (s' : St) (evs : List PEvent) : Prop :=
  ∃ i' h' root, r = some (res p i' h' s' evs) ∧ V i' s'.pos ∧
    Grown p.heap h' o (if p.buildTrees then [.ctx root] else []) ∧
    (p.buildTrees = true →
      Reads h' (fun i => p.heap.length ≤ i ∧ i < h'.length) o root node)

theorem CallStep.step {p : P I} {s s' : St} {c : Nat} {r : Option (P I)} {node : Node}
    {evs : List PEvent} (ha : At V p s c) (h : CallStep V p (some c) r node s' evs) :
    Step V p c r [node] s' evs := by
  obtain ⟨i', h', root, a1, a2, ⟨g1, g2, g3⟩, a4⟩ := h
  have hm := ha.mem
  have hc : p.heap[c]? = some p.heap[c] := List.getElem?_eq_getElem hm
  refine ⟨i', h', if p.buildTrees then [.ctx root] else [], p.heap[c].stop, p.heap[c], a1, a2, g1,
    fun i hi hl => g2 i (by simpa using hi) hl, hc, g3 c _ rfl hc, ?_⟩
  intro hb
  rw [if_pos hb]
  have := a4 hb
  cases node with
  | leaf t e => simp [Reads] at this
  | rule idx l inv st sp k => simp only [ReadsKids, ReadsKid, and_true]; exact this

theorem stop_getD (p : P I) (hv : IsView T V) {s : St} (h : V p.input s.pos)
    (hm : p.matchedEof = s.eof) :
    ∃ i t, P.lt p (if p.matchedEof then 1 else -1) = some (t, { p with input := i }) ∧
      V i s.pos ∧ t.getD createInvalid = stopTok T s := by
  cases he : s.eof with
  | true =>
    obtain ⟨i', hl, hv'⟩ := hv.lt_one _ _ h
    exact ⟨i', some (T s.pos), by simp [P.lt, hm, he, hl], hv', by simp [stopTok, he]⟩
  | false =>
    obtain ⟨i', hl, hv'⟩ := hv.lt_prev _ _ h
    exact ⟨i', if s.pos = 0 then none else some (T (s.pos - 1)), by simp [P.lt, hm, he, hl], hv', by simp [stopTok, he, prevTok_getD]⟩

theorem exitRule_ok (hv : IsView T V) {p : P I} {s : St} {r : Nat} {c : Ctx} (ha : At V p s r)
    (hc : p.heap[r]? = some c) :
    ∃ i' h', p.exitRule = some { p with
        input := i', heap := h',
        log := p.log ++ dispatch p.listeners (.exit c.rule c.label),
        state := c.invoking, ctx := c.parent } ∧ V i' s.pos ∧
      h' = p.heap.set r { c with stop := stopTok T s } := by
  obtain ⟨i', t, h1, h2, h3⟩ := stop_getD p hv ha.view ha.meof
  have hm := ha.mem
  refine ⟨i', p.heap.set r { c with stop := stopTok T s }, ?_, h2, rfl⟩
  rw [List.getElem?_eq_getElem hm, Option.some.injEq] at hc
  subst hc
  simp only [P.exitRule, h1, Option.bind_some, ha.ctx, P.setStop, P.modify,
    List.getElem?_eq_getElem hm, Option.map_some, h3, P.triggerExit]
  rw [List.getElem?_set_self hm]
  simp [dispatch, hm]

theorem at_enter {p : P I} {s : St} {o : Option Nat} {i1 : I} {h1 : List Ctx} {st : Int}
    (ha : Ready V p s o) (hv : V i1 s.pos) (hl : h1.length = p.heap.length + 1) :
    At V { p with input := i1, heap := h1, ctx := some p.heap.length, state := st }
      { s with state := st } p.heap.length :=
  ⟨hv, ha.meof, rfl, rfl, by simp [hl]⟩

theorem noAlt_ok (hv : IsView T V) {p : P I} {s : St} {o : Option Nat} (ha : Ready V p s o)
    (idx : Nat) (st : Int) (pre : List Prim) :
    CallStep V p o (Act.run (.noAlt idx st pre) p)
      (.rule idx none s.state (T s.pos) (stopTok T (primsDen T pre { s with state := st }).2)
        (primsDen T pre { s with state := st }).1)
      { (primsDen T pre { s with state := st }).2 with state := s.state }
      (primsEv T pre { s with state := st } ++ [.exit idx none]) := by
  obtain ⟨i1, h1, e1, hv1, hl1, hr1, hg1⟩ := enterRule_ok hv ha idx st
  have ha1 := at_enter (st := st) ha hv1 hl1
  obtain ⟨i2, h2, new, stop2, c0, e2, hv2, hl2, hf2, hc2, hr2, hk2⟩ := prims_ok hv pre ha1
  simp only at hl2 hf2 hc2 hk2
  rw [hr1, Option.some.injEq] at hc2
  subst hc2
  have ha2 := at_res (evs := primsEv T pre { s with state := st }) ha1 hv2 (Nat.le_of_eq hl2)
  obtain ⟨i3, h3, e3, hv3, hh3⟩ := exitRule_ok hv ha2 (c := _) hr2
  simp only [res] at hh3
  refine ⟨i3, h3, p.heap.length, ?_, hv3, ?_, ?_⟩
  · rw [Act.run]
    simp only [P.alloc] at e1 ⊢
    rw [e1, Option.bind_some, e2, Option.bind_some, e3]
    simp [res, freshCtx, ha.ctx, ha.state, List.flatMap_append]
  · refine hg1.frame (r := p.heap.length) (Nat.le_refl _) ha.mem ?_ ?_
    · simp [hh3]; omega
    · intro i hi _
      rw [hh3, get_set _ i hi, hf2 i hi]
  · intro hb
    subst hh3
    rw [Reads]
    have hm : p.heap.length < h2.length := by omega
    refine ⟨⟨Nat.le_refl _, by simp; omega⟩, _, List.getElem?_set_self hm, ?_⟩
    refine ⟨rfl, rfl, rfl, ha.state, rfl, rfl, ?_⟩
    simpa [freshCtx] using hk2 hb _ _ _

theorem rule_ok (hv : IsView T V) {p : P I} {s : St} {o : Option Nat} (ha : Ready V p s o)
    (idx : Nat) (st : Int) (pre : List Prim) (label : Option Nat) (body : Acts)
    (ih : ∀ (p : P I) (s : St) (c : Nat), At V p s c →
      Step V p c (Acts.run body p) (actsDen T body s).1 (actsDen T body s).2 (actsEv T body s)) :
    CallStep V p o (Act.run (.rule idx st pre label body) p)
      (.rule idx label s.state (T s.pos)
        (stopTok T (actsDen T body (primsDen T pre { s with state := st }).2).2)
        ((primsDen T pre { s with state := st }).1 ++
          (actsDen T body (primsDen T pre { s with state := st }).2).1))
      { (actsDen T body (primsDen T pre { s with state := st }).2).2 with state := s.state }
      (primsEv T pre { s with state := st } ++ .enter idx label ::
        actsEv T body (primsDen T pre { s with state := st }).2 ++ [.exit idx label]) := by
  obtain ⟨i1, h1, e1, hv1, hl1, hr1, hg1⟩ := enterRule_ok hv ha idx st
  have ha1 := at_enter (st := st) ha hv1 hl1
  obtain ⟨i2, h2, new, stop2, c0, e2, hv2, hl2, hf2, hc2, hr2, hk2⟩ := prims_ok hv pre ha1
  simp only at hl2 hf2 hc2 hk2
  rw [hr1, Option.some.injEq] at hc2
  subst hc2
  have hg2 : Grown p.heap h2 o (if p.buildTrees then [.ctx p.heap.length] else []) :=
    hg1.frame (r := p.heap.length) (Nat.le_refl _) ha.mem (by omega) (fun i hi _ => hf2 i hi)
  generalize hs2 : (primsDen T pre { s with state := st }).2 = s2 at *
  generalize hn2 : (primsDen T pre { s with state := st }).1 = n2 at *
  generalize hv2' : primsEv T pre { s with state := st } = ev2 at *
  obtain ⟨r, h3, e3, h3r, hrl, hl3, hr3, hf3, hg3⟩ :=
    enterAlt_ok (p := res { p with input := i1, heap := h1, ctx := some p.heap.length, state := st }
      i2 h2 s2 ev2) label rfl hr2 (o := o) rfl rfl p.heap rfl ha.mem hg2
  simp only [res, freshCtx] at e3 hl3 hr3 hf3 hg3
  have ha3 : At V { p with
      input := i2, heap := h3, ctx := some r, state := s2.state, matchedEof := s2.eof,
      log := p.log ++ ev2.flatMap (dispatch p.listeners) ++
        dispatch p.listeners (.enter idx label) } s2 r := ⟨hv2, rfl, rfl, rfl, hrl⟩
  obtain ⟨i4, h4, new4, stop4, c4, e4, hv4, hl4, hf4, hc4, hr4, hk4⟩ := ih _ _ _ ha3
  simp only at hl4 hf4 hc4 hr4 hk4
  rw [hr3, Option.some.injEq] at hc4
  subst hc4
  have ha4 := at_res (evs := actsEv T body s2) ha3 hv4 hl4
  obtain ⟨i5, h5, e5, hv5, hh5⟩ := exitRule_ok hv ha4 (c := _) hr4
  simp only [res] at hh5
  have hm4 : r < h4.length := by omega
  refine ⟨i5, h5, r, ?_, hv5, ?_, ?_⟩
  · rw [Act.run]
    simp only [P.alloc] at e1 ⊢
    rw [e1, Option.bind_some, e2, Option.bind_some]
    have : ∀ (x : Option (Option Nat × P I)) (f : P I → Option (P I)),
        (x.bind fun r => (r.2.enterOuterAlt r.1).bind f) =
          (x.bind fun r => r.2.enterOuterAlt r.1).bind f := by
      intro x f; cases x <;> rfl
    simp only [res] at e3 ⊢
    rw [this, e3, Option.bind_some]
    rw [e4, Option.bind_some, e5]
    simp [res, ha.ctx, ha.state, List.flatMap_append]
  · refine hg3.frame (r := r) h3r ha.mem ?_ ?_
    · simp [hh5]; omega
    · intro i hi hi2
      rw [hh5, get_set _ i hi, hf4 i hi hi2]
  · intro hb
    subst hh5
    rw [Reads]
    refine ⟨⟨h3r, by simp; omega⟩, _, List.getElem?_set_self hm4, ?_⟩
    refine ⟨rfl, rfl, rfl, ha.state, rfl, rfl, ?_⟩
    simp only [List.nil_append]
    refine readsKids_append (hk2 hb _ _ _) (readsKids_frame ?_ ?_ _ _ _ (hk4 hb))
    · rintro i ⟨x, y⟩; exact ⟨by omega, by simp; omega⟩
    · rintro i ⟨x, y⟩; exact get_set _ i (by omega)

end Antlr.ParserLemmas
