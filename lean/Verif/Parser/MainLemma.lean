import Verif.Parser.LoopLemmas

/-! # The generated code does what it denotes -/

namespace Antlr.ParserLemmas
open Antlr ParserSpec

set_option linter.unusedSectionVars false
variable {I : Type} [TokStream I] {T : Nat → Tok} {V : I → Nat → Prop}

def ActsOk (T : Nat → Tok) (V : I → Nat → Prop) (body : Acts) : Prop :=
  ∀ (p : P I) (s : St) (c : Nat), At V p s c →
    Step V p c (Acts.run body p) (actsDen T body s).1 (actsDen T body s).2 (actsEv T body s)

def ItersOk (T : Nat → Tok) (V : I → Nat → Prop) (tail : Iters) : Prop :=
  ∀ (h0 : List Ctx) (o : Option Nat) (idx : Nat) (inv st : Int) (start : Tok) (p : P I) (s : St)
    (r : Nat) (label : Option Nat) (kids : List Node),
    LoopAt V h0 o idx inv start p s r label kids →
    ∃ i' h' r' evs,
      itersEv T tail idx label s =
        evs ++ [.exit idx (itersDen T tail idx st start label kids s).1] ∧
      Iters.run tail idx st o inv p =
        some { res p i' h' (itersDen T tail idx st start label kids s).2.2 evs with ctx := some r' } ∧
      LoopAt V h0 o idx inv start
        { res p i' h' (itersDen T tail idx st start label kids s).2.2 evs with ctx := some r' }
        (itersDen T tail idx st start label kids s).2.2 r'
        (itersDen T tail idx st start label kids s).1
        (itersDen T tail idx st start label kids s).2.1

theorem res_self {p : P I} {s : St} {c : Nat} (ha : At V p s c) :
    ({ res p p.input p.heap s [] with ctx := some c } : P I) = p := by
  simp [res, ← ha.meof, ← ha.state, ← ha.ctx]

theorem iters_done : ItersOk (I := I) T V .done := by
  intro h0 o idx inv st start p s r label kids hl
  refine ⟨p.input, p.heap, r, [], rfl, ?_, ?_⟩
  · rw [Iters.run]
    simp only [itersDen]
    rw [res_self hl.here]
  · simp only [itersDen]
    rw [res_self hl.here]
    exact hl

theorem res_ctx {p : P I} {s : St} {c : Nat} (ha : At V p s c) (i : I) (h : List Ctx) (s' : St)
    (e : List PEvent) : ({ res p i h s' e with ctx := some c } : P I) = res p i h s' e := by
  simp [res, ← ha.ctx]

theorem res_log (p : P I) (i : I) (h : List Ctx) (s' : St) (e e' : List PEvent) :
    res { p with log := p.log ++ e.flatMap (dispatch p.listeners) } i h s' e' =
      res p i h s' (e ++ e') := by
  simp [res, List.flatMap_append]

theorem iters_abort (hv : IsView T V) (pre : List Prim) : ItersOk (I := I) T V (.abort pre) := by
  intro h0 o idx inv st start p s r label kids hl
  have h1 := hl.log (p.log ++ dispatch p.listeners (.exit idx label))
  obtain ⟨i', h', e, hl'⟩ := h1.step (prims_ok hv pre h1.here).step
  have el : dispatch p.listeners (.exit idx label) =
    [PEvent.exit idx label].flatMap (dispatch p.listeners) := by simp
  rw [el] at e hl'
  rw [res_log] at e hl'
  refine ⟨i', h', r, [PEvent.exit idx label] ++ primsEv T pre s, ?_, ?_, ?_⟩
  · simp [itersEv, itersDen]
  · rw [Iters.run, hl.triggerExit, Option.bind_some, res_ctx hl.here, el, e]
    rfl
  · rw [res_ctx hl.here]
    exact hl'

theorem iters_iter (hv : IsView T V) (pre : List Prim) (label' : Option Nat) (body : Acts)
    (rest : Iters) (ihb : ActsOk (I := I) T V body) (ihr : ItersOk (I := I) T V rest) :
    ItersOk (I := I) T V (.iter pre label' body rest) := by
  intro h0 o idx inv st start p s r label kids hl
  have h1 := hl.log (p.log ++ dispatch p.listeners (.exit idx label))
  obtain ⟨i1, h1', e1, hl1⟩ := h1.step (prims_ok hv pre h1.here).step
  have el : dispatch p.listeners (.exit idx label) =
    [PEvent.exit idx label].flatMap (dispatch p.listeners) := by simp
  rw [el] at e1 hl1
  rw [res_log] at e1 hl1
  obtain ⟨i2, h2', e2, hl2⟩ := hl1.push hv label' st
  obtain ⟨i3, h3', e3, hl3⟩ := hl2.step (ihb _ _ _ hl2.here)
  obtain ⟨i4, h4', r', evs, he4, e4, hl4⟩ := ihr h0 o idx inv st start _ _ _ _ _ hl3
  simp only [itersDen, List.singleton_append] at *
  have fin : ({ res (res { res p i1 h1' (primsDen T pre s).2
        ([PEvent.exit idx label] ++ primsEv T pre s) with
          input := i2, heap := h2', ctx := some (res p i1 h1' (primsDen T pre s).2
        ([PEvent.exit idx label] ++ primsEv T pre s)).heap.length,
          log := (res p i1 h1' (primsDen T pre s).2
        ([PEvent.exit idx label] ++ primsEv T pre s)).log ++
            dispatch (res p i1 h1' (primsDen T pre s).2
        ([PEvent.exit idx label] ++ primsEv T pre s)).listeners (.enter idx label') }
        i3 h3' (actsDen T body (primsDen T pre s).2).2 (actsEv T body (primsDen T pre s).2))
        i4 h4' (itersDen T rest idx st start label'
          (Node.rule idx label st start (prevTok T (primsDen T pre s).2.pos)
            (kids ++ (primsDen T pre s).1) :: (actsDen T body (primsDen T pre s).2).1)
          (actsDen T body (primsDen T pre s).2).2).2.2 evs with ctx := some r' } : P I) =
      { res p i4 h4' (itersDen T rest idx st start label'
          (Node.rule idx label st start (prevTok T (primsDen T pre s).2.pos)
            (kids ++ (primsDen T pre s).1) :: (actsDen T body (primsDen T pre s).2).1)
          (actsDen T body (primsDen T pre s).2).2).2.2
        (.exit idx label :: primsEv T pre s ++ .enter idx label' ::
          actsEv T body (primsDen T pre s).2 ++ evs) with ctx := some r' } := by
    simp [res, List.flatMap_append]
  refine ⟨i4, h4', r', .exit idx label :: primsEv T pre s ++ .enter idx label' ::
    actsEv T body (primsDen T pre s).2 ++ evs, ?_, ?_, ?_⟩
  · simp only [itersEv]
    rw [he4]
    simp
  · rw [Iters.run, hl.triggerExit, Option.bind_some, el, e1, Option.bind_some]
    simp only [P.alloc, List.singleton_append] at e2 ⊢
    rw [e2, Option.bind_some, e3, Option.bind_some, e4]
    simp only [List.singleton_append] at fin
    rw [← fin]
  · simp only [List.singleton_append] at fin
    rw [← fin]
    exact hl4

theorem recRule_ok (hv : IsView T V) {p : P I} {s : St} {o : Option Nat} (ha : Ready V p s o)
    (idx : Nat) (st prec : Int) (pre : List Prim) (label : Option Nat) (primary : Acts)
    (tail : Iters) (ihb : ActsOk (I := I) T V primary) (iht : ItersOk (I := I) T V tail) :
    ∃ node, (actDen T (.recRule idx st prec pre label primary tail) s).1 = [node] ∧
    CallStep V p o (Act.run (.recRule idx st prec pre label primary tail) p) node
      (actDen T (.recRule idx st prec pre label primary tail) s).2
      (actEv T (.recRule idx st prec pre label primary tail) s) := by
  refine ⟨_, rfl, ?_⟩
  obtain ⟨i1, hl, hv1⟩ := hv.lt_one _ _ ha.view
  -- entering
  let p1 : P I := { p with
    input := i1, heap := p.heap ++ [freshCtx T p idx o s], ctx := some p.heap.length, state := st,
    precStack := p.precStack ++ [prec] }
  have e1 : P.enterRecursionRule (p.alloc idx none p.ctx p.state).2 p.heap.length st prec =
      some p1 := by
    simp [P.enterRecursionRule, P.alloc, P.lt, hl, P.setStart, P.modify, freshCtx, p1, ha.ctx]
  let p2 : P I := { p1 with log := p.log ++ dispatch p.listeners (.enter idx none) }
  have e2 : p1.enterOuterAlt none = some p2 := by
    simp [P.enterOuterAlt, P.triggerEnter, p1, p2, freshCtx, dispatch]
  have hl2 : LoopAt V p.heap o idx s.state (T s.pos) p2 { s with state := st } p.heap.length none
      [] := by
    refine ⟨⟨hv1, ha.meof, rfl, rfl, by simp [p2, p1]⟩, Nat.le_refl _, ha.mem, ?_, ?_⟩
    · refine ⟨by simp [p2, p1], ?_, ?_⟩
      · intro i _ h2
        simp only [p2, p1]
        rw [List.getElem?_append_left h2]
      · intro c c0 h1 h2
        have := ha.mem c h1
        simp only [p2, p1]
        rw [List.getElem?_append_left this, h2]
        simp
    · refine ⟨createInvalid, [], ?_, fun _ => by simp [ReadsKids]⟩
      simp [p2, p1, freshCtx, ha.state]
  -- before the label
  have hps := prims_ok hv pre hl2.here
  have hleaf : ∃ new, (∀ h S par, p.buildTrees = true →
        ReadsKids h S par new (primsDen T pre { s with state := st }).1) ∧
      ∃ i3 h3 stop3, runPrims pre p2 =
        some (res p2 i3 h3 (primsDen T pre { s with state := st }).2
          (primsEv T pre { s with state := st })) ∧
        V i3 (primsDen T pre { s with state := st }).2.pos ∧ p2.heap.length = h3.length ∧
        (∀ i, i ≠ p.heap.length → h3[i]? = p2.heap[i]?) ∧
        h3[p.heap.length]? = some ⟨idx, none, o, s.state, T s.pos, stop3, new⟩ := by
    obtain ⟨i3, h3, new, stop3, c0, e3, hv3, hlen3, hf3, hc0, hc3, hk3⟩ := hps
    refine ⟨new, fun h S par hb => hk3 hb h S par, i3, h3, stop3, e3, hv3, hlen3, hf3, ?_⟩
    have : p2.heap[p.heap.length]? = some (freshCtx T p idx o s) := by simp [p2, p1]
    rw [this, Option.some.injEq] at hc0
    subst hc0
    rw [hc3]
    simp [freshCtx, ha.state]
  clear hps
  obtain ⟨new, hnew, i3, h3, stop3, e3, hv3, hlen3, hf3, hc3⟩ := hleaf
  have hlen2 : p2.heap.length = p.heap.length + 1 := by simp [p2, p1]
  have g3 : Grown p.heap h3 o [] :=
    hl2.grown.frame (Nat.le_refl _) ha.mem (by omega) (fun i hi _ => hf3 i hi)
  generalize hs3 : (primsDen T pre { s with state := st }).2 = s3 at *
  generalize hn3 : (primsDen T pre { s with state := st }).1 = n3 at *
  generalize hev3 : primsEv T pre { s with state := st } = ev3 at *
  -- the labelled copy
  have h4 : ∃ p4 h4 r4, ((P.labelled (res p2 i3 h3 s3 ev3) label p.heap.length).map P.useLabel) = some p4 ∧
      p4 = { res p2 i3 h4 s3 ev3 with ctx := some r4 } ∧
      LoopAt V p.heap o idx s.state (T s.pos) p4 s3 r4 label n3 := by
    cases label with
    | none =>
      refine ⟨_, h3, p.heap.length, rfl, ?_, ?_⟩
      · simp [res, p2, p1, P.useLabel]
      · refine ⟨⟨hv3, rfl, rfl, rfl, by simp [res, P.useLabel]; omega⟩, Nat.le_refl _, ha.mem, g3, ?_⟩
        exact ⟨stop3, new, hc3, fun hb => hnew _ _ _ hb⟩
    | some l =>
      refine ⟨_, h3 ++ [⟨idx, some l, o, s.state, T s.pos, stop3, new⟩], h3.length, ?_, rfl, ?_⟩
      · simp [P.labelled, P.copyFrom, res, hc3, P.useLabel]
      · refine ⟨⟨hv3, rfl, rfl, rfl, by simp [res]⟩, by omega, ha.mem, ?_, ?_⟩
        · refine g3.frame (r := h3.length) (by omega) ha.mem (by simp [res]) ?_
          intro i _ hi
          simp only [res]
          rw [List.getElem?_append_left hi]
        · exact ⟨stop3, new, by simp [res], fun hb => hnew _ _ _ hb⟩
  obtain ⟨p4, h4, r4, e4, hp4, hl4⟩ := h4
  -- primary, loop, unrolling
  obtain ⟨i5, h5, e5, hl5⟩ := hl4.step (ihb _ _ _ hl4.here)
  obtain ⟨i6, h6, r6, evs6, he6, e6, hl6⟩ := iht _ _ _ _ st _ _ _ _ _ _ hl5
  obtain ⟨i7, h7, e7, hv7, g7, hr7⟩ := hl6.unroll hv
  refine ⟨i7, h7, r6, ?_, ?_, ?_, ?_⟩
  · rw [Act.run]
    have e1' := e1
    simp only [P.alloc] at e1' ⊢
    rw [e1', Option.bind_some, e2, Option.bind_some, e3, Option.bind_some]
    have bm : ∀ (x : Option (Option Nat × P I)) (g : Option Nat × P I → P I)
        (f : P I → Option (P I)), (x.bind fun r => f (g r)) = (x.map g).bind f := by
      intro x g f; cases x <;> rfl
    rw [bm _ P.useLabel (fun p' => (Acts.run primary p').bind fun p' =>
          (Iters.run tail idx st p.ctx p.state p').bind fun p' => p'.unrollRecursionContext p.ctx),
      e4, Option.bind_some, e5, Option.bind_some, ha.ctx, ha.state, e6, Option.bind_some, e7]
    simp only [actDen, actEv]
    rw [hs3, hn3, hev3, he6]
    simp [res, hp4, p2, p1, List.flatMap_append, ha.ctx]
  · simp only [actDen]; rw [hs3, hn3]; exact hv7
  · simpa [res, hp4, p2, p1] using g7
  · intro hb
    have : p4.buildTrees = true := by simpa [res, hp4, p2, p1] using hb
    simpa using hr7 this

mutual
theorem act_ok (hv : IsView T V) (a : Act) (p : P I) (s : St) (c : Nat) (ha : At V p s c) :
    Step V p c (Act.run a p) (actDen T a s).1 (actDen T a s).2 (actEv T a s) :=
  match a with
  | .prim x => by
    rw [Act.run, actDen, actEv]
    exact (prim_ok hv ha x).step
  | .rule idx st pre label body =>
    (rule_ok hv ha.ready idx st pre label body (fun p s c h => acts_ok hv body p s c h)).step ha
  | .noAlt idx st pre => (noAlt_ok hv ha.ready idx st pre).step ha
  | .recRule idx st prec pre label primary tail => by
    obtain ⟨node, e, h⟩ := recRule_ok hv ha.ready idx st prec pre label primary tail
      (fun p s c h => acts_ok hv primary p s c h) (iters_ok hv tail)
    rw [e]
    exact h.step ha
theorem acts_ok (hv : IsView T V) (b : Acts) (p : P I) (s : St) (c : Nat) (ha : At V p s c) :
    Step V p c (Acts.run b p) (actsDen T b s).1 (actsDen T b s).2 (actsEv T b s) :=
  match b with
  | .nil => by
    rw [Acts.run, actsDen, actsEv]
    exact (PStep.nil ha).step
  | .cons a rest => by
    rw [Acts.run, actsDen, actsEv]
    exact Step.bind ha (act_ok hv a p s c ha) fun p1 h1 => acts_ok hv rest p1 _ c h1
theorem iters_ok (hv : IsView T V) (t : Iters) : ItersOk (I := I) T V t :=
  match t with
  | .done => iters_done
  | .abort pre => iters_abort hv pre
  | .iter pre label body rest =>
    iters_iter hv pre label body rest (fun p s c h => acts_ok hv body p s c h) (iters_ok hv rest)
end

/-- A call of a rule, from another rule or from outside. -/
theorem call_ok (hv : IsView T V) (a : Act) (ha : ∀ x, a ≠ .prim x) (p : P I) (s : St)
    (o : Option Nat) (hr : Ready V p s o) :
    ∃ node, (actDen T a s).1 = [node] ∧
      CallStep V p o (Act.run a p) node (actDen T a s).2 (actEv T a s) :=
  match a with
  | .prim x => absurd rfl (ha x)
  | .rule idx st pre label body =>
    ⟨_, rfl, rule_ok hv hr idx st pre label body (fun p s c h => acts_ok hv body p s c h)⟩
  | .noAlt idx st pre => ⟨_, rfl, noAlt_ok hv hr idx st pre⟩
  | .recRule idx st prec pre label primary tail =>
    recRule_ok hv hr idx st prec pre label primary tail
      (fun p s c h => acts_ok hv primary p s c h) (iters_ok hv tail)

end Antlr.ParserLemmas
