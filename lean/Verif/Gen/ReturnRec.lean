import Verif.Gen.ReturnCall

/-! # Calls of left-recursive rule functions return -/

namespace Antlr.Gen
open Antlr ParserSpec ParserLemmas ParserProps ErrorSpec ErrorLemmas ErrorProps LL1Spec LL1Props GenSpec

set_option linter.unusedSectionVars false
variable {I S : Type} [TokStream I]
variable {C : Cfg I S} {T : Nat → Tok} {V : I → Nat → Prop} {ix : Nat → Int} {Inv : S → Prop} {N K : Nat}
variable {s : GS I S} {n : Nat} {cs : List (Nat × Nat)} {pr : Nat → Int → Int → Prop} {Ch : Nat → Choice → Prop}

/-! ## Steps -/

/-- A context on top of others. -/
theorem push_sane {h1 : List Ctx} {x : Ctx} {p' : P I} {eh : EH} {σ : S} {outer : List Int} {r : Nat} (hv : V p'.input n) (hn : n ≤ N)
    (hctx : p'.ctx = some h1.length) (hc : Chain h1 (ids cs) outer) (hru : ∀ x ∈ cs, ∃ y, h1[x.1]? = some y ∧ y.rule = x.2)
    (hs : ∀ c ∈ ids cs, SoundAt C.env.atn C.rules.length h1 c) (hst : InAtn C p'.state) (hb : ∃ vs, Built eh vs)
    (hnt : ∀ c, eh.ntCtx = some c → C.bail = false ∧ SoundAt C.env.atn C.rules.length h1 c ∧ InAtn C eh.ntState) (hi : Inv σ)
    (hl : SameLinks (h1 ++ [x]) p'.heap) (hx1 : x.rule = r) (hr : r < C.rules.length) (hx2 : x.parent = (ids cs).head?)
    (hx3 : cs = [] → x.invoking < 0) (hx4 : ∀ r0, In r0 cs → CallsRule C.env.atn x.invoking r0 r) :
    Sane C V Inv N (⟨⟨eh, p'⟩, σ⟩ : GS I S) n ((h1.length, r) :: cs) := by
  refine ⟨hv, hn, hctx, ⟨x.invoking :: outer, ?_⟩, ?_, ?_, fun _ => hst, hb, ?_, hi⟩
  · refine Chain.links hl (Chain.cons (x := x) List.getElem?_concat_length hx2 ?_ (hc.append _))
    intro q hq
    exact hc.lt q (List.mem_of_mem_head? hq)
  · refine rules_links hl ?_
    intro y hy
    rcases List.mem_cons.1 hy with rfl | hy
    · exact ⟨_, List.getElem?_concat_length, hx1⟩
    · obtain ⟨z, z1, z2⟩ := hru y hy
      exact ⟨z, by rw [List.getElem?_append_left (List.getElem?_eq_some_iff.1 z1).1]; exact z1, z2⟩
  · intro d hd
    refine SoundAt.links ?_ hl
    rcases List.mem_cons.1 hd with rfl | hd
    · refine SoundAt.push (x := x) (by rw [hx1]; exact hr) ?_ ?_
      · intro hn
        rw [hx2] at hn
        cases cs with
        | nil => exact hx3 rfl
        | cons c cs => cases hn
      · intro q hq
        rw [hx2] at hq
        cases cs with
        | nil => cases hq
        | cons c cs =>
          cases hq
          obtain ⟨y, y1, y2⟩ := hru c (by simp)
          exact ⟨hs _ (by simp), y, y1, by rw [y2, hx1]; exact hx4 c.2 ⟨c.1, cs, rfl⟩⟩
    · exact (hs d hd).grow _
  · intro c hcc
    have := hnt c hcc
    exact ⟨this.1, (this.2.1.grow _).links hl, this.2.2⟩

theorem links_set {h : List Ctx} {i : Nat} {x y : Ctx} (hx : h[i]? = some x) (h1 : y.parent = x.parent)
    (h2 : y.invoking = x.invoking) (h3 : y.rule = x.rule) : SameLinks h (h.set i y) := by
  refine ⟨by simp, fun j => ?_⟩
  by_cases hj : i = j
  · subst hj
    rw [List.getElem?_set_self (List.getElem?_eq_some_iff.1 hx).1, hx]
    simp [h1, h2, h3]
  · rw [List.getElem?_set_ne hj]

/-- Changes that do not matter here. -/
theorem Sane.quiet (h : Sane C V Inv N s n cs) {p' : P I} (hv : V p'.input n) (hctx : p'.ctx = s.es.p.ctx)
    (hl : SameLinks s.es.p.heap p'.heap) (hst : p'.state = s.es.p.state) :
    Sane C V Inv N ({ s with es := { s.es with p := p' } } : GS I S) n cs :=
  h.update (eh' := s.es.eh) hv h.le hctx hl hst h.built h.nt

theorem recEnter_sane (W : World C T V ix N K) (h : Sane C V Inv N s n cs)
    {r : Nat} (h0 : cs = [] → s.es.p.state < 0) (h1 : ∀ r0, In r0 cs → CallsRule C.env.atn s.es.p.state r0 r)
    (hr : r < C.rules.length) {start : Int} (hst : InAtn C start) (q : Int) :
    ∃ s1, (s.act fun p => P.enterRecursionRule (p.alloc r none p.ctx p.state).2 s.es.p.heap.length start q) = ret () s1 ∧
      Sane C V Inv N s1 n ((s.es.p.heap.length, r) :: cs) ∧ s1.es.eh = s.es.eh := by
  obtain ⟨outer, hc⟩ := h.chain
  obtain ⟨i1, l1, v1⟩ := W.view.lt_one _ _ h.view
  refine ⟨⟨⟨s.es.eh, { s.es.p with
      input := i1, heap := s.es.p.heap ++ [freshCtx T s.es.p r s.es.p.ctx ⟨n, s.es.p.matchedEof, s.es.p.state⟩],
      ctx := some s.es.p.heap.length, state := start, precStack := s.es.p.precStack ++ [q] }⟩, s.sim⟩, ?_, ?_, rfl⟩
  · simp [GS.act, P.enterRecursionRule, P.alloc, P.lt, l1, P.setStart, P.modify, ret, freshCtx]
  · exact push_sane v1 h.le rfl hc h.rules h.sound hst h.built h.nt h.inv (SameLinks.refl _) rfl hr h.ctx h0 h1

theorem outer_sane {c : Nat × Nat} (h : Sane C V Inv N s n (c :: cs)) :
    ∃ s1, (s.act fun p => p.enterOuterAlt none) = ret () s1 ∧ Sane C V Inv N s1 n (c :: cs) ∧ s1.es.eh = s.es.eh := by
  obtain ⟨x, hx, -⟩ := h.rules c (by simp)
  have hctx : s.es.p.ctx = some c.1 := h.ctx
  refine ⟨{ s with es := { s.es with p := { s.es.p with
    log := s.es.p.log ++ s.es.p.listeners.map fun l => (l.who, .enter x.rule x.label) } } }, ?_, ?_, rfl⟩
  · simp [GS.act, P.enterOuterAlt, P.triggerEnter, hctx, hx, ret]
  · exact h.quiet h.view rfl (SameLinks.refl _) rfl

theorem exitEvent_sane {c : Nat × Nat} (h : Sane C V Inv N s n (c :: cs)) :
    ∃ s1, s.act P.triggerExit = ret () s1 ∧ Sane C V Inv N s1 n (c :: cs) ∧ s1.es.eh = s.es.eh := by
  obtain ⟨x, hx, -⟩ := h.rules c (by simp)
  have hctx : s.es.p.ctx = some c.1 := h.ctx
  refine ⟨{ s with es := { s.es with p := { s.es.p with
    log := s.es.p.log ++ s.es.p.listeners.reverse.map fun l => (l.who, .exit x.rule x.label) } } }, ?_, ?_, rfl⟩
  · simp [GS.act, P.triggerExit, hctx, hx, ret]
  · exact h.quiet h.view rfl (SameLinks.refl _) rfl

theorem replace_sane {c r0 : Nat} (h : Sane C V Inv N s n ((c, r0) :: cs)) (hr : r0 < C.rules.length) (label : Option Nat) :
    ∃ r s1, s.act (replaceCtx label c) = ret () s1 ∧ Sane C V Inv N s1 n ((r, r0) :: cs) ∧ s1.es.eh = s.es.eh := by
  obtain ⟨x, hx, hxr⟩ := h.rules (c, r0) (by simp)
  have hxr : x.rule = r0 := hxr
  have hctx : s.es.p.ctx = some c := h.ctx
  obtain ⟨outer, hc⟩ := h.chain
  cases label with
  | none => exact ⟨c, s, by simp [GS.act, replaceCtx, P.labelled, P.useLabel, ret], h, rfl⟩
  | some l =>
    refine ⟨s.es.p.heap.length, ⟨⟨s.es.eh, { s.es.p with
      heap := s.es.p.heap ++ [relabel x l], ctx := some s.es.p.heap.length }⟩, s.sim⟩, ?_, ?_, rfl⟩
    · simp only at hx
      simp [GS.act, replaceCtx, P.labelled, P.useLabel, P.copyFrom, hx, relabel, ret]
    · cases hc with
      | @cons _ y _ l0 g1 g2 g3 g4 =>
        have hx' : s.es.p.heap[c]? = some x := hx
        rw [hx', Option.some.injEq] at g1
        subst g1
        have hs := h.sound c (by simp)
        refine push_sane h.view h.le rfl g4 (fun y hy => h.rules y (by simp [hy])) (fun d hd => h.sound d (by simp [hd]))
          (h.state (by simp)) h.built h.nt h.inv (SameLinks.refl _) hxr hr g2 ?_ ?_
        · rintro rfl
          exact hs.root_of (x := x) hx' g2
        · rintro r1 ⟨d, l1, rfl⟩
          obtain ⟨-, ⟨z, z1, z2⟩, -⟩ := hs.up_of (x := x) hx' g2
          obtain ⟨w, w1, w2⟩ := h.rules (d, r1) (by simp)
          rw [w1] at z1
          cases z1
          rw [w2] at z2
          rw [← hxr]; exact z2

theorem stop_sane (W : World C T V ix N K) {c : Nat × Nat} (h : Sane C V Inv N s n (c :: cs)) :
    ∃ s1, s.act setStopTok = ret () s1 ∧ Sane C V Inv N s1 n (c :: cs) ∧ s1.es.eh = s.es.eh := by
  obtain ⟨x, hx, -⟩ := h.rules c (by simp)
  have hctx : s.es.p.ctx = some c.1 := h.ctx
  obtain ⟨i1, l1, v1⟩ := W.view.lt_prev _ _ h.view
  refine ⟨{ s with es := { s.es with p := { s.es.p with
    input := i1, heap := s.es.p.heap.set c.1 { x with stop := (if n = 0 then none else some (T (n - 1))).getD createInvalid } } } },
    ?_, ?_, rfl⟩
  · simp [GS.act, setStopTok, P.lt, l1, hctx, P.setStop, P.modify, hx, ret]
  · exact h.quiet v1 rfl (links_set hx rfl rfl rfl) rfl

/-- The context of an operator; nothing else may know of the one before. -/
theorem pushCtx_sane (W : World C T V ix N K) (hb : C.bail = true) {c r : Nat} (h : Sane C V Inv N s n ((c, r) :: cs))
    (hr : r < C.rules.length) {inv : Int} (h0 : cs = [] → inv < 0) (h1 : ∀ r0, In r0 cs → CallsRule C.env.atn inv r0 r)
    (label : Option Nat) (start : Int) :
    ∃ c' s1, s.act (pushCtx r label (ids cs).head? inv start) = ret () s1 ∧ Sane C V Inv N s1 n ((c', r) :: cs) ∧
      s1.es.eh = s.es.eh := by
  obtain ⟨x, hx, -⟩ := h.rules (c, r) (by simp)
  have hx : s.es.p.heap[c]? = some x := hx
  have hctx : s.es.p.ctx = some c := h.ctx
  obtain ⟨outer, hc⟩ := h.chain
  obtain ⟨i1, l1, v1⟩ := W.view.lt_prev _ _ h.view
  have hcl : c < s.es.p.heap.length := (List.getElem?_eq_some_iff.1 hx).1
  let tk : Tok := (if n = 0 then none else some (T (n - 1))).getD createInvalid
  let y : Ctx := { x with parent := some s.es.p.heap.length, invoking := start, stop := tk }
  let z : Ctx := { rule := r, label := label, parent := (ids cs).head?, invoking := inv, start := x.start,
                   stop := createInvalid, children := if s.es.p.buildTrees then [.ctx c] else [] }
  refine ⟨s.es.p.heap.length, ⟨⟨s.es.eh, { s.es.p with
    input := i1, heap := s.es.p.heap.set c y ++ [z], ctx := some s.es.p.heap.length,
    log := s.es.p.log ++ s.es.p.listeners.map fun l => (l.who, .enter r label) }⟩, s.sim⟩, ?_, ?_, rfl⟩
  · have e1 : s.es.p.heap[c] = x := (List.getElem?_eq_some_iff.1 hx).2
    by_cases hbt : s.es.p.buildTrees = true
    · simp [GS.act, pushCtx, P.pushNewRecursionContext, P.alloc, hctx, P.modify, e1, P.lt, l1, P.setStop, P.setStart, P.addChild,
        P.triggerEnter, hbt, ret, y, z, tk, List.getElem?_append, List.set_append, hcl]
    · simp [GS.act, pushCtx, P.pushNewRecursionContext, P.alloc, hctx, P.modify, e1, P.lt, l1, P.setStop, P.setStart, P.addChild,
        P.triggerEnter, hbt, ret, y, z, tk, List.getElem?_append, List.set_append, hcl]
  · cases hc with
    | @cons _ x' _ l0 g1 g2 g3 g4 =>
      have hlen : (s.es.p.heap.set c y).length = s.es.p.heap.length := by simp
      have hlow : ∀ d ∈ ids cs, d < c := g4.under c g3
      have keep : ∀ d, d < c → (s.es.p.heap.set c y)[d]? = s.es.p.heap[d]? := fun d hd => List.getElem?_set_ne (by omega)
      have := push_sane (C := C) (V := V) (Inv := Inv) (N := N) (cs := cs) (n := n) (h1 := s.es.p.heap.set c y) (x := z) (eh := s.es.eh)
        (σ := s.sim) (outer := l0) (r := r) (p' := { s.es.p with
          input := i1, heap := s.es.p.heap.set c y ++ [z], ctx := some s.es.p.heap.length,
          log := s.es.p.log ++ s.es.p.listeners.map fun l => (l.who, .enter r label) }) v1 h.le (by rw [hlen])
        (g4.frame fun d hd w hw => ⟨w, by rw [keep d (hlow d hd)]; exact hw, rfl, rfl⟩) ?_ ?_ (h.state (by simp)) h.built ?_ h.inv
        (SameLinks.refl _) rfl hr rfl h0 h1
      · rw [hlen] at this
        exact this
      · intro w hw
        obtain ⟨w', w1, w2⟩ := h.rules w (by simp [hw])
        exact ⟨w', by rw [keep _ (hlow _ (List.mem_map.2 ⟨w, hw, rfl⟩))]; exact w1, w2⟩
      · intro d hd
        refine (h.sound d (by simp [hd])).frame fun j w hj hw => ?_
        have := hlow d hd
        exact ⟨w, by rw [keep j (by omega)]; exact hw, rfl, rfl, rfl⟩
      · intro d hd
        have := (h.nt d hd).1
        rw [hb] at this; cases this

theorem unroll_sane (W : World C T V ix N K) {c : Nat × Nat} (h : Sane C V Inv N s n (c :: cs)) :
    ∃ s1, (s.act fun p => p.unrollRecursionContext (ids cs).head?) = ret () s1 ∧ Sane C V Inv N s1 n cs ∧ s1.es.eh = s.es.eh := by
  obtain ⟨x, hx, -⟩ := h.rules c (by simp)
  have hctx : s.es.p.ctx = some c.1 := h.ctx
  obtain ⟨outer, hc⟩ := h.chain
  obtain ⟨i1, l1, v1⟩ := W.view.lt_prev _ _ h.view
  have hcl : c.1 < s.es.p.heap.length := (List.getElem?_eq_some_iff.1 hx).1
  cases hc with
  | @cons _ x' _ l0 g1 g2 g3 g4 =>
    rw [hx, Option.some.injEq] at g1
    subst g1
    have hne : some c.1 ≠ (ids cs).head? := by
      intro e
      exact absurd (g3 c.1 e.symm) (Nat.lt_irrefl _)
    let tk : Tok := (if n = 0 then none else some (T (n - 1))).getD createInvalid
    let y : Ctx := { x with stop := tk }
    have hset : (s.es.p.heap.set c.1 y)[c.1]? = some y := List.getElem?_set_self hcl
    let q : P I := { s.es.p with
      precStack := s.es.p.precStack.dropLast, input := i1, heap := s.es.p.heap.set c.1 y, ctx := some c.1 }
    obtain ⟨lg, hlg⟩ : ∃ lg, (if q.listeners ≠ [] then P.unrollLoop (ids cs).head? (q.heap.length + 1) q
        else some { q with ctx := (ids cs).head? }) = some { q with ctx := (ids cs).head?, log := lg } := by
      by_cases hls : q.listeners ≠ []
      · rw [if_pos hls]
        obtain ⟨k, hk⟩ : ∃ k, q.heap.length = k + 1 := ⟨q.heap.length - 1, by
          have : q.heap.length = s.es.p.heap.length := by simp [q]
          omega⟩
        rw [hk]
        refine ⟨q.log ++ q.listeners.reverse.map fun l => (l.who, .exit y.rule y.label), ?_⟩
        have hqc : q.ctx = some c.1 := rfl
        have hqh : q.heap[c.1]? = some y := hset
        have hyp : y.parent = (ids cs).head? := g2
        simp only [P.unrollLoop, hqc, if_pos hne, P.triggerExit, Option.bind_some, hqh, Option.map_some, hyp]
        simp
      · rw [if_neg hls]
        exact ⟨q.log, rfl⟩
    obtain ⟨hp, e1, e2⟩ : ∃ hp, ((P.modify { q with ctx := (ids cs).head?, log := lg } c.1 fun w => { w with parent := (ids cs).head? }).bind
        fun (p : P I) => if p.buildTrees then
          match p.ctx with
          | some q => p.addChild q (.ctx c.1)
          | none => some p
        else some p) = some { q with ctx := (ids cs).head?, log := lg, heap := hp } ∧ SameLinks s.es.p.heap hp := by
      have hqh : q.heap[c.1]? = some y := hset
      have hy : ({ y with parent := (ids cs).head? } : Ctx) = y := by
        have hyp : (ids cs).head? = y.parent := g2.symm
        rw [hyp]
      have hl0 : SameLinks s.es.p.heap (s.es.p.heap.set c.1 y) := links_set hx rfl rfl rfl
      simp only [P.modify, hqh, Option.map_some, Option.bind_some, hy]
      have hsame : q.heap.set c.1 y = s.es.p.heap.set c.1 y := by simp [q]
      rw [hsame]
      by_cases hbt : q.buildTrees = true
      · simp only [hbt, if_true]
        cases hq : (ids cs).head? with
        | none => exact ⟨_, rfl, hl0⟩
        | some d =>
          have hd : d < c.1 := g3 d hq
          have hdx : (s.es.p.heap.set c.1 y)[d]? = some s.es.p.heap[d] := by
            rw [List.getElem?_set_ne (by omega), List.getElem?_eq_getElem]
          simp only [P.addChild, P.modify, hdx, Option.map_some]
          refine ⟨_, rfl, ?_⟩
          have := links_set (y := { s.es.p.heap[d] with children := s.es.p.heap[d].children ++ [.ctx c.1] }) hdx rfl rfl rfl
          exact ⟨this.1.trans hl0.1, fun j => (this.2 j).trans (hl0.2 j)⟩
      · simp only [hbt]
        exact ⟨_, rfl, hl0⟩
    refine ⟨{ s with es := { s.es with p := { q with ctx := (ids cs).head?, log := lg, heap := hp } } }, ?_, ?_, rfl⟩
    · have : s.es.p.unrollRecursionContext (ids cs).head? = some { q with ctx := (ids cs).head?, log := lg, heap := hp } := by
        simp only [P.unrollRecursionContext, hctx, Option.bind_some, P.lt, l1, Option.map_some, P.setStop, P.modify, hx]
        refine Option.bind_eq_some_iff.2 ⟨_, hlg, ?_⟩
        exact e1
      simp only [GS.act, this, Option.map_some, ret]
    · refine ⟨v1, h.le, rfl, ⟨l0, g4.links e2⟩, rules_links e2 fun w hw => h.rules w (by simp [hw]),
        fun d hd => (h.sound d (by simp [hd])).links e2, fun _ => h.state (by simp), h.built, ?_, h.inv⟩
      intro d hd
      have := h.nt d hd
      exact ⟨this.1, this.2.1.links e2, this.2.2⟩

theorem precGuard_halts (W : World C T V ix N K) (h : Sane C V Inv N s n cs) (hne : cs ≠ []) (o : OpAlt)
    (he : HasEdge C.env.atn s.es.p.state) : ∃ x, precGuard C o s = some (x, s) ∧
      Outcome C T V ix Inv N (rank C T ix N s.es.eh n) cs (fun _ s' n' => s' = s ∧ n' = n) x s := by
  unfold precGuard
  by_cases hp : s.es.p.precpred o.prec = true
  · exact ⟨.ok (), by rw [if_pos hp]; rfl, n, h, Nat.le_refl _, rfl, rfl⟩
  · rw [if_neg hp]
    exact failed_halts W h hne he _ _

/-! ## Choosing among alternatives -/

theorem select_halts (W : World C T V ix N K) (hd : Decides C T V ix Inv N pr Ch) (h : Sane C V Inv N s n cs) {r : Nat} (hin : In r cs)
    {sel : Option (Int × Choice)} (hsel : SeatedSel C.env.atn Ch r sel) {α : Type} (alts : List α) :
    Halts (fun m => select C m sel alts s) (Outcome C T V ix Inv N (rank C T ix N s.es.eh n) cs fun o _ n' => match o with
      | none => Blank pr (T n').ttype sel alts
      | some a => Taken pr (T n').ttype sel alts a ∧ a ∈ alts) := by
  cases sel with
  | none =>
    refine .now (x := .ok alts.head?) (s' := s) (fun m => rfl) ⟨n, h, Nat.le_refl _, ?_⟩
    cases alts with
    | nil => exact rfl
    | cons a l => exact ⟨rfl, by simp⟩
  | some x =>
    obtain ⟨st, ch⟩ := x
    obtain ⟨h1, h2⟩ := hsel st ch rfl
    refine Halts.andThen (f := fun _ k s => ret (pick alts k) s) (head_halts W hd h hin h1 h2) ?_ fun e s1 hx => hx
    rintro k s1 ⟨n1, k1, k2, k3⟩
    refine .now (x := .ok (pick alts k)) (s' := s1) (fun m => rfl) ⟨n1, k1, k2, ?_⟩
    cases hk : pick alts k with
    | none => exact ⟨k, k3, hk⟩
    | some a =>
      refine ⟨⟨k, k3, hk⟩, ?_⟩
      unfold pick at hk
      split at hk
      · exact List.mem_of_getElem? hk
      · cases hk

/-! ## Calls -/

/-- A call of a left-recursive rule, if its primary alternatives and its loop return. -/
theorem rec_halts (W : World C T V ix N K) (hd : Decides C T V ix Inv N pr Ch) (hbail : C.bail = true) (h : Sane C V Inv N s n cs)
    {r : Nat} (h0 : cs = [] → s.es.p.state < 0) (h1 : ∀ r0, In r0 cs → CallsRule C.env.atn s.es.p.state r0 r)
    {q start : Int} {sel : Option (Int × Choice)} {prims : List Alt} {entry back : Int} {ch : Choice} {opSel : Option (Int × Choice)}
    {ops : List OpAlt} (hr : C.rules[r]? = some (.recursive start sel prims entry back ch opSel ops))
    (hst : InAtn C start) (hsel : SeatedSel C.env.atn Ch r sel) (hen : Syncs C.env.atn entry) (hch : Ch r ch) {b : Bool}
    (hbody : ∀ (a : Alt) (c' : Nat) (s2 : GS I S) (n2 : Nat), Sane C V Inv N s2 n2 ((c', r) :: cs) → a ∈ prims →
      Taken pr (T n2).ttype sel prims a →
      rank C T ix N s2.es.eh n2 ≤ rank C T ix N s.es.eh n →
      Halts (fun m => run C m a.code s2) (Outcome C T V ix Inv N (rank C T ix N s.es.eh n) ((c', r) :: cs)
        fun _ s' n' => b = true → rank C T ix N s'.es.eh n' < rank C T ix N s.es.eh n))
    (hblank : b = true → ∀ (s2 : GS I S) (n2 : Nat), n2 ≤ N → rank C T ix N s2.es.eh n2 ≤ rank C T ix N s.es.eh n → Blank pr (T n2).ttype sel prims →
      rank C T ix N s2.es.eh n2 < rank C T ix N s.es.eh n)
    (hops : ∀ (k : Int) (c' : Nat) (s2 : GS I S) (n2 : Nat), Sane C V Inv N s2 n2 ((c', r) :: cs) →
      rank C T ix N s2.es.eh n2 ≤ rank C T ix N s.es.eh n → (b = true → rank C T ix N s2.es.eh n2 < rank C T ix N s.es.eh n) →
      Answers pr ch (T n2).ttype k →
      Halts (fun m => opLoop C m r start (ids cs).head? s.es.p.state back ch opSel ops k s2) fun x s' => ∃ c',
        Outcome C T V ix Inv N (rank C T ix N s.es.eh n) ((c', r) :: cs)
          (fun _ s' n' => b = true → rank C T ix N s'.es.eh n' < rank C T ix N s.es.eh n) x s') :
    Halts (fun m => runRule C m r q s) (Outcome C T V ix Inv N (rank C T ix N s.es.eh n) cs fun _ s' n' =>
      b = true → rank C T ix N s'.es.eh n' < rank C T ix N s.es.eh n) := by
  have hrl : r < C.rules.length := (List.getElem?_eq_some_iff.1 hr).1
  obtain ⟨s1, e1, g1, g2⟩ := recEnter_sane W h h0 h1 hrl hst q
  obtain ⟨s2, e2, k1, k2⟩ := outer_sane g1
  have hctx : s.es.p.ctx = (ids cs).head? := h.ctx
  refine .succ (b := fun m =>
    (andThen (select C m sel prims s2) fun a s0 =>
        andThen (match a with
          | none => ret () s0
          | some a => andThen (s0.act (replaceCtx a.label s.es.p.heap.length)) fun _ s => run C m a.code s) fun _ s0 =>
        andThen (s0.act setStopTok) fun _ s0 =>
        andThen (head C m entry ch s0) fun k s0 => opLoop C m r start (ids cs).head? s.es.p.state back ch opSel ops k s0).bind
      fun x => andThen (finish C m x) fun _ s => andThen (s.act fun p => p.unrollRecursionContext (ids cs).head?) fun _ s' =>
        ret s.es.p.ctx s') ?_ ?_
  · intro m
    simp only [runRule, hr]
    rw [e1, hctx]
    show (andThen _ _).bind _ = _
    rw [e2]
    rfl
  have hR : rank C T ix N s2.es.eh n = rank C T ix N s.es.eh n := by rw [k2, g2]
  refine Halts.bind (Q := fun x s' => ∃ c', Outcome C T V ix Inv N (rank C T ix N s.es.eh n) ((c', r) :: cs)
      (fun _ s' n' => b = true → rank C T ix N s'.es.eh n' < rank C T ix N s.es.eh n) x s') ?_ ?_
  · have hs := select_halts W hd k1 .cons hsel prims
    rw [hR] at hs
    refine hs.andThen ?_ fun e s3 hx => ⟨_, hx⟩
    rintro a s3 ⟨n3, m1, m2, m3⟩
    refine Halts.andThen (Q := fun x s' => ∃ c', Outcome C T V ix Inv N (rank C T ix N s.es.eh n) ((c', r) :: cs)
      (fun _ s' n' => b = true → rank C T ix N s'.es.eh n' < rank C T ix N s.es.eh n) x s') ?_ ?_ fun e s3 hx => hx
    · cases a with
      | none => exact .now (x := .ok ()) (s' := s3) (fun m => rfl) ⟨_, n3, m1, m2, fun hb => hblank hb s3 n3 m1.le m2 m3⟩
      | some a =>
        obtain ⟨c', s4, a1, a2, a3⟩ := replace_sane m1 hrl a.label
        dsimp only
        rw [a1]
        exact (hbody a c' s4 n3 a2 m3.2 m3.1 (by rw [a3]; exact m2)).mono fun x s' hx => ⟨c', hx⟩
    · rintro - s4 ⟨c', n4, q1, q2, q3⟩
      obtain ⟨s5, a1, a2, a3⟩ := stop_sane W q1
      simp only [a1]
      refine Halts.andThen (r := fun _ => ret () s5) (Q := fun x s' => x = .ok () ∧ s' = s5) (.now (fun _ => rfl) ⟨rfl, rfl⟩) ?_ fun e _ h => by cases h.1
      rintro - _ ⟨-, rfl⟩
      have hh := head_halts W hd a2 .cons hen hch
      rw [a3] at hh
      refine hh.andThen ?_ fun e s3 hx => ⟨c', Outcome.mono (Q := fun (_ : Unit) s' n' => b = true → rank C T ix N s'.es.eh n' < rank C T ix N s.es.eh n)
        (x := .error e) hx q2 fun _ _ _ _ _ h => h⟩
      rintro k s6 ⟨n6, j1, j2, j3⟩
      exact hops k c' s6 n6 j1 (Nat.le_trans j2 q2) (fun hb => Nat.lt_of_le_of_lt j2 (q3 hb)) j3
  · rintro x s3 ⟨c', hx⟩
    refine (finish_halts W (by simp) h.le hx).andThen ?_ fun e s3 hx => .inl hx
    rintro - s4 ⟨n4, q1, q2, q3⟩
    obtain ⟨s5, a1, a2, a3⟩ := unroll_sane W q1
    rw [a1]
    exact .now (x := .ok s4.es.p.ctx) (s' := s5) (fun m => rfl) ⟨n4, a2, by rw [a3]; exact q2, fun hb => by rw [a3]; exact q3 ⟨hb, .inl hbail⟩⟩

end Antlr.Gen
