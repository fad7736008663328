import Verif.Parser.Lemmas

/-! # Rule calls -/

namespace Antlr.ParserLemmas
open Antlr ParserSpec

set_option linter.unusedSectionVars false
variable {I : Type} [TokStream I] {T : Nat → Tok} {V : I → Nat → Prop}

/-- The heap `h'` arose from `h` by giving the context `o`, if any, the children `ch` in addition
and by allocating. -/
def Grown (h h' : List Ctx) (o : Option Nat) (ch : List Child) : Prop :=
  h.length ≤ h'.length ∧ (∀ i, some i ≠ o → i < h.length → h'[i]? = h[i]?) ∧
  (∀ c c0, o = some c → h[c]? = some c0 → h'[c]? = some { c0 with children := c0.children ++ ch })

/-- A parser about to call a rule: `o` is the context of the caller, if any. -/
structure Ready (V : I → Nat → Prop) (p : P I) (s : St) (o : Option Nat) : Prop where
  view : V p.input s.pos
  meof : p.matchedEof = s.eof
  state : p.state = s.state
  ctx : p.ctx = o
  mem : ∀ c, o = some c → c < p.heap.length

theorem At.ready {p : P I} {s : St} {c : Nat} (h : At V p s c) : Ready V p s (some c) :=
  ⟨h.view, h.meof, h.state, h.ctx, fun c' hc => by cases hc; exact h.mem⟩

def freshCtx (T : Nat → Tok) (p : P I) (idx : Nat) (o : Option Nat) (s : St) : Ctx :=
  { rule := idx, label := none, parent := o, invoking := p.state, start := T s.pos,
    stop := createInvalid, children := [] }

theorem enterRule_ok (hv : IsView T V) {p : P I} {s : St} {o : Option Nat} (ha : Ready V p s o)
    (idx : Nat) (st : Int) :
    ∃ i1 h1, P.enterRule (p.alloc idx none p.ctx p.state).2 p.heap.length st =
        some { p with input := i1, heap := h1, ctx := some p.heap.length, state := st } ∧
      V i1 s.pos ∧ h1.length = p.heap.length + 1 ∧
      h1[p.heap.length]? = some (freshCtx T p idx o s) ∧
      Grown p.heap h1 o (if p.buildTrees then [.ctx p.heap.length] else []) := by
  obtain ⟨i1, hl, hv1⟩ := hv.lt_one _ _ ha.view
  have hctx := ha.ctx
  have hset : P.setStart { p with input := i1, ctx := o, state := st, heap := p.heap ++
      [{ rule := idx, label := none, parent := o, invoking := p.state, start := createInvalid,
         stop := createInvalid, children := [] }] } p.heap.length (some (T s.pos)) =
      some { p with input := i1, ctx := o, state := st, heap := p.heap ++ [freshCtx T p idx o s] } := by
    simp [P.setStart, P.modify, freshCtx]
  cases o with
  | none =>
    refine ⟨i1, p.heap ++ [freshCtx T p idx none s], ?_, hv1, by simp, by simp, by simp, ?_, by simp⟩
    · simp only [P.enterRule, P.alloc, P.lt, hl, Option.map_some, Option.bind_some, hctx]
      rw [hset, Option.bind_some]
      simp only
      split
      · simp [P.addContextToParseTree, freshCtx]
      · rfl
    · intro i _ hi
      rw [List.getElem?_append_left hi]
  | some c =>
    have hc := ha.mem c rfl
    by_cases hb : p.buildTrees
    · refine ⟨i1, (p.heap ++ [freshCtx T p idx (some c) s]).set c
        { p.heap[c] with children := p.heap[c].children ++ [.ctx p.heap.length] }, ?_, hv1, by simp,
        ?_, ?_, ?_, ?_⟩
      · simp only [P.enterRule, P.alloc, P.lt, hl, Option.map_some, Option.bind_some, hctx]
        rw [hset, Option.bind_some]
        simp only [hb, if_true]
        simp [P.addContextToParseTree, freshCtx, P.addChild, P.modify, List.getElem?_append_left hc, hc]
      · rw [List.getElem?_set_ne (by omega)]
        simp
      · simp
      · intro i hi hi2
        rw [List.getElem?_set_ne (by simpa using Ne.symm (fun h => hi (by rw [h]))),
          List.getElem?_append_left hi2]
      · intro c' c0 hcc hc0
        simp only [Option.some.injEq] at hcc
        subst hcc
        rw [List.getElem?_eq_getElem hc, Option.some.injEq] at hc0
        subst hc0
        rw [List.getElem?_set_self (by simp; omega)]
        simp [hb]
    · refine ⟨i1, p.heap ++ [freshCtx T p idx (some c) s], ?_, hv1, by simp, by simp, by simp, ?_, ?_⟩
      · simp only [P.enterRule, P.alloc, P.lt, hl, Option.map_some, Option.bind_some, hctx]
        rw [hset, Option.bind_some]
        simp only [hb]
        simp
      · intro i _ hi
        rw [List.getElem?_append_left hi]
      · intro c' c0 hcc hc0
        simp only [Option.some.injEq] at hcc
        subst hcc
        rw [List.getElem?_append_left hc, hc0]
        simp [hb]

def relabel (c : Ctx) (l : Nat) : Ctx := { c with label := some l }
def withKid (c : Ctx) (k : Nat) : Ctx := { c with children := c.children ++ [.ctx k] }

/-- Choosing the alternative: afterwards the current context is `r'`, which takes the place of `r`. -/
theorem enterAlt_ok {p : P I} {r : Nat} {o : Option Nat} {cr : Ctx} (label : Option Nat)
    (hctx : p.ctx = some r) (hr : p.heap[r]? = some cr) (hp : cr.parent = o) (hl : cr.label = none)
    (h0 : List Ctx) (hlen : h0.length = r) (hmem : ∀ c, o = some c → c < r)
    (hg : Grown h0 p.heap o (if p.buildTrees then [.ctx r] else [])) :
    ∃ r' h', ((p.labelled label r).bind fun x => x.2.enterOuterAlt x.1) =
        some { p with heap := h', ctx := some r',
                      log := p.log ++ dispatch p.listeners (.enter cr.rule label) } ∧
      r ≤ r' ∧ r' < h'.length ∧ p.heap.length ≤ h'.length ∧ h'[r']? = some { cr with label } ∧
      (∀ i, i ≠ r' → h0.length ≤ i → i < p.heap.length → h'[i]? = p.heap[i]?) ∧
      Grown h0 h' o (if p.buildTrees then [.ctx r'] else []) := by
  have hrl : r < p.heap.length := by
    rw [List.getElem?_eq_some_iff] at hr
    exact hr.1
  cases label with
  | none =>
    refine ⟨r, p.heap, ?_, Nat.le_refl _, hrl, Nat.le_refl _, by rw [hr, ← hl], fun _ _ _ _ => rfl, hg⟩
    simp [P.labelled, P.enterOuterAlt, P.triggerEnter, hctx, hr, hl, dispatch]
  | some l =>
    have hcopy : p.labelled (some l) r = some (some p.heap.length,
        { p with heap := p.heap ++ [relabel cr l] }) := by
      simp [P.labelled, P.copyFrom, hr, relabel]
    rw [hcopy, Option.bind_some]
    obtain ⟨g1, g2, g3⟩ := hg
    by_cases hb : p.buildTrees
    · cases o with
      | none =>
        refine ⟨p.heap.length, p.heap ++ [relabel cr l], ?_, by omega, by simp,
          by simp, by simp [relabel], ?_, by simp; omega, ?_, by simp⟩
        · simp [P.enterOuterAlt, hctx, hb, List.getElem?_append_left hrl, hr, hp, P.triggerEnter,
            dispatch, relabel, Nat.ne_of_gt hrl]
        · intro i _ _ hi; rw [List.getElem?_append_left hi]
        · intro i hi hi2
          rw [List.getElem?_append_left (by omega)]
          exact g2 i (by simp) hi2
      | some c =>
        have hcr := hmem c rfl
        have hc0 : h0[c]? = some h0[c] := List.getElem?_eq_getElem (by omega)
        have hc1 := g3 c _ rfl hc0
        simp only [hb, if_true] at hc1
        have hcl : c < p.heap.length := by omega
        refine ⟨p.heap.length, (p.heap ++ [relabel cr l]).set c
          (withKid h0[c] p.heap.length), ?_, by omega, by simp,
          by simp, ?_, ?_, ?_, ?_, ?_⟩
        · have e1 : P.removeLastChild { p with ctx := some r, heap := p.heap ++ [relabel cr l] } c =
              some { p with ctx := some r, heap := (p.heap ++ [relabel cr l]).set c h0[c] } := by
            simp [P.removeLastChild, P.modify, List.getElem?_append_left hcl, hc1]
          have e2 : P.addChild { p with ctx := some r, heap := (p.heap ++ [relabel cr l]).set c h0[c] } c
              (.ctx p.heap.length) =
              some { p with ctx := some r, heap := ((p.heap ++ [relabel cr l]).set c (withKid h0[c] p.heap.length)) } := by
            simp only [P.addChild, P.modify]
            rw [List.getElem?_set_self (by simp; omega), Option.map_some, List.set_set]; rfl
          simp only [P.enterOuterAlt, hctx, Option.bind_some]
          rw [if_pos ⟨hb, by omega⟩, List.getElem?_append_left hrl, hr, Option.bind_some, hp]
          simp only [e1, e2, Option.bind_some, Option.map_some, P.triggerEnter]
          rw [List.getElem?_set_ne (by omega)]
          simp [dispatch, relabel]
        · rw [List.getElem?_set_ne (by omega)]; simp [relabel]
        · intro i h1 h2 h3
          rw [List.getElem?_set_ne (by omega), List.getElem?_append_left h3]
        · simp; omega
        · intro i hi hi2
          rw [List.getElem?_set_ne (by simpa using Ne.symm (fun h => hi (by rw [h]))),
            List.getElem?_append_left (by omega)]
          exact g2 i hi hi2
        · intro c' c0 hcc hcc0
          simp only [Option.some.injEq] at hcc
          subst hcc
          rw [hc0, Option.some.injEq] at hcc0
          subst hcc0
          rw [List.getElem?_set_self (by simp; omega)]
          simp [hb, withKid]
    · refine ⟨p.heap.length, p.heap ++ [relabel cr l], ?_, by omega, by simp,
        by simp, by simp [relabel], ?_, by simp; omega, ?_, ?_⟩
      · simp [P.enterOuterAlt, hctx, hb, P.triggerEnter, dispatch, relabel]
      · intro i _ _ hi; rw [List.getElem?_append_left hi]
      · intro i hi hi2
        rw [List.getElem?_append_left (by omega)]
        exact g2 i hi hi2
      · intro c c0 hc hc0
        have := g3 c c0 hc hc0
        have hcr := hmem c hc
        rw [List.getElem?_append_left (by omega), this]
        simp [hb]

end Antlr.ParserLemmas
