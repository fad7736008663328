import Verif.Gen.Track

/-! # Entering and leaving rules on a path -/

namespace Antlr.Gen
open Antlr ParserSpec ParserLemmas ParserProps ErrorProps GenSpec LL1Spec PredictionSpec StackProps

set_option linter.unusedSectionVars false
variable {I S : Type} [TokStream I] {C : Cfg I S} {T : Nat → Tok} {V : I → Nat → Prop}

theorem Chain.lt {h : List Ctx} {cs : List Nat} {l : List Int} (hc : Chain h cs l) : ∀ c ∈ cs, c < h.length := by
  induction hc with
  | nil => simp
  | cons h1 _ _ _ ih =>
    intro c hc
    rcases List.mem_cons.1 hc with rfl | hc
    · exact (List.getElem?_eq_some_iff.1 h1).1
    · exact ih c hc

theorem Chain.append {h : List Ctx} {cs : List Nat} {l : List Int} (hc : Chain h cs l) (xs : List Ctx) :
    Chain (h ++ xs) cs l := by
  have hl := hc.lt
  refine hc.frame ?_
  intro c hc x hx
  exact ⟨x, by rw [List.getElem?_append_left (hl c hc)]; exact hx, rfl, rfl⟩

theorem Chain.set {h : List Ctx} {cs : List Nat} {l : List Int} (hc : Chain h cs l) {i : Nat} {x x' : Ctx}
    (hx : h[i]? = some x) (h1 : x'.parent = x.parent) (h2 : x'.invoking = x.invoking) : Chain (h.set i x') cs l := by
  refine hc.frame ?_
  intro c hc y hy
  by_cases hi : i = c
  · subst hi
    rw [hx, Option.some.injEq] at hy
    subst hy
    have := (List.getElem?_eq_some_iff.1 hx).1
    exact ⟨x', by simp [this], h1, h2⟩
  · exact ⟨y, by rw [List.getElem?_set_ne hi]; exact hy, rfl, rfl⟩

theorem Track.mk' {p : P I} {n : Nat} {cs : List Nat} {outer : List Int} (hv : V p.input n) (hc : p.ctx = cs.head?)
    (h : Chain p.heap cs outer) : Track V p n cs outer := by
  refine ⟨⟨⟨n, p.matchedEof, p.state⟩, ⟨hv, rfl, rfl, hc, ?_⟩, rfl⟩, h⟩
  intro c hc
  exact h.lt c (List.mem_of_mem_head? hc)

theorem Track.view {p : P I} {n : Nat} {cs : List Nat} {outer : List Int} (h : Track V p n cs outer) : V p.input n := by
  obtain ⟨st, h1, rfl⟩ := h.ready
  exact h1.view

theorem Track.ctx {p : P I} {n : Nat} {cs : List Nat} {outer : List Int} (h : Track V p n cs outer) : p.ctx = cs.head? := by
  obtain ⟨st, h1, rfl⟩ := h.ready
  exact h1.ctx

/-- Entering a rule. -/
theorem Track.enter (hv : IsView T V) {p : P I} {n : Nat} {cs : List Nat} {outer : List Int} (h : Track V p n cs outer)
    (idx : Nat) (st : Int) : ∃ p1, P.enterRule (p.alloc idx none p.ctx p.state).2 p.heap.length st = some p1 ∧
      Track V p1 n (p.heap.length :: cs) (p.state :: outer) ∧ p1.syntaxErrors = p.syntaxErrors := by
  obtain ⟨s, hr, rfl⟩ := h.ready
  obtain ⟨i1, h1, e1, hv1, hl1, hr1, hg1⟩ := enterRule_ok hv hr idx st
  refine ⟨_, e1, .mk' hv1 rfl ?_, rfl⟩
  have hlt := h.chain.lt
  refine Chain.cons (x := freshCtx T p idx cs.head? s) hr1 rfl ?_ (h.chain.frame ?_)
  · intro q hq
    exact hlt q (List.mem_of_mem_head? hq)
  · intro c hc x hx
    by_cases hcc : some c = cs.head?
    · exact ⟨_, hg1.2.2 c x hcc.symm hx, rfl, rfl⟩
    · exact ⟨x, by rw [← hx]; exact hg1.2.1 c hcc (hlt c hc), rfl, rfl⟩

/-- Taking the context of an alternative. -/
theorem Track.alt {p : P I} {n c : Nat} {cs : List Nat} {outer : List Int} (h : Track V p n (c :: cs) outer)
    (label : Option Nat) : ∃ p' r, enterAlt label c p = some p' ∧ Track V p' n (r :: cs) outer ∧
      p'.syntaxErrors = p.syntaxErrors := by
  have hctx : p.ctx = some c := h.ctx
  have hv := h.view
  have hch := h.chain
  cases h.chain with
  | @cons _ x _ l h1 h2 h3 h4 =>
    cases label with
    | none =>
      refine ⟨_, c, ?_, .mk' (p := { p with log := p.log ++ p.listeners.map fun l => (l.who, .enter x.rule x.label) })
        hv hctx hch, rfl⟩
      simp [enterAlt, P.labelled, P.enterOuterAlt, P.triggerEnter, hctx, h1]
    | some l' =>
      have hcl : c < p.heap.length := (List.getElem?_eq_some_iff.1 h1).1
      have hcopy : p.labelled (some l') c = some (some p.heap.length,
          { p with heap := p.heap ++ [relabel x l'] }) := by
        simp [P.labelled, P.copyFrom, h1, relabel]
      -- the heap after the parent was told
      obtain ⟨h', e1, e2, e3⟩ : ∃ h', (if p.buildTrees ∧ p.heap.length ≠ c then
            ((p.heap ++ [relabel x l'])[c]?).bind fun y => match y.parent with
              | some q => (P.removeLastChild { p with heap := p.heap ++ [relabel x l'] } q).bind
                  fun (p1 : P I) => p1.addChild q (.ctx p.heap.length)
              | none => some { p with heap := p.heap ++ [relabel x l'] }
          else some { p with heap := p.heap ++ [relabel x l'] }) = some { p with heap := h' } ∧
          h'[p.heap.length]? = some (relabel x l') ∧ Chain h' cs l := by
        by_cases hb : p.buildTrees = true ∧ p.heap.length ≠ c
        · rw [if_pos hb, List.getElem?_append_left hcl, h1, Option.bind_some, h2]
          cases hcs : cs.head? with
          | none => exact ⟨_, rfl, by simp, h4.append _⟩
          | some q =>
            have hq := h3 q hcs
            have hqe : (p.heap ++ [relabel x l'])[q]? = some p.heap[q] := by
              rw [List.getElem?_append_left (by omega), List.getElem?_eq_getElem]
            simp only [P.removeLastChild, P.addChild, P.modify, hqe, Option.map_some, Option.bind_some]
            rw [List.getElem?_set_self (by simp; omega), Option.map_some, List.set_set]
            refine ⟨_, rfl, ?_, ?_⟩
            · rw [List.getElem?_set_ne (by omega)]; simp
            · exact (h4.append _).set hqe rfl rfl
        · rw [if_neg hb]
          exact ⟨_, rfl, by simp, h4.append _⟩
      refine ⟨{ p with
          heap := h'
          ctx := some p.heap.length
          log := p.log ++ p.listeners.map fun l => (l.who, .enter x.rule (some l')) }, p.heap.length, ?_, .mk' hv rfl ?_, rfl⟩
      · unfold enterAlt
        rw [hcopy, Option.bind_some]
        simp only [P.enterOuterAlt, hctx, Option.bind_some, ne_eq] at e1 ⊢
        refine (congrArg (fun r : Option (P I) => (r.map fun (q : P I) => { q with ctx := some p.heap.length }).bind P.triggerEnter) e1).trans ?_
        simp [P.triggerEnter, e2, relabel]
      · exact Chain.cons (x := relabel x l') e2 h2 (fun q hq => by have := h3 q hq; omega) e3

/-- Leaving a rule. -/
theorem Track.exit (hv : IsView T V) {p : P I} {n c : Nat} {cs : List Nat} {inv : Int} {outer : List Int}
    (h : Track V p n (c :: cs) (inv :: outer)) : ∃ p', p.exitRule = some p' ∧ Track V p' n cs outer ∧
      p'.syntaxErrors = p.syntaxErrors := by
  obtain ⟨st, hr, rfl⟩ := h.ready
  have ha : At V p st c := ⟨hr.view, hr.meof, hr.state, hr.ctx, hr.mem c rfl⟩
  have hch := h.chain
  cases hch with
  | @cons _ x _ l h1 h2 h3 h4 =>
    obtain ⟨i', h', e1, e2, rfl⟩ := exitRule_ok hv ha h1
    refine ⟨_, e1, .mk' e2 h2 ?_, rfl⟩
    exact h4.set h1 rfl rfl

end Antlr.Gen
