import Verif.Gen.ReturnSteps

/-! # Calls of rule functions return -/

namespace Antlr.Gen
open Antlr ParserSpec ParserLemmas ParserProps ErrorSpec ErrorLemmas ErrorProps LL1Spec LL1Props GenSpec

set_option linter.unusedSectionVars false
variable {I S : Type} [TokStream I]
variable {C : Cfg I S} {T : Nat → Tok} {V : I → Nat → Prop} {ix : Nat → Int} {Inv : S → Prop} {N K : Nat}
variable {s : GS I S} {n : Nat} {cs : List (Nat × Nat)}

/-- A new context -/
theorem SoundAt.push {atn : ATN} {rules : Nat} {h : List Ctx} {x : Ctx} (h1 : x.rule < rules)
    (h2 : x.parent = none → x.invoking < 0)
    (h3 : ∀ q, x.parent = some q → SoundAt atn rules h q ∧ ∃ y, h[q]? = some y ∧ CallsRule atn x.invoking y.rule x.rule) :
    SoundAt atn rules (h ++ [x]) h.length := by
  cases hq : x.parent with
  | none => exact .root List.getElem?_concat_length h1 hq (h2 hq)
  | some q =>
    obtain ⟨h4, y, h5, h6⟩ := h3 q hq
    exact .up List.getElem?_concat_length h1 hq h4.lt (by rw [List.getElem?_append_left h4.lt]; exact h5) h6 (h4.grow _)

theorem grown_links {p : P I} {o : Option Nat} {h1 : List Ctx} {xs : List Child} {x : Ctx}
    (hl : h1.length = p.heap.length + 1) (hx : h1[p.heap.length]? = some x) (hg : Grown p.heap h1 o xs) :
    SameLinks (p.heap ++ [x]) h1 := by
  refine ⟨by simp [hl], fun j => ?_⟩
  rcases Nat.lt_trichotomy j p.heap.length with hj | rfl | hj
  · rw [List.getElem?_append_left hj]
    by_cases ho : some j = o
    · rw [hg.2.2 j p.heap[j] ho.symm (List.getElem?_eq_getElem hj), List.getElem?_eq_getElem hj]
      rfl
    · rw [hg.2.1 j ho hj]
  · rw [List.getElem?_concat_length, hx]
  · rw [List.getElem?_eq_none (by omega), List.getElem?_eq_none (by rw [List.length_append, List.length_singleton]; omega)]

theorem enter_sane (W : World C T V ix N K) (h : Sane C V Inv N s n cs)
    {r : Nat} (h0 : cs = [] → s.es.p.state < 0) (h1 : ∀ r0, In r0 cs → CallsRule C.env.atn s.es.p.state r0 r)
    (hr : r < C.rules.length) {start : Int} (hst : InAtn C start) :
    ∃ s1, (s.act fun p => P.enterRule (p.alloc r none p.ctx p.state).2 s.es.p.heap.length start) = ret () s1 ∧
      Sane C V Inv N s1 n ((s.es.p.heap.length, r) :: cs) ∧ s1.es.eh = s.es.eh := by
  obtain ⟨outer, hc⟩ := h.chain
  have ht : Track V s.es.p n (ids cs) outer := .mk' h.view h.ctx hc
  obtain ⟨st, hrd, rfl⟩ := ht.ready
  obtain ⟨i1, hp1, e1, hv1, hl1, hr1, hg1⟩ := enterRule_ok W.view.toIsView hrd r start
  obtain ⟨p1, e2, t2, -⟩ := ht.enter W.view.toIsView r start
  rw [e1, Option.some.injEq] at e2
  subst e2
  have links := grown_links hl1 hr1 hg1
  refine ⟨{ s with es := ⟨s.es.eh, { s.es.p with input := i1, heap := hp1, ctx := some s.es.p.heap.length, state := start }⟩ },
    by simp only [GS.act, e1, Option.map_some, ret], ?_, rfl⟩
  refine ⟨hv1, h.le, rfl, ⟨_, t2.chain⟩, ?_, ?_, fun _ => hst, h.built, ?_, h.inv⟩
  · refine rules_links links ?_
    intro x hx
    rcases List.mem_cons.1 hx with rfl | hx
    · exact ⟨_, List.getElem?_concat_length, rfl⟩
    · obtain ⟨y, y1, y2⟩ := h.rules x hx
      exact ⟨y, by rw [List.getElem?_append_left (List.getElem?_eq_some_iff.1 y1).1]; exact y1, y2⟩
  · intro d hd
    refine SoundAt.links ?_ links
    rcases List.mem_cons.1 hd with rfl | hd
    · refine SoundAt.push (x := freshCtx T s.es.p r (ids cs).head? st) hr ?_ ?_
      · intro hn
        cases cs with
        | nil => exact h0 rfl
        | cons c cs => cases hn
      · intro q hq
        cases cs with
        | nil => cases hq
        | cons c cs =>
          cases hq
          obtain ⟨y, y1, y2⟩ := h.rules c (by simp)
          exact ⟨h.sound _ (by simp), y, y1, by rw [y2]; exact h1 c.2 ⟨c.1, cs, rfl⟩⟩
    · exact (h.sound d hd).grow _
  · intro c hcc
    have := h.nt c hcc
    exact ⟨this.1, (this.2.1.grow _).links links, this.2.2⟩

theorem alt_heap {p : P I} {c : Nat} {cs : List Nat} {outer : List Int} (hctx : p.ctx = some c)
    (hc : Chain p.heap (c :: cs) outer) (label : Option Nat) :
    ∃ p' r x, p.heap[c]? = some x ∧ enterAlt label c p = some p' ∧ p'.input = p.input ∧ p'.ctx = some r ∧ p'.state = p.state ∧
      ((r = c ∧ p'.heap = p.heap) ∨ (r = p.heap.length ∧ ∃ l, SameLinks (p.heap ++ [relabel x l]) p'.heap)) := by
  cases hc with
  | @cons _ x _ l h1 h2 h3 h4 =>
    cases label with
    | none =>
      refine ⟨{ p with log := p.log ++ p.listeners.map fun l => (l.who, .enter x.rule x.label) }, c, x, h1, ?_, rfl, hctx, rfl,
        .inl ⟨rfl, rfl⟩⟩
      simp [enterAlt, P.labelled, P.enterOuterAlt, P.triggerEnter, hctx, h1]
    | some l' =>
      have hcl : c < p.heap.length := (List.getElem?_eq_some_iff.1 h1).1
      have hcopy : p.labelled (some l') c = some (some p.heap.length,
          { p with heap := p.heap ++ [relabel x l'] }) := by
        simp [P.labelled, P.copyFrom, h1, relabel]
      obtain ⟨h', e1, e2, e3⟩ : ∃ h', (if p.buildTrees ∧ p.heap.length ≠ c then
            ((p.heap ++ [relabel x l'])[c]?).bind fun y => match y.parent with
              | some q => (P.removeLastChild { p with heap := p.heap ++ [relabel x l'] } q).bind
                  fun (p1 : P I) => p1.addChild q (.ctx p.heap.length)
              | none => some { p with heap := p.heap ++ [relabel x l'] }
          else some { p with heap := p.heap ++ [relabel x l'] }) = some { p with heap := h' } ∧
          h'[p.heap.length]? = some (relabel x l') ∧ SameLinks (p.heap ++ [relabel x l']) h' := by
        by_cases hb : p.buildTrees = true ∧ p.heap.length ≠ c
        · rw [if_pos hb, List.getElem?_append_left hcl, h1, Option.bind_some, h2]
          cases hcs : cs.head? with
          | none => exact ⟨_, rfl, by simp, SameLinks.refl _⟩
          | some q =>
            have hq := h3 q hcs
            have hqe : (p.heap ++ [relabel x l'])[q]? = some p.heap[q] := by
              rw [List.getElem?_append_left (by omega), List.getElem?_eq_getElem]
            simp only [P.removeLastChild, P.addChild, P.modify, hqe, Option.map_some, Option.bind_some]
            rw [List.getElem?_set_self (by simp; omega), Option.map_some, List.set_set]
            refine ⟨_, rfl, ?_, by simp, ?_⟩
            · rw [List.getElem?_set_ne (by omega)]; simp
            · intro j
              by_cases hj : q = j
              · subst hj
                rw [List.getElem?_set_self (by simp; omega), hqe]
                rfl
              · rw [List.getElem?_set_ne hj]
        · rw [if_neg hb]
          exact ⟨_, rfl, by simp, SameLinks.refl _⟩
      refine ⟨{ p with
          heap := h'
          ctx := some p.heap.length
          log := p.log ++ p.listeners.map fun l => (l.who, .enter x.rule (some l')) }, p.heap.length, x, h1, ?_, rfl, rfl, rfl,
          .inr ⟨rfl, l', e3⟩⟩
      unfold enterAlt
      rw [hcopy, Option.bind_some]
      simp only [P.enterOuterAlt, hctx, Option.bind_some, ne_eq] at e1 ⊢
      refine (congrArg (fun r : Option (P I) => (r.map fun (q : P I) => { q with ctx := some p.heap.length }).bind P.triggerEnter) e1).trans ?_
      simp [P.triggerEnter, e2, relabel]

theorem alt_sane {c r0 : Nat} (h : Sane C V Inv N s n ((c, r0) :: cs)) (label : Option Nat) :
    ∃ r s1, s.act (enterAlt label c) = ret () s1 ∧ Sane C V Inv N s1 n ((r, r0) :: cs) ∧ s1.es.eh = s.es.eh := by
  obtain ⟨outer, hc⟩ := h.chain
  obtain ⟨p', r, x, h1, h2, h3, h4, h5, h6⟩ := alt_heap h.ctx hc label
  refine ⟨r, { s with es := ⟨s.es.eh, p'⟩ }, by simp only [GS.act, h2, Option.map_some, ret], ?_, rfl⟩
  have hv : V p'.input n := by rw [h3]; exact h.view
  have hst : InAtn C p'.state := by rw [h5]; exact h.state (by simp)
  rcases h6 with ⟨rfl, e⟩ | ⟨rfl, l, e⟩
  · exact ⟨hv, h.le, h4, ⟨outer, by show Chain p'.heap _ _; rw [e]; exact hc⟩,
      by show ∀ x ∈ _, ∃ y, p'.heap[_]? = _ ∧ _; rw [e]; exact h.rules, by show ∀ c ∈ _, SoundAt _ _ p'.heap c; rw [e]; exact h.sound,
      fun _ => hst, h.built, by show ∀ c, _ → _ ∧ SoundAt _ _ p'.heap c ∧ _; rw [e]; exact h.nt, h.inv⟩
  · have hx := h.sound c (by simp)
    have hlen : p'.heap.length = s.es.p.heap.length + 1 := by rw [e.1]; simp
    refine ⟨hv, h.le, h4, ⟨outer, ?_⟩, ?_, ?_, fun _ => hst, h.built, ?_, h.inv⟩
    · cases hc with
      | @cons _ y _ l0 g1 g2 g3 g4 =>
        rw [h1, Option.some.injEq] at g1
        subst g1
        refine Chain.links e (Chain.cons (x := relabel x l) ?_ g2 ?_ (g4.append _))
        · exact List.getElem?_concat_length
        · intro q hq
          exact Nat.lt_trans (g3 q hq) (List.getElem?_eq_some_iff.1 h1).1
    · refine rules_links e ?_
      intro y hy
      rcases List.mem_cons.1 hy with rfl | hy
      · obtain ⟨z, z1, z2⟩ := h.rules (c, r0) (by simp)
        rw [h1, Option.some.injEq] at z1
        subst z1
        exact ⟨_, List.getElem?_concat_length, z2⟩
      · obtain ⟨z, z1, z2⟩ := h.rules y (by simp [hy])
        exact ⟨z, by rw [List.getElem?_append_left (List.getElem?_eq_some_iff.1 z1).1]; exact z1, z2⟩
    · intro d hd
      refine SoundAt.links ?_ e
      rcases List.mem_cons.1 hd with rfl | hd
      · obtain ⟨z, z1, z2⟩ := hx.get
        rw [h1, Option.some.injEq] at z1
        subst z1
        exact SoundAt.push (x := relabel x l) z2 (fun hn => hx.root_of (x := x) h1 hn) fun q hq =>
          ⟨(hx.up_of (x := x) h1 hq).2.2, (hx.up_of (x := x) h1 hq).2.1⟩
      · exact (h.sound d (by simp [hd])).grow _
    · intro d hd
      have := h.nt d hd
      exact ⟨this.1, (this.2.1.grow _).links e, this.2.2⟩

theorem exit_sane (W : World C T V ix N K) {c : Nat × Nat} (h : Sane C V Inv N s n (c :: cs)) :
    ∃ s1, s.act P.exitRule = ret () s1 ∧ Sane C V Inv N s1 n cs ∧ s1.es.eh = s.es.eh ∧ (cs = [] → s1.es.p.state < 0) := by
  obtain ⟨outer, hc⟩ := h.chain
  have hc' := hc
  have ht : Track V s.es.p n (c.1 :: ids cs) outer := .mk' h.view h.ctx hc
  have hrules := h.rules
  have hsound := h.sound
  obtain ⟨c, rc⟩ := c
  obtain ⟨st, hr, rfl⟩ := ht.ready
  have ha : At V s.es.p st c := ⟨hr.view, hr.meof, hr.state, hr.ctx, hr.mem c rfl⟩
  cases hc with
  | @cons _ x _ l h1 h2 h3 h4 =>
    obtain ⟨i', h', e1, e2, rfl⟩ := exitRule_ok W.view.toIsView ha h1
    have hx := h.sound c (by simp)
    have links : SameLinks s.es.p.heap (s.es.p.heap.set c { x with stop := stopTok T st }) := by
      refine ⟨by simp, fun j => ?_⟩
      by_cases hj : c = j
      · subst hj
        rw [List.getElem?_set_self (hr.mem c rfl), h1]; rfl
      · rw [List.getElem?_set_ne hj]
    refine ⟨{ s with es := ⟨s.es.eh, { s.es.p with
        input := i', heap := s.es.p.heap.set c { x with stop := stopTok T st },
        log := s.es.p.log ++ dispatch s.es.p.listeners (.exit x.rule x.label),
        state := x.invoking, ctx := x.parent }⟩ }, by simp only [GS.act, e1, Option.map_some, ret], ?_, rfl, ?_⟩
    · refine ⟨e2, h.le, h2, ⟨l, h4.links links⟩, rules_links links fun x hx => hrules x (by simp [hx]), fun d hd => (h.sound d (by simp [hd])).links links, ?_,
        h.built, ?_, h.inv⟩
      · intro hne
        show InAtn C x.invoking
        cases cs with
        | nil => exact absurd rfl hne
        | cons q cs =>
          obtain ⟨-, ⟨y, -, hy⟩, -⟩ := hx.up_of h1 h2
          exact callsRule_inAtn hy
      · intro d hd
        have := h.nt d hd
        exact ⟨this.1, this.2.1.links links, this.2.2⟩
    · rintro rfl
      exact hx.root_of h1 h2

/-- A call of a rule, if its alternatives return. -/
theorem rule_halts (W : World C T V ix N K) (h : Sane C V Inv N s n cs)
    {r : Nat} (h0 : cs = [] → s.es.p.state < 0) (h1 : ∀ r0, In r0 cs → CallsRule C.env.atn s.es.p.state r0 r)
    {q start : Int} {sel : Option (Int × Choice)} {alts : List Alt} (hr : C.rules[r]? = some (.plain start sel alts))
    (hst : InAtn C start) {b : Bool}
    (hbody : ∀ c s1, Sane C V Inv N s1 n ((c, r) :: cs) → s1.es.eh = s.es.eh →
      Halts (fun m => select C m sel alts s1) (Outcome C T V ix Inv N (rank C T ix N s.es.eh n) ((c, r) :: cs) fun o s' n' =>
        match o with
        | none => b = true → rank C T ix N s'.es.eh n' < rank C T ix N s.es.eh n
        | some a => ∀ c' s2, Sane C V Inv N s2 n' ((c', r) :: cs) → s2.es.eh = s'.es.eh →
          Halts (fun m => run C m a.code s2) (Outcome C T V ix Inv N (rank C T ix N s.es.eh n) ((c', r) :: cs)
            fun _ s' n' => b = true → rank C T ix N s'.es.eh n' < rank C T ix N s.es.eh n))) :
    Halts (fun m => runRule C m r q s) (Outcome C T V ix Inv N (rank C T ix N s.es.eh n) cs fun _ s' n' =>
      (cs = [] → s'.es.p.state < 0) ∧
      (b = true ∧ (C.bail = true ∨ (T n).ttype ≠ TOKEN_EOF) → rank C T ix N s'.es.eh n' < rank C T ix N s.es.eh n)) := by
  have hrl : r < C.rules.length := (List.getElem?_eq_some_iff.1 hr).1
  obtain ⟨s1, e1, g1, g2⟩ := enter_sane W h h0 h1 hrl hst
  refine .succ (b := fun m =>
    (andThen (select C m sel alts s1) fun a s2 => match a with
        | none => ret () s2
        | some a => andThen (s2.act (enterAlt a.label s.es.p.heap.length)) fun _ s => run C m a.code s).bind
      fun x => andThen (finish C m x) fun _ s => andThen (s.act P.exitRule) fun _ s' => ret s.es.p.ctx s') ?_ ?_
  · intro m
    simp only [runRule, hr]
    rw [e1]
    rfl
  refine Halts.bind (Q := fun x s' => ∃ c', Outcome C T V ix Inv N (rank C T ix N s.es.eh n) ((c', r) :: cs)
      (fun _ s' n' => b = true → rank C T ix N s'.es.eh n' < rank C T ix N s.es.eh n) x s') ?_ ?_
  · refine (hbody _ s1 g1 g2).andThen ?_ ?_
    · rintro o s2 ⟨n2, k1, k2, k3⟩
      cases o with
      | none => exact .now (x := .ok ()) (s' := s2) (fun m => rfl) ⟨_, n2, k1, k2, k3⟩
      | some a =>
        obtain ⟨c', s3, a1, a2, a3⟩ := alt_sane k1 a.label
        dsimp only
        rw [a1]
        exact (k3 c' s3 a2 a3).mono fun x s' hx => ⟨c', hx⟩
    · intro e s2 hx
      exact ⟨_, hx⟩
  · rintro x s2 ⟨c', hx⟩
    refine (finish_halts W (by simp) h.le hx).andThen ?_ ?_
    · rintro - s3 ⟨n3, k1, k2, k3⟩
      obtain ⟨s4, a1, a2, a3, a4⟩ := exit_sane W k1
      rw [a1]
      exact .now (x := .ok s3.es.p.ctx) (s' := s4) (fun m => rfl) ⟨n3, a2, by rw [a3]; exact k2, a4, by rw [a3]; exact k3⟩
    · intro e s3 hx
      exact .inl hx

end Antlr.Gen
