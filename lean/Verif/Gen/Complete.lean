import Verif.Gen.TrackCall

/-! # Generated code follows winning paths -/

namespace Antlr.Gen
open Antlr ParserSpec ParserLemmas ParserProps ErrorProps GenSpec LL1Spec PredictionSpec StackProps Prediction

set_option linter.unusedSectionVars false
variable {I S : Type} [TokStream I] {C : Cfg I S} {T : Nat → Tok} {V : I → Nat → Prop}
  {atn : ATN} {E : Nat → Prop} {w : Nat → Int} {Ok : Int → Prop} {Ch : Choice → Nat → Prop} {Inv : S → Prop} {total : Bool}

/-- What is asked of the parser, its input and its choices. -/
structure Sure (C : Cfg I S) (T : Nat → Tok) (V : I → Nat → Prop) (atn : ATN) (E : Nat → Prop) (w : Nat → Int) (Ok : Int → Prop)
    (Ch : Choice → Nat → Prop) (Inv : S → Prop) (total : Bool) : Prop where
  view : IsView T V
  types : ∀ n, w n = (T n).ttype
  ok : ∀ n, Ok (w n)
  nonzero : ∀ n, w n ≠ 0
  plain : Plain atn
  sync : C.bail = true ∨ (C.env.atn = atn ∧ ∀ a st, atn.states[a]? = some st → Foresees atn C.env.fuel a)
  rules : Mirror atn Ok Ch C.rules
  all : C.rules.length = atn.ruleToStartState.length
  /-- a choice takes the alternative of the winning path -/
  right : ∀ ch a dec, Ch ch a → Decision atn a dec → ∀ e s n cs outer τ, Good V Inv e s n cs outer → cs ≠ [] →
    Calls atn outer (ints τ) → Proper atn dec.ruleIndex τ → ∀ k (i : Nat) tr, dec.transitions[i]? = some tr →
    Go atn E w k n (tr.target, τ) →
    Ends total (fun m => choose C m ch s) fun x s' => x = ((i + 1 : Nat) : Int) ∧ Good V Inv e s' n cs outer

/-- The parser follows the winning path to state `b`. -/
def Arrives (V : I → Nat → Prop) (atn : ATN) (E : Nat → Prop) (w : Nat → Int) (Inv : S → Prop) (e : Nat) (cs : List Nat) (outer : List Int)
    (τ : List Nat) (b k : Nat) (s : GS I S) : Prop :=
  ∃ n l, l ≤ k ∧ Good V Inv e s n cs outer ∧ Go atn E w l n (b, τ)

theorem Arrives.mono {e : Nat} {cs : List Nat} {outer : List Int} {τ : List Nat} {b k k' : Nat} {s : GS I S} (hk : k ≤ k')
    (h : Arrives V atn E w Inv e cs outer τ b k s) : Arrives V atn E w Inv e cs outer τ b k' s := by
  obtain ⟨n, l, h1, h2⟩ := h
  exact ⟨n, l, by omega, h2⟩

/-- The code follows winning paths of at most `K` steps. -/
def Follows (C : Cfg I S) (V : I → Nat → Prop) (atn : ATN) (E : Nat → Prop) (w : Nat → Int) (Inv : S → Prop) (total : Bool) (K : Nat)
    (code : Code) (a b : Nat) : Prop :=
  ∀ k, k ≤ K → ∀ e s n cs outer τ, Good V Inv e s n cs outer → cs ≠ [] → Calls atn outer (ints τ) →
    Go atn E w k n (a, τ) →
    Ends total (fun m => run C m code s) fun _ s' => Arrives V atn E w Inv e cs outer τ b k s'

section
variable (H : Sure C T V atn E w Ok Ch Inv total)
include H

/-- The head of a block, at state `a`, for the decision of state `d`. -/
theorem head_ok {e n : Nat} {s : GS I S} {cs : List Nat} {outer : List Int} {τ : List Nat}
    (hg : Good V Inv e s n cs outer) (hc : cs ≠ []) (hcalls : Calls atn outer (ints τ)) {k a d : Nat}
    (hgo : Go atn E w k n (a, τ)) {ch : Choice} {dec : ATNState} (hch : Ch ch d) (hd : Decision atn d dec) {i : Nat}
    {tr : Trans} {l : Nat} (hfair : Proper atn dec.ruleIndex τ) (ht : dec.transitions[i]? = some tr)
    (hgo' : Go atn E w l n (tr.target, τ)) :
    Ends total (fun m => head C m (a : Nat) ch s) fun x s' => x = ((i + 1 : Nat) : Int) ∧ Good V Inv e s' n cs outer := by
  obtain ⟨s1, h1, h2⟩ := sync_ok H.view H.types H.plain H.sync hg hc hgo (H.nonzero n)
  unfold head
  refine Ends.andThen (Q := fun _ s' => s' = s1) (Ends.ret h1 rfl) ?_
  rintro u s2 rfl
  exact H.right ch d dec hch hd e s2 n cs outer τ h2 hc hcalls hfair l i tr ht hgo'

theorem decision_fair {a : Nat} {dec : ATNState} (hd : Decision atn a dec) {k n : Nat} {τ : List Nat}
    (h : Go atn E w k n (a, τ)) : Proper atn dec.ruleIndex τ := h.2 dec hd.state

theorem next_pos {n : Nat} {l : Nat} {q : Pos} {tr : Trans}
    (h : (w n ≠ TOKEN_EOF ∧ Takes atn.maxTokenType tr (w n) ∧ Go atn E w l (n + 1) q) ∨
       (w n = TOKEN_EOF ∧ Takes atn.maxTokenType tr TOKEN_EOF ∧ Go atn E w l n q)) :
    Takes atn.maxTokenType tr (w n) ∧ Go atn E w l (if (T n).ttype = TOKEN_EOF then n else n + 1) q := by
  rw [← H.types]
  rcases h with ⟨h1, h2, h3⟩ | ⟨h1, h2, h3⟩
  · rw [if_neg h1]; exact ⟨h2, h3⟩
  · rw [if_pos h1, h1]; exact ⟨h2, h3⟩

end

section
variable (H : Sure C T V atn E w Ok Ch Inv total)
include H

theorem reads {tr : Trans} {k n a : Nat} {τ : List Nat} (hs : Single atn a tr) (hf : ¬ Free tr)
    (hr : ∀ t f r p, tr ≠ .rule t f r p) (h : Go atn E w k n (a, τ)) :
    ∃ l, k = l + 1 ∧ Takes atn.maxTokenType tr (w n) ∧
      Go atn E w l (if (T n).ttype = TOKEN_EOF then n else n + 1) (tr.target, τ) := by
  obtain ⟨l, rfl, ⟨h1, -⟩ | ⟨t, f, r, p, h1, -⟩ | h1 | h1⟩ := h.sole H.plain hs
  · exact absurd h1 hf
  · exact absurd h1 (hr _ _ _ _)
  · exact ⟨l, rfl, next_pos H (.inl h1)⟩
  · exact ⟨l, rfl, next_pos H (.inr h1)⟩

/-- Code that does nothing: the path gets there without reading. -/
theorem nop_go {K a b : Nat} (hf : Follows C V atn E w Inv total K .nop a b) {k : Nat} (hk : k ≤ K) {e n : Nat}
    {s : GS I S} {cs : List Nat} {outer : List Int} {τ : List Nat} (hg : Good V Inv e s n cs outer) (hc : cs ≠ [])
    (hcalls : Calls atn outer (ints τ)) (hgo : Go atn E w k n (a, τ)) : Arrives V atn E w Inv e cs outer τ b k s := by
  have := hf k hk e s n cs outer τ hg hc hcalls hgo
  cases total
  · obtain ⟨a, -, h⟩ := this 1 (.ok ()) s rfl
    exact h
  · obtain ⟨m0, a, s', h1, h2⟩ := this
    have h3 := h2 (m0 + 1) (by omega)
    have : s = s' := by
      have e1 : run C (m0 + 1) .nop s = some (.ok (), s) := by simp [run, ret]
      replace h3 : run C (m0 + 1) .nop s = some (.ok a, s') := h3
      rw [e1] at h3
      simp only [Option.some.injEq, Prod.mk.injEq] at h3
      exact h3.2
    rw [this]; exact h1

omit H in
theorem pick_nat {α : Type} (alts : List α) (i : Nat) : pick alts ((i + 1 : Nat) : Int) = alts[i]? := by
  have h1 : (1 : Int) ≤ ((i + 1 : Nat) : Int) := by omega
  have h2 : (((i + 1 : Nat) : Int) - 1).toNat = i := by omega
  simp only [pick, h1, if_true, h2]

omit H in
theorem sides_cases {dec : ATNState} {bodyAlt exit : Int} {x y : Nat} (hs : Sides dec bodyAlt exit x y) {i : Nat}
    {tr : Trans} (ht : dec.transitions[i]? = some tr) :
    (((i + 1 : Nat) : Int) = exit ∧ tr.target = y) ∨
    (((i + 1 : Nat) : Int) = bodyAlt ∧ bodyAlt ≠ exit ∧ bodyAlt ≠ 0 ∧ tr.target = x) := by
  rcases hs with ⟨rfl, rfl, u, v, e⟩ | ⟨rfl, rfl, u, v, e⟩ <;> rw [e] at ht <;> rcases i with _ | _ | i
  all_goals simp only [List.getElem?_cons_zero, List.getElem?_cons_succ, List.getElem?_nil, Option.some.injEq,
    reduceCtorEq] at ht
  all_goals subst ht
  · exact .inr ⟨by simp, by simp, by simp, rfl⟩
  · exact .inl ⟨by simp, rfl⟩
  · exact .inl ⟨by simp, rfl⟩
  · exact .inr ⟨by simp, by simp, by simp, rfl⟩

theorem loop_goes {K a back x y b : Nat} {dec : ATNState} {ch : Choice} {exit bodyAlt : Int} {body : Code}
    (hd : Decision atn a dec) (hch : Ch ch a) (hs : Sides dec bodyAlt exit x y)
    (hbody : Follows C V atn E w Inv total K body x back) (hback : Plainly atn back a)
    (hout : Follows C V atn E w Inv total K .nop y b) {e : Nat} {cs : List Nat} {outer : List Int} {τ : List Nat}
    (hc : cs ≠ []) (hcalls : Calls atn outer (ints τ)) :
    ∀ k, k ≤ K → ∀ n s (i : Nat) tr, Good V Inv e s n cs outer → dec.transitions[i]? = some tr →
      Go atn E w k n (tr.target, τ) →
      Ends total (fun m => loop C m back ch exit bodyAlt body ((i + 1 : Nat) : Int) s)
        fun _ s' => Arrives V atn E w Inv e cs outer τ b k s' := by
  intro k
  induction k using Nat.strongRecOn with
  | _ k ih =>
    intro hk n s i tr hg ht hgo
    rcases sides_cases hs ht with ⟨h1, h2⟩ | ⟨h1, h2, h3, h4⟩
    · rw [h2] at hgo
      rw [h1]
      refine Ends.succ (b := fun _ => ret () s) (by simp [loop]) (fun m => by simp [loop]) ?_
      exact Ends.ret (fun m => rfl) (nop_go H hout hk hg hc hcalls hgo)
    · rw [h4] at hgo
      rw [h1]
      refine Ends.succ (b := fun m => andThen (run C m body s) fun _ s =>
        andThen (head C m back ch s) fun k s => loop C m back ch exit bodyAlt body k s)
        (by simp [loop]) (fun m => by simp [loop, h2, h3]) ?_
      refine Ends.andThen (hbody k hk e s n cs outer τ hg hc hcalls hgo) ?_
      rintro u s1 ⟨n1, l, hl, hg1, hgo1⟩
      obtain ⟨l1, rfl, hgo2⟩ := hgo1.plainly H.plain hback
      obtain ⟨l2, i2, tr2, rfl, ht2, hgo3⟩ := hgo2.decide H.plain hd
      refine Ends.andThen (head_ok H hg1 hc hcalls hgo1 hch hd (decision_fair H hd hgo2) ht2 hgo3) ?_
      rintro k2 s2 ⟨rfl, hg2⟩
      exact (ih l2 (by omega) (by omega) n1 s2 i2 tr2 hg2 ht2 hgo3).mono fun _ _ h => h.mono (by omega)

theorem plusLoop_goes {K a back y b : Nat} {dec : ATNState} {ch : Choice} {exit bodyAlt : Int} {body : Code}
    (hd : Decision atn back dec) (hch : Ch ch back) (hs : Sides dec bodyAlt exit a y)
    (hbody : Follows C V atn E w Inv total K body a back)
    (hout : Follows C V atn E w Inv total K .nop y b) {e : Nat} {cs : List Nat} {outer : List Int} {τ : List Nat}
    (hc : cs ≠ []) (hcalls : Calls atn outer (ints τ)) :
    ∀ k, k ≤ K → ∀ n s, Good V Inv e s n cs outer → Go atn E w k n (a, τ) →
      Ends total (fun m => plusLoop C m back ch exit bodyAlt body bodyAlt s)
        fun _ s' => Arrives V atn E w Inv e cs outer τ b k s' := by
  intro k
  induction k using Nat.strongRecOn with
  | _ k ih =>
    intro hk n s hg hgo
    refine Ends.succ (b := fun m => andThen (run C m body s) fun _ s =>
      andThen (head C m back ch s) fun k s =>
        if k = exit ∨ k = 0 then ret () s else plusLoop C m back ch exit bodyAlt body k s)
      (by simp [plusLoop]) (fun m => by simp [plusLoop]) ?_
    refine Ends.andThen (hbody k hk e s n cs outer τ hg hc hcalls hgo) ?_
    rintro u s1 ⟨n1, l, hl, hg1, hgo1⟩
    obtain ⟨l2, i2, tr2, rfl, ht2, hgo3⟩ := hgo1.decide H.plain hd
    refine Ends.andThen (head_ok H hg1 hc hcalls hgo1 hch hd (decision_fair H hd hgo1) ht2 hgo3) ?_
    rintro k2 s2 ⟨rfl, hg2⟩
    rcases sides_cases hs ht2 with ⟨h1, h2⟩ | ⟨h1, h2, h3, h4⟩
    · rw [h2] at hgo3
      simp only [h1, true_or, if_true]
      exact Ends.ret (fun m => rfl) ((nop_go H hout (by omega) hg2 hc hcalls hgo3).mono (by omega))
    · rw [h4] at hgo3
      simp only [h1, h2, h3, or_self, if_false]
      exact (ih l2 (by omega) (by omega) n1 s2 hg2 hgo3).mono fun _ _ h => h.mono (by omega)

/-- A call of a rule function, at the start of the rule. -/
theorem rule_goes {K : Nat} (hf : ∀ code a b, Leads atn Ok Ch code a b → Follows C V atn E w Inv total K code a b)
    {r start : Nat} (hr : atn.ruleToStartState[r]? = some start) (q : Int) {k : Nat} (hk : k ≤ K) {e n : Nat}
    {s : GS I S} {cs : List Nat} {outer : List Int} {σ : List Nat} (hg : Good V Inv e s n cs outer)
    (hcalls : Calls atn (s.es.p.state :: outer) (ints σ)) (hgo : Go atn E w k n (start, σ)) :
    Ends total (fun m => runRule C m r q s) fun _ s' => ∃ n' l stop st, l ≤ k ∧ Good V Inv e s' n' cs outer ∧
      Go atn E w l n' (stop, σ) ∧ atn.states[stop]? = some st ∧ st.stateType = .ruleStop := by
  have hlen : r < C.rules.length := by
    rw [H.all]; exact (List.getElem?_eq_some_iff.1 hr).1
  have hfn : C.rules[r]? = some C.rules[r] := List.getElem?_eq_getElem hlen
  have hm := H.rules r _ hfn
  generalize C.rules[r] = fn at hfn hm
  -- the part common to both shapes
  have main : ∀ (st0 : Int) sel alts (stop : Nat) sst, fn = .plain st0 sel alts → atn.states[stop]? = some sst →
      sst.stateType = .ruleStop →
      (∀ s n cs outer, Good V Inv e s n cs outer → cs ≠ [] → Calls atn outer (ints σ) →
        Go atn E w k n (start, σ) →
        Ends total (fun m => select C m sel alts s) fun a s' => ∃ (x : Alt) (b l n' : Nat), a = some x ∧ l ≤ k ∧
          Leads atn Ok Ch x.code b stop ∧ Go atn E w l n' (b, σ) ∧ Good V Inv e s' n' cs outer) →
      Ends total (fun m => runRule C m r q s) fun _ s' => ∃ n' l stop st, l ≤ k ∧ Good V Inv e s' n' cs outer ∧
        Go atn E w l n' (stop, σ) ∧ atn.states[stop]? = some st ∧ st.stateType = .ruleStop := by
    rintro st0 sel alts stop sst rfl h1 h2 hsel
    obtain ⟨p1, e1, t1, x1⟩ := hg.track.enter H.view r st0
    have g1 : Good V Inv e ({ s with es := ⟨s.es.eh, p1⟩ } : GS I S) n (s.es.p.heap.length :: cs)
        (s.es.p.state :: outer) := ⟨t1, hg.mode, by show p1.syntaxErrors = e; rw [x1, hg.errs], hg.inv⟩
    have a1 : s.act (fun p => P.enterRule (p.alloc r none p.ctx p.state).2 s.es.p.heap.length st0) =
        some (.ok (), ({ s with es := ⟨s.es.eh, p1⟩ } : GS I S)) := by
      simp only [GS.act]
      rw [e1]; rfl
    refine Ends.succ (r := fun m => runRule C m r q s) (b := fun m =>
      andThen (s.act fun p => P.enterRule (p.alloc r none p.ctx p.state).2 s.es.p.heap.length st0) fun _ s1 =>
      (andThen (select C m sel alts s1) fun a s1 =>
        match a with
        | none => ret () s1
        | some a => andThen (s1.act (enterAlt a.label s.es.p.heap.length)) fun _ s => run C m a.code s).bind
      fun x => andThen (finish C m x) fun _ s =>
        andThen (s.act P.exitRule) fun _ s' => ret s.es.p.ctx s') (by simp [runRule])
        (fun m => by simp only [runRule, hfn]; rfl) ?_
    refine Ends.andThen (Q := fun _ s1 => s1 = ({ s with es := ⟨s.es.eh, p1⟩ } : GS I S))
      (Ends.ret (fun _ => a1) rfl) ?_
    rintro u s1 rfl
    refine Ends.bind (Q := fun _ s2 => ∃ c, Arrives V atn E w Inv e (c :: cs) (s.es.p.state :: outer) σ stop k s2) ?_ ?_
    · refine Ends.andThen (hsel _ n _ _ g1 (by simp) hcalls hgo) ?_
      rintro a s2 ⟨x, b, l, n1, rfl, hl, hx, hgo2, g2⟩
      obtain ⟨p3, c, e3, t3, x3⟩ := g2.track.alt x.label
      have a3 : s2.act (enterAlt x.label s.es.p.heap.length) = some (.ok (), ({ s2 with es := ⟨s2.es.eh, p3⟩ } : GS I S)) := by
        simp only [GS.act]
        rw [e3]; rfl
      have g3 : Good V Inv e ({ s2 with es := ⟨s2.es.eh, p3⟩ } : GS I S) n1 (c :: cs) (s.es.p.state :: outer) :=
        ⟨t3, g2.mode, by show p3.syntaxErrors = e; rw [x3, g2.errs], g2.inv⟩
      refine Ends.andThen (Q := fun _ s1 => s1 = ({ s2 with es := ⟨s2.es.eh, p3⟩ } : GS I S))
        (Ends.ret (fun _ => a3) rfl) ?_
      rintro u s3 rfl
      exact (hf _ _ _ hx l (by omega) e _ n1 _ _ σ g3 (by simp) hcalls hgo2).mono
        fun _ _ h => ⟨c, h.mono hl⟩
    · rintro u s2 ⟨c, n2, l2, hl2, g2, hgo2⟩
      refine Ends.andThen (Q := fun _ s3 => s3 = s2) (Ends.ret (a := ()) (fun m => ?_) rfl) ?_
      · by_cases hb : C.bail <;> simp [finish, hb, GS.strat, ES.bailRuleEnd, ES.ruleEnd]
      rintro u s3 rfl
      obtain ⟨p4, e4, t4, x4⟩ := g2.track.exit H.view
      have a4 : s3.act P.exitRule = some (.ok (), ({ s3 with es := ⟨s3.es.eh, p4⟩ } : GS I S)) := by
        simp only [GS.act]
        rw [e4]; rfl
      refine Ends.andThen (Q := fun _ s1 => s1 = ({ s3 with es := ⟨s3.es.eh, p4⟩ } : GS I S))
        (Ends.ret (fun _ => a4) rfl) ?_
      rintro u s4 rfl
      refine Ends.ret (fun _ => rfl) ?_
      exact ⟨n2, l2, stop, sst, hl2, ⟨t4, g2.mode, by show p4.syntaxErrors = e; rw [x4, g2.errs], g2.inv⟩, hgo2, h1, h2⟩
  cases hm with
  | @one start' stop a sst h1 h2 h3 h5 h4 =>
    rw [hr, Option.some.injEq] at h1
    subst h1
    refine main _ _ _ stop sst rfl h2 h3 ?_
    intro s1 n1 cs1 outer1 g1 _ _ go1
    exact Ends.ret (fun _ => rfl) ⟨a, start, k, n1, rfl, Nat.le_refl _, h4, go1, g1⟩
  | @many start' stop a dec sst ch alts h1 h2 h3 h5 h4 hd hch hl ha =>
    rw [hr, Option.some.injEq] at h1
    subst h1
    refine main _ _ _ stop sst rfl h2 h3 ?_
    intro s1 n1 cs1 outer1 g1 hc1 hcalls1 go1
    obtain ⟨n2, l, hl1, g2, go2⟩ := nop_go H (hf _ _ _ h4) hk g1 hc1 hcalls1 go1
    obtain ⟨l2, i, tr, rfl, ht, go3⟩ := go2.decide H.plain hd
    refine Ends.andThen (head_ok H g2 hc1 hcalls1 go2 hch hd (decision_fair H hd go2) ht go3) ?_
    rintro k2 s2 ⟨rfl, g3⟩
    have hi : i < alts.length := by rw [hl]; exact (List.getElem?_eq_some_iff.1 ht).1
    have hx : alts[i]? = some alts[i] := List.getElem?_eq_getElem hi
    refine Ends.ret (fun _ => rfl) ?_
    exact ⟨alts[i], tr.target, l2, n2, by rw [pick_nat, hx], by omega, ha i _ _ hx ht, go3, g3⟩

/-- The code of a piece of the machine follows every winning path through it. -/
theorem follows (K : Nat) : ∀ code a b, Leads atn Ok Ch code a b → Follows C V atn E w Inv total K code a b := by
  induction K using Nat.strongRecOn with
  | _ K IH =>
  intro code a b h
  induction h with
  | skip h1 h2 ih =>
    intro k hk e s n cs outer τ hg hc hcalls hgo
    obtain ⟨l, rfl, hgo2⟩ := hgo.plainly H.plain h1
    exact (ih l (by omega) e s n cs outer τ hg hc hcalls hgo2).mono fun _ _ h => h.mono (by omega)
  | rest h1 h2 ih =>
    intro k hk e s n cs outer τ hg hc hcalls hgo
    refine (ih k hk e s n cs outer τ hg hc hcalls hgo).mono ?_
    rintro _ s' ⟨n', l, hl, hg', hgo'⟩
    obtain ⟨l, rfl, hgo2⟩ := hgo'.plainly H.plain h2
    exact ⟨n', l, by omega, hg', hgo2⟩
  | nop =>
    intro k hk e s n cs outer τ hg hc hcalls hgo
    refine Ends.succ (b := fun _ => ret () s) (by simp [run]) (fun m => by simp [run]) ?_
    exact Ends.ret (fun _ => rfl) ⟨n, k, Nat.le_refl _, hg, hgo⟩
  | @seq x y a b d h1 h2 ih1 ih2 =>
    intro k hk e s n cs outer τ hg hc hcalls hgo
    refine Ends.succ (b := fun m => andThen (run C m x s) fun _ s => run C m y s) (by simp [run])
      (fun m => by simp [run]) ?_
    refine Ends.andThen (ih1 k hk e s n cs outer τ hg hc hcalls hgo) ?_
    rintro _ s' ⟨n', l, hl, hg', hgo'⟩
    exact (ih2 l (by omega) e s' n' cs outer τ hg' hc hcalls hgo').mono fun _ _ h => h.mono hl
  | @tok a b t h1 =>
    intro k hk e s n cs outer τ hg hc hcalls hgo
    obtain ⟨l, rfl, h2, hgo⟩ := reads H h1 (by simp [Free]) (by simp) hgo
    simp only [Takes] at h2
    rw [H.types] at h2
    obtain ⟨tok, s', h3, hg'⟩ := matchTok_ok (C := C) H.view (hg.setState (a : Nat)) hc h2
    refine Ends.succ (b := fun m => andThen (matchTok C t (s.setState (a : Nat))) fun _ s => ret () s) (by simp [run])
      (fun m => by simp [run]) ?_
    exact Ends.ret (a := ()) (s' := s') (fun m => by rw [h3]; rfl) ⟨_, l, by omega, hg', hgo⟩
  | @set a tr ts invert h1 h0 h2 =>
    intro k hk e s n cs outer τ hg hc hcalls hgo
    obtain ⟨l, rfl, h3, hgo⟩ := reads H h1 (by cases tr <;> simp_all [Free, Trans.isEpsilon])
      (by rintro t f r p rfl; simp [Trans.isEpsilon] at h0) hgo
    rw [h2 _ (H.ok n), H.types] at h3
    obtain ⟨s', h3, hg'⟩ := matchSet_ok (C := C) H.view (hg.setState (a : Nat)) hc h3
    refine Ends.succ (b := fun m => matchSet C ts invert (s.setState (a : Nat))) (by simp [run])
      (fun m => by simp [run]) ?_
    exact Ends.ret (a := ()) (s' := s') (fun m => h3) ⟨_, l, by omega, hg', hgo⟩
  | @any a b h1 h2 =>
    intro k hk e s n cs outer τ hg hc hcalls hgo
    obtain ⟨l, rfl, h3, hgo⟩ := reads H h1 (by simp [Free]) (by simp) hgo
    simp only [Takes] at h3
    rw [H.types] at h3
    obtain ⟨tok, s', h3, hg'⟩ := matchAny_ok (C := C) H.view (hg.setState (a : Nat)) hc h3.1
    refine Ends.succ (b := fun m => andThen (matchAny C (s.setState (a : Nat))) fun _ s => ret () s) (by simp [run])
      (fun m => by simp [run]) ?_
    exact Ends.ret (a := ()) (s' := s') (fun m => by rw [h3]; rfl) ⟨_, l, by omega, hg', hgo⟩
  | @call a t f r p q h1 h2 =>
    intro k hk e s n cs outer τ hg hc hcalls hgo
    have h1' := h1
    obtain ⟨l, rfl, ⟨h3, -⟩ | ⟨t', f', r', p', h3, hgo⟩ | ⟨-, h3, -⟩ | ⟨-, h3, -⟩⟩ := hgo.sole H.plain h1
    · cases h3
    · cases h3
      refine Ends.succ (b := fun m => andThen (runRule C m r q (s.setState (a : Nat))) fun _ s => ret () s)
        (by simp [run]) (fun m => by simp [run]) ?_
      have hcalls' : Calls atn ((s.setState (a : Nat)).es.p.state :: outer) (ints (f :: τ)) := by
        obtain ⟨st, e1, e2, e3⟩ := h1'
        refine .call a st t f r p [] ?_ e1 e3 hcalls
        rintro rfl
        have := hg.track.chain
        cases cs with
        | nil => exact hc rfl
        | cons c cs => cases this
      refine Ends.andThen (rule_goes H (K := l) (IH l (by omega)) h2 q (Nat.le_refl _) (hg.setState (a : Nat)) hcalls' hgo) ?_
      rintro x s' ⟨n', l', stop, st, hl, hg', hgo', e1, e2⟩
      obtain ⟨l2, rfl, hgo2⟩ := hgo'.ret H.plain e1 e2
      exact Ends.ret (fun _ => rfl) ⟨n', l2, by omega, hg', hgo2⟩
    · cases h3
    · cases h3
  | @block a dec ch alts b hd hch hl ha ih =>
    intro k hk e s n cs outer τ hg hc hcalls hgo
    obtain ⟨l, i, tr, rfl, ht, hgo'⟩ := hgo.decide H.plain hd
    refine Ends.succ (b := fun m => andThen (head C m (a : Nat) ch s) fun k s =>
      match pick alts k with
      | some a => run C m a s
      | none => ret () s) (by simp [run]) (fun m => by simp only [run]; rfl) ?_
    refine Ends.andThen (head_ok H hg hc hcalls hgo hch hd (decision_fair H hd hgo) ht hgo') ?_
    rintro k2 s2 ⟨rfl, hg2⟩
    have hi : i < alts.length := by rw [hl]; exact (List.getElem?_eq_some_iff.1 ht).1
    have hx : alts[i]? = some alts[i] := List.getElem?_eq_getElem hi
    simp only [pick_nat, hx]
    exact (ih i _ _ hx ht l (by omega) e s2 n cs outer τ hg2 hc hcalls hgo').mono fun _ _ h => h.mono (by omega)
  | @opt a dec ch alts last b hd hch hl ha hlast hnop ih ihn =>
    intro k hk e s n cs outer τ hg hc hcalls hgo
    obtain ⟨l, i, tr, rfl, ht, hgo'⟩ := hgo.decide H.plain hd
    refine Ends.succ (b := fun m => andThen (head C m (a : Nat) ch s) fun k s =>
      match pick alts (k - 0) with
      | some a => run C m a s
      | none => ret () s) (by simp [run]) (fun m => by simp only [run]; rfl) ?_
    refine Ends.andThen (head_ok H hg hc hcalls hgo hch hd (decision_fair H hd hgo) ht hgo') ?_
    rintro k2 s2 ⟨rfl, hg2⟩
    simp only [Int.sub_zero, pick_nat]
    have hi : i < dec.transitions.length := (List.getElem?_eq_some_iff.1 ht).1
    by_cases hi2 : i < alts.length
    · have hx : alts[i]? = some alts[i] := List.getElem?_eq_getElem hi2
      simp only [hx]
      exact (ih i _ _ hx ht l (by omega) e s2 n cs outer τ hg2 hc hcalls hgo').mono fun _ _ h => h.mono (by omega)
    · obtain rfl : i = alts.length := by omega
      rw [hlast, Option.some.injEq] at ht
      subst ht
      simp only [List.getElem?_eq_none_iff.2 (Nat.le_refl _)]
      exact Ends.ret (fun _ => rfl) ((nop_go H ihn (by omega) hg2 hc hcalls hgo').mono (by omega))
  | @optLazy a dec ch alts first b hd hch hl ha hfirst hnop ih ihn =>
    intro k hk e s n cs outer τ hg hc hcalls hgo
    obtain ⟨l, i, tr, rfl, ht, hgo'⟩ := hgo.decide H.plain hd
    refine Ends.succ (b := fun m => andThen (head C m (a : Nat) ch s) fun k s =>
      match pick alts (k - 1) with
      | some a => run C m a s
      | none => ret () s) (by simp [run]) (fun m => by simp only [run]; rfl) ?_
    refine Ends.andThen (head_ok H hg hc hcalls hgo hch hd (decision_fair H hd hgo) ht hgo') ?_
    rintro k2 s2 ⟨rfl, hg2⟩
    have hi : i < dec.transitions.length := (List.getElem?_eq_some_iff.1 ht).1
    cases i with
    | zero =>
      rw [hfirst, Option.some.injEq] at ht
      subst ht
      have : pick alts (((0 + 1 : Nat) : Int) - 1) = none := by simp [pick]
      simp only [this]
      exact Ends.ret (fun _ => rfl) ((nop_go H ihn (by omega) hg2 hc hcalls hgo').mono (by omega))
    | succ i =>
      have h1 : (((i + 1 + 1 : Nat) : Int) - 1) = ((i + 1 : Nat) : Int) := by omega
      have hx : alts[i]? = some alts[i] := List.getElem?_eq_getElem (by omega)
      simp only [h1, pick_nat, hx]
      exact (ih i _ _ hx ht l (by omega) e s2 n cs outer τ hg2 hc hcalls hgo').mono fun _ _ h => h.mono (by omega)
  | @star a back dec ch exit bodyAlt body x y b hd hch hs hb hback hn ihb ihn =>
    intro k hk e s n cs outer τ hg hc hcalls hgo
    obtain ⟨l, i, tr, rfl, ht, hgo'⟩ := hgo.decide H.plain hd
    refine Ends.succ (b := fun m => andThen (head C m (a : Nat) ch s) fun k s =>
      loop C m back ch exit bodyAlt body k s) (by simp [run]) (fun m => by simp [run]) ?_
    refine Ends.andThen (head_ok H hg hc hcalls hgo hch hd (decision_fair H hd hgo) ht hgo') ?_
    rintro k2 s2 ⟨rfl, hg2⟩
    exact (loop_goes H hd hch hs ihb hback ihn hc hcalls l (by omega) n s2 i tr hg2 ht hgo').mono
      fun _ _ h => h.mono (by omega)
  | @plus a back dec ch exit bodyAlt body y b hd hch hs hb hn ihb ihn =>
    intro k hk e s n cs outer τ hg hc hcalls hgo
    refine Ends.succ (b := fun m => andThen (sync C m (s.setState (a : Nat))) fun _ s =>
      plusLoop C m back ch exit bodyAlt body bodyAlt s) (by simp [run]) (fun m => by simp [run]) ?_
    obtain ⟨s1, h1, h2⟩ := sync_ok H.view H.types H.plain H.sync hg hc hgo (H.nonzero n)
    refine Ends.andThen (Q := fun _ s' => s' = s1) (Ends.ret h1 rfl) ?_
    rintro u s2 rfl
    exact plusLoop_goes H hd hch hs ihb ihn hc hcalls k hk n s2 h2 hgo

/-- A call of a rule that is not called by another rule. -/
theorem root_ok {r start : Nat} (hr : atn.ruleToStartState[r]? = some start) (q : Int) {k e n : Nat} {s : GS I S}
    (hg : Good V Inv e s n [] []) (hw : Wins atn E w k n (start, [])) :
    Ends total (fun m => runRule C m r q s) fun _ s' => ∃ n', Good V Inv e s' n' [] [] ∧ w n' = TOKEN_EOF := by
  have hgo : Go atn E w k n (start, []) := ⟨hw, fun _ _ => .nil⟩
  refine (rule_goes H (follows H k) hr q (Nat.le_refl _) hg (.root _) hgo).mono ?_
  rintro x s' ⟨n', l, stop, st, hl, hg', hgo', e1, e2⟩
  exact ⟨n', hg', hgo'.last H.plain e1 e2⟩

end
end Antlr.Gen
