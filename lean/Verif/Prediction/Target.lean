import Verif.Prediction.Cache

/-!
# `compute_target_state` keeps what the DFA says right
-/

namespace Antlr.Prediction
open Antlr StackSpec ConfigSet PC PredictionSpec LL1Spec PredictionMode PredictionModeProps

variable {I : Type}

theorem TL.range {atn : ATN} {dec : ATNState} {v : List Int} {j : Int} {p : Pos} (h : TL atn dec v j p) :
    1 ≤ j ∧ j ≤ dec.transitions.length := by
  obtain ⟨σ, -, h⟩ := h.ex
  exact h.range

theorem SoundK.range {atn : ATN} {full : Bool} {T : Int → Pos → Prop} {E : Int → Prop} {n : Nat}
    (hT : ∀ j p, T j p → 1 ≤ j ∧ j ≤ n) (hE : ∀ j, E j → 1 ≤ j ∧ j ≤ n) {c : Config}
    (h : SoundK atn full T E c) : 1 ≤ c.alt ∧ c.alt ≤ n := by
  rcases h with h | h
  · obtain ⟨k, h⟩ := h.ex; exact hT _ _ h
  · exact hE _ h.2.2.2

theorem EndedBefore.range {atn : ATN} {T : List Int → Int → Pos → Prop} {n : Nat}
    (hT : ∀ v j p, T v j p → 1 ≤ j ∧ j ≤ n) {v : List Int} {j : Int} (h : EndedBefore atn T v j) :
    1 ≤ j ∧ j ≤ n := by
  obtain ⟨u, p, -, h, -⟩ := h; exact hT _ _ _ h

/-- All alternatives of configurations, and no others, are alternatives of the conflicting sets. -/
theorem mem_getAlts (s : ConfigSet) (n : Nat) :
    n ∈ getAlts (conflictingAltSubsets s) ↔ ∃ c ∈ s.configs, asUsize c.alt = n := by
  obtain ⟨h1, h2, -⟩ := C36_subsets s _ (List.Perm.refl _)
  rw [(C36_get_alts _).2]
  constructor
  · rintro ⟨A, hA, hn⟩
    obtain ⟨c, -, hi⟩ := h1 A hA
    obtain ⟨x, hx, -, e⟩ := (hi.2 n).1 hn
    exact ⟨x, hx, e⟩
  · rintro ⟨c, hc, e⟩
    obtain ⟨A, hA, hi⟩ := h2 c hc
    exact ⟨A, hA, (hi.2 n).2 ⟨c, hc, rfl, e⟩⟩

theorem Holds.marks {full d : Bool} {A : List Config} {s : ConfigSet} (h : Holds full d A s) :
    s.uniqueAlt = 0 ∧ s.conflictingAlts = [] := by
  obtain ⟨⟨b, h⟩, -, -⟩ := h
  exact ⟨h.unique, h.confl⟩

theorem asUsize_back {a : Int} (h : 1 ≤ a) (h' : a < 2 ^ 63) : ((asUsize a : Nat) : Int) = a := by
  rw [asUsize_small _ (by omega) (by omega)]; omega

/-- The marks that `compute_target_state` gives a state. -/
theorem targetState_spec {P : Params I} {decision : Int} {s : ConfigSet} {D : DFAState}
    (hu : s.uniqueAlt = 0) (hc : s.conflictingAlts = []) (hs : s.hasSem = false) (hne : s.configs ≠ [])
    (hr : ∀ c ∈ s.configs, 1 ≤ c.alt ∧ c.alt < 2 ^ 63) (h : targetState P decision s = some D) :
    Tidy D ∧ D.stateNumber = 0 ∧ D.edges = [] ∧ D.configs.configs = s.configs ∧
    (D.isAccept = true → D.requiresFullCtx = false → uniqueAlt s ≠ INVALID_ALT ∧ D.prediction = uniqueAlt s) ∧
    (D.requiresFullCtx = true → uniqueAlt s = INVALID_ALT) ∧
    (D.isAccept = false → uniqueAlt s = INVALID_ALT ∧ ¬ ∀ c ∈ s.configs, isStop P.atn c = true) := by
  unfold targetState at h
  rw [Option.bind_eq_some_iff] at h
  obtain ⟨E, hE, h⟩ := h
  have hsem : E.configs.hasSem = false := by
    split at hE
    · simp only [Option.some.injEq] at hE; subst hE; exact hs
    · rw [Option.bind_eq_some_iff] at hE
      obtain ⟨b, -, hE⟩ := hE
      cases b with
      | true =>
        simp only [if_true, Option.map_eq_some_iff] at hE
        obtain ⟨m, -, rfl⟩ := hE
        exact hs
      | false =>
        simp only [Bool.false_eq_true, if_false, Option.some.injEq] at hE
        subst hE; exact hs
  rw [hsem, Bool.and_false, if_neg (by simp), Option.some.injEq] at h
  subst h
  split at hE
  · rename_i hne'
    simp only [Option.some.injEq] at hE
    subst hE
    refine ⟨⟨rfl, ?_, ?_, ?_, ?_, ?_⟩, rfl, rfl, rfl, ?_, ?_, ?_⟩
    · simp only [DFAState.new, true_iff]; exact .inl hne'
    · simp only [DFAState.new, hc]; simp
    · simp [DFAState.new]
    · intro _; exact uniqueAlt_mem hne'
    · simp [DFAState.new]
    · intro _ _; exact ⟨hne', rfl⟩
    · simp [DFAState.new]
    · simp
  · rename_i heq
    rw [not_not] at heq
    rw [Option.bind_eq_some_iff] at hE
    obtain ⟨b, hb, hE⟩ := hE
    cases b with
    | true =>
      simp only [if_true, Option.map_eq_some_iff] at hE
      obtain ⟨m, hm, rfl⟩ := hE
      have hmem : m ∈ getAlts (conflictingAltSubsets s) := by
        exact (((head_isMin _ (C36_get_alts _).1 m).1 hm)).1
      obtain ⟨c, hcm, e⟩ := (mem_getAlts s m).1 hmem
      have hne2 : getAlts (conflictingAltSubsets s) ≠ [] := by
        intro h0; rw [h0] at hmem; simp at hmem
      refine ⟨⟨rfl, ?_, ?_, ?_, ?_, ?_⟩, rfl, rfl, rfl, ?_, ?_, ?_⟩
      · simp only [DFAState.new, true_iff]; exact .inr hne2
      · simp only [DFAState.new, true_iff]; exact ⟨hu, hne2⟩
      · simp [DFAState.new, hu]
      · intro _
        refine ⟨c, hcm, ?_⟩
        rw [← e]; exact (asUsize_back (hr c hcm).1 (hr c hcm).2).symm
      · intro _ x hx
        have h1 := ((head_isMin _ (C36_get_alts _).1 m).1 hm).2 _ ((mem_getAlts s _).2 ⟨x, hx, rfl⟩)
        have h2 := asUsize_back (hr x hx).1 (hr x hx).2
        dsimp only
        omega
      · simp
      · intro _; exact heq
      · simp
    | false =>
      simp only [Bool.false_eq_true, if_false, Option.some.injEq] at hE
      subst hE
      refine ⟨⟨rfl, ?_, ?_, ?_, ?_, ?_⟩, rfl, rfl, rfl, ?_, ?_, ?_⟩
      · simp [DFAState.new, hu, hc]
      · simp [DFAState.new, hc]
      · simp [DFAState.new, hu]
      · simp [DFAState.new]
      · simp [DFAState.new]
      · simp [DFAState.new]
      · simp [DFAState.new]
      · intro _
        refine ⟨heq, ?_⟩
        intro hall
        rw [if_pos (List.all_eq_true.2 hall)] at hb
        simp at hb

/-- `nextState` gives a state that is right, in a DFA that stays right. -/
theorem nextState_spec [TokStream I] {L : Local I} {cf : Nat} (ha : Plain L.atn) (hp : L.isPrec = false)
    {s : Nat} {dec : ATNState} (hdec : Decides L.atn s dec) {d d' : DFA} {prev j : Nat} {t : Int}
    {mc mc' : PC.Cache} {inp inp' : I} (hd : DInv L.atn s dec d) (ht : TokOk t) {D : DFAState}
    (hD : d.states[prev]? = some D) (hacc : D.isAccept = false) {v : List Int} (hv : Fits L.atn dec D v)
    (hm : CacheFit false true mc)
    (h : nextState L cf d prev t mc inp = some (j, d', mc', inp'))
    (hsz : d'.states.length ≤ ERROR_DFA_STATE_REF) :
    inp' = inp ∧ CacheFit false true mc' ∧ DInv L.atn s dec d' ∧
    (∃ D', d'.states[prev]? = some D' ∧ Core D D') ∧ EdgeOk L.atn dec d' D t j ∧ Grows d d' ∧ Keeps d d' ∧
    (t ≤ L.atn.maxTokenType → d'.existingTarget prev t = some (some j)) := by
  rw [nextState, Option.bind_eq_some_iff] at h
  obtain ⟨e, he, h⟩ := h
  cases e with
  | some k =>
    simp only [Option.some.injEq, Prod.mk.injEq] at h
    obtain ⟨rfl, rfl, rfl, rfl⟩ := h
    exact ⟨rfl, hm, hd, ⟨D, hD, .refl D⟩, hd.edge _ _ _ _ hD hacc ht he, .refl d, .refl d,
      fun _ => he⟩
  | none =>
    dsimp only at h
    rw [computeTarget, hD, Option.bind_some, Option.bind_eq_some_iff] at h
    obtain ⟨⟨r, mc1, i1⟩, h1, h⟩ := h
    dsimp only at h
    have spec : ∀ u, Fits L.atn dec D u → _ := fun u hu =>
      computeReach_spec (d := true) ha hp (fun _ => rfl) (t := t) (T0 := TL L.atn dec u)
        (T1 := TL L.atn dec (u ++ [t])) (fun j p q h hr => h.read ha hr)
        (TL.goes ha (fun he => ⟨u, by rw [beq_iff_eq] at he; rw [he]⟩)) (fun j p h => h.range.1)
        hu.sound hm h1
    obtain ⟨rfl, g2, -⟩ := spec v hv
    -- threads that were at the end before EOF
    have stay : ∀ u, Fits L.atn dec D u → ∀ σ, Proper L.atn dec.ruleIndex σ → ∀ j p,
        (∃ u', u ++ [t] = u' ++ [TOKEN_EOF] ∧ Live L.atn dec σ j u' p ∧ Ended L.atn p) →
        Counts L.atn false (u ++ [t]) p → ∃ s, r = some s ∧ Covers true (· ∈ s.configs) j p := by
      rintro u hu σ hσ j p ⟨u', e, h1, h2⟩ hc
      obtain ⟨rfl, e2⟩ := List.append_inj' e rfl
      simp only [List.cons.injEq, and_true] at e2
      exact (spec u hu).2.2.2.2.2 rfl e2 j p (hu.more hacc σ hσ j p h1 hc.1) h2
    have cov : ∀ u, Fits L.atn dec D u → ∀ σ, Proper L.atn dec.ruleIndex σ → _ := fun u hu σ hσ =>
      (spec u hu).2.2.2.1 rfl (fun j p => Live L.atn dec σ j u p) (fun j p => Live L.atn dec σ j (u ++ [t]) p)
        (live_generated u t) (fun j p h => h.fair ha hdec hσ) (fun j p h hw => hu.more hacc σ hσ j p h (.inl hw))
    cases r with
    | none =>
      dsimp only at h
      rw [Option.map_eq_some_iff] at h
      obtain ⟨d2, h2, h⟩ := h
      simp only [Prod.mk.injEq] at h
      obtain ⟨rfl, rfl, rfl, rfl⟩ := h
      obtain ⟨a1, a2, a3, a4, a5, a6, a7⟩ := addEdge_spec ht h2
      have hdead : ∀ u, Fits L.atn dec D u → Dead L.atn dec (u ++ [t]) := by
        intro u hu σ hσ j p hj hc
        rcases hj with hj | ⟨-, hj⟩
        rotate_left
        · obtain ⟨x, hx, -⟩ := stay u hu σ hσ j p hj hc
          simp at hx
        rcases cov u hu σ hσ with ⟨x, hx, -⟩ | hcov
        · simp at hx
        · obtain ⟨x, hx, -⟩ := hcov j p hj hc.1 (fun e => hc.2 (by rw [e]; simp))
          simp at hx
      obtain ⟨z1, z2⟩ := addEdge_get ht h2
      refine ⟨rfl, g2, ?_, a1.2 _ _ hD, ?_, a1, z1 he, fun hmax => z2 hmax (by simp [ERROR_DFA_STATE_REF])⟩
      · refine ⟨a4.trans hd.noPrec, a5.trans hd.atnStart, ?_, ?_, ?_, ?_, addEdge_wide hd.wide h2⟩
        · intro i E hE
          obtain ⟨E0, e1, e2⟩ := a6 i E hE
          exact e2.tidy (hd.tidy i E0 e1)
        · intro i E u k hE hE' hu hk
          obtain ⟨E0, e1, e2⟩ := a6 i E hE
          rcases a7 i u k hu hk with ⟨rfl, rfl, rfl⟩ | hk
          · rw [hD] at e1
            cases e1
            rw [EdgeOk, if_pos rfl]
            exact fun v hv => hdead v (e2.symm.fits hv)
          · exact (hd.edge i E0 u k e1 (by rw [← e2.2.1]; exact hE') hu hk).grows a1 e2
        · obtain ⟨N, n1, n2⟩ := hd.zero
          obtain ⟨N', m1, m2⟩ := a1.2 _ _ n1
          exact ⟨N', m1, by rw [m2.1]; exact n2⟩
        · intro i hi
          obtain ⟨E, e1, e2, e3⟩ := hd.start i (by rw [← a3]; exact hi)
          obtain ⟨E', f1, f2⟩ := a1.2 _ _ e1
          exact ⟨E', f1, f2.fits e2, by rw [f2.2.1]; exact e3⟩
      · rw [EdgeOk, if_pos rfl]; exact hdead
    | some reach =>
      dsimp only at h
      rw [Option.bind_eq_some_iff] at h
      obtain ⟨E, hE, h⟩ := h
      rw [Option.map_eq_some_iff] at h
      obtain ⟨d2, h2, h⟩ := h
      simp only [Prod.mk.injEq] at h
      obtain ⟨rfl, rfl, rfl, rfl⟩ := h
      have hr := (spec v hv).2.2.1 reach rfl
      obtain ⟨R, hR⟩ := hr.holds
      have rng : ∀ u, Fits L.atn dec D u → ∀ c ∈ reach.configs, 1 ≤ c.alt ∧ c.alt ≤ dec.transitions.length := by
        intro u hu c hc
        have := ((spec u hu).2.2.1 reach rfl).sound c hc
        refine this.range (fun _ _ h => h.range) ?_
        rintro j (h | ⟨p, h, -⟩)
        · exact h.range (fun _ _ _ h => h.range)
        · exact h.range
      have hfew := hdec.few
      obtain ⟨t1, t2, t3, t4, t5, t7, t6⟩ := targetState_spec hR.marks.1 hR.marks.2 hr.noSem hr.ne
        (fun c hc => ⟨(rng v hv c hc).1, by have := (rng v hv c hc).2; omega⟩) hE
      have hfit : ∀ u, Fits L.atn dec D u → Fits L.atn dec E (u ++ [t]) := by
        intro u hu
        have hru := (spec u hu).2.2.1 reach rfl
        refine ⟨?_, ?_, ?_, ?_, fun e1 => by rw [t4]; exact hru.stops (t6 e1).1⟩
        · rw [t4]
          intro c hc
          exact (hru.sound c hc).mono (fun _ _ h => h) (fun j h => EndedBefore.next h)
        · intro e1 e2 σ hσ j p hj hc
          obtain ⟨f1, f2⟩ := t5 e1 e2
          rw [f2]
          rcases hj with hj | ⟨-, hj⟩
          rotate_left
          · obtain ⟨x, hx, y, hy, rfl, -⟩ := stay u hu σ hσ j p hj hc
            simp only [Option.some.injEq] at hx
            subst hx
            exact uniqueAlt_all f1 (fun c hc => (rng u hu c hc).1) y hy
          rcases cov u hu σ hσ with ⟨x, hx, -, hx2⟩ | hcov
          · simp only [Option.some.injEq] at hx
            subst hx
            exact hx2 j p hj
          · obtain ⟨x, hx, y, hy, rfl, -⟩ := hcov j p hj hc.1 (fun e => hc.2 (by rw [e]; simp))
            simp only [Option.some.injEq] at hx
            subst hx
            exact uniqueAlt_all f1 (fun c hc => (rng u hu c hc).1) y hy
        · intro e1 σ hσ j p hj hc
          obtain ⟨f1, f2⟩ := t6 e1
          rw [t4]
          rcases cov u hu σ hσ with ⟨x, hx, hx1, hx2⟩ | hcov
          · simp only [Option.some.injEq] at hx
            subst hx
            exact absurd f1 hx1
          · obtain ⟨x, hx, hcx⟩ := hcov j p hj hc (fun e => absurd (hru.eof e) f2)
            simp only [Option.some.injEq] at hx
            subst hx
            exact hcx
        · intro e1 σ hσ j p hj hc
          have f1 := t7 e1
          rw [t4]
          rcases hj with hj | ⟨-, hj⟩
          rotate_left
          · obtain ⟨x, hx, hcx⟩ := stay u hu σ hσ j p hj hc
            simp only [Option.some.injEq] at hx
            subst hx
            exact hcx
          rcases cov u hu σ hσ with ⟨x, hx, hx1, hx2⟩ | hcov
          · simp only [Option.some.injEq] at hx
            subst hx
            exact absurd f1 hx1
          · obtain ⟨x, hx, hcx⟩ := hcov j p hj hc.1 (fun e => hc.2 (by rw [e]; simp))
            simp only [Option.some.injEq] at hx
            subst hx
            exact hcx
      have heof : t = TOKEN_EOF → E.isAccept = true := by
        intro e
        by_contra hcon
        rw [Bool.not_eq_true] at hcon
        exact (t6 hcon).2 (hr.eof e)
      obtain ⟨b1, b2, b3, b4, b5, b6, ⟨F, b7, b8⟩, b9, b10⟩ := addState_spec (hash := L.hash) t1 t2 t3 hd.tidy
      obtain ⟨a1, a2, a3, a4, a5, a6, a7⟩ := addEdge_spec ht h2
      have hlt : (DFA.addState L.hash d E).2 ≠ ERROR_DFA_STATE_REF := by omega
      have tF := b5 _ _ b7
      have hedge : EdgeOk L.atn dec (DFA.addState L.hash d E).1 D t (DFA.addState L.hash d E).2 := by
        rw [EdgeOk, if_neg hlt]
        refine ⟨F, b7, ?_, fun u hu => (hfit u hu).same t1 tF b8.symm⟩
        intro e
        have e1 : F.configs.uniqueAlt = E.configs.uniqueAlt := congrArg (fun x => x.2.2.1) b8
        have e2 : F.configs.conflictingAlts = E.configs.conflictingAlts := congrArg (fun x => x.2.2.2.1) b8
        rw [tF.accept, e1, e2]
        exact t1.accept.1 (heof e)
      have hnz : (DFA.addState L.hash d E).2 ≠ 0 := by
        intro e
        obtain ⟨N, n1, n2⟩ := hd.zero
        rw [e, b9 _ _ n1, Option.some.injEq] at b7
        subst b7
        have : N.configs.configs.map Config.norm = E.configs.configs.map Config.norm := congrArg (·.1) b8
        rw [n2, t4] at this
        exact hr.ne (List.map_eq_nil_iff.1 this.symm)
      obtain ⟨z1, z2⟩ := addEdge_get ht h2
      have kept : Keeps d (DFA.addState L.hash d E).1 := by
        intro i u k _ hk
        obtain ⟨G1, f1, f2⟩ := Option.map_eq_some_iff.1 (show (d.states[i]?).map _ = _ from hk)
        show ((DFA.addState L.hash d E).1.states[i]?).map _ = _
        rw [b9 _ _ f1]
        simpa using f2
      have he' : (DFA.addState L.hash d E).1.existingTarget prev t = some none := by
        obtain ⟨G1, f1, f2⟩ := Option.map_eq_some_iff.1 (show (d.states[prev]?).map _ = _ from he)
        show ((DFA.addState L.hash d E).1.states[prev]?).map _ = _
        rw [b9 _ _ f1]
        simpa using f2
      refine ⟨rfl, g2, ?_, ?_, hedge.grows a1 (.refl D), b1.trans a1, kept.trans (z1 he'), fun hmax => z2 hmax hnz⟩
      · refine ⟨a4.trans (b3.trans hd.noPrec), a5.trans (b4.trans hd.atnStart), ?_, ?_, ?_, ?_,
          addEdge_wide (addState_wide hd.wide t3).1 h2⟩
        · intro i G hG
          obtain ⟨G0, e1, e2⟩ := a6 i G hG
          exact e2.tidy (b5 i G0 e1)
        · intro i G u k hG hG' hu hk
          obtain ⟨G0, e1, e2⟩ := a6 i G hG
          rcases a7 i u k hu hk with ⟨rfl, rfl, rfl⟩ | hk
          · rw [b9 _ _ hD] at e1
            cases e1
            exact hedge.grows a1 e2
          · have hk' := b6 i u k hk
            obtain ⟨G1, f1, -⟩ := Option.map_eq_some_iff.1 (show (d.states[i]?).map _ = _ from hk')
            rw [b9 _ _ f1] at e1
            cases e1
            exact (hd.edge i _ u k f1 (by rw [← e2.2.1]; exact hG') hu hk').grows (b1.trans a1) e2
        · obtain ⟨N, n1, n2⟩ := hd.zero
          obtain ⟨N', m1, m2⟩ := (b1.trans a1).2 _ _ n1
          exact ⟨N', m1, by rw [m2.1]; exact n2⟩
        · intro i hi
          obtain ⟨G, e1, e2, e3⟩ := hd.start i (by rw [← b2, ← a3]; exact hi)
          obtain ⟨G', f1, f2⟩ := (b1.trans a1).2 _ _ e1
          exact ⟨G', f1, f2.fits e2, by rw [f2.2.1]; exact e3⟩
      · exact (b1.trans a1).2 _ _ hD

end Antlr.Prediction
