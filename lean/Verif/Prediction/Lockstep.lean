import Verif.Prediction.Transparent

/-!
Helper lemmas: two predictions on the same input with different caches.
-/

namespace Antlr.Prediction
open Antlr StackSpec ConfigSet PC PredictionSpec PredictionMode

variable {I : Type} [TokStream I]

/-! ### The ends of the loop -/

theorem fullLoop_any (L : Local I) (cf : Nat) (d d' : DFA) (n : Nat) (cs : ConfigSet) (t : Int) (mc : PC.Cache) (inp : I) :
    fullLoop L cf d n cs t mc inp = (fullLoop L cf d' n cs t mc inp).map fun r => { r with dfa := d } := by
  induction n generalizing cs t mc inp with
  | zero => simp [fullLoop]
  | succ n ih =>
    rw [fullLoop, fullLoop]
    cases computeReach L cf cs t true mc inp with
    | none => rfl
    | some q =>
      obtain ⟨o, m1, i1⟩ := q
      simp only [Option.bind_some]
      cases o with
      | none =>
        dsimp only
        cases TokStream.seek i1 L.startIndex with
        | none => rfl
        | some i2 =>
          simp only [Option.bind_some]
          cases synValidAlt L cs i2 with
          | none => rfl
          | some k =>
            simp only [Option.bind_some]
            split
            · rfl
            · cases noViableAlt L i2 <;> rfl
      | some x =>
        dsimp only
        split
        · rfl
        · cases fullDecision L.mode x with
          | none => rfl
          | some dc =>
            simp only [Option.bind_some]
            cases dc with
            | some q => rfl
            | none =>
              dsimp only
              split
              · cases TokStream.consume i1 with
                | none => rfl
                | some i2 =>
                  simp only [Option.bind_some]
                  cases TokStream.la i2 1 with
                  | none => rfl
                  | some q => simp only [Option.bind_some]; exact ih _ _ _ _
              · exact ih _ _ _ _

theorem needFull_any (L : Local I) (cf n : Nat) (d d' : DFA) (D D' : DFAState) (hc : D.configs.conflictingAlts = D'.configs.conflictingAlts)
    (hp : D.predicates = D'.predicates) (mc : PC.Cache) (inp : I) :
    needFull L cf n d D mc inp = (needFull L cf n d' D' mc inp).map fun r => { r with dfa := d } := by
  have e : conflictPreds L D inp = conflictPreds L D' inp := by unfold conflictPreds; rw [hp, hc]
  rw [needFull, needFull, e, hp]
  cases conflictPreds L D' inp with
  | none => rfl
  | some q =>
    obtain ⟨alts, i1⟩ := q
    simp only [Option.bind_some]
    split
    · cases alts.head? <;> rfl
    · cases PC.fromRuleContext L.atn L.outer with
      | none => rfl
      | some ctx =>
        simp only [Option.bind_some]
        cases computeStart L cf ctx true mc i1 with
        | none => rfl
        | some q =>
          obtain ⟨s0, m1, i2⟩ := q
          simp only [Option.bind_some, execFull]
          cases TokStream.seek i2 L.startIndex with
          | none => rfl
          | some i3 =>
            simp only [Option.bind_some]
            cases TokStream.la i3 1 with
            | none => rfl
            | some q =>
              simp only [Option.bind_some]
              rw [fullLoop_any L cf d d']
              cases fullLoop L cf d' n s0 q.1 m1 q.2 <;> rfl

omit [TokStream I] in
theorem Agree.symm {r r' : Res I} (h : Agree r r') : Agree r' r := ⟨h.1.symm, h.2.symm⟩

omit [TokStream I] in
theorem Agree.trans {r r' r'' : Res I} (h : Agree r r') (g : Agree r' r'') : Agree r r'' := ⟨h.1.trans g.1, h.2.trans g.2⟩

omit [TokStream I] in
theorem BothFull.full {r r' : Res I} (h : BothFull r r') : WentFull r ∧ WentFull r' := by
  obtain ⟨a, b, l, x, x', h1, h2⟩ := h
  exact ⟨⟨a, b, l, by rw [h1]; exact List.mem_cons_self⟩, ⟨a, b, l, by rw [h2]; exact List.mem_cons_self⟩⟩

theorem needFull_pair {L : Local I} {cf cf' n n' : Nat} {d d' : DFA} {D D' : DFAState}
    (hc : D.configs.conflictingAlts = D'.configs.conflictingAlts) (hp : D.predicates = D'.predicates) {mc mc' : PC.Cache} {inp : I}
    {r r' : Res I} (h : needFull L cf n d D mc inp = some r) (h' : needFull L cf' n' d' D' mc' inp = some r') :
    (Agree r r' ∧ ¬ WentFull r) ∨ (BothFull r r' ∧ (cf = cf' → n = n' → mc = mc' → Agree r r')) := by
  by_cases hf : cf = cf' ∧ n = n' ∧ mc = mc'
  · obtain ⟨rfl, rfl, rfl⟩ := hf
    have e := needFull_any L cf n d d' D D' hc hp mc inp
    rw [h, h', Option.map_some, Option.some.injEq] at e
    subst e
    rw [needFull, Option.bind_eq_some_iff] at h'
    obtain ⟨⟨alts, i1⟩, -, h'⟩ := h'
    dsimp only at h'
    split at h'
    · rw [Option.map_eq_some_iff] at h'
      obtain ⟨k, -, rfl⟩ := h'
      left
      refine ⟨⟨rfl, rfl⟩, ?_⟩
      rintro ⟨a, b, l, hx⟩
      simp at hx
    · rw [Option.bind_eq_some_iff] at h'
      obtain ⟨ctx, -, h'⟩ := h'
      rw [Option.bind_eq_some_iff] at h'
      obtain ⟨⟨s0, mc1, i2⟩, -, h'⟩ := h'
      rw [Option.map_eq_some_iff] at h'
      obtain ⟨q, hq, rfl⟩ := h'
      exact .inr ⟨⟨_, _, _, _, _, rfl, rfl⟩, fun _ _ _ => ⟨rfl, rfl⟩⟩
  · have e : conflictPreds L D inp = conflictPreds L D' inp := by unfold conflictPreds; rw [hp, hc]
    rw [needFull, e, hp, Option.bind_eq_some_iff] at h
    rw [needFull, Option.bind_eq_some_iff] at h'
    obtain ⟨⟨alts, i1⟩, a1, h⟩ := h
    obtain ⟨⟨alts', i1'⟩, a1', h'⟩ := h'
    rw [a1, Option.some.injEq, Prod.mk.injEq] at a1'
    obtain ⟨rfl, rfl⟩ := a1'
    dsimp only at h h'
    split at h
    · next hif =>
      rw [if_pos hif] at h'
      rw [Option.map_eq_some_iff] at h h'
      obtain ⟨k, hk, rfl⟩ := h
      obtain ⟨k', hk', rfl⟩ := h'
      rw [hk, Option.some.injEq] at hk'
      subst hk'
      left
      refine ⟨⟨rfl, rfl⟩, ?_⟩
      rintro ⟨a, b, l, hx⟩
      simp at hx
    · next hif =>
      rw [if_neg hif] at h'
      rw [Option.bind_eq_some_iff] at h h'
      obtain ⟨ctx, -, h⟩ := h
      obtain ⟨ctx', -, h'⟩ := h'
      rw [Option.bind_eq_some_iff] at h h'
      obtain ⟨⟨s0, mc1, i2⟩, -, h⟩ := h
      obtain ⟨⟨s0', mc1', i2'⟩, -, h'⟩ := h'
      rw [Option.map_eq_some_iff] at h h'
      obtain ⟨q, hq, rfl⟩ := h
      obtain ⟨q', hq', rfl⟩ := h'
      exact .inr ⟨⟨_, _, _, _, _, rfl, rfl⟩, fun a b c => absurd ⟨a, b, c⟩ hf⟩

theorem accepting_pair {L : Local I} {d d' : DFA} {D D' : DFAState} (hp : D.predicates = D'.predicates) (hk : D.prediction = D'.prediction)
    {inp : I} {r r' : Res I} (h : accepting L d D inp = some r) (h' : accepting L d' D' inp = some r') : Agree r r' ∧ ¬ WentFull r := by
  rw [accepting, hp, hk] at h
  rw [accepting] at h'
  have nf : ∀ r : Res I, (∀ x ∈ r.reports, ∃ a b c e, x = Report.ambiguity a b c e) → ¬ WentFull r := by
    rintro r hr ⟨a, b, l, hx⟩
    obtain ⟨_, _, _, _, e⟩ := hr _ hx
    simp at e
  split at h
  · next hif =>
    rw [if_pos hif] at h'
    cases h
    cases h'
    exact ⟨⟨rfl, rfl⟩, nf _ (by simp)⟩
  · next hif =>
    rw [if_neg hif] at h'
    rw [Option.bind_eq_some_iff] at h h'
    obtain ⟨i1, e1, h⟩ := h
    obtain ⟨i1', e1', h'⟩ := h'
    rw [e1, Option.some.injEq] at e1'
    subst e1'
    generalize evalSemanticContext L D'.predicates i1 = l at h h'
    match l, h, h' with
    | [], h, h' =>
      dsimp only at h h'
      rw [Option.map_eq_some_iff] at h h'
      obtain ⟨q, hq, rfl⟩ := h
      obtain ⟨q', hq', rfl⟩ := h'
      rw [hq, Option.some.injEq] at hq'
      subst hq'
      exact ⟨⟨rfl, rfl⟩, nf _ (by simp)⟩
    | [k], h, h' =>
      dsimp only at h h'
      cases h
      cases h'
      exact ⟨⟨rfl, rfl⟩, nf _ (by simp)⟩
    | k :: k2 :: ks, h, h' =>
      dsimp only at h h'
      cases h
      cases h'
      exact ⟨⟨rfl, rfl⟩, nf _ (by simp)⟩

theorem failing_pair {L : Local I} {d d' : DFA} {D D' : DFAState} {inp : I} {r r' : Res I} (h : failing L d D inp = some r)
    (h' : failing L d' D' inp = some r') : BothLost r r' ∧ (D.configs = D'.configs → Agree r r') := by
  rw [failing, Option.bind_eq_some_iff] at h h'
  obtain ⟨e, he, h⟩ := h
  obtain ⟨e', he', h'⟩ := h'
  rw [he, Option.some.injEq] at he'
  subst he'
  obtain ⟨a, b, hab⟩ := noViableAlt_out he
  rw [Option.bind_eq_some_iff] at h h'
  obtain ⟨i1, e1, h⟩ := h
  obtain ⟨i1', e1', h'⟩ := h'
  rw [e1, Option.some.injEq] at e1'
  subst e1'
  rw [Option.map_eq_some_iff] at h h'
  obtain ⟨k, hk, h⟩ := h
  obtain ⟨k', hk', h'⟩ := h'
  refine ⟨⟨?_, ?_, a, b, ?_, ?_⟩, ?_⟩
  · subst h; split <;> rfl
  · subst h'; split <;> rfl
  · subst h; split
    · exact .inr ⟨_, rfl⟩
    · exact .inl hab
  · subst h'; split
    · exact .inr ⟨_, rfl⟩
    · exact .inl hab
  · intro hc
    rw [hc, hk', Option.some.injEq] at hk
    subst hk
    subst h h'
    split <;> exact ⟨rfl, rfl⟩

/-! ### Paths in the DFA -/

theorem Leads.ext {L0 : Local I} {k : Int} {mode : PredictionMode} {d d' : DFA} (hd : TInv L0 k d) {w : Nat → Int} (hw : ∀ n, TokOk (w n))
    (he : Ext L0 d d') {bad : Bool} {i n : Nat} (hi : base L0 ≤ i) (h : Leads mode d w bad i n) : Leads mode d' w bad i n := by
  have edge : ∀ {i n j}, base L0 ≤ i → d.existingTarget i (w n) = some (some j) → j ≠ ERROR_DFA_STATE_REF → base L0 ≤ j := by
    intro i n j hi h hj
    have h' := h
    rw [DFA.existingTarget, Option.map_eq_some_iff] at h'
    obtain ⟨D, hD, -⟩ := h'
    have := hd.edge i D (w n) j hi hD (hw n) h
    rw [EdgeTo, if_neg hj] at this
    exact this.1
  induction h with
  | error h1 h2 => exact .error h1 (he.edges _ _ _ hi (hw _) h2)
  | stop h0 h1 h2 h3 h4 =>
    obtain ⟨D', e1, e2⟩ := he.states _ _ (edge hi h1 h2) h3
    exact .stop h0 (he.edges _ _ _ hi (hw _) h1) h2 e1 (by rw [ends, e2.2.1, e2.2.2.2.1]; exact h4)
  | step h1 h2 h3 h4 _ ih =>
    have hj := edge hi h1 h2
    obtain ⟨D', e1, e2⟩ := he.states _ _ hj h3
    exact .step (he.edges _ _ _ hi (hw _) h1) h2 e1 (by rw [ends, e2.2.1, e2.2.2.2.1]; exact h4) (ih hj)

/-- The body of the loop. -/
theorem execLoop_succ {L : Local I} {cf n : Nat} {d : DFA} {prev : Nat} {t : Int} {mc : PC.Cache} {inp : I} {r : Res I}
    (h : execLoop L cf (n + 1) d prev t mc inp = some r) :
    ∃ j d1 mc1 i1, nextState L cf d prev t mc inp = some (j, d1, mc1, i1) ∧
      ((j = ERROR_DFA_STATE_REF ∧ ∃ D, d1.states[prev]? = some D ∧ failing L d1 D i1 = some r) ∨
       (j ≠ ERROR_DFA_STATE_REF ∧ ∃ D, d1.states[j]? = some D ∧
        ((ends L.mode D = true ∧ D.requiresFullCtx = true ∧ L.mode ≠ .SLL ∧ needFull L cf n d1 D mc1 i1 = some r) ∨
         (ends L.mode D = true ∧ ¬ (D.requiresFullCtx = true ∧ L.mode ≠ .SLL) ∧ accepting L d1 D i1 = some r) ∨
         (ends L.mode D = false ∧ t ≠ TOKEN_EOF ∧ ∃ i2 q, TokStream.consume i1 = some i2 ∧ TokStream.la i2 1 = some q ∧
           execLoop L cf n d1 j q.1 mc1 q.2 = some r) ∨
         (ends L.mode D = false ∧ t = TOKEN_EOF ∧ execLoop L cf n d1 j t mc1 i1 = some r)))) := by
  rw [execLoop, Option.bind_eq_some_iff] at h
  obtain ⟨⟨j, d1, mc1, i1⟩, h1, h⟩ := h
  refine ⟨j, d1, mc1, i1, h1, ?_⟩
  dsimp only at h
  split at h
  · next hj =>
    rw [Option.bind_eq_some_iff] at h
    obtain ⟨D, hD, h⟩ := h
    exact .inl ⟨hj, D, hD, h⟩
  · next hj =>
    rw [Option.bind_eq_some_iff] at h
    obtain ⟨D, hD, h⟩ := h
    refine .inr ⟨hj, D, hD, ?_⟩
    split at h
    · next hf => exact .inl ⟨by simp [ends, hf.1, hf.2], hf.1, hf.2, h⟩
    · next hf =>
      have e : ends L.mode D = D.isAccept := by
        unfold ends
        by_cases h1 : D.requiresFullCtx = true
        · have h2 : L.mode = .SLL := by
            by_contra h2
            exact hf ⟨h1, h2⟩
          simp [h2]
        · simp [h1]
      split at h
      · next ha => exact .inr (.inl ⟨by rw [e]; exact ha, hf, h⟩)
      · next ha =>
        have ha' : ends L.mode D = false := by rw [e]; simpa using ha
        split at h
        · next ht =>
          rw [Option.bind_eq_some_iff] at h
          obtain ⟨i2, h2, h⟩ := h
          rw [Option.bind_eq_some_iff] at h
          obtain ⟨q, h3, h⟩ := h
          exact .inr (.inr (.inl ⟨ha', ht, i2, q, h2, h3, h⟩))
        · next ht => exact .inr (.inr (.inr ⟨ha', by simpa using ht, h⟩))

theorem Leads.unique {mode : PredictionMode} {d : DFA} {w : Nat → Int} {b b' : Bool} {i n : Nat} (h : Leads mode d w b i n)
    (h' : Leads mode d w b' i n) : b = b' := by
  induction h with
  | error h1 h2 =>
    cases h' with
    | error g1 g2 => rw [h1, g1]
    | stop g0 g1 g2 => rw [h2] at g1; simp only [Option.some.injEq] at g1; exact absurd g1.symm g2
    | step g1 g2 => rw [h2] at g1; simp only [Option.some.injEq] at g1; exact absurd g1.symm g2
  | stop h0 h1 h2 h3 h4 =>
    cases h' with
    | error g1 g2 => rw [h1] at g2; simp only [Option.some.injEq] at g2; exact absurd g2 h2
    | stop g0 g1 g2 => rw [h0, g0]
    | step g1 g2 g3 g4 =>
      rw [h1] at g1; simp only [Option.some.injEq] at g1
      subst g1
      rw [h3, Option.some.injEq] at g3
      subst g3
      rw [h4] at g4; simp at g4
  | step h1 h2 h3 h4 _ ih =>
    cases h' with
    | error g1 g2 => rw [h1] at g2; simp only [Option.some.injEq] at g2; exact absurd g2 h2
    | stop g0 g1 g2 g3 g4 =>
      rw [h1] at g1; simp only [Option.some.injEq] at g1
      subst g1
      rw [h3, Option.some.injEq] at g3
      subst g3
      rw [h4] at g4; simp at g4
    | step g1 g2 g3 g4 g5 =>
      rw [h1] at g1; simp only [Option.some.injEq] at g1
      subst g1
      exact ih g5

variable {L0 : Local I} {k : Int} {L : Local I} {w : Nat → Int} {At : Nat → I → Prop}

/-- One prediction, from a state of the DFA on. -/
theorem exec_tinv (ha : Small L0.atn) (hL : Alike L0 L) (hl : Looks L.startIndex w At) (hw : ∀ n, TokOk (w n)) {cf n m : Nat} {d : DFA}
    {prev : Nat} {mc : PC.Cache} {inp : I} {r : Res I} (hd : TInv L0 k d) (hb : base L0 ≤ prev) {D : DFAState}
    (hD : d.states[prev]? = some D) (hm : LFit (some mc)) (hat : At m inp) (h : execLoop L cf n d prev (w m) mc inp = some r)
    (hsz : r.dfa.states.length ≤ ERROR_DFA_STATE_REF) :
    TInv L0 k r.dfa ∧ Ext L0 d r.dfa ∧ ((∀ n, w n ≤ L.atn.maxTokenType) → ∃ b, Leads L.mode r.dfa w b prev m) := by
  induction n generalizing d prev mc inp m D with
  | zero => simp [execLoop] at h
  | succ n ih =>
    replace h := execLoop_succ h
    obtain ⟨j, d1, mc1, i1, h1, h⟩ := h
    have hsz1 : d1.states.length ≤ ERROR_DFA_STATE_REF := by
      refine Nat.le_trans ?_ hsz
      rcases h with ⟨-, E, -, h⟩ | ⟨-, E, -, ⟨-, -, -, h⟩ | ⟨-, -, h⟩ | ⟨-, -, i2, q, -, -, h⟩ | ⟨-, -, h⟩⟩
      · rw [(failing_spec h).1]; exact Nat.le_refl _
      · rw [needFull_dfa h]; exact Nat.le_refl _
      · rw [accepting_dfa _ _ _ _ h]; exact Nat.le_refl _
      · exact execLoop_len accepting_dfa h
      · exact execLoop_len accepting_dfa h
    obtain ⟨t1, t2, rfl, t4, t5, t6, -⟩ := next_tinv ha hL hd hb hD (hw m) hm h1 hsz1
    rcases h with ⟨rfl, E, hE, h⟩ | ⟨hj, E, hE, h⟩
    · rw [(failing_spec h).1]
      exact ⟨t1, t2, fun hmax => ⟨true, .error rfl (t6 (hmax m))⟩⟩
    · rw [EdgeTo, if_neg hj] at t5
      obtain ⟨hbj, -⟩ := t5
      rcases h with ⟨he, -, -, h⟩ | ⟨he, -, h⟩ | ⟨he, ht, i2, q, h2, h3, h⟩ | ⟨he, ht, h⟩
      · rw [needFull_dfa h]
        exact ⟨t1, t2, fun hmax => ⟨false, .stop rfl (t6 (hmax m)) hj hE he⟩⟩
      · rw [accepting_dfa _ _ _ _ h]
        exact ⟨t1, t2, fun hmax => ⟨false, .stop rfl (t6 (hmax m)) hj hE he⟩⟩
      · obtain ⟨a1, a2⟩ := hl.la (hl.consume hat ht h2) h3
        rw [a1] at h
        obtain ⟨s1, s2, s3⟩ := ih t1 hbj hE t4 a2 h
        refine ⟨s1, t2.trans s2, fun hmax => ?_⟩
        obtain ⟨b, hb'⟩ := s3 hmax
        obtain ⟨E', e1, e2⟩ := s2.states _ _ hbj hE
        exact ⟨b, .step (s2.edges _ _ _ hb (hw m) (t6 (hmax m))) hj e1 (by rw [ends, e2.2.1, e2.2.2.2.1]; exact he)
          (by rw [if_neg ht]; exact hb')⟩
      · obtain ⟨s1, s2, s3⟩ := ih t1 hbj hE t4 hat h
        refine ⟨s1, t2.trans s2, fun hmax => ?_⟩
        obtain ⟨b, hb'⟩ := s3 hmax
        obtain ⟨E', e1, e2⟩ := s2.states _ _ hbj hE
        exact ⟨b, .step (s2.edges _ _ _ hb (hw m) (t6 (hmax m))) hj e1 (by rw [ends, e2.2.1, e2.2.2.2.1]; exact he)
          (by rw [if_pos ht]; exact hb')⟩

/-- The first step of a path. -/
theorem Leads.go {mode : PredictionMode} {d : DFA} {b : Bool} {i n : Nat} (h : Leads mode d w b i n) :
    ∃ j, d.existingTarget i (w n) = some (some j) ∧ ∀ D, j ≠ ERROR_DFA_STATE_REF → d.states[j]? = some D → ends mode D = false →
      Leads mode d w b j (if w n = TOKEN_EOF then n else n + 1) := by
  cases h with
  | error h1 h2 => exact ⟨_, h2, fun D hj => absurd rfl hj⟩
  | stop h0 h1 h2 h3 h4 =>
    refine ⟨_, h1, fun D _ hD he => ?_⟩
    rw [h3, Option.some.injEq] at hD
    subst hD
    rw [h4] at he; simp at he
  | step h1 h2 h3 h4 h5 => exact ⟨_, h1, fun D _ hD he => h5⟩

/-- Two predictions on the same input, with different caches. -/
theorem exec_pair (ha : Small L0.atn) (hL : Alike L0 L) (hl : Looks L.startIndex w At) (hw : ∀ n, TokOk (w n)) {cf cf' n n' m : Nat}
    {d d' : DFA} {prev prev' : Nat} {mc mc' : PC.Cache} {inp : I} {r r' : Res I} (hd : TInv L0 k d) (hd' : TInv L0 k d')
    (hb : base L0 ≤ prev) (hb' : base L0 ≤ prev') {D D' : DFAState} (hD : d.states[prev]? = some D) (hD' : d'.states[prev']? = some D')
    (hv : View D D') (hm : LFit (some mc)) (hm' : LFit (some mc')) (hat : At m inp)
    (h : execLoop L cf n d prev (w m) mc inp = some r) (h' : execLoop L cf' n' d' prev' (w m) mc' inp = some r')
    (hsz : r.dfa.states.length ≤ ERROR_DFA_STATE_REF) (hsz' : r'.dfa.states.length ≤ ERROR_DFA_STATE_REF) :
    (Agree r r' ∧ ¬ WentFull r) ∨
    (BothFull r r' ∧ (cf = cf' → n = n' → mc = mc' → (∃ b, Leads L.mode d w b prev m) → (∃ b, Leads L.mode d' w b prev' m) → Agree r r')) ∨
    (BothLost r r' ∧ ((∀ n, w n ≤ L.atn.maxTokenType) → Leads L.mode r.dfa w true prev m ∧ Leads L.mode r'.dfa w true prev' m)) := by
  induction n generalizing n' d d' prev prev' mc mc' inp m D D' with
  | zero => simp [execLoop] at h
  | succ n ih =>
    cases n' with
    | zero => simp [execLoop] at h'
    | succ n' =>
    replace h := execLoop_succ h
    replace h' := execLoop_succ h'
    obtain ⟨j, d1, mc1, i1, h1, h⟩ := h
    obtain ⟨j', d1', mc1', i1', h1', h'⟩ := h'
    have hlen : ∀ {cf n : Nat} {d1 : DFA} {prev j : Nat} {mc1 : PC.Cache} {i1 : I} {r : Res I}, r.dfa.states.length ≤ ERROR_DFA_STATE_REF → ((j = ERROR_DFA_STATE_REF ∧ ∃ D, d1.states[prev]? = some D ∧ failing L d1 D i1 = some r) ∨
       (j ≠ ERROR_DFA_STATE_REF ∧ ∃ D, d1.states[j]? = some D ∧
        ((ends L.mode D = true ∧ D.requiresFullCtx = true ∧ L.mode ≠ .SLL ∧ needFull L cf n d1 D mc1 i1 = some r) ∨
         (ends L.mode D = true ∧ ¬ (D.requiresFullCtx = true ∧ L.mode ≠ .SLL) ∧ accepting L d1 D i1 = some r) ∨
         (ends L.mode D = false ∧ w m ≠ TOKEN_EOF ∧ ∃ i2 q, TokStream.consume i1 = some i2 ∧ TokStream.la i2 1 = some q ∧
           execLoop L cf n d1 j q.1 mc1 q.2 = some r) ∨
         (ends L.mode D = false ∧ w m = TOKEN_EOF ∧ execLoop L cf n d1 j (w m) mc1 i1 = some r)))) →
        d1.states.length ≤ ERROR_DFA_STATE_REF := by
      intro cf n d1 prev j mc1 i1 r hsz h
      refine Nat.le_trans ?_ hsz
      rcases h with ⟨-, E, -, h⟩ | ⟨-, E, -, ⟨-, -, -, h⟩ | ⟨-, -, h⟩ | ⟨-, -, i2, q, -, -, h⟩ | ⟨-, -, h⟩⟩
      · rw [(failing_spec h).1]; exact Nat.le_refl _
      · rw [needFull_dfa h]; exact Nat.le_refl _
      · rw [accepting_dfa _ _ _ _ h]; exact Nat.le_refl _
      · exact execLoop_len accepting_dfa h
      · exact execLoop_len accepting_dfa h
    obtain ⟨t1, t2, rfl, t4, t5, t6, t7⟩ := next_tinv ha hL hd hb hD (hw m) hm h1 (hlen hsz h)
    obtain ⟨t1', t2', t3', t4', t5', t6', t7'⟩ := next_tinv ha hL hd' hb' hD' (hw m) hm' h1' (hlen hsz' h')
    subst t3'
    rw [EdgeTo] at t5 t5'
    rcases h with ⟨rfl, E, hE, h⟩ | ⟨hj, E, hE, h⟩
    · rw [if_pos rfl] at t5
      rcases h' with ⟨rfl, E', hE', h'⟩ | ⟨hj', E', hE', h'⟩
      · refine .inr (.inr ⟨(failing_pair h h').1, fun hmax => ?_⟩)
        rw [(failing_spec h).1, (failing_spec h').1]
        exact ⟨.error rfl (t6 (hmax m)), .error rfl (t6' (hmax m))⟩
      · exfalso
        rw [if_neg hj'] at t5'
        obtain ⟨-, _, -, t5'⟩ := t5'
        rcases step_det ha hv.list t5 t5' with ⟨-, g⟩ | ⟨_, _, g, -⟩ <;> simp at g
    · rw [if_neg hj] at t5
      obtain ⟨hbj, F, hF, t5⟩ := t5
      rw [hE, Option.some.injEq] at hF
      subst hF
      rcases h' with ⟨rfl, E', hE', h'⟩ | ⟨hj', E', hE', h'⟩
      · exfalso
        rw [if_pos rfl] at t5'
        rcases step_det ha hv.list t5 t5' with ⟨g, -⟩ | ⟨_, _, -, g, -⟩ <;> simp at g
      · rw [if_neg hj'] at t5'
        obtain ⟨hbj', F, hF, t5'⟩ := t5'
        rw [hE', Option.some.injEq] at hF
        subst hF
        have hvE : View E E' := by
          rcases step_det ha hv.list t5 t5' with ⟨g, -⟩ | ⟨a, b, ga, gb, g⟩
          · simp at g
          · cases ga
            cases gb
            exact g
        have hends : ends L.mode E = ends L.mode E' := by rw [ends, ends, hvE.accept, hvE.full]
        have known : mc = mc' → (∃ b, Leads L.mode d w b prev m) → (∃ b, Leads L.mode d' w b prev' m) →
            mc1 = mc1' ∧ (ends L.mode E = false → (∃ b, Leads L.mode d1 w b j (if w m = TOKEN_EOF then m else m + 1)) ∧
              ∃ b, Leads L.mode d1' w b j' (if w m = TOKEN_EOF then m else m + 1)) := by
          rintro rfl ⟨b, hk⟩ ⟨b', hk'⟩
          obtain ⟨x, hx, hx2⟩ := hk.go
          obtain ⟨x', hx', hx2'⟩ := hk'.go
          obtain ⟨rfl, rfl, rfl⟩ := t7 x hx
          obtain ⟨rfl, rfl, rfl⟩ := t7' x' hx'
          exact ⟨rfl, fun he => ⟨⟨b, hx2 E hj hE he⟩, ⟨b', hx2' E' hj' hE' (by rw [← hends]; exact he)⟩⟩⟩
        rcases h with ⟨he, hf1, hf2, h⟩ | ⟨he, hf, h⟩ | ⟨he, ht, i2, q, h2, h3, h⟩ | ⟨he, ht, h⟩
        · rcases h' with ⟨-, -, -, h'⟩ | ⟨-, hf', h'⟩ | ⟨he', -⟩ | ⟨he', -⟩
          · rcases needFull_pair hvE.conflict hvE.preds h h' with g | ⟨g1, g2⟩
            · exact .inl g
            · exact .inr (.inl ⟨g1, fun a b c e f => g2 a (by omega) (known c e f).1⟩)
          · exact absurd ⟨by rw [← hvE.full]; exact hf1, hf2⟩ hf'
          · rw [← hends, he] at he'; simp at he'
          · rw [← hends, he] at he'; simp at he'
        · rcases h' with ⟨-, hf1', hf2', h'⟩ | ⟨-, hf', h'⟩ | ⟨he', -⟩ | ⟨he', -⟩
          · exact absurd ⟨by rw [hvE.full]; exact hf1', hf2'⟩ hf
          · exact .inl (accepting_pair hvE.preds hvE.pred h h')
          · rw [← hends, he] at he'; simp at he'
          · rw [← hends, he] at he'; simp at he'
        · rcases h' with ⟨he', -⟩ | ⟨he', -⟩ | ⟨he', ht', i2', q', h2', h3', h'⟩ | ⟨-, ht', -⟩
          · rw [← hends, he] at he'; simp at he'
          · rw [← hends, he] at he'; simp at he'
          · rw [h2, Option.some.injEq] at h2'
            subst h2'
            rw [h3, Option.some.injEq] at h3'
            subst h3'
            obtain ⟨a1, a2⟩ := hl.la (hl.consume hat ht h2) h3
            rw [a1] at h h'
            rw [if_neg ht] at known
            rcases ih t1 t1' hbj hbj' hE hE' hvE t4 t4' a2 h h' with g | ⟨g1, g2⟩ | ⟨g1, g2⟩
            · exact .inl g
            · exact .inr (.inl ⟨g1, fun a b c e f => g2 a (by omega) (known c e f).1 ((known c e f).2 he).1 ((known c e f).2 he).2⟩)
            · refine .inr (.inr ⟨g1, fun hmax => ?_⟩)
              obtain ⟨l1, l2⟩ := g2 hmax
              obtain ⟨-, s2, -⟩ := exec_tinv ha hL hl hw t1 hbj hE t4 a2 h hsz
              obtain ⟨-, s2', -⟩ := exec_tinv ha hL hl hw t1' hbj' hE' t4' a2 h' hsz'
              obtain ⟨F, e1, e2⟩ := s2.states _ _ hbj hE
              obtain ⟨F', e1', e2'⟩ := s2'.states _ _ hbj' hE'
              exact ⟨.step (s2.edges _ _ _ hb (hw m) (t6 (hmax m))) hj e1 (by rw [ends, e2.2.1, e2.2.2.2.1]; exact he)
                  (by rw [if_neg ht]; exact l1),
                .step (s2'.edges _ _ _ hb' (hw m) (t6' (hmax m))) hj' e1' (by rw [ends, e2'.2.1, e2'.2.2.2.1]; exact he')
                  (by rw [if_neg ht]; exact l2)⟩
          · exact absurd ht' ht
        · rcases h' with ⟨he', -⟩ | ⟨he', -⟩ | ⟨-, ht', -⟩ | ⟨he', -, h'⟩
          · rw [← hends, he] at he'; simp at he'
          · rw [← hends, he] at he'; simp at he'
          · exact absurd ht ht'
          · rw [if_pos ht] at known
            rcases ih t1 t1' hbj hbj' hE hE' hvE t4 t4' hat h h' with g | ⟨g1, g2⟩ | ⟨g1, g2⟩
            · exact .inl g
            · exact .inr (.inl ⟨g1, fun a b c e f => g2 a (by omega) (known c e f).1 ((known c e f).2 he).1 ((known c e f).2 he).2⟩)
            · refine .inr (.inr ⟨g1, fun hmax => ?_⟩)
              obtain ⟨l1, l2⟩ := g2 hmax
              obtain ⟨-, s2, -⟩ := exec_tinv ha hL hl hw t1 hbj hE t4 hat h hsz
              obtain ⟨-, s2', -⟩ := exec_tinv ha hL hl hw t1' hbj' hE' t4' hat h' hsz'
              obtain ⟨F, e1, e2⟩ := s2.states _ _ hbj hE
              obtain ⟨F', e1', e2'⟩ := s2'.states _ _ hbj' hE'
              exact ⟨.step (s2.edges _ _ _ hb (hw m) (t6 (hmax m))) hj e1 (by rw [ends, e2.2.1, e2.2.2.2.1]; exact he)
                  (by rw [if_pos ht]; exact l1),
                .step (s2'.edges _ _ _ hb' (hw m) (t6' (hmax m))) hj' e1' (by rw [ends, e2'.2.1, e2'.2.2.2.1]; exact he')
                  (by rw [if_pos ht]; exact l2)⟩

/-- A prediction, and a later one on the same input, from the same state on. -/
theorem exec_again (ha : Small L0.atn) (hL : Alike L0 L) (hl : Looks L.startIndex w At) (hw : ∀ n, TokOk (w n))
    (hmax : ∀ n, w n ≤ L.atn.maxTokenType) {cf cf' n n' m : Nat}
    {d d' : DFA} {prev : Nat} {mc mc' : PC.Cache} {inp : I} {r r' : Res I} (hd : TInv L0 k d)
    (hb : base L0 ≤ prev) {D : DFAState} (hD : d.states[prev]? = some D) (hm : LFit (some mc)) (hat : At m inp)
    (h : execLoop L cf n d prev (w m) mc inp = some r) (hsz : r.dfa.states.length ≤ ERROR_DFA_STATE_REF)
    (he : Ext L0 r.dfa d') (h' : execLoop L cf' n' d' prev (w m) mc' inp = some r') : Agree r r' ∨ BothFull r r' := by
  induction n generalizing n' d prev mc mc' inp m D with
  | zero => simp [execLoop] at h
  | succ n ih =>
    cases n' with
    | zero => simp [execLoop] at h'
    | succ n' =>
    obtain ⟨-, eall, -⟩ := exec_tinv ha hL hl hw hd hb hD hm hat h hsz
    replace h := execLoop_succ h
    replace h' := execLoop_succ h'
    obtain ⟨j, d1, mc1, i1, h1, h⟩ := h
    obtain ⟨j', d1', mc1', i1', h1', h'⟩ := h'
    have hsz1 : d1.states.length ≤ ERROR_DFA_STATE_REF := by
      refine Nat.le_trans ?_ hsz
      rcases h with ⟨-, E, -, h⟩ | ⟨-, E, -, ⟨-, -, -, h⟩ | ⟨-, -, h⟩ | ⟨-, -, i2, q, -, -, h⟩ | ⟨-, -, h⟩⟩
      · rw [(failing_spec h).1]; exact Nat.le_refl _
      · rw [needFull_dfa h]; exact Nat.le_refl _
      · rw [accepting_dfa _ _ _ _ h]; exact Nat.le_refl _
      · exact execLoop_len accepting_dfa h
      · exact execLoop_len accepting_dfa h
    obtain ⟨t1, t2, rfl, t4, t5, t6, t7⟩ := next_tinv ha hL hd hb hD (hw m) hm h1 hsz1
    have ext1 : Ext L0 d1 r.dfa := by
      rcases h with ⟨-, E, -, h⟩ | ⟨hj, E, hE, ⟨-, -, -, h⟩ | ⟨-, -, h⟩ | ⟨-, ht, i2, q, h2, h3, h⟩ | ⟨-, -, h⟩⟩
      · rw [(failing_spec h).1]; exact .refl _ _
      · rw [needFull_dfa h]; exact .refl _ _
      · rw [accepting_dfa _ _ _ _ h]; exact .refl _ _
      · obtain ⟨a1, a2⟩ := hl.la (hl.consume hat ht h2) h3
        rw [a1] at h
        rw [EdgeTo, if_neg hj] at t5
        exact (exec_tinv ha hL hl hw t1 t5.1 hE t4 a2 h hsz).2.1
      · rw [EdgeTo, if_neg hj] at t5
        exact (exec_tinv ha hL hl hw t1 t5.1 hE t4 hat h hsz).2.1
    have ext2 := ext1.trans he
    have hedge := ext2.edges _ _ _ hb (hw m) (t6 (hmax m))
    rw [nextState, hedge] at h1'
    simp only [Option.bind_some, Option.some.injEq, Prod.mk.injEq] at h1'
    obtain ⟨rfl, rfl, rfl, rfl⟩ := h1'
    rcases h with ⟨rfl, E, hE, h⟩ | ⟨hj, E, hE, h⟩
    · rcases h' with ⟨-, E', hE', h'⟩ | ⟨hj', -⟩
      · obtain ⟨F, f1, f2⟩ := ext2.states _ _ hb hE
        rw [hE', Option.some.injEq] at f1
        subst f1
        exact .inl ((failing_pair h h').2 f2.1.symm)
      · exact absurd rfl hj'
    · rw [EdgeTo, if_neg hj] at t5
      obtain ⟨hbj, -⟩ := t5
      obtain ⟨F, f1, f2⟩ := ext2.states _ _ hbj hE
      rcases h' with ⟨hj', -⟩ | ⟨-, E', hE', h'⟩
      · exact absurd hj' hj
      · rw [hE', Option.some.injEq] at f1
        subst f1
        have hends : ends L.mode E = ends L.mode E' := by rw [ends, ends, f2.2.1, f2.2.2.2.1]
        rcases h with ⟨he1, hf1, hf2, h⟩ | ⟨he1, hf, h⟩ | ⟨he1, ht, i2, q, h2, h3, h⟩ | ⟨he1, ht, h⟩
        · rcases h' with ⟨-, -, -, h'⟩ | ⟨-, hf', h'⟩ | ⟨he', -⟩ | ⟨he', -⟩
          · rcases needFull_pair (by rw [f2.1]) f2.2.2.2.2.symm h h' with g | ⟨g1, g2⟩
            · exact .inl g.1
            · exact .inr g1
          · exact absurd ⟨by rw [f2.2.2.2.1]; exact hf1, hf2⟩ hf'
          · rw [← hends, he1] at he'; simp at he'
          · rw [← hends, he1] at he'; simp at he'
        · rcases h' with ⟨-, hf1', hf2', h'⟩ | ⟨-, hf', h'⟩ | ⟨he', -⟩ | ⟨he', -⟩
          · exact absurd ⟨by rw [← f2.2.2.2.1]; exact hf1', hf2'⟩ hf
          · exact .inl (accepting_pair f2.2.2.2.2.symm f2.2.2.1.symm h h').1
          · rw [← hends, he1] at he'; simp at he'
          · rw [← hends, he1] at he'; simp at he'
        · rcases h' with ⟨he', -⟩ | ⟨he', -⟩ | ⟨he', ht', i2', q', h2', h3', h'⟩ | ⟨-, ht', -⟩
          · rw [← hends, he1] at he'; simp at he'
          · rw [← hends, he1] at he'; simp at he'
          · rw [h2, Option.some.injEq] at h2'
            subst h2'
            rw [h3, Option.some.injEq] at h3'
            subst h3'
            obtain ⟨a1, a2⟩ := hl.la (hl.consume hat ht h2) h3
            rw [a1] at h h'
            exact ih t1 hbj hE t4 a2 h h'
          · exact absurd ht' ht
        · rcases h' with ⟨he', -⟩ | ⟨he', -⟩ | ⟨-, ht', -⟩ | ⟨he', -, h'⟩
          · rw [← hends, he1] at he'; simp at he'
          · rw [← hends, he1] at he'; simp at he'
          · exact absurd ht ht'
          · exact ih t1 hbj hE t4 hat h h'

/-! ### Whole predictions -/

theorem Knows.unique {mode : PredictionMode} {d : DFA} {p : Int} {b b' : Bool} (h : Knows mode d p w b) (h' : Knows mode d p w b') :
    b = b' := by
  obtain ⟨i, h1, h2⟩ := h
  obtain ⟨i', h1', h2'⟩ := h'
  rw [h1] at h1'
  simp only [Option.some.injEq] at h1'
  subst h1'
  exact h2.unique h2'

theorem Knows.ext {mode : PredictionMode} {d d' : DFA} {p : Int} (hp : PrecOk p) (hd : TInv L0 k d) (hw : ∀ n, TokOk (w n))
    (he : Ext L0 d d') {b : Bool} (h : Knows mode d p w b) : Knows mode d' p w b := by
  obtain ⟨i, h1, h2⟩ := h
  exact ⟨i, he.start p i hp h1, h2.ext hd hw he (hd.start p i hp h1).1⟩

/-- The parts of a prediction. -/
theorem predict_parts {P : Params I} {d : DFA} {inp : I} (hl : Looks (TokStream.index inp) w At) (hat : At 0 inp) {cf n : Nat} {r : Res I}
    (h : adaptivePredict P cf n d inp = some r) : ∃ s0 d1 mc i1 q r1,
      startState (localOf P d inp) cf d (TokStream.mark inp).2 = some (s0, d1, mc, i1) ∧ TokStream.la i1 1 = some q ∧
      (i1 = (TokStream.mark inp).2 → At 0 q.2 ∧ q.1 = w 0) ∧
      execLoop (localOf P d inp) cf n d1 s0 q.1 mc q.2 = some r1 ∧ r.out = r1.out ∧ r.dfa = r1.dfa ∧ r.reports = r1.reports := by
  rw [adaptivePredict] at h
  dsimp only at h
  rw [Option.bind_eq_some_iff] at h
  obtain ⟨⟨s0, d1, mc, i1⟩, h1, h⟩ := h
  rw [Option.bind_eq_some_iff] at h
  obtain ⟨r1, h2, h⟩ := h
  rw [execAtn, Option.bind_eq_some_iff] at h2
  obtain ⟨q, hq, h2⟩ := h2
  refine ⟨s0, d1, mc, i1, q, r1, h1, hq, ?_, h2, ?_⟩
  · rintro rfl
    obtain ⟨a1, a2⟩ := hl.la (hl.mark hat) hq
    exact ⟨a2, a1⟩
  · split at h
    · rw [Option.bind_eq_some_iff] at h
      obtain ⟨i2, -, h⟩ := h
      rw [Option.map_eq_some_iff] at h
      obtain ⟨i3, -, rfl⟩ := h
      exact ⟨rfl, rfl, rfl⟩
    · simp only [Option.some.injEq] at h; subst h; exact ⟨rfl, rfl, rfl⟩

/-- What the parameters of a prediction have to share. -/
def Fitting (L0 : Local I) (P : Params I) : Prop := L0.atn = P.atn ∧ L0.ord = P.ord ∧ L0.mode = P.mode

theorem Fitting.alike {P : Params I} (h : Fitting L0 P) {d : DFA} (hd : TInv L0 k d) (inp : I) : Alike L0 (localOf P d inp) :=
  ⟨h.1, hd.prec.symm, hd.atnStart.symm, h.2.1, h.2.2⟩

theorem predict_tinv (ha : Small L0.atn) {P : Params I} (hP : Fitting L0 P) (hp : PrecOk P.prec) {inp : I} (hl : Looks (TokStream.index inp) w At)
    (hw : ∀ n, TokOk (w n)) (hat : At 0 inp) {d : DFA} (hd : TInv L0 k d) {cf n : Nat} {r : Res I}
    (h : adaptivePredict P cf n d inp = some r) (hsz : r.dfa.states.length ≤ ERROR_DFA_STATE_REF) :
    TInv L0 k r.dfa ∧ Ext L0 d r.dfa ∧ ((∀ n, w n ≤ P.atn.maxTokenType) → ∃ b, Knows P.mode r.dfa P.prec w b) := by
  obtain ⟨s0, d1, mc, i1, q, r1, h1, h2, h3, h4, -, h6, -⟩ := predict_parts hl hat h
  have hL := hP.alike hd inp
  obtain ⟨g1, g2, g3, g4, g5, ⟨D, g6, -⟩, g7, -⟩ := start_tinv ha hL (fun _ => hp) hd h1
  obtain ⟨a1, a2⟩ := h3 g3
  rw [a2] at h4
  rw [h6] at hsz ⊢
  obtain ⟨e1, e2, e3⟩ := exec_tinv (L := localOf P d inp) ha hL hl hw g1 g5 g6 g4 a1 h4 hsz
  refine ⟨e1, g2.trans e2, fun hmax => ?_⟩
  obtain ⟨b, hb⟩ := e3 hmax
  exact ⟨b, s0, e2.start _ _ hp g7, hb⟩

theorem predict_pair (ha : Small L0.atn) {P : Params I} (hP : Fitting L0 P) (hp : PrecOk P.prec) {inp : I} (hl : Looks (TokStream.index inp) w At)
    (hw : ∀ n, TokOk (w n)) (hat : At 0 inp) {d d' : DFA} (hd : TInv L0 k d) (hd' : TInv L0 k d') {cf n cf' n' : Nat} {r r' : Res I}
    (h : adaptivePredict P cf n d inp = some r) (h' : adaptivePredict P cf' n' d' inp = some r')
    (hsz : r.dfa.states.length ≤ ERROR_DFA_STATE_REF) (hsz' : r'.dfa.states.length ≤ ERROR_DFA_STATE_REF) :
    (Agree r r' ∧ ¬ WentFull r) ∨
    (BothFull r r' ∧ (cf = cf' → n = n' → (∃ b, Knows P.mode d P.prec w b) → (∃ b, Knows P.mode d' P.prec w b) → Agree r r')) ∨
    (BothLost r r' ∧ ((∀ n, w n ≤ P.atn.maxTokenType) → Knows P.mode r.dfa P.prec w true ∧ Knows P.mode r'.dfa P.prec w true)) := by
  obtain ⟨s0, d1, mc, i1, q, r1, h1, h2, h3, h4, h5, h6, h7⟩ := predict_parts hl hat h
  obtain ⟨s0', d1', mc', i1', q', r1', h1', h2', h3', h4', h5', h6', h7'⟩ := predict_parts hl hat h'
  have hL := hP.alike hd inp
  have hL' := hP.alike hd' inp
  have hLL : localOf P d' inp = localOf P d inp := by
    unfold localOf
    rw [hd.prec, hd'.prec, hd.atnStart, hd'.atnStart]
  rw [hLL] at h1' h4' hL'
  obtain ⟨g1, g2, rfl, g4, g5, ⟨D, g6, gb⟩, g7, g8⟩ := start_tinv ha hL (fun _ => hp) hd h1
  obtain ⟨g1', g2', g3', g4', g5', ⟨D', g6', gb'⟩, g7', g8'⟩ := start_tinv ha hL (fun _ => hp) hd' h1'
  subst g3'
  obtain ⟨a1, a2⟩ := h3 rfl
  rw [h2, Option.some.injEq] at h2'
  subst h2'
  rw [a2] at h4 h4'
  rw [h6] at hsz
  rw [h6'] at hsz'
  obtain ⟨-, s2, -⟩ := exec_tinv (L := localOf P d inp) ha hL hl hw g1 g5 g6 g4 a1 h4 hsz
  obtain ⟨-, s2', -⟩ := exec_tinv (L := localOf P d inp) ha hL hl hw g1' g5' g6' g4' a1 h4' hsz'
  have e := exec_pair (L := localOf P d inp) ha hL hl hw g1 g1' g5 g5' g6 g6' (begin_det ha gb gb') g4 g4' a1 h4 h4' hsz hsz'
  unfold Agree BothFull BothLost WentFull
  rw [h5, h5', h7, h7', h6, h6']
  rcases e with e | ⟨e1, e2⟩ | ⟨e1, e2⟩
  · exact .inl e
  · refine .inr (.inl ⟨e1, ?_⟩)
    rintro rfl rfl ⟨b, i, c1, c2⟩ ⟨b', i', c1', c2'⟩
    obtain ⟨rfl, rfl, rfl⟩ := g8 i c1
    obtain ⟨rfl, rfl, rfl⟩ := g8' i' c1'
    exact e2 rfl rfl rfl ⟨b, c2⟩ ⟨b', c2'⟩
  · refine .inr (.inr ⟨e1, fun hmax => ?_⟩)
    obtain ⟨l1, l2⟩ := e2 hmax
    exact ⟨⟨s0, s2.start _ _ hp g7, l1⟩, ⟨s0', s2'.start _ _ hp g7', l2⟩⟩

theorem predict_again (ha : Small L0.atn) {P : Params I} (hP : Fitting L0 P) (hp : PrecOk P.prec) {inp : I} (hl : Looks (TokStream.index inp) w At)
    (hw : ∀ n, TokOk (w n)) (hmax : ∀ n, w n ≤ P.atn.maxTokenType) (hat : At 0 inp) {d d' : DFA} (hd : TInv L0 k d) (hd' : TInv L0 k d')
    {cf n cf' n' : Nat} {r r' : Res I} (h : adaptivePredict P cf n d inp = some r) (hsz : r.dfa.states.length ≤ ERROR_DFA_STATE_REF)
    (he : Ext L0 r.dfa d') (h' : adaptivePredict P cf' n' d' inp = some r') : Agree r r' ∨ BothFull r r' := by
  obtain ⟨s0, d1, mc, i1, q, r1, h1, h2, h3, h4, h5, h6, h7⟩ := predict_parts hl hat h
  obtain ⟨s0', d1', mc', i1', q', r1', h1', h2', h3', h4', h5', h6', h7'⟩ := predict_parts hl hat h'
  have hL := hP.alike hd inp
  have hL' := hP.alike hd' inp
  have hLL : localOf P d' inp = localOf P d inp := by
    unfold localOf
    rw [hd.prec, hd'.prec, hd.atnStart, hd'.atnStart]
  rw [hLL] at h1' h4' hL'
  obtain ⟨g1, g2, rfl, g4, g5, ⟨D, g6, gb⟩, g7, g8⟩ := start_tinv ha hL (fun _ => hp) hd h1
  obtain ⟨g1', g2', g3', g4', g5', ⟨D', g6', gb'⟩, g7', g8'⟩ := start_tinv ha hL (fun _ => hp) hd' h1'
  subst g3'
  obtain ⟨a1, a2⟩ := h3 rfl
  rw [h2, Option.some.injEq] at h2'
  subst h2'
  rw [a2] at h4 h4'
  rw [h6] at hsz he
  obtain ⟨-, s2, -⟩ := exec_tinv (L := localOf P d inp) ha hL hl hw g1 g5 g6 g4 a1 h4 hsz
  obtain ⟨rfl, rfl, rfl⟩ := g8' s0 (he.start _ _ hp (s2.start _ _ hp g7))
  have e := exec_again (L := localOf P d inp) ha hL hl hw hmax g1 g5 g6 g4 a1 h4 hsz he h4'
  unfold Agree BothFull
  rw [h5, h5', h7, h7']
  exact e

end Antlr.Prediction
