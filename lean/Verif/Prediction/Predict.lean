import Verif.Prediction.Loops

/-!
# Prediction on an ATN without predicates: what the answers mean
-/

namespace Antlr.Prediction
open Antlr StackSpec ConfigSet PC PredictionSpec LL1Spec PredictionMode PredictionModeProps StackProps

variable {I : Type}

theorem CacheFit.nil (full d : Bool) : CacheFit full d [] := by
  refine ⟨?_, ?_, ?_⟩
  · simp [CacheOk]
  · simp [CacheWithin]
  · simp [CacheLoc]

theorem CacheFit.toFull {mc : PC.Cache} (h : CacheFit false true mc) : CacheFit true true mc :=
  ⟨h.ok, h.within, by simp⟩

/-- The DFA leads from state `i` by the tokens from `w n` on to a state that calls for the context. -/
inductive Warm (d : DFA) (w : Nat → Int) : Nat → Nat → Prop
  | stop {i n j : Nat} {D : DFAState} : d.existingTarget i (w n) = some (some j) → j ≠ ERROR_DFA_STATE_REF →
      d.states[j]? = some D → D.requiresFullCtx = true → Warm d w i n
  | step {i n j : Nat} {D : DFAState} : d.existingTarget i (w n) = some (some j) → j ≠ ERROR_DFA_STATE_REF →
      d.states[j]? = some D → D.isAccept = false → D.requiresFullCtx = false → w n ≠ TOKEN_EOF →
      Warm d w j (n + 1) → Warm d w i n

theorem Warm.mono {d d' : DFA} {w : Nat → Int} (hw : ∀ n, TokOk (w n)) (hk : Keeps d d') (hg : Grows d d') {i n : Nat}
    (h : Warm d w i n) : Warm d' w i n := by
  induction h with
  | stop h1 h2 h3 h4 =>
    obtain ⟨D', e1, e2⟩ := hg.2 _ _ h3
    exact .stop (hk _ _ _ (hw _) h1) h2 e1 (by rw [e2.2.2.2.1]; exact h4)
  | step h1 h2 h3 h4 h5 h6 _ ih =>
    obtain ⟨D', e1, e2⟩ := hg.2 _ _ h3
    exact .step (hk _ _ _ (hw _) h1) h2 e1 (by rw [e2.2.1]; exact h4) (by rw [e2.2.2.2.1]; exact h5) h6 ih

theorem den_false (c : PC) (s : List Int) : Den false c s ↔ HasStack c s := by simp [Den]

theorem needFull_spec [TokStream I] {L : Local I} {cf : Nat} (ha : Plain L.atn) (hp : L.isPrec = false)
    {dec : ATNState} (hdec : Decides L.atn L.atnStart dec) {σ : List Nat} (hσ : Proper L.atn dec.ruleIndex σ)
    (hcalls : Calls L.atn L.outer (ints σ))
    {w : Nat → Int} {At : Nat → I → Prop} (hl : Looks L.startIndex w At) {d : Bool} {dfa : DFA}
    {n m : Nat} {D : DFAState} (hD : D.predicates = []) {mc : PC.Cache} {inp : I} {r : Res I} (hm : CacheFit true d mc)
    (hat : At m inp) (h : needFull L cf n dfa D mc inp = some r) :
    r.dfa = dfa ∧ FullRight L.atn dec σ w (d = false) r.out ∧ WentFull r ∧ BeginsWell L.atn dec (w 0) r.out := by
  rw [needFull, Option.bind_eq_some_iff] at h
  obtain ⟨⟨alts, i1⟩, h1, h⟩ := h
  rw [conflictPreds, hD, if_pos (by simp)] at h1
  simp only [Option.some.injEq, Prod.mk.injEq] at h1
  obtain ⟨-, rfl⟩ := h1
  dsimp only at h
  rw [if_neg (by simp [hD])] at h
  rw [Option.bind_eq_some_iff] at h
  obtain ⟨ctx, hctx, h⟩ := h
  rw [Option.bind_eq_some_iff] at h
  obtain ⟨⟨s0, mc1, i2⟩, h2, h⟩ := h
  rw [Option.map_eq_some_iff] at h
  obtain ⟨r', hr', rfl⟩ := h
  have hlt := proper_lt ha hσ
  obtain ⟨c, hc1, hc2⟩ := C32_from_rule_context _ _ _ hcalls
  obtain ⟨c', hc1', hc3⟩ := C32_well_formed _ _ _ hcalls (by
    intro f hf
    obtain ⟨g, hg, rfl⟩ := List.mem_map.1 hf
    exact ha.lt (hlt g hg))
  rw [hctx, Option.some.injEq] at hc1 hc1'
  subst hc1 hc1'
  obtain ⟨rfl, g2, -, -, g4, -, g5⟩ := computeStart_spec (full := true) (d := d) (T := fun j p => Live L.atn dec σ j [] p)
    ha hp (by simp) hdec.state
    ⟨hc3, by simp⟩ (by
      intro i tr hi k hk
      rw [hc2] at hk
      subst hk
      rw [nats_ints ha σ hlt]
      exact .start hi) (live_goes (by simp)) hm h2
  have hmod : Modest L.atn dec s0 := computeStart_modest (full := true) (d := d) (σ := σ) ha hp (by simp) hdec.state
    ⟨hc3, by simp⟩ (by
      intro k hk
      rw [hc2] at hk
      subst hk
      rw [nats_ints ha σ hlt]) hm h2
  rw [execFull, Option.bind_eq_some_iff] at hr'
  obtain ⟨i3, h3, hr'⟩ := hr'
  rw [Option.bind_eq_some_iff] at hr'
  obtain ⟨q, hq, hr'⟩ := hr'
  obtain ⟨a1, a2⟩ := hl.la (hl.seek hat h3) hq
  have := fullLoop_spec ha hp hdec hσ hl g2 hr' (.inl ⟨0, ⟨?_, ?_⟩, a1, a2, by simp, fun _ => hmod⟩)
  · exact ⟨this.1, this.2.2, ⟨_, _, _, List.mem_cons_self⟩, this.2.1⟩
  · intro x hx
    exact .inl (g4 x hx)
  · intro hd j p hj hw
    subst hd
    refine g5 rfl σ ((den_false _ _).2 ((hc2 _).2 rfl)) (fun j p h => h.fair ha hdec hσ) j p hj (.inl hw)

theorem accepting_spec [TokStream I] {L : Local I} {d : DFA} {D : DFAState} {inp : I} {r : Res I}
    (hD : D.predicates = []) (h : accepting L d D inp = some r) :
    r.out = .alt D.prediction ∧ r.dfa = d ∧ r.reports = [] := by
  rw [accepting, if_pos (by simp [hD]), Option.some.injEq] at h
  subst h
  exact ⟨rfl, rfl, rfl⟩

theorem failing_spec [TokStream I] {L : Local I} {d : DFA} {D : DFAState} {inp : I} {r : Res I}
    (h : failing L d D inp = some r) :
    r.dfa = d ∧ r.reports = [] ∧ ((∃ a b, r.out = .noAlt a b) ∨
      ∃ c ∈ D.configs.configs, ((∀ x ∈ D.configs.configs, WF x.ctx) → Finished L.atn c) ∧ r.out = .alt c.alt) := by
  rw [failing, Option.bind_eq_some_iff] at h
  obtain ⟨e, he, h⟩ := h
  rw [Option.bind_eq_some_iff] at h
  obtain ⟨i1, -, h⟩ := h
  rw [Option.map_eq_some_iff] at h
  obtain ⟨k, hk, h⟩ := h
  split at h
  · rename_i hk0
    subst h
    obtain ⟨c, hc, hf, e⟩ := synValidAlt_mem hk hk0
    exact ⟨rfl, rfl, .inr ⟨c, hc, hf, by rw [e]⟩⟩
  · subst h
    obtain ⟨a, b, e⟩ := noViableAlt_out he
    exact ⟨rfl, rfl, .inl ⟨a, b, e⟩⟩

/-! ### Growth of the DFA -/

theorem addEdge_len {max : Int} {d d' : DFA} {s : Nat} {t : Int} {k : Nat} (h : DFA.addEdge max d s t k = some d') :
    d'.states.length = d.states.length := by
  rw [DFA.addEdge, Option.bind_eq_some_iff] at h
  obtain ⟨x, -, h⟩ := h
  rw [Option.map_eq_some_iff] at h
  obtain ⟨y, -, rfl⟩ := h
  simp

theorem addState_len (hash : ConfigSet → Nat) (d : DFA) (D : DFAState) :
    d.states.length ≤ (DFA.addState hash d D).1.states.length := by
  unfold DFA.addState
  split
  · exact Nat.le_refl _
  · split
    · exact Nat.le_refl _
    · simp

theorem nextState_len [TokStream I] {L : Local I} {cf : Nat} {d d' : DFA} {prev j : Nat} {t : Int}
    {mc mc' : PC.Cache} {inp inp' : I} (h : nextState L cf d prev t mc inp = some (j, d', mc', inp')) :
    d.states.length ≤ d'.states.length := by
  rw [nextState, Option.bind_eq_some_iff] at h
  obtain ⟨e, he, h⟩ := h
  cases e with
  | some k =>
    simp only [Option.some.injEq, Prod.mk.injEq] at h
    rw [h.2.1]; exact Nat.le_refl _
  | none =>
    dsimp only at h
    rw [computeTarget, Option.bind_eq_some_iff] at h
    obtain ⟨p, -, h⟩ := h
    rw [Option.bind_eq_some_iff] at h
    obtain ⟨⟨r, mc1, i1⟩, -, h⟩ := h
    cases r with
    | none =>
      dsimp only at h
      rw [Option.map_eq_some_iff] at h
      obtain ⟨d2, h2, h⟩ := h
      simp only [Prod.mk.injEq] at h
      rw [← h.2.1, addEdge_len h2]; exact Nat.le_refl _
    | some r =>
      dsimp only at h
      rw [Option.bind_eq_some_iff] at h
      obtain ⟨D, -, h⟩ := h
      rw [Option.map_eq_some_iff] at h
      obtain ⟨d2, h2, h⟩ := h
      simp only [Prod.mk.injEq] at h
      rw [← h.2.1, addEdge_len h2]
      exact addState_len _ _ _

theorem fullLoop_dfa [TokStream I] {L : Local I} {cf : Nat} {dfa : DFA} {n : Nat} {cs : ConfigSet} {t : Int}
    {mc : PC.Cache} {inp : I} {r : Res I} (h : fullLoop L cf dfa n cs t mc inp = some r) : r.dfa = dfa := by
  induction n generalizing cs t mc inp with
  | zero => simp [fullLoop] at h
  | succ n ih =>
    rw [fullLoop, Option.bind_eq_some_iff] at h
    obtain ⟨⟨x, mc1, i1⟩, -, h⟩ := h
    cases x with
    | none =>
      dsimp only at h
      rw [Option.bind_eq_some_iff] at h
      obtain ⟨i2, -, h⟩ := h
      rw [Option.bind_eq_some_iff] at h
      obtain ⟨k, -, h⟩ := h
      split at h
      · simp only [Option.some.injEq] at h; subst h; rfl
      · rw [Option.map_eq_some_iff] at h
        obtain ⟨q, -, rfl⟩ := h; rfl
    | some x =>
      dsimp only at h
      split at h
      · simp only [Option.some.injEq] at h; subst h; rfl
      · rw [Option.bind_eq_some_iff] at h
        obtain ⟨dc, -, h⟩ := h
        cases dc with
        | some q => obtain ⟨k, e⟩ := q; simp only [Option.some.injEq] at h; subst h; rfl
        | none =>
          dsimp only at h
          split at h
          · rw [Option.bind_eq_some_iff] at h
            obtain ⟨i2, -, h⟩ := h
            rw [Option.bind_eq_some_iff] at h
            obtain ⟨q, -, h⟩ := h
            exact ih h
          · exact ih h

theorem needFull_dfa [TokStream I] {L : Local I} {cf n : Nat} {dfa : DFA} {D : DFAState} {mc : PC.Cache} {inp : I}
    {r : Res I} (h : needFull L cf n dfa D mc inp = some r) : r.dfa = dfa := by
  rw [needFull, Option.bind_eq_some_iff] at h
  obtain ⟨⟨alts, i1⟩, -, h⟩ := h
  dsimp only at h
  split at h
  · rw [Option.map_eq_some_iff] at h
    obtain ⟨k, -, rfl⟩ := h; rfl
  · rw [Option.bind_eq_some_iff] at h
    obtain ⟨ctx, -, h⟩ := h
    rw [Option.bind_eq_some_iff] at h
    obtain ⟨⟨s0, mc1, i2⟩, -, h⟩ := h
    rw [Option.map_eq_some_iff] at h
    obtain ⟨r', hr', rfl⟩ := h
    rw [execFull, Option.bind_eq_some_iff] at hr'
    obtain ⟨i3, -, hr'⟩ := hr'
    rw [Option.bind_eq_some_iff] at hr'
    obtain ⟨q, -, hr'⟩ := hr'
    have := fullLoop_dfa hr'
    exact this

theorem execLoop_len [TokStream I] {L : Local I} {cf n : Nat} {d : DFA} {prev : Nat} {t : Int} {mc : PC.Cache} {inp : I}
    {r : Res I} (hD : ∀ d D inp r, accepting L d D inp = some r → r.dfa = d)
    (h : execLoop L cf n d prev t mc inp = some r) : d.states.length ≤ r.dfa.states.length := by
  induction n generalizing d prev t mc inp with
  | zero => simp [execLoop] at h
  | succ n ih =>
    rw [execLoop, Option.bind_eq_some_iff] at h
    obtain ⟨⟨j, d1, mc1, i1⟩, h1, h⟩ := h
    have := nextState_len h1
    dsimp only at h
    split at h
    · rw [Option.bind_eq_some_iff] at h
      obtain ⟨p, -, h⟩ := h
      rw [(failing_spec h).1]; exact this
    · rw [Option.bind_eq_some_iff] at h
      obtain ⟨D, -, h⟩ := h
      split at h
      · rw [needFull_dfa h]; exact this
      · split at h
        · rw [hD _ _ _ _ h]; exact this
        · split at h
          · rw [Option.bind_eq_some_iff] at h
            obtain ⟨i2, -, h⟩ := h
            rw [Option.bind_eq_some_iff] at h
            obtain ⟨q, -, h⟩ := h
            exact Nat.le_trans this (ih h)
          · exact Nat.le_trans this (ih h)

theorem accepting_dfa [TokStream I] {L : Local I} (d : DFA) (D : DFAState) (inp : I) (r : Res I)
    (h : accepting L d D inp = some r) : r.dfa = d := by
  rw [accepting] at h
  split at h
  · simp only [Option.some.injEq] at h; subst h; rfl
  · rw [Option.bind_eq_some_iff] at h
    obtain ⟨i1, -, h⟩ := h
    split at h
    · rw [Option.map_eq_some_iff] at h
      obtain ⟨q, -, rfl⟩ := h; rfl
    · simp only [Option.some.injEq] at h; subst h; rfl
    · simp only [Option.some.injEq] at h; subst h; rfl

theorem nextState_s0 [TokStream I] {L : Local I} {cf : Nat} {d d' : DFA} {prev j : Nat} {t : Int}
    {mc mc' : PC.Cache} {inp inp' : I} (h : nextState L cf d prev t mc inp = some (j, d', mc', inp')) :
    d'.s0 = d.s0 := by
  have hedge : ∀ {max d d' s t k}, DFA.addEdge max d s t k = some d' → d'.s0 = d.s0 := by
    intro max d d' s t k h
    rw [DFA.addEdge, Option.bind_eq_some_iff] at h
    obtain ⟨x, -, h⟩ := h
    rw [Option.map_eq_some_iff] at h
    obtain ⟨y, -, rfl⟩ := h
    rfl
  rw [nextState, Option.bind_eq_some_iff] at h
  obtain ⟨e, he, h⟩ := h
  cases e with
  | some k =>
    simp only [Option.some.injEq, Prod.mk.injEq] at h
    rw [h.2.1]
  | none =>
    dsimp only at h
    rw [computeTarget, Option.bind_eq_some_iff] at h
    obtain ⟨p, -, h⟩ := h
    rw [Option.bind_eq_some_iff] at h
    obtain ⟨⟨r, mc1, i1⟩, -, h⟩ := h
    cases r with
    | none =>
      dsimp only at h
      rw [Option.map_eq_some_iff] at h
      obtain ⟨d2, h2, h⟩ := h
      simp only [Prod.mk.injEq] at h
      rw [← h.2.1, hedge h2]
    | some r =>
      dsimp only at h
      rw [Option.bind_eq_some_iff] at h
      obtain ⟨D, -, h⟩ := h
      rw [Option.map_eq_some_iff] at h
      obtain ⟨d2, h2, h⟩ := h
      simp only [Prod.mk.injEq] at h
      rw [← h.2.1, hedge h2, DFA.addState]
      split
      · rfl
      · split <;> rfl

theorem execLoop_s0 [TokStream I] {L : Local I} {cf n : Nat} {d : DFA} {prev : Nat} {t : Int} {mc : PC.Cache} {inp : I}
    {r : Res I} (hD : ∀ d D inp r, accepting L d D inp = some r → r.dfa = d)
    (h : execLoop L cf n d prev t mc inp = some r) : r.dfa.s0 = d.s0 := by
  induction n generalizing d prev t mc inp with
  | zero => simp [execLoop] at h
  | succ n ih =>
    rw [execLoop, Option.bind_eq_some_iff] at h
    obtain ⟨⟨j, d1, mc1, i1⟩, h1, h⟩ := h
    have := nextState_s0 h1
    dsimp only at h
    split at h
    · rw [Option.bind_eq_some_iff] at h
      obtain ⟨p, -, h⟩ := h
      rw [(failing_spec h).1]; exact this
    · rw [Option.bind_eq_some_iff] at h
      obtain ⟨D, -, h⟩ := h
      split at h
      · rw [needFull_dfa h]; exact this
      · split at h
        · rw [hD _ _ _ _ h]; exact this
        · split at h
          · rw [Option.bind_eq_some_iff] at h
            obtain ⟨i2, -, h⟩ := h
            rw [Option.bind_eq_some_iff] at h
            obtain ⟨q, -, h⟩ := h
            exact (ih h).trans this
          · exact (ih h).trans this

/-! ### The loop -/

theorem execLoop_spec [TokStream I] {L : Local I} {cf : Nat} (ha : Plain L.atn) (hp : L.isPrec = false)
    {dec : ATNState} (hdec : Decides L.atn L.atnStart dec) {σ : List Nat} (hσ : Proper L.atn dec.ruleIndex σ)
    (hcalls : Calls L.atn L.outer (ints σ))
    {w : Nat → Int} {At : Nat → I → Prop} (hl : Looks L.startIndex w At) (hw : ∀ n, TokOk (w n))
    {n m : Nat} {d : DFA} {prev : Nat} {mc : PC.Cache} {inp : I} {r : Res I} (hd : DInv L.atn L.atnStart dec d)
    {D : DFAState} (hD : d.states[prev]? = some D) (hacc : D.isAccept = false) (hv : Fits L.atn dec D (pre w m))
    (hm : CacheFit false true mc) (hat : At m inp) (hne : ∀ i, i < m → w i ≠ TOKEN_EOF)
    (h : execLoop L cf n d prev (w m) mc inp = some r) (hsz : r.dfa.states.length ≤ ERROR_DFA_STATE_REF) :
    DInv L.atn L.atnStart dec r.dfa ∧
    (¬ WentFull r → LocalRight L.atn dec w L.mode r.out) ∧
    (WentFull r → L.mode ≠ .SLL ∧ FullRight L.atn dec σ w (Warm d w prev m ∧ mc = []) r.out) ∧
    Grows d r.dfa ∧ Keeps d r.dfa ∧
    (WentFull r → (∀ n, w n ≤ L.atn.maxTokenType) → Warm r.dfa w prev m) ∧
    (Warm d w prev m → L.mode ≠ .SLL → WentFull r) ∧
    ((m = 0 → Modest L.atn dec D.configs) → BeginsWell L.atn dec (w 0) r.out) := by
  induction n generalizing d prev mc inp m D with
  | zero => simp [execLoop] at h
  | succ n ih =>
    have hlen := h
    rw [execLoop, Option.bind_eq_some_iff] at h
    obtain ⟨⟨j, d1, mc1, i1⟩, h1, h⟩ := h
    dsimp only at h
    have hlen1 : d1.states.length ≤ r.dfa.states.length := by
      split at h
      · rw [Option.bind_eq_some_iff] at h
        obtain ⟨p, -, h⟩ := h
        rw [(failing_spec h).1]; exact Nat.le_refl _
      · rw [Option.bind_eq_some_iff] at h
        obtain ⟨D, -, h⟩ := h
        split at h
        · rw [needFull_dfa h]; exact Nat.le_refl _
        · split at h
          · rw [accepting_dfa _ _ _ _ h]; exact Nat.le_refl _
          · split at h
            · rw [Option.bind_eq_some_iff] at h
              obtain ⟨i2, -, h⟩ := h
              rw [Option.bind_eq_some_iff] at h
              obtain ⟨q, -, h⟩ := h
              exact execLoop_len accepting_dfa h
            · exact execLoop_len accepting_dfa h
    obtain ⟨rfl, g2, g3, ⟨Dp, g4, g5⟩, g6, x1, x2, x3⟩ := nextState_spec ha hp hdec hd (hw m) hD hacc hv hm h1
      (Nat.le_trans hlen1 hsz)
    have hwarm : Warm d w prev m → d1 = d ∧ mc1 = mc ∧ d.existingTarget prev (w m) = some (some j) := by
      intro hW
      have : ∃ j', d.existingTarget prev (w m) = some (some j') := by cases hW <;> exact ⟨_, by assumption⟩
      obtain ⟨j', e⟩ := this
      rw [nextState, e] at h1
      simp only [Option.bind_some, Option.some.injEq, Prod.mk.injEq] at h1
      obtain ⟨rfl, rfl, rfl, -⟩ := h1
      exact ⟨rfl, rfl, e⟩
    have hmat : ∀ (v : List Int) (E : DFAState), Fits L.atn dec E v → ∀ c ∈ E.configs.configs,
        Matches L.atn dec (Proper L.atn dec.ruleIndex) v c.alt := fun v E hE c hc =>
      matches_of (S := Proper L.atn dec.ruleIndex) (T := TL L.atn dec) (fun v j p h => h.ex) (hE.sound c hc)
    have hahead : Ahead w (pre w m) := ⟨m, rfl, fun i hi => hne i (by omega)⟩
    have hahead' : Ahead w (pre w m ++ [w m]) := ⟨m + 1, by rw [pre_succ], fun i hi => hne i (by omega)⟩
    split at h
    · rename_i hj
      rw [Option.bind_eq_some_iff] at h
      obtain ⟨p, hp', h⟩ := h
      rw [g4, Option.some.injEq] at hp'
      subst hp'
      rw [EdgeOk, if_pos hj] at g6
      have hdead := g6 _ hv
      obtain ⟨e1, e2, e3⟩ := failing_spec h
      refine ⟨e1 ▸ g3, ?_, ?_, e1 ▸ x1, e1 ▸ x2, ?_, ?_, ?_⟩
      rotate_right
      · intro hmod
        rcases e3 with ⟨a, b, e3⟩ | ⟨c, hc, hfin, e3⟩
        · rw [e3]; exact begins_noAlt
        · rw [e3]
          refine begins_alt ?_
          by_cases h0 : m = 0
          · have hcfg := g5.1
            rw [hcfg] at hc hfin
            exact falls_begins (hmod h0 c hc (hfin (fun x hx => (hv.sound x hx).wf))) _
          · exact ahead_begins hahead (by simpa [pre] using h0) (hmat _ _ (g5.fits hv) c hc)
      · intro _
        rcases e3 with ⟨a, b, e3⟩ | ⟨c, hc, -, e3⟩
        · rw [e3]; exact ⟨_, hahead', hdead⟩
        · rw [e3]
          exact ⟨_, hahead, hmat _ _ (g5.fits hv) c hc, .inr (.inr ⟨_, hahead', List.prefix_append _ _, hdead⟩)⟩
      · rintro ⟨a, b, l, hx⟩
        rw [e2] at hx; simp at hx
      · rintro ⟨a, b, l, hx⟩
        rw [e2] at hx; simp at hx
      · intro hW
        exfalso
        obtain ⟨-, -, e⟩ := hwarm hW
        cases hW with
        | stop c1 c2 => rw [e] at c1; simp only [Option.some.injEq] at c1; exact c2 (c1 ▸ hj)
        | step c1 c2 => rw [e] at c1; simp only [Option.some.injEq] at c1; exact c2 (c1 ▸ hj)
    · rename_i hj
      rw [EdgeOk, if_neg hj] at g6
      obtain ⟨E, k1, k2, k3⟩ := g6
      have hE := k3 _ hv
      have tE := g3.tidy _ _ k1
      rw [k1, Option.bind_some] at h
      split at h
      · rename_i hfull
        have hdf : ∀ f : Bool, CacheFit true f mc1 → _ := fun f hf =>
          needFull_spec ha hp hdec hσ hcalls hl tE.preds hf hat h
        have h0 := hdf true g2.toFull
        refine ⟨h0.1 ▸ g3, fun hn => absurd h0.2.2.1 hn, fun _ => ⟨hfull.2, ?_⟩, h0.1 ▸ x1, h0.1 ▸ x2,
          fun _ hmax => h0.1 ▸ .stop (x3 (hmax m)) hj k1 hfull.1, fun _ _ => h0.2.2.1, fun _ => h0.2.2.2⟩
        by_cases hclean : Warm d w prev m ∧ mc = []
        · have : mc1 = [] := (hwarm hclean.1).2.1.trans hclean.2
          have h1 := hdf false (this ▸ CacheFit.nil _ _)
          exact h1.2.1.mono (fun _ => rfl)
        · exact h0.2.1.mono (fun hc => absurd hc hclean)
      · rename_i hfull
        split at h
        · rename_i hacc'
          obtain ⟨e1, e2, e3⟩ := accepting_spec tE.preds h
          refine ⟨e2 ▸ g3, ?_, ?_, e2 ▸ x1, e2 ▸ x2, ?_, ?_, ?_⟩
          rotate_right
          · intro _
            rw [e1]
            obtain ⟨c, hc, e⟩ := tE.alt hacc'
            exact begins_alt (ahead_begins hahead' (by simp) (e ▸ hmat _ _ hE c hc))
          · intro _
            rw [e1]
            obtain ⟨c, hc, e⟩ := tE.alt hacc'
            refine ⟨_, hahead', e ▸ hmat _ _ hE c hc, ?_⟩
            cases hrf : E.requiresFullCtx with
            | false => exact .inl (fun τ hτ j p hj hc => hE.one hacc' hrf τ hτ j p hj hc)
            | true =>
              right; left
              refine ⟨by_contra fun hcon => hfull ⟨hrf, hcon⟩, ?_⟩
              intro τ hτ j p hj hc
              obtain ⟨x, hx, rfl, -⟩ := hE.confl hrf τ hτ j p hj hc
              exact tE.least hrf x hx
          · rintro ⟨a, b, l, hx⟩
            rw [e3] at hx; simp at hx
          · rintro ⟨a, b, l, hx⟩
            rw [e3] at hx; simp at hx
          · intro hW hmode
            exfalso
            obtain ⟨rfl, -, e⟩ := hwarm hW
            cases hW with
            | stop c1 c2 c3 c4 =>
              rw [e] at c1
              simp only [Option.some.injEq] at c1
              subst c1
              rw [k1, Option.some.injEq] at c3
              subst c3
              exact hfull ⟨c4, hmode⟩
            | step c1 c2 c3 c4 =>
              rw [e] at c1
              simp only [Option.some.injEq] at c1
              subst c1
              rw [k1, Option.some.injEq] at c3
              subst c3
              rw [c4] at hacc'; simp at hacc'
        · rename_i hacc'
          rw [Bool.not_eq_true] at hacc'
          have hnE : w m ≠ TOKEN_EOF := by
            intro e
            rw [k2 e] at hacc'; simp at hacc'
          rw [if_pos hnE, Option.bind_eq_some_iff] at h
          obtain ⟨i2, hi2, h⟩ := h
          rw [Option.bind_eq_some_iff] at h
          obtain ⟨q, hq, h⟩ := h
          obtain ⟨a1, a2⟩ := hl.la (hl.consume hat hnE hi2) hq
          rw [a1] at h
          obtain ⟨b1, b2, b3, b4, b5, b6, b7, b8⟩ := ih g3 k1 hacc' (by rw [pre_succ]; exact hE) g2 a2
            (by
              intro i hi
              by_cases e : i = m
              · subst e; exact hnE
              · exact hne i (by omega)) h
          have hrf : E.requiresFullCtx = false := by
            rw [Bool.eq_false_iff]
            intro hcon
            have := tE.accept.2 (.inr (tE.full.1 hcon).2)
            rw [hacc'] at this; simp at this
          have hnext : Warm d w prev m → Warm d1 w j (m + 1) := by
            intro hW
            obtain ⟨rfl, -, e⟩ := hwarm hW
            cases hW with
            | stop c1 c2 c3 c4 =>
              rw [e] at c1
              simp only [Option.some.injEq] at c1
              subst c1
              rw [k1, Option.some.injEq] at c3
              subst c3
              rw [hrf] at c4; simp at c4
            | step c1 c2 c3 c4 c5 c6 c7 =>
              rw [e] at c1
              simp only [Option.some.injEq] at c1
              subst c1
              exact c7
          refine ⟨b1, b2, fun hf => ⟨(b3 hf).1, (b3 hf).2.mono ?_⟩, x1.trans b4, x2.trans b5, fun hf hmax => ?_,
            fun hW hmode => b7 (hnext hW) hmode, fun _ => b8 (by omega)⟩
          · rintro ⟨hW, rfl⟩
            exact ⟨hnext hW, (hwarm hW).2.1⟩
          · obtain ⟨E', f1, f2⟩ := b4.2 _ _ k1
            exact .step (b5 _ _ _ (hw m) (x3 (hmax m))) hj f1 (by rw [f2.2.1]; exact hacc')
              (by rw [f2.2.2.2.1]; exact hrf) hnE (b6 hf hmax)

/-! ### The start state -/

/-- What has finished the rule in the start state, can do so without a token. -/
def Humble (atn : ATN) (dec : ATNState) (d : DFA) : Prop :=
  (∀ (i : Nat) (D : DFAState), d.s0 = some i → d.states[i]? = some D → Modest atn dec D.configs) ∧
  (d.s0 = none → ∀ D ∈ d.states, Modest atn dec D.configs)

theorem addState_humble {hash : ConfigSet → Nat} {atn : ATN} {dec : ATNState} {d : DFA} {D : DFAState}
    (h : ∀ E ∈ d.states, Modest atn dec E.configs) (hD : Modest atn dec D.configs) :
    ∀ E ∈ (DFA.addState hash d D).1.states, Modest atn dec E.configs := by
  unfold DFA.addState
  split
  · exact h
  · split
    · exact h
    · intro E hE
      rcases List.mem_append.1 hE with hE | hE
      · exact h E hE
      · rw [List.mem_singleton] at hE
        subst hE
        exact hD

theorem Humble.grows {atn : ATN} {s : Nat} {dec : ATNState} {d d' : DFA} (h : Humble atn dec d) (hd : DInv atn s dec d)
    (hg : Grows d d') {i : Nat} (hi : d.s0 = some i) (hi' : d'.s0 = some i) : Humble atn dec d' := by
  refine ⟨?_, by simp [hi']⟩
  intro k G hk hG
  rw [hi', Option.some.injEq] at hk
  subst hk
  obtain ⟨D, e1, -⟩ := hd.start _ hi
  obtain ⟨D', e2, e3⟩ := hg.2 _ _ e1
  rw [hG, Option.some.injEq] at e2
  subst e2
  rw [e3.1]
  exact h.1 _ _ hi e1

theorem startState_spec [TokStream I] {L : Local I} {cf : Nat} (ha : Plain L.atn)
    {dec : ATNState} (hdec : Decides L.atn L.atnStart dec) {d d' : DFA} {j : Nat}
    {mc : PC.Cache} {inp inp' : I} (hd : DInv L.atn L.atnStart dec d) (hp : L.isPrec = d.isPrecedence)
    (h : startState L cf d inp = some (j, d', mc, inp')) :
    inp' = inp ∧ CacheFit false true mc ∧ DInv L.atn L.atnStart dec d' ∧ d'.s0 = some j ∧ Grows d d' ∧
    Keeps d d' ∧ (d.s0.isSome → d' = d ∧ mc = []) ∧ (Humble L.atn dec d → Humble L.atn dec d') := by
  rw [startState, hd.noPrec] at h
  rw [hd.noPrec] at hp
  simp only [Bool.false_eq_true, if_false, Option.bind_some] at h
  cases hs : d.s0 with
  | some s0 =>
    rw [hs] at h
    simp only [Option.some.injEq, Prod.mk.injEq] at h
    obtain ⟨rfl, rfl, rfl, rfl⟩ := h
    exact ⟨rfl, .nil _ _, hd, hs, .refl d, .refl d, fun _ => ⟨rfl, rfl⟩, id⟩
  | none =>
    rw [hs] at h
    dsimp only at h
    rw [Option.bind_eq_some_iff] at h
    obtain ⟨⟨cs, mc1, i1⟩, h1, h⟩ := h
    simp only [Option.some.injEq, Prod.mk.injEq] at h
    obtain ⟨rfl, rfl, rfl, rfl⟩ := h
    obtain ⟨rfl, g2, ⟨R, g3⟩, g4, g5, g7, g6⟩ := computeStart_spec (full := false) (d := true)
      (T := fun j p => TL L.atn dec [] j p)
      ha hp (fun _ => rfl) hdec.state (.empty _) (by
        intro i tr hi k hk
        cases hk
        exact TL.start ha hdec hi) (TL.goes ha (by simp)) (.nil _ _) h1
    have tD : Tidy (DFAState.new 0 cs) := by
      obtain ⟨e1, e2⟩ := g3.marks
      refine ⟨rfl, ?_, ?_, ?_, ?_, ?_⟩ <;> simp [DFAState.new, e1, e2]
    obtain ⟨b1, b2, b3, b4, b5, b6, ⟨F, b7, b8⟩, b9, b10⟩ := addState_spec (hash := L.hash) (D := DFAState.new 0 cs) tD rfl rfl hd.tidy
    have fD : Fits L.atn dec (DFAState.new 0 cs) [] := by
      refine ⟨?_, ?_, ?_, ?_, fun _ => g7⟩
      · intro c hc; exact .inl (g5 c hc)
      · simp [DFAState.new]
      · intro _ τ hτ j p hj hw
        exact g6 rfl τ (den_true_empty _) (fun j p h => h.fair ha hdec hτ) j p hj hw
      · simp [DFAState.new]
    have tF := b5 _ _ b7
    have accF : F.isAccept = false := by
      have e1 : F.configs.uniqueAlt = cs.uniqueAlt := congrArg (fun x => x.2.2.1) b8
      have e2 : F.configs.conflictingAlts = cs.conflictingAlts := congrArg (fun x => x.2.2.2.1) b8
      rw [Bool.eq_false_iff]
      intro hcon
      have := tF.accept.1 hcon
      rw [e1, e2, g3.marks.1, g3.marks.2] at this
      simp at this
    refine ⟨rfl, g2, ⟨b3.trans hd.noPrec, b4.trans hd.atnStart, b5, ?_, ?_, ?_, (addState_wide hd.wide rfl).1⟩, rfl, b1, ?_, by simp, ?_⟩
    rotate_right
    · intro hh
      have hcs : Modest L.atn dec cs := computeStart_modest (full := false) (d := true) (σ := []) ha hp (fun _ => rfl)
        hdec.state (.empty _) (by
          intro k hk
          cases hk
          rfl) (.nil _ _) h1
      refine ⟨?_, by simp⟩
      intro i G hi hG
      simp only [Option.some.injEq] at hi
      subst hi
      dsimp only at hG
      exact addState_humble (hash := L.hash) (D := DFAState.new 0 cs) (hh.2 hs) hcs _ (List.mem_of_getElem? hG)
    · intro i G u k hG hG' hu hk
      have hk' := b6 i u k hk
      obtain ⟨G1, f1, -⟩ := Option.map_eq_some_iff.1 (show (d.states[i]?).map _ = _ from hk')
      have f2 : some G1 = some G := (b9 _ _ f1).symm.trans hG
      cases f2
      exact (hd.edge i _ u k f1 hG' hu hk').grows b1 (.refl _)
    · obtain ⟨N, n1, n2⟩ := hd.zero
      exact ⟨N, b9 _ _ n1, n2⟩
    · intro i hi
      simp only [Option.some.injEq] at hi
      subst hi
      exact ⟨F, b7, fD.same tD tF b8.symm, accF⟩
    · intro i u k _ hk
      obtain ⟨G1, f1, f2⟩ := Option.map_eq_some_iff.1 (show (d.states[i]?).map _ = _ from hk)
      show ((DFA.addState L.hash d (DFAState.new 0 cs)).1.states[i]?).map _ = _
      rw [b9 _ _ f1]
      simpa using f2

/-! ### Prediction -/

theorem predict_spec [TokStream I] {P : Params I} {cf n : Nat} (ha : Plain P.atn)
    {d : DFA} {dec : ATNState} (hdec : Decides P.atn d.atnStartState dec) {σ : List Nat}
    (hσ : Proper P.atn dec.ruleIndex σ) (hcalls : Calls P.atn P.outer (ints σ))
    {w : Nat → Int} {At : Nat → I → Prop} {inp : I} (hl : Looks (TokStream.index inp) w At) (hw : ∀ n, TokOk (w n))
    (hd : DInv P.atn d.atnStartState dec d) (hat : At 0 inp) {r : Res I}
    (h : adaptivePredict P cf n d inp = some r) (hsz : r.dfa.states.length ≤ ERROR_DFA_STATE_REF) :
    DInv P.atn d.atnStartState dec r.dfa ∧
    (¬ WentFull r → LocalRight P.atn dec w P.mode r.out) ∧
    (WentFull r → P.mode ≠ .SLL ∧ FullRight P.atn dec σ w (∃ i, d.s0 = some i ∧ Warm d w i 0) r.out) ∧
    Grows d r.dfa ∧ Keeps d r.dfa ∧ (∀ i, d.s0 = some i → r.dfa.s0 = some i) ∧
    (WentFull r → (∀ n, w n ≤ P.atn.maxTokenType) → ∃ i, r.dfa.s0 = some i ∧ Warm r.dfa w i 0) ∧
    (∀ i, d.s0 = some i → Warm d w i 0 → P.mode ≠ .SLL → WentFull r) ∧
    (Humble P.atn dec d → Humble P.atn dec r.dfa ∧ BeginsWell P.atn dec (w 0) r.out) := by
  rw [adaptivePredict] at h
  dsimp only at h
  rw [Option.bind_eq_some_iff] at h
  obtain ⟨⟨s0, d1, mc, i1⟩, h1, h⟩ := h
  rw [Option.bind_eq_some_iff] at h
  obtain ⟨r1, h2, h⟩ := h
  obtain ⟨rfl, g2, g3, g4, g5, g6, g7, g8⟩ := startState_spec (L := localOf P d inp) ha hdec hd rfl h1
  obtain ⟨e1, e2, e3⟩ : r.out = r1.out ∧ r.dfa = r1.dfa ∧ r.reports = r1.reports := by
    split at h
    · rw [Option.bind_eq_some_iff] at h
      obtain ⟨i2, -, h⟩ := h
      rw [Option.map_eq_some_iff] at h
      obtain ⟨i3, -, rfl⟩ := h
      exact ⟨rfl, rfl, rfl⟩
    · simp only [Option.some.injEq] at h; subst h; exact ⟨rfl, rfl, rfl⟩
  rw [execAtn, Option.bind_eq_some_iff] at h2
  obtain ⟨q, hq, h2⟩ := h2
  obtain ⟨a1, a2⟩ := hl.la (hl.mark hat) hq
  rw [a1] at h2
  obtain ⟨D, k1, k2, k3⟩ := g3.start _ g4
  rw [e2] at hsz
  have := execLoop_spec (L := localOf P d inp) (m := 0) ha hd.noPrec hdec hσ hcalls hl hw g3 k1 k3 k2 g2 a2 (by simp) h2 hsz
  obtain ⟨b1, b2, b3, b4, b5, b6, b7, b8⟩ := this
  have hwf : WentFull r ↔ WentFull r1 := by unfold WentFull; rw [e3]
  rw [hwf, e1, e2]
  have hs0 : r1.dfa.s0 = some s0 := by rw [execLoop_s0 accepting_dfa h2]; exact g4
  refine ⟨b1, b2, fun hf => ⟨(b3 hf).1, (b3 hf).2.mono ?_⟩, g5.trans b4, g6.trans b5, ?_,
    fun hf hmax => ⟨s0, hs0, b6 hf hmax⟩, ?_, fun hh =>
      ⟨(g8 hh).grows g3 b4 g4 hs0, b8 (fun _ => (g8 hh).1 _ _ g4 k1)⟩⟩
  · rintro ⟨i, hi, hW⟩
    obtain ⟨rfl, rfl⟩ := g7 (by simp [hi])
    rw [g4, Option.some.injEq] at hi
    subst hi
    exact ⟨hW, rfl⟩
  · intro i hi
    obtain ⟨rfl, -⟩ := g7 (by simp [hi])
    rw [hs0, ← g4, hi]
  · intro i hi hW hmode
    obtain ⟨rfl, -⟩ := g7 (by simp [hi])
    rw [g4, Option.some.injEq] at hi
    subst hi
    exact b7 hW hmode

end Antlr.Prediction
