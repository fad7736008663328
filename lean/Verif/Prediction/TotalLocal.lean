import Verif.Prediction.TotalFull
import Verif.Prediction.Session

/-!
# Helper lemmas: prediction returns
-/

namespace Antlr.Prediction
open Antlr StackSpec ConfigSet PC PredictionSpec LL1Spec PredictionMode PredictionModeProps StackProps TokenSpec CommonProps

variable {I : Type}

theorem targetState_total {P : Params I} {decision : Int} {s : ConfigSet} (hs : s.hasSem = false) (hne : s.configs ≠ []) :
    ∃ D, targetState P decision s = some D := by
  unfold targetState
  have h1 : ∃ b, (if s.configs.all (isStop P.atn) then some true
      else hasSllConflictTerminatingPrediction P.mode s) = some b := by
    split
    · exact ⟨_, rfl⟩
    · unfold hasSllConflictTerminatingPrediction
      simp [hs]
  obtain ⟨b, hb⟩ := h1
  have h2 : ∃ m, (getAlts (conflictingAltSubsets s)).head? = some m := by
    cases hx : getAlts (conflictingAltSubsets s) with
    | nil =>
      exfalso
      cases hc : s.configs with
      | nil => exact hne hc
      | cons c cs =>
        have := (mem_getAlts s (asUsize c.alt)).2 ⟨c, by rw [hc]; simp, rfl⟩
        rw [hx] at this; simp at this
    | cons m ms => exact ⟨m, rfl⟩
  obtain ⟨m, hm⟩ := h2
  split
  · simp [DFAState.new, hs]
  · rw [hb, Option.bind_some, hm]
    cases b <;> simp [DFAState.new, hs]

theorem targetState_edges {P : Params I} {decision : Int} {s : ConfigSet} {D : DFAState} (hs : s.hasSem = false)
    (h : targetState P decision s = some D) : D.edges = [] := by
  unfold targetState at h
  rw [Option.bind_eq_some_iff] at h
  obtain ⟨E, hE, h⟩ := h
  have hsem : E.configs.hasSem = false ∧ E.edges = [] := by
    split at hE
    · simp only [Option.some.injEq] at hE; subst hE; exact ⟨hs, rfl⟩
    · rw [Option.bind_eq_some_iff] at hE
      obtain ⟨b, -, hE⟩ := hE
      cases b with
      | true =>
        simp only [if_true, Option.map_eq_some_iff] at hE
        obtain ⟨m, -, rfl⟩ := hE
        exact ⟨hs, rfl⟩
      | false =>
        simp only [Bool.false_eq_true, if_false, Option.some.injEq] at hE
        subst hE; exact ⟨hs, rfl⟩
  rw [hsem.1, Bool.and_false, if_neg (by simp), Option.some.injEq] at h
  rw [← h]; exact hsem.2

theorem live_inside {atn : ATN} (ha : Plain atn) {s : Nat} {dec : ATNState} (hd : Decides atn s dec) {σ : List Nat}
    (hσ : Proper atn dec.ruleIndex σ) {v : List Int} {j : Int} {p : Pos} (h : Live atn dec σ j v p) : Inside atn p := by
  induction h with
  | @start i tr h => exact ⟨ha.targets _ _ hd.state _ (List.mem_of_getElem? h), proper_lt ha hσ⟩
  | silent _ h2 ih => exact (inside_goes ha true true).step 0 _ _ ih h2
  | read _ h2 ih =>
    obtain ⟨st, tr, e1, e2, e3, e4, rfl⟩ := h2
    exact ⟨ha.targets _ _ e1 _ e3, ih.2⟩
  | more _ h2 ih =>
    obtain ⟨st, tr, e1, e2, e3, e4, rfl⟩ := h2
    exact ⟨ha.targets _ _ e1 _ e3, ih.2⟩

theorem Fits.fed {atn : ATN} (ha : Plain atn) {s : Nat} {dec : ATNState} (hd : Decides atn s dec) {D : DFAState}
    {v : List Int} (h : Fits atn dec D v) (hacc : D.isAccept = false) : ∀ c ∈ D.configs.configs, Fed atn false c := by
  intro c hc
  refine ⟨(h.sound c hc).mono (fun j p hp => ?_) (fun _ _ => trivial), h.stops hacc c hc, by simp⟩
  obtain ⟨σ, h1, h2⟩ := hp.ex
  exact live_inside ha hd h1 h2

theorem nextState_total [TokStream I] {L : Local I} {N : Nat} (ha : Plain L.atn) (hN : NoLoop L.atn N)
    (hu : Unmixed L.atn) (hp : L.isPrec = false) (hmax : 0 ≤ L.atn.maxTokenType ∧ L.atn.maxTokenType < 2 ^ 63)
    {s : Nat} {dec : ATNState} (hdec : Decides L.atn s dec) {d : DFA} {prev : Nat} {t : Int}
    {mc : PC.Cache} {inp : I} (hd : DInv L.atn s dec d) (ht : TokOk t) {D : DFAState}
    (hD : d.states[prev]? = some D) (hacc : D.isAccept = false) {v : List Int} (hv : Fits L.atn dec D v)
    (hm : CacheFit false true mc) :
    ∃ r, Returns (fun cf => nextState L cf d prev t mc inp) r ∧ r.2.1.states.length ≤ d.states.length + 1 := by
  have hlt := (List.getElem?_eq_some_iff.1 hD).1
  simp only [nextState, DFA.existingTarget, hD, Option.map_some, Option.bind_some]
  cases (D.edges[asUsize (t + 1)]?).bind readEdge with
  | some j => exact ⟨(j, d, mc, inp), .const rfl, by simp⟩
  | none =>
    dsimp only
    obtain ⟨r, mc', inp', ⟨m0, h0⟩, -⟩ := computeReach_total (full := false) (d := true) (t := t) ha hN hu hp (by simp)
      (hv.fed ha hdec hacc) hm inp
    have hret : Returns (fun m => computeReach L m D.configs t false mc inp) (r, mc', inp') := ⟨m0, h0⟩
    simp only [computeTarget, hD, Option.bind_some]
    cases r with
    | none =>
      obtain ⟨d', h1⟩ := addEdge_total ERROR_DFA_STATE_REF hd.wide hmax ht hlt
      refine ⟨(ERROR_DFA_STATE_REF, d', mc', inp'), hret.bind ⟨0, fun _ _ => ?_⟩, by dsimp only; rw [addEdge_len h1]; omega⟩
      simp only [h1, Option.map_some]
    | some reach =>
      obtain ⟨-, -, g3, -⟩ := computeReach_spec (d := true) ha hp (fun _ => rfl) (t := t) (T0 := TL L.atn dec v)
        (T1 := TL L.atn dec (v ++ [t])) (fun j p q h hr => h.read ha hr)
        (TL.goes ha (fun he => ⟨v, by rw [beq_iff_eq] at he; rw [he]⟩)) (fun j p h => h.range.1)
        hv.sound hm (h0 m0 (Nat.le_refl _))
      have hr := g3 reach rfl
      obtain ⟨E, hE⟩ := targetState_total (P := L.toParams) (decision := d.decision) hr.noSem hr.ne
      have he : E.edges = [] := targetState_edges hr.noSem hE
      obtain ⟨w1, w2⟩ := addState_wide (hash := L.hash) hd.wide he
      have hlt' : prev < (DFA.addState L.hash d E).1.states.length := Nat.lt_of_lt_of_le hlt (addState_len _ _ _)
      obtain ⟨d', h1⟩ := addEdge_total (DFA.addState L.hash d E).2 w1 hmax ht hlt'
      refine ⟨((DFA.addState L.hash d E).2, d', mc', inp'), hret.bind ⟨0, fun _ _ => ?_⟩,
        by dsimp only; rw [addEdge_len h1]; exact w2⟩
      simp only [hE, Option.bind_some, h1, Option.map_some]

theorem failing_total [TokStream I] {L : Local I} {w : Nat → Int} {At : Nat → I → Prop} (hl : LooksT L.startIndex w At)
    {d : DFA} {D : DFAState} {n : Nat} {inp : I} (hD : ∀ c ∈ D.configs.configs, WF c.ctx) (hat : At n inp) :
    ∃ r, failing L d D inp = some r ∧ ∃ k, At k r.inp := by
  obtain ⟨a, b, i1, h1, at1⟩ := noViableAlt_total hl hat
  obtain ⟨i2, h2⟩ := hl.seekT at1
  have at2 := hl.seek at1 h2
  obtain ⟨k, h3⟩ := synValidAlt_total (L := L) (cs := D.configs) (inp := i2) hD
  simp only [failing, h1, Option.bind_some, h2, h3, Option.map_some]
  split
  · exact ⟨_, rfl, 0, at2⟩
  · exact ⟨_, rfl, 0, at2⟩

theorem execLoop_total [TokStream I] {L : Local I} {N : Nat} (ha : Plain L.atn) (hN : NoLoop L.atn N)
    (hu : Unmixed L.atn) (h1s : OneStop L.atn) (hp : L.isPrec = false)
    (hmax : 0 ≤ L.atn.maxTokenType ∧ L.atn.maxTokenType < 2 ^ 63)
    {dec : ATNState} (hdec : Decides L.atn L.atnStart dec) {σ : List Nat} (hσ : Proper L.atn dec.ruleIndex σ)
    (hcalls : Calls L.atn L.outer (ints σ))
    {w : Nat → Int} {At : Nat → I → Prop} (hl : LooksT L.startIndex w At) (hw : ∀ n, TokOk (w n))
    {m : Nat} (hm : w m = TOKEN_EOF) (hlt : ∀ i, i < m → w i ≠ TOKEN_EOF) (g : Nat) :
    ∀ (k n : Nat) (d : DFA) (prev : Nat) (mc : PC.Cache) (inp : I), k + g = m → g + 1 + (m + 1) ≤ n →
      DInv L.atn L.atnStart dec d → (∃ D, d.states[prev]? = some D ∧ D.isAccept = false ∧ Fits L.atn dec D (pre w k)) →
      CacheFit false true mc → At k inp → d.states.length + (g + 1) ≤ ERROR_DFA_STATE_REF →
      ∃ r, Returns (fun cf => execLoop L cf n d prev (w k) mc inp) r ∧ (∃ k', At k' r.inp) ∧
        r.dfa.states.length ≤ d.states.length + (g + 1) := by
  induction g with
  | zero => ?_
  | succ g ih => ?_
  all_goals
    intro k n d prev mc inp hk hn hd hprev hmc hat hroom
    obtain ⟨D, hD, hacc, hv⟩ := hprev
    obtain ⟨n, rfl⟩ : ∃ n', n = n' + 1 := ⟨n - 1, by omega⟩
    obtain ⟨⟨j, d1, mc1, i1⟩, ⟨c0, h0⟩, hlen⟩ := nextState_total (inp := inp) ha hN hu hp hmax hdec hd (hw k) hD hacc hv hmc
    have hret : Returns (fun cf => nextState L cf d prev (w k) mc inp) (j, d1, mc1, i1) := ⟨c0, h0⟩
    dsimp only at hlen
    obtain ⟨rfl, g2, g3, ⟨Dp, g4, g5⟩, g6, -, -, -⟩ := nextState_spec ha hp hdec hd (hw k) hD hacc hv hmc
      (h0 c0 (Nat.le_refl _)) (by omega)
    simp only [execLoop]
    by_cases hj : j = ERROR_DFA_STATE_REF
    · obtain ⟨r, h1, h2⟩ := failing_total (L := L) hl (d := d1) (D := Dp) (fun c hc => ((g5.fits hv).sound c hc).wf) hat
      refine ⟨r, hret.bind ⟨0, fun _ _ => ?_⟩, h2, by rw [(failing_spec h1).1]; omega⟩
      simp only [hj, if_true, g4, Option.bind_some, h1]
    · rw [EdgeOk, if_neg hj] at g6
      obtain ⟨E, k1, k2, k3⟩ := g6
      have tE := g3.tidy _ _ k1
      by_cases hf : E.requiresFullCtx ∧ L.mode ≠ .SLL
      · obtain ⟨r, h1, h2⟩ := needFull_total ha hN hu h1s hp hdec hσ hcalls hl d1 hm hlt (n := n) (by omega) tE.preds
          g2.toFull hat
        refine ⟨r, hret.bind ?_, h2, ?_⟩
        · simp only [if_neg hj, k1, Option.bind_some, if_pos hf]
          exact h1
        · obtain ⟨c1, h1⟩ := h1
          rw [needFull_dfa (h1 c1 (Nat.le_refl _))]; omega
      · by_cases hacc' : E.isAccept = true
        · refine ⟨{ out := .alt E.prediction, dfa := d1, inp := i1 }, hret.bind ⟨0, fun _ _ => ?_⟩, ⟨k, hat⟩,
            by dsimp only; omega⟩
          simp only [if_neg hj, k1, Option.bind_some, if_neg hf, if_pos hacc', accepting, tE.preds, List.isEmpty_nil, if_true]
        · have hnE : w k ≠ TOKEN_EOF := fun e => hacc' (k2 e)
          first
            | exact absurd (by rw [show k = m by omega]; exact hm) hnE
            | obtain ⟨i2, s1⟩ := hl.consumeT hat hnE
              have at1 := hl.consume hat hnE s1
              obtain ⟨⟨t, i3⟩, s2⟩ := hl.laT at1
              obtain ⟨e, at2⟩ := hl.la at1 s2
              dsimp only at e at2
              subst e
              rw [Bool.not_eq_true] at hacc'
              obtain ⟨r, h1, h2, h3⟩ := ih (k + 1) n d1 j mc1 i3 (by omega) (by omega) g3
                ⟨E, k1, hacc', by rw [pre_succ]; exact k3 _ hv⟩ g2 at2 (by omega)
              refine ⟨r, hret.bind ?_, h2, by omega⟩
              simp only [if_neg hj, k1, Option.bind_some, if_neg hf, hacc', Bool.false_eq_true, if_false, if_pos hnE, s1, s2]
              exact h1

theorem startState_total [TokStream I] {L : Local I} {N : Nat} (ha : Plain L.atn) (hN : NoLoop L.atn N)
    {dec : ATNState} (hdec : Decides L.atn L.atnStart dec) {d : DFA} {inp : I} (hd : DInv L.atn L.atnStart dec d)
    (hp : L.isPrec = d.isPrecedence) :
    ∃ r, Returns (fun cf => startState L cf d inp) r ∧ r.2.1.states.length ≤ d.states.length + 1 := by
  rw [hd.noPrec] at hp
  simp only [startState, hd.noPrec, Bool.false_eq_true, if_false, Option.bind_some]
  cases d.s0 with
  | some s0 => exact ⟨(s0, d, [], inp), .const rfl, by simp⟩
  | none =>
    obtain ⟨s, mc', inp', h1, -⟩ := computeStart_total (full := false) (d := true) ha hN hp (by simp) (Fit.empty _) (by
      intro k hk
      cases hk
      simp [nats]) hdec.state (CacheFit.nil false true) inp
    refine ⟨((DFA.addState L.hash d (DFAState.new 0 s)).2, { (DFA.addState L.hash d (DFAState.new 0 s)).1 with
      s0 := some (DFA.addState L.hash d (DFAState.new 0 s)).2 }, mc', inp'), h1.bind ⟨0, fun _ _ => rfl⟩, ?_⟩
    exact (addState_wide (hash := L.hash) hd.wide (D := DFAState.new 0 s) rfl).2

/-- Prediction returns. -/
theorem predict_total [TokStream I] {P : Params I} {N : Nat} (ha : Plain P.atn) (hN : NoLoop P.atn N)
    (hu : Unmixed P.atn) (h1s : OneStop P.atn) (hmax : 0 ≤ P.atn.maxTokenType ∧ P.atn.maxTokenType < 2 ^ 63)
    {d : DFA} {dec : ATNState} (hdec : Decides P.atn d.atnStartState dec) {σ : List Nat}
    (hσ : Proper P.atn dec.ruleIndex σ) (hcalls : Calls P.atn P.outer (ints σ))
    {w : Nat → Int} {At : Nat → I → Prop} {inp : I} (hl : LooksT (TokStream.index inp) w At) (hw : ∀ n, TokOk (w n))
    (hd : DInv P.atn d.atnStartState dec d) (hat : At 0 inp) {m : Nat} (hm : w m = TOKEN_EOF)
    (hlt : ∀ i, i < m → w i ≠ TOKEN_EOF) (hroom : d.states.length + (m + 2) ≤ ERROR_DFA_STATE_REF)
    {n : Nat} (hn : 2 * m + 2 ≤ n) :
    ∃ r, Returns (fun cf => adaptivePredict P cf n d inp) r ∧ (∃ k, At k r.inp) ∧
      r.dfa.states.length ≤ d.states.length + (m + 2) := by
  obtain ⟨⟨s0, d1, mc, i1⟩, ⟨c0, h0⟩, hlen⟩ := startState_total (L := localOf P d inp) (inp := (TokStream.mark inp).2)
    ha hN hdec hd rfl
  have hret : Returns (fun cf => startState (localOf P d inp) cf d (TokStream.mark inp).2) (s0, d1, mc, i1) := ⟨c0, h0⟩
  dsimp only at hlen
  obtain ⟨rfl, g2, g3, g4, g5, -, -, -⟩ := startState_spec (L := localOf P d inp) ha hdec hd rfl (h0 c0 (Nat.le_refl _))
  obtain ⟨D, k1, k2, k3⟩ := g3.start _ g4
  obtain ⟨⟨t, i2⟩, s2⟩ := hl.laT (hl.mark hat)
  obtain ⟨e, at2⟩ := hl.la (hl.mark hat) s2
  dsimp only at e at2
  subst e
  obtain ⟨r, h1, ⟨k', h2⟩, h3⟩ := execLoop_total (L := localOf P d inp) ha hN hu h1s hd.noPrec hmax hdec hσ hcalls hl hw hm hlt m
    0 n d1 s0 mc i2 (by omega) (by omega) g3 ⟨D, k1, k3, k2⟩ g2 at2 (by omega)
  have hexec : Returns (fun cf => execAtn (localOf P d inp) cf n d1 s0 mc (TokStream.mark inp).2) r := by
    simp only [execAtn, s2, Option.bind_some]
    exact h1
  unfold adaptivePredict
  cases ho : r.out with
  | alt k =>
    obtain ⟨i3, s3⟩ := hl.seekT h2
    obtain ⟨i4, s4, at4⟩ := hl.releaseT (hl.seek h2 s3) (TokStream.mark inp).1
    refine ⟨{ r with inp := i4 }, hret.bind (hexec.bind ⟨0, fun _ _ => ?_⟩), ⟨0, at4⟩, by dsimp only; omega⟩
    simp only [ho]
    rw [show (localOf P d inp).startIndex = TokStream.index inp from rfl, s3, Option.bind_some, s4]
    rfl
  | noAlt a b =>
    refine ⟨r, hret.bind (hexec.bind ⟨0, fun _ _ => ?_⟩), ⟨k', h2⟩, by omega⟩
    simp only [ho]

/-! ### Common token streams -/

theorem looksT_cts (src : Source) (c : Int) (p0 : Nat) (hp0 : p0 ≤ eofIdx src) :
    LooksT (I := CTS) (p0 : Int) (fun n => (tok src (stepVis src c n p0)).ttype)
      (fun n i => ∃ h, Reach src c i h ∧ (p0 : Int) ∈ h ∧ i.index = (stepVis src c n p0 : Nat)) := by
  refine ⟨looks_cts src c p0, ?_, ?_, ?_, ?_, ?_, ?_⟩
  · rintro n i ⟨h, hr, hm, hi⟩
    obtain ⟨len, p, rfl, hok, -⟩ := reach_inv hr
    obtain ⟨len', -, -, h3⟩ := lt_cst src c len p 1 (by omega) hok
    rw [show ((1 : Nat) : Int) = 1 from rfl] at h3
    exact ⟨_, by show CTS.la _ 1 = _; rw [CTS.la, h3]; rfl⟩
  · rintro n i ⟨h, hr, hm, hi⟩ he
    obtain ⟨len, p, rfl, hok, -⟩ := reach_inv hr
    rw [cst_index] at hi
    obtain rfl : p = stepVis src c n p0 := by omega
    rw [ne_eq, tok_eof_iff, Nat.not_le] at he
    exact ⟨_, by show CTS.consume _ = _; rw [consume_cst src c len _ hok, if_pos he]⟩
  · rintro n i ⟨h, hr, hm, hi⟩
    obtain ⟨s', h1, -⟩ := C19_seek_recorded src c i h hr _ hm
    exact ⟨s', h1⟩
  · rintro n i ⟨h, hr, hm, hi⟩
    obtain ⟨len, p, rfl, hok, -, -, -, h2⟩ := reach_inv hr
    obtain ⟨q, e1, e2, -⟩ := h2 _ hm
    obtain rfl : p0 = q := by omega
    refine ⟨tok src p0, ?_⟩
    show (st src 1 0 len p).get p0 = _
    have hb : (st src 1 0 len p).bufferStart = 0 := by simp only [TS.bufferStart, st]; omega
    rw [TS.get, hb, Int.sub_zero, getAt_st, if_pos e2, Nat.zero_add]
  · rintro n i ⟨h, hr, hm, hi⟩
    obtain ⟨len, p, rfl, hok, -⟩ := reach_inv hr
    obtain ⟨len', -, -, h3⟩ := lt_cst src c len p 1 (by omega) hok
    rw [show ((1 : Nat) : Int) = 1 from rfl] at h3
    exact ⟨_, _, h3, h, hr.lt h3, hm, by rw [← hi, cst_index, cst_index]⟩
  · rintro n i ⟨h, hr, hm, hi⟩ m
    exact ⟨_, rfl, h, hr.release, hm, hi⟩

/-- EOF comes. -/
theorem stepVis_end (src : Source) (c : Int) (p : Nat) (hp : p ≤ eofIdx src) :
    ∃ m, m ≤ eofIdx src - p ∧ (tok src (stepVis src c m p)).ttype = TOKEN_EOF ∧
      ∀ i, i < m → (tok src (stepVis src c i p)).ttype ≠ TOKEN_EOF := by
  have hex : ∃ m, (tok src (stepVis src c m p)).ttype = TOKEN_EOF ∧ m ≤ eofIdx src - p := by
    refine ⟨eofIdx src - p, ?_, Nat.le_refl _⟩
    rw [tok_eof_iff]
    have key : ∀ k, k ≤ eofIdx src - p → p + k ≤ stepVis src c k p := by
      intro k
      induction k with
      | zero => intro _; exact Nat.le_refl _
      | succ k ih =>
        intro hk
        have h1 := ih (by omega)
        rw [ParserView.stepVis_succ]
        split
        · rename_i hlt
          have := (nextVis_spec src c (stepVis src c k p + 1)).2.2.1 (by omega)
          omega
        · rename_i hge
          omega
    have := key _ (Nat.le_refl _)
    omega
  obtain ⟨m, h1, h2⟩ := hex
  induction m using Nat.strongRecOn with
  | ind m ih =>
    by_cases hall : ∀ i, i < m → (tok src (stepVis src c i p)).ttype ≠ TOKEN_EOF
    · exact ⟨m, h2, h1, hall⟩
    · simp only [not_forall, not_not] at hall
      obtain ⟨i, hi, he⟩ := hall
      exact ih i hi he (by omega)

end Antlr.Prediction
