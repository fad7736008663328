import Verif.Prediction.Interrupt
import Verif.Prediction.Predict
import Verif.Prediction.Range

/-! # An interrupted prediction leaves a DFA that is right -/

namespace Antlr.Prediction
open Antlr StackSpec ConfigSet PC PredictionSpec LL1Spec PredictionMode PredictionModeProps

variable {I : Type} [TokStream I]

/-! ## The alternatives of the decision -/

theorem mid_good {A : Int → Prop} (hA : Casts A) {L : Local I} {cf : Nat} {d x : DFA} {prev : Nat} {t : Int}
    {mc : PC.Cache} {inp : I} (hd : GoodDfa A d) (h : Mid L cf d prev t mc inp x) :
    GoodDfa A x ∧ x.atnStartState = d.atnStartState := by
  induction h with
  | here => exact ⟨hd, rfl⟩
  | half h1 h2 h3 =>
    exact hd.addState (hash := L.hash) (targetState_good hA (computeReach_good (hd.at h1).configs h2 _ rfl).1 h3)
  | after h => exact nextState_good hA hd h
  | later h _ _ _ _ _ _ ih =>
    obtain ⟨g1, g2⟩ := nextState_good hA hd h
    obtain ⟨g3, g4⟩ := ih g1
    exact ⟨g3, g4.trans g2⟩

theorem interrupted_good {P : Params I} {cf : Nat} {d x : DFA} {inp : I} {st : ATNState}
    (hst : P.atn.states[d.atnStartState]? = some st) (hc : Casts (Upto st.transitions.length))
    (hd : GoodDfa (Upto st.transitions.length) d) (h : Interrupted P cf d inp x) :
    GoodDfa (Upto st.transitions.length) x ∧ x.atnStartState = d.atnStartState := by
  have hst' : (localOf P d inp).atn.states[(localOf P d inp).atnStart]? = some st := hst
  cases h with
  | before => exact ⟨hd, rfl⟩
  | added _ h1 => exact hd.addState (GoodState.new (computeStart_good hst' h1) 0)
  | closure h1 _ _ h3 => exact ⟨hd.set ⟨computeStart_good hst' h1, (hd.at h3).2, (hd.at h3).3⟩, rfl⟩
  | @filtered cs _ _ s0 s _ _ h1 _ _ h3 h4 =>
    have g1 := computeStart_good hst' h1
    have g3 : GoodState (Upto st.transitions.length) { s with configs := cs } := ⟨g1, (hd.at h3).2, (hd.at h3).3⟩
    exact (hd.set (i := s0) g3).addState (GoodState.new (applyPrecedenceFilter_good g1 h4) 0)
  | started h1 => exact startState_good hst' hd h1
  | mid h1 _ h3 =>
    obtain ⟨g1, g2⟩ := startState_good hst' hd h1
    obtain ⟨g3, g4⟩ := mid_good hc g1 h3
    exact ⟨g3, g4.trans g2⟩

/-! ## What the DFA says is right -/

theorem DInv.addState {atn : ATN} {s : Nat} {dec : ATNState} {d : DFA} (hd : DInv atn s dec d) {hash : ConfigSet → Nat}
    {E : DFAState} (t1 : Tidy E) (t2 : E.stateNumber = 0) (t3 : E.edges = []) :
    DInv atn s dec (DFA.addState hash d E).1 ∧ Grows d (DFA.addState hash d E).1 ∧ Keeps d (DFA.addState hash d E).1 ∧
    (DFA.addState hash d E).1.s0 = d.s0 := by
  obtain ⟨b1, b2, b3, b4, b5, b6, -, b9, b10⟩ := addState_spec (hash := hash) t1 t2 t3 hd.tidy
  refine ⟨⟨b3.trans hd.noPrec, b4.trans hd.atnStart, b5, ?_, ?_, ?_, (addState_wide hd.wide t3).1⟩, b1, ?_, b2⟩
  · intro i G u k hG hG' hu hk
    have hk' := b6 i u k hk
    obtain ⟨G1, f1, -⟩ := Option.map_eq_some_iff.1 (show (d.states[i]?).map _ = _ from hk')
    have f2 : some G1 = some G := (b9 _ _ f1).symm.trans hG
    cases f2
    exact (hd.edge i _ u k f1 hG' hu hk').grows b1 (.refl _)
  · obtain ⟨N, n1, n2⟩ := hd.zero
    exact ⟨N, b9 _ _ n1, n2⟩
  · intro i hi
    rw [b2] at hi
    obtain ⟨D, e1, e2, e3⟩ := hd.start i hi
    exact ⟨D, b9 _ _ e1, e2, e3⟩
  · intro i u k _ hk
    obtain ⟨G1, f1, f2⟩ := Option.map_eq_some_iff.1 (show (d.states[i]?).map _ = _ from hk)
    show ((DFA.addState hash d E).1.states[i]?).map _ = _
    rw [b9 _ _ f1]
    simpa using f2

theorem half_tidy {L : Local I} {cf : Nat} (ha : Plain L.atn) (hp : L.isPrec = false)
    {s : Nat} {dec : ATNState} (hdec : Decides L.atn s dec) {t : Int} {mc mc' : PC.Cache} {inp inp' : I} {D E : DFAState}
    {v : List Int} (hv : Fits L.atn dec D v) (hm : CacheFit false true mc) {reach : ConfigSet} {k : Int}
    (h1 : computeReach L cf D.configs t false mc inp = some (some reach, mc', inp'))
    (hE : targetState L.toParams k reach = some E) : Tidy E ∧ E.stateNumber = 0 ∧ E.edges = [] := by
  have spec := computeReach_spec (d := true) ha hp (fun _ => rfl) (t := t) (T0 := TL L.atn dec v)
        (T1 := TL L.atn dec (v ++ [t])) (fun j p q h hr => h.read ha hr)
        (TL.goes ha (fun he => ⟨v, by rw [beq_iff_eq] at he; rw [he]⟩)) (fun j p h => h.range.1)
        hv.sound hm h1
  have hr := spec.2.2.1 reach rfl
  obtain ⟨R, hR⟩ := hr.holds
  have rng : ∀ c ∈ reach.configs, 1 ≤ c.alt ∧ c.alt ≤ dec.transitions.length := by
    intro c hc
    refine (hr.sound c hc).range (fun _ _ h => h.range) ?_
    rintro j (h | ⟨p, h, -⟩)
    · exact h.range (fun _ _ _ h => h.range)
    · exact h.range
  have hfew := hdec.few
  obtain ⟨t1, t2, t3, -⟩ := targetState_spec hR.marks.1 hR.marks.2 hr.noSem hr.ne
    (fun c hc => ⟨(rng c hc).1, by have := (rng c hc).2; omega⟩) hE
  exact ⟨t1, t2, t3⟩

theorem mid_len {L : Local I} {cf : Nat} {d x : DFA} {prev : Nat} {t : Int} {mc : PC.Cache} {inp : I}
    (h : Mid L cf d prev t mc inp x) : d.states.length ≤ x.states.length := by
  induction h with
  | here => exact Nat.le_refl _
  | half =>
    unfold DFA.addState
    split
    · exact Nat.le_refl _
    · split <;> simp
  | after h => exact nextState_len h
  | later h _ _ _ _ _ _ ih => exact Nat.le_trans (nextState_len h) ih

theorem mid_spec {L : Local I} {cf : Nat} (ha : Plain L.atn) (hp : L.isPrec = false)
    {dec : ATNState} (hdec : Decides L.atn L.atnStart dec)
    {w : Nat → Int} {At : Nat → I → Prop} (hl : Looks L.startIndex w At) (hw : ∀ n, TokOk (w n))
    {m : Nat} {d x : DFA} {prev : Nat} {t : Int} {mc : PC.Cache} {inp : I} (ht : t = w m) (hd : DInv L.atn L.atnStart dec d)
    {D : DFAState} (hD : d.states[prev]? = some D) (hacc : D.isAccept = false) (hv : Fits L.atn dec D (pre w m))
    (hm : CacheFit false true mc) (hat : At m inp) (h : Mid L cf d prev t mc inp x)
    (hsz : x.states.length ≤ ERROR_DFA_STATE_REF) :
    DInv L.atn L.atnStart dec x ∧ Grows d x ∧ Keeps d x ∧ ∀ i, d.s0 = some i → x.s0 = some i := by
  induction h generalizing m D with
  | here => exact ⟨hd, .refl _, .refl _, fun _ h => h⟩
  | half h1 h2 h3 =>
    rw [hD] at h1
    cases h1
    obtain ⟨t1, t2, t3⟩ := half_tidy ha hp hdec hv hm h2 h3
    obtain ⟨a1, a2, a3, a4⟩ := hd.addState (hash := L.hash) t1 t2 t3
    exact ⟨a1, a2, a3, fun i hi => a4.trans hi⟩
  | after h =>
    subst ht
    obtain ⟨-, -, g3, -, -, x1, x2, -⟩ := nextState_spec ha hp hdec hd (hw m) hD hacc hv hm h hsz
    exact ⟨g3, x1, x2, fun i hi => (nextState_s0 h).trans hi⟩
  | later h hne hDs _ hna hinp hmid ih =>
    subst ht
    obtain ⟨rfl, g2, g3, -, g6, x1, x2, -⟩ := nextState_spec ha hp hdec hd (hw m) hD hacc hv hm h
      (Nat.le_trans (mid_len hmid) hsz)
    rw [EdgeOk, if_neg hne] at g6
    obtain ⟨E, k1, k2, k3⟩ := g6
    rw [hDs] at k1
    cases k1
    have hneof : w m ≠ TOKEN_EOF := by
      intro e
      rw [k2 e] at hna
      cases hna
    rw [if_pos hneof] at hinp
    obtain ⟨i1, c1, c2⟩ := Option.bind_eq_some_iff.1 hinp
    obtain ⟨q1, q2⟩ := hl.la (hl.consume hat hneof c1) c2
    have hv' := k3 _ hv
    rw [← pre_succ] at hv'
    obtain ⟨r1, r2, r3, r4⟩ := ih q1 g3 hDs hna hv' g2 q2 hsz
    exact ⟨r1, x1.trans r2, x2.trans r3, fun i hi => r4 i ((nextState_s0 h).trans hi)⟩

theorem interrupted_spec {P : Params I} {cf : Nat} (ha : Plain P.atn) {d x : DFA} {dec : ATNState}
    (hdec : Decides P.atn d.atnStartState dec) {w : Nat → Int} {At : Nat → I → Prop} {inp : I}
    (hl : Looks (TokStream.index inp) w At) (hw : ∀ n, TokOk (w n)) (hd : DInv P.atn d.atnStartState dec d)
    (hat : At 0 inp) (h : Interrupted P cf d inp x) (hsz : x.states.length ≤ ERROR_DFA_STATE_REF) :
    DInv P.atn d.atnStartState dec x ∧ Grows d x ∧ Keeps d x ∧ (∀ i, d.s0 = some i → x.s0 = some i) ∧
    (Humble P.atn dec d → Humble P.atn dec x) := by
  have hnp := hd.noPrec
  cases h with
  | before => exact ⟨hd, .refl _, .refl _, fun _ h => h, id⟩
  | @added cs mc i _ h1 =>
    obtain ⟨-, -, ⟨R, g3⟩, -⟩ := computeStart_spec (L := localOf P d inp) (full := false) (d := true)
      (T := fun j p => TL P.atn dec [] j p)
      ha hnp (fun _ => rfl) hdec.state (.empty _) (by
        intro i tr hi k hk
        cases hk
        exact TL.start ha hdec hi) (TL.goes ha (by simp)) (.nil _ _) h1
    have tD : Tidy (DFAState.new 0 cs) := by
      obtain ⟨e1, e2⟩ := g3.marks
      refine ⟨rfl, ?_, ?_, ?_, ?_, ?_⟩ <;> simp [DFAState.new, e1, e2]
    obtain ⟨a1, a2, a3, a4⟩ := hd.addState (hash := P.hash) tD rfl rfl
    have hcs : Modest P.atn dec cs := computeStart_modest (L := localOf P d inp) (full := false) (d := true) (σ := []) ha
      hnp (fun _ => rfl) hdec.state (.empty _) (by
        intro k hk
        cases hk
        rfl) (.nil _ _) h1
    refine ⟨a1, a2, a3, fun i hi => a4.trans hi, fun hh => ?_⟩
    cases hs0 : d.s0 with
    | some i => exact hh.grows hd a2 hs0 (a4.trans hs0)
    | none =>
      refine ⟨fun i G hi _ => ?_, fun hn => ?_⟩
      · rw [a4, hs0] at hi
        cases hi
      exact addState_humble (hash := P.hash) (D := DFAState.new 0 cs) (hh.2 hs0) hcs
  | closure _ h => rw [hnp] at h; cases h
  | filtered _ h => rw [hnp] at h; cases h
  | started h1 =>
    obtain ⟨-, -, g3, g4, g5, g6, g7, g8⟩ := startState_spec (L := localOf P d inp) ha hdec hd rfl h1
    refine ⟨g3, g5, g6, fun i hi => ?_, g8⟩
    rw [(g7 (by simp [hi])).1, hi]
  | mid h1 h2 h3 =>
    obtain ⟨rfl, g2, g3, g4, g5, g6, g7, g8⟩ := startState_spec (L := localOf P d inp) ha hdec hd rfl h1
    obtain ⟨a1, a2⟩ := hl.la (hl.mark hat) h2
    obtain ⟨D, k1, k2, k3⟩ := g3.start _ g4
    obtain ⟨r1, r2, r3, r4⟩ := mid_spec (L := localOf P d inp) (m := 0) ha hnp hdec hl hw a1 g3 k1 k3 k2 g2 a2 h3 hsz
    refine ⟨r1, g5.trans r2, g6.trans r3, fun i hi => r4 i ?_, fun hh => (g8 hh).grows g3 r2 g4 (r4 _ g4)⟩
    rw [(g7 (by simp [hi])).1, hi]

end Antlr.Prediction
