import Verif.Prediction.InputProps

/-! # The tokens of `NoViableAltError` are in the buffer of the stream -/

namespace Antlr
namespace Prediction
set_option linter.unusedSectionVars false
variable {I : Type} [TokStream I] {ok : I → Prop}

/-- Where the tokens of an error come from. -/
def Told (start : Int) (ok : I → Prop) (r : Res I) : Prop :=
  ∀ s o, r.out = .noAlt s o → ∃ i0 i1 : I, ok i0 ∧ TokStream.get i0 start = some s ∧ TokStream.lt i0 1 = some (some o, i1) ∧
    (r.inp = i1 ∨ TokStream.seek i1 start = some r.inp)

variable {start : Int}

theorem told_alt {r : Res I} {k : Int} (e : r.out = .alt k) : Told start ok r :=
  fun s o h' => by rw [e] at h'; cases h'

theorem noViableAlt_told {L : Local I} {i : I} {r : Outcome × I} (h : noViableAlt L i = some r) {s o : Tok}
    (e : r.1 = .noAlt s o) : TokStream.get i L.startIndex = some s ∧ TokStream.lt i 1 = some (some o, r.2) := by
  unfold noViableAlt at h
  obtain ⟨s', h1, h⟩ := Option.bind_eq_some_iff.1 h
  obtain ⟨⟨x, i1⟩, h2, h⟩ := Option.bind_eq_some_iff.1 h
  obtain ⟨o', h3, h⟩ := Option.map_eq_some_iff.1 h
  rw [← h] at e ⊢
  cases e
  dsimp only at h3
  subst h3
  exact ⟨h1, h2⟩

theorem fullLoop_told {L : Local I} (R : Rewinds L.startIndex ok) {cf : Nat} {d : DFA} (n : Nat)
    {prev : ConfigSet} {t : Int} {mc : PC.Cache} {i : I} {r : Res I} (hok : ok i)
    (h : fullLoop L cf d n prev t mc i = some r) : Told L.startIndex ok r := by
  induction n generalizing prev t mc i with
  | zero => simp [fullLoop] at h
  | succ n ih =>
    rw [fullLoop] at h
    obtain ⟨⟨re, mc1, i1⟩, h1, h⟩ := Option.bind_eq_some_iff.1 h
    have s1 := computeReach_same R hok h1
    dsimp only at h s1
    split at h
    · obtain ⟨i2, h2, h⟩ := Option.bind_eq_some_iff.1 h
      have s2 := R.toStart s1.1 h2
      obtain ⟨k, _, h⟩ := Option.bind_eq_some_iff.1 h
      split at h
      · simp only [Option.some.injEq] at h
        rw [← h]; exact told_alt (k := k) (Eq.refl _)
      · obtain ⟨x, h3, h⟩ := Option.map_eq_some_iff.1 h
        rw [← h]
        intro s o e
        obtain ⟨g1, g2⟩ := noViableAlt_told h3 e
        exact ⟨i2, x.2, s2.1, g1, g2, .inl (Eq.refl _)⟩
    · split at h
      · simp only [Option.some.injEq] at h
        rw [← h]; exact told_alt (Eq.refl _)
      · obtain ⟨dec, _, h⟩ := Option.bind_eq_some_iff.1 h
        split at h
        · simp only [Option.some.injEq] at h
          rw [← h]; exact told_alt (Eq.refl _)
        · split at h
          · obtain ⟨i2, h2, h⟩ := Option.bind_eq_some_iff.1 h
            obtain ⟨x, h3, h⟩ := Option.bind_eq_some_iff.1 h
            exact ih (R.la (R.consume s1.1 h2) h3).1 h
          · exact ih s1.1 h

theorem conflictPreds_ok {L : Local I} (R : Rewinds L.startIndex ok) {D : DFAState} {i i1 : I} {alts : List Nat} (hok : ok i)
    (h1 : conflictPreds L D i = some (alts, i1)) : ok i1 := by
  unfold conflictPreds at h1
  split at h1
  · simp only [Option.some.injEq, Prod.mk.injEq] at h1; rw [← h1.2]; exact hok
  · obtain ⟨i2, h2, h1⟩ := Option.bind_eq_some_iff.1 h1
    have k2 : ok i2 := by
      split at h2
      · exact (R.toStart hok h2).1
      · simp only [Option.some.injEq] at h2; rw [← h2]; exact hok
    split at h1
    · simp only [Option.some.injEq, Prod.mk.injEq] at h1; rw [← h1.2]; exact k2
    · obtain ⟨i3, h3, h1⟩ := Option.map_eq_some_iff.1 h1
      simp only [Prod.mk.injEq] at h1
      rw [← h1.2]
      split at h3
      · rename_i hne
        rw [if_pos hne] at h2
        exact (R.back hok h2 h3).1
      · simp only [Option.some.injEq] at h3; rw [← h3]; exact k2

theorem needFull_told {L : Local I} (R : Rewinds L.startIndex ok) {cf n : Nat} {d : DFA}
    {D : DFAState} {mc : PC.Cache} {i : I} {r : Res I} (hok : ok i)
    (h : needFull L cf n d D mc i = some r) : Told L.startIndex ok r := by
  unfold needFull at h
  obtain ⟨⟨alts, i1⟩, h1, h⟩ := Option.bind_eq_some_iff.1 h
  have k1 := conflictPreds_ok R hok h1
  dsimp only at h
  split at h
  · obtain ⟨k, _, h⟩ := Option.map_eq_some_iff.1 h
    rw [← h]; exact told_alt (Eq.refl _)
  · obtain ⟨ctx, _, h⟩ := Option.bind_eq_some_iff.1 h
    obtain ⟨⟨s0, mc1, i2⟩, h2, h⟩ := Option.bind_eq_some_iff.1 h
    have s2 := computeStart_same R k1 h2
    obtain ⟨r1, h3, h⟩ := Option.map_eq_some_iff.1 h
    unfold execFull at h3
    obtain ⟨i3, h4, h3⟩ := Option.bind_eq_some_iff.1 h3
    obtain ⟨x, h5, h3⟩ := Option.bind_eq_some_iff.1 h3
    have := fullLoop_told R n (R.la (R.toStart s2.1 h4).1 h5).1 h3
    rw [← h]
    exact this

theorem accepting_told {L : Local I} (R : Rewinds L.startIndex ok) {d : DFA} {D : DFAState} {i : I}
    {r : Res I} (hok : ok i) (h : accepting L d D i = some r) : Told L.startIndex ok r := by
  unfold accepting at h
  split at h
  · simp only [Option.some.injEq] at h
    rw [← h]; exact told_alt (Eq.refl _)
  · obtain ⟨i1, h1, h⟩ := Option.bind_eq_some_iff.1 h
    have s1 := R.toStart hok h1
    split at h
    · obtain ⟨x, h3, h⟩ := Option.map_eq_some_iff.1 h
      rw [← h]
      intro s o e
      obtain ⟨g1, g2⟩ := noViableAlt_told h3 e
      exact ⟨i1, x.2, s1.1, g1, g2, .inl (Eq.refl _)⟩
    · simp only [Option.some.injEq] at h
      rw [← h]; exact told_alt (Eq.refl _)
    · simp only [Option.some.injEq] at h
      rw [← h]; exact told_alt (Eq.refl _)

theorem failing_told {L : Local I} {d : DFA} {D : DFAState} {i : I}
    {r : Res I} (hok : ok i) (h : failing L d D i = some r) : Told L.startIndex ok r := by
  unfold failing at h
  obtain ⟨x, h1, h⟩ := Option.bind_eq_some_iff.1 h
  obtain ⟨i2, h2, h⟩ := Option.bind_eq_some_iff.1 h
  obtain ⟨k, _, h⟩ := Option.map_eq_some_iff.1 h
  split at h
  · rw [← h]; exact told_alt (Eq.refl _)
  · rw [← h]
    intro s o e
    obtain ⟨g1, g2⟩ := noViableAlt_told h1 e
    exact ⟨i, x.2, hok, g1, g2, .inr h2⟩

theorem execLoop_told {L : Local I} (R : Rewinds L.startIndex ok) {cf : Nat} (n : Nat) {d : DFA}
    {prev : Nat} {t : Int} {mc : PC.Cache} {i : I} {r : Res I} (hok : ok i)
    (h : execLoop L cf n d prev t mc i = some r) : Told L.startIndex ok r := by
  induction n generalizing d prev t mc i with
  | zero => simp [execLoop] at h
  | succ n ih =>
    rw [execLoop] at h
    obtain ⟨⟨D, d1, mc1, i1⟩, h1, h⟩ := Option.bind_eq_some_iff.1 h
    have s1 := nextState_same R hok h1
    dsimp only at h s1
    split at h
    · obtain ⟨p, _, h⟩ := Option.bind_eq_some_iff.1 h
      exact failing_told s1.1 h
    · obtain ⟨Ds, _, h⟩ := Option.bind_eq_some_iff.1 h
      split at h
      · exact needFull_told R s1.1 h
      · split at h
        · exact accepting_told R s1.1 h
        · split at h
          · obtain ⟨i2, h2, h⟩ := Option.bind_eq_some_iff.1 h
            obtain ⟨x, h3, h⟩ := Option.bind_eq_some_iff.1 h
            exact ih (R.la (R.consume s1.1 h2) h3).1 h
          · exact ih s1.1 h

theorem adaptivePredict_told (P : Params I) (cf n : Nat) (d : DFA) (i : I) (r : Res I)
    (R : Rewinds (TokStream.index i) ok) (hok : ok (TokStream.mark i).2)
    (h : adaptivePredict P cf n d i = some r) : Told (TokStream.index i) ok r := by
  unfold adaptivePredict at h
  obtain ⟨⟨s0, d1, mc1, i1⟩, h1, h⟩ := Option.bind_eq_some_iff.1 h
  have s1 := startState_same (L := localOf P d i) R hok h1
  obtain ⟨x, h2, h⟩ := Option.bind_eq_some_iff.1 h
  unfold execAtn at h2
  obtain ⟨y, h3, h2⟩ := Option.bind_eq_some_iff.1 h2
  have s2 := execLoop_told (L := localOf P d i) R n (R.la s1.1 h3).1 h2
  cases he : x.out with
  | alt k =>
    rw [he] at h
    obtain ⟨i2, h4, h⟩ := Option.bind_eq_some_iff.1 h
    obtain ⟨i3, h5, h⟩ := Option.map_eq_some_iff.1 h
    rw [← h]
    exact told_alt (k := k) (Eq.refl _)
  | noAlt s o =>
    rw [he] at h
    simp only [Option.some.injEq] at h
    rw [← h]
    exact s2

end Prediction

namespace PredictionProps
open Antlr Prediction TokenSpec

theorem get_cst (src : Source) (c : Int) {len p k : Nat} (h : k < len) :
    (cst src c len p).base.get (k : Int) = some (tok src k) := by
  have e : TS.bufferStart (cst src c len p).base = 0 := by simp [TS.bufferStart, cst, st]
  rw [TS.get, e, Int.sub_zero]
  exact cgetAt src c len p k h

/-- **C38** The two tokens of an error are the one at which the prediction began, and one that is in the buffer of the
stream when the error is returned: they can be read from it, and so can the text between them. -/
theorem C38_offending (P : Params CTS) (cf n : Nat) (d : DFA) (src : Source) (c : Int) (s : CTS)
    (h : List Int) (hr : CommonProps.Reach src c s h) (r : Res CTS)
    (hp : adaptivePredict P cf n d s = some r) (a o : Tok) (ho : r.out = .noAlt a o) :
    s.base.get s.index = some a ∧ a.index = s.index ∧ r.inp.base.get o.index = some o ∧
      ∃ text, r.inp.base.getText a.index o.index = some text := by
  have hm : s.index ∈ h := by
    obtain ⟨len, p, rfl, hok, hv, h1, -⟩ := CommonProps.reach_inv hr
    simpa [CTS.index, cst, st] using h1
  obtain ⟨i0, i1, ⟨h0, hr0, hm0⟩, g1, g2, g3⟩ :=
    adaptivePredict_told P cf n d s r (rewinds_cts src c s.index) ⟨h, hr.mark, hm⟩ hp a o ho
  have hr1 : CommonProps.Reach src c i1 h0 := hr0.lt g2
  have hr2 : CommonProps.Reach src c r.inp h0 := by
    rcases g3 with e | e
    · rw [e]; exact hr1
    · exact hr1.seek hm0 e
  obtain ⟨len, p, rfl, hok, -, hp0, -⟩ := CommonProps.reach_inv hr
  obtain ⟨len0, p0, rfl, hok0, -, hp0, -⟩ := CommonProps.reach_inv hr0
  obtain ⟨len2, p2, e2, hok2, -, -, -, hall⟩ := CommonProps.reach_inv hr2
  obtain ⟨len1, -, -, g4⟩ := lt_cst src c len0 p0 1 (Nat.le_refl _) hok0
  have g2' : some (some (tok src (stepVis src c (1 - 1) p0)), cst src c len1 p0) = some (some o, i1) := g4.symm.trans g2
  simp only [Option.some.injEq, Prod.mk.injEq] at g2'
  obtain ⟨rfl, -⟩ := g2'
  have ep : TokStream.index (cst src c len p) = (p : Int) := by simp [TokStream.index, CTS.index, cst, st]
  have ep' : (cst src c len p).index = (p : Int) := ep
  rw [ep] at g1
  rw [ep'] at hm0 ⊢
  obtain ⟨p', e1, h1, -⟩ := hall _ hm0
  obtain rfl : p = p' := by omega
  have h2 : p0 < len2 := by
    obtain ⟨q, e, h, -⟩ := hall _ hp0
    omega
  have hpos : ∀ q ∈ h0, ∃ n : Nat, q = n ∧ n < len0 ∧ (n = 0 ∨ Visible src c n) := by
    obtain ⟨l', q', e', -, -, -, -, h'⟩ := CommonProps.reach_inv hr0
    have := congrArg (fun s : CTS => s.base.tokens.length) e'
    simp only [cst, st, window_length] at this
    subst this
    exact h'
  obtain ⟨p', e3, h3, -⟩ := hpos _ hm0
  obtain rfl : p = p' := by omega
  have g1' : (cst src c len0 p0).base.get (p : Int) = some a := g1
  rw [get_cst src c h3, Option.some.injEq] at g1'
  subst g1'
  have eo : (tok src (stepVis src c (1 - 1) p0)).index = (p0 : Int) := rfl
  have ea : (tok src p).index = (p : Int) := rfl
  rw [eo, ea, e2]
  refine ⟨get_cst src c hok.1, rfl, get_cst src c h2, ?_⟩
  have hb : (cst src c len2 p2).base.bufferStart = 0 := by simp only [TS.bufferStart, cst, Antlr.st]; omega
  have hl : (cst src c len2 p2).base.tokens.length = len2 := window_length ..
  unfold TS.getText
  simp only [hb, hl]
  rw [if_neg (by omega)]
  exact ⟨_, rfl⟩

/-- `A A`, where `A` must be followed by something else: the offending token is the second one. -/
example : ∃ r a o, exPredict CTS (CTS.withChannel (exSource [1, 1]) 0) 0 = some r ∧ r.out = .noAlt a o ∧
    a = exTok 1 0 ∧ o = exTok 1 1 ∧ r.inp.base.get o.index = some o := by
  have h : (exPredict CTS (CTS.withChannel (exSource [1, 1]) 0) 0).map (fun r => r.out) = some (.noAlt (exTok 1 0) (exTok 1 1)) := by
    decide +kernel
  obtain ⟨r, h1, h2⟩ := Option.map_eq_some_iff.1 h
  exact ⟨r, _, _, h1, h2, rfl, rfl, (C38_offending _ _ _ _ _ _ _ _ .init _ h1 _ _ h2).2.2.1⟩

end PredictionProps
end Antlr
