import Verif.Prediction.Predict
import Verif.Prediction.InputProps
import Verif.Parser.View

/-! Helper lemmas: prediction on common token streams; the DFA of a decision from its creation on. -/

namespace Antlr.Prediction
open Antlr TokenSpec PredictionSpec CommonProps StackProps

theorem cst_index (src : Source) (c : Int) (len p : Nat) : (cst src c len p).index = (p : Int) := by
  simp [CTS.index, cst, st]

theorem looks_cts (src : Source) (c : Int) (p0 : Nat) :
    Looks (I := CTS) (p0 : Int) (fun n => (tok src (stepVis src c n p0)).ttype)
      (fun n i => ∃ h, Reach src c i h ∧ (p0 : Int) ∈ h ∧ i.index = (stepVis src c n p0 : Nat)) := by
  refine ⟨?_, ?_, ?_, ?_⟩
  · rintro n i ⟨x, i'⟩ ⟨h, hr, hm, hi⟩ hl
    change CTS.la i 1 = _ at hl
    have hr' := hr.la hl
    obtain ⟨len, p, rfl, hok, -⟩ := reach_inv hr
    rw [cst_index] at hi
    obtain rfl : p = stepVis src c n p0 := by omega
    obtain ⟨len', -, h2, h3⟩ := lt_cst src c len (stepVis src c n p0) 1 (by omega) hok
    rw [CTS.la] at hl
    rw [show ((1 : Nat) : Int) = 1 from rfl] at h3
    rw [h3] at hl
    simp only [Option.map_some, Option.some.injEq, Prod.mk.injEq] at hl
    obtain ⟨rfl, rfl⟩ := hl
    exact ⟨rfl, h, hr', hm, by rw [cst_index]⟩
  · rintro n i i' ⟨h, hr, hm, hi⟩ he hl
    change CTS.consume i = _ at hl
    have hr' := hr.consume hl
    obtain ⟨len, p, rfl, hok, -⟩ := reach_inv hr
    rw [cst_index] at hi
    obtain rfl : p = stepVis src c n p0 := by omega
    rw [consume_cst src c len _ hok] at hl
    split at hl
    · next hlt =>
      simp only [Option.some.injEq] at hl
      subst hl
      refine ⟨_, hr', List.mem_cons_of_mem _ hm, ?_⟩
      rw [cst_index, ParserView.stepVis_succ, if_pos hlt]
    · simp at hl
  · rintro n i i' ⟨h, hr, hm, hi⟩ hl
    change CTS.seek i (p0 : Int) = _ at hl
    obtain ⟨s', h1, h2, h3⟩ := C19_seek_recorded src c i h hr _ hm
    rw [h1, Option.some.injEq] at hl
    subst hl
    exact ⟨h, h3, hm, h2⟩
  · rintro i ⟨h, hr, hm, hi⟩
    refine ⟨h, hr.mark, hm, ?_⟩
    rw [← hi]
    obtain ⟨len, p, rfl, hok, -⟩ := reach_inv hr
    rfl

/-- A new DFA is right. -/
theorem dinv_new {atn : ATN} (ha : Plain atn) {s : Nat} {n : Int} {dec : ATNState} (hdec : Decides atn s dec) {d : DFA}
    (h : DFA.new atn s n = some d) : DInv atn s dec d ∧ d.s0 = none := by
  have hp : DFA.isPrecedenceState dec = false := by
    have := ha.noPrec _ _ hdec.state
    unfold DFA.isPrecedenceState
    split
    · next heq => exact absurd heq (this _ _ _)
    · rfl
  simp only [DFA.new, hdec.state, Option.map_some, hp, Bool.false_eq_true, if_false, Option.some.injEq] at h
  subst h
  refine ⟨⟨rfl, rfl, ?_, ?_, ⟨_, rfl, rfl⟩, by simp, by simp [Wide, DFAState.new]⟩, rfl⟩
  · intro i D hD
    match i, hD with
    | 0, hD =>
      simp only [List.getElem?_cons_zero, Option.some.injEq] at hD
      subst hD
      refine ⟨rfl, ?_, ?_, ?_, ?_, ?_⟩ <;> simp [DFAState.new, ConfigSet.newBase]
    | i + 1, hD => simp at hD
  · intro i D t j hD _ _ he
    match i, hD with
    | 0, hD =>
      simp [DFA.existingTarget, DFAState.new] at he
    | i + 1, hD => simp at hD

end Antlr.Prediction
