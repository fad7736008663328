import Verif.Gen.ReturnPredict
import Verif.Prediction.SemProps
import Verif.Prediction.RangeProps

/-! # Choices by `adaptive_predict` are made, with predicates and left-recursive rules -/

namespace Antlr.GenSpec
open Antlr Gen Prediction PredictionSpec

/-- What any prediction answers (C73): one of the alternatives of the decision. -/
def Ranged (atn : ATN) (d : Nat) (_t k : Int) : Prop :=
  ∃ a dec, atn.decisionToState[d]? = some a ∧ atn.states[a]? = some dec ∧ 1 ≤ k ∧ k ≤ dec.transitions.length

/-- All alternatives of the decision. -/
def rangeOf (atn : ATN) (d : Nat) (_t : Int) : List Int :=
  ((atn.decisionToState[d]?).bind fun a => atn.states[a]?).elim [] fun dec =>
    (List.range dec.transitions.length).map fun i : Nat => (i : Int) + 1

theorem ranged_answers {atn : ATN} {d : Nat} {t k : Int} (h : Ranged atn d t k) : k ∈ rangeOf atn d t := by
  obtain ⟨a, dec, h1, h2, h3, h4⟩ := h
  simp only [rangeOf, h1, Option.bind_some, h2, Option.elim_some]
  refine List.mem_map.2 ⟨(k - 1).toNat, ?_, ?_⟩
  · exact List.mem_range.2 (by omega)
  · omega

end Antlr.GenSpec

namespace Antlr.Gen
open Antlr ParserSpec GenSpec LL1Spec PredictionSpec Prediction TokenSpec PredictionProps

/-- There is a DFA for each decision, and it is what predictions made of a new one. -/
structure Versed (atn : ATN) (σ : SimState) : Prop where
  all : σ.dfas.length = atn.decisionToState.length
  tried : ∀ (d : Nat) (dfa : DFA), σ.dfas[d]? = some dfa → ∃ s dec, atn.decisionToState[d]? = some s ∧
    atn.states[s]? = some dec ∧ Tried atn s dec dfa

theorem tried_predicted {atn : ATN} {s : Nat} {dec : ATNState} {d : DFA} (h : Tried atn s dec d) : Predicted atn s d := by
  induction h with
  | new h _ => exact .new h
  | after _ hP _ _ _ h ih => exact .after ih hP h

theorem versed_new {atn : ATN} {ds : List DFA} (h : emptyDfas atn = some ds) (rs : List Report)
    (hl : atn.decisionToState.length ≤ 2 ^ 63) : Versed atn ⟨ds, rs⟩ := by
  have h0 := (stocked_new h rs).all
  refine ⟨h0, fun d dfa hd => ?_⟩
  obtain ⟨a, ha, hf⟩ := mapM_get _ _ h d hd
  obtain ⟨s, hs, hn⟩ := Option.bind_eq_some_iff.1 hf
  have hdl : d < atn.decisionToState.length := by
    have := (List.getElem?_eq_some_iff.1 hd).1
    exact h0 ▸ this
  have had : a = d := by
    rw [List.getElem?_eq_some_iff] at ha
    obtain ⟨hl, e⟩ := ha
    simpa using e.symm
  subst had
  obtain ⟨st, hst⟩ : ∃ st, atn.states[s]? = some st := by
    unfold DFA.new at hn
    obtain ⟨x, hx, -⟩ := Option.map_eq_some_iff.1 hn
    exact ⟨x, hx⟩
  refine ⟨s, st, hs, hst, .new hn ?_⟩
  have : asUsize (a : Int) = a := by
    unfold asUsize
    omega
  rw [this]
  exact hs

variable {M : Sim CTS} {src : Source} {c : Int} {B : Nat}

theorem tame_keeps (ha : Tame M.atn) {L : Nat} (hL : NoLoop M.atn L) (h1 : OneStop M.atn)
    (hmax : 0 ≤ M.atn.maxTokenType ∧ M.atn.maxTokenType < 2 ^ 63) (hord : ∀ l, (M.ord l).Perm l)
    (hB : B + (eofIdx src + 2) ≤ ERROR_DFA_STATE_REF) : Keeps M src c B (Versed M.atn) (Ranged M.atn) := by
  refine ⟨fun σ h => h.all, fun σ d a dec dfa p outer τ hi hda hd hdfa hq hcap => ?_⟩
  obtain ⟨a', dec', b1, b2, b3⟩ := hi.tried d dfa hdfa
  rw [hda, Option.some.injEq] at b1
  subst b1
  rw [hd.state, Option.some.injEq] at b2
  subst b2
  have hdec : Prediction.Decides M.atn a dec := ⟨hd.state, hd.inner, hd.silent, hd.few⟩
  have hroom : dfa.states.length + (eofIdx src + 2) ≤ ERROR_DFA_STATE_REF := by omega
  obtain ⟨cf, res, hres, hsz⟩ := C70_returns_pred ha hL h1 hmax hdec b3 rfl hord hq hroom
  have hrun := hres cf (2 * eofIdx src + 2) (Nat.le_refl _) (Nat.le_refl _)
  have hfew := hd.few
  refine ⟨cf, res, hres, ⟨by rw [List.length_set]; exact hi.all, ?_⟩, fun k ho =>
    ⟨a, dec, hda, hd.state, C73_range hd.state (by omega) (tried_predicted b3) _ rfl _ _ _ res hrun k ho⟩⟩
  intro d' dfa' hd'
  rw [List.getElem?_set] at hd'
  by_cases hdd : d = d'
  · subst hdd
    rw [if_pos rfl] at hd'
    rw [if_pos (List.getElem?_eq_some_iff.1 hdfa).1] at hd'
    rw [Option.some.injEq] at hd'
    subst hd'
    exact ⟨a, dec, hda, hd.state, .after b3 rfl hord hq hroom hrun⟩
  · rw [if_neg hdd] at hd'
    exact hi.tried d' dfa' hd'

end Antlr.Gen
