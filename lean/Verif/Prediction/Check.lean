import Verif.Prediction.Spec
import Verif.DFA.Model

/-! A check whether an automaton is `Plain`. -/

namespace Antlr.PredictionSpec
open Antlr LL1Spec IntervalSpec

/-- State number `n`, if there is one, belongs to rule `r`. -/
def inRuleB (atn : ATN) (n r : Nat) : Bool := (atn.states[n]?).all fun st => st.ruleIndex == r

/-- The edges to follow states of calls of rule `r`. -/
def callsOf (atn : ATN) (r : Nat) : List Nat :=
  atn.states.flatMap fun st => st.transitions.filterMap fun tr =>
    match tr with
    | .rule t f _ _ => if (atn.states[t]?).any (·.ruleIndex == r) then some f else none
    | _ => none

/-- The state is as `Plain` wants it. -/
def plainStateB (atn : ATN) (st : ATNState) : Bool :=
  (st.transitions.all fun tr => tr.getPredicate.isNone && decide (tr.target < atn.states.length) &&
    (match tr with
     | .set _ x | .notSet _ x => decide (SortedDisjoint x.intervals)
     | _ => true) &&
    (match tr with
     | .rule _ f _ _ => decide (f < atn.states.length) && inRuleB atn f st.ruleIndex
     | tr => decide (st.stateType = .ruleStop) || inRuleB atn tr.target st.ruleIndex)) &&
  !DFA.isPrecedenceState st &&
  (st.epsilonOnly == (!st.transitions.isEmpty && st.transitions.all (·.isEpsilon))) &&
  (decide (st.stateType ≠ .ruleStop) ||
    ((callsOf atn st.ruleIndex).all fun f => st.transitions.any fun e =>
      match e with
      | .epsilon g _ => g == f
      | _ => false) &&
    (st.transitions.all fun e =>
      match e with
      | .epsilon g _ => (callsOf atn st.ruleIndex).contains g
      | _ => false))

/-- The automaton is `Plain`. -/
def plainB (atn : ATN) : Bool :=
  decide ((atn.states.length : Int) ≤ PC.EMPTY_RS) && atn.states.all (plainStateB atn)

theorem inRuleB_spec {atn : ATN} {n r : Nat} (h : inRuleB atn n r = true) {st : ATNState}
    (hs : atn.states[n]? = some st) : st.ruleIndex = r := by
  simpa [inRuleB, hs] using h

theorem mem_callsOf {atn : ATN} {r f : Nat} : f ∈ callsOf atn r ↔
    ∃ cst ∈ atn.states, ∃ t i p, Trans.rule t f i p ∈ cst.transitions ∧
      ∃ tst, atn.states[t]? = some tst ∧ tst.ruleIndex = r := by
  simp only [callsOf, List.mem_flatMap, List.mem_filterMap]
  constructor
  · rintro ⟨st, h1, tr, h2, h3⟩
    cases tr <;> simp only [reduceCtorEq] at h3
    next t f' i p =>
    split at h3
    · next h4 =>
      simp only [Option.some.injEq] at h3
      subst h3
      rw [Option.any_eq_true] at h4
      obtain ⟨tst, h4, h5⟩ := h4
      exact ⟨st, h1, t, i, p, h2, tst, h4, by simpa using h5⟩
    · simp at h3
  · rintro ⟨cst, h1, t, i, p, h2, tst, h3, h4⟩
    exact ⟨cst, h1, _, h2, by simp [h3, h4]⟩

theorem plain_of_plainB {atn : ATN} (h : plainB atn = true) : Plain atn := by
  simp only [plainB, Bool.and_eq_true, decide_eq_true_eq, List.all_eq_true] at h
  obtain ⟨h0, h⟩ := h
  have H : ∀ (s : Nat) (st : ATNState), atn.states[s]? = some st → plainStateB atn st = true :=
    fun s st hs => h st (List.mem_of_getElem? hs)
  have H1 : ∀ (s : Nat) (st : ATNState), atn.states[s]? = some st → ∀ tr ∈ st.transitions, _ := fun s st hs tr ht => by
    have := H s st hs
    simp only [plainStateB, Bool.and_eq_true, List.all_eq_true] at this
    exact this.1.1.1 tr ht
  have H2 : ∀ (s : Nat) (st : ATNState), atn.states[s]? = some st → _ := fun s st hs => by
    have := H s st hs
    simp only [plainStateB, Bool.and_eq_true] at this
    exact And.intro this.1.1.2 (And.intro this.1.2 this.2)
  constructor
  · exact h0
  · intro s st hs tr ht
    simpa using (H1 s st hs tr ht).1.1.1
  · intro s st hs n g l he
    have := (H2 s st hs).1
    simp [DFA.isPrecedenceState, he] at this
  · intro s st hs t f r p ht
    have := (H1 s st hs _ ht).2
    simp only [Bool.and_eq_true, decide_eq_true_eq] at this
    exact this.1
  · intro s st hs
    have := (H2 s st hs).2.1
    rw [beq_iff_eq] at this
    rw [this]
    simp
  · intro s st hs tr ht
    have := (H1 s st hs tr ht).1.2
    cases tr <;> simp_all
  · intro s st hs hne tr ht hr st' hs'
    have := (H1 s st hs tr ht).2
    cases tr
    case rule t f r p => exact absurd rfl (hr _ _ _ _)
    all_goals
      simp only [Bool.or_eq_true, decide_eq_true_eq, hne, false_or] at this
      exact inRuleB_spec this hs'
  · intro s st hs t f r p ht st' hs'
    have := (H1 s st hs _ ht).2
    simp only [Bool.and_eq_true] at this
    exact inRuleB_spec this.2 hs'
  · intro s st hs he c cst hc t f r p ht tst htt hr
    have := (H2 s st hs).2.2
    simp only [he, ne_eq, not_true_eq_false, decide_false, Bool.false_or, Bool.and_eq_true, List.all_eq_true, List.any_eq_true] at this
    obtain ⟨e, e1, e2⟩ := this.1 f (mem_callsOf.2 ⟨cst, List.mem_of_getElem? hc, t, r, p, ht, tst, htt, hr⟩)
    cases e <;> simp at e2
    subst e2
    exact ⟨_, e1⟩
  · intro s st hs he tr ht
    have := (H2 s st hs).2.2
    simp only [he, ne_eq, not_true_eq_false, decide_false, Bool.false_or, Bool.and_eq_true, List.all_eq_true] at this
    have := this.2 tr ht
    cases tr <;> simp only [reduceCtorEq, Bool.false_eq_true] at this
    next g x =>
    rw [List.contains_iff_mem, mem_callsOf] at this
    obtain ⟨cst, h1, t, i, p, h2, tst, h3, h4⟩ := this
    obtain ⟨c, hc⟩ := List.mem_iff_getElem?.1 h1
    exact ⟨g, x, rfl, c, cst, t, i, p, tst, hc, h2, h3, h4⟩
  · intro s st hs tr ht
    simpa using (H1 s st hs tr ht).1.1.2

end Antlr.PredictionSpec
