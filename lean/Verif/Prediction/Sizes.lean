import Verif.Prediction.Loops

/-! # Prediction never removes states from the DFA -/

namespace Antlr.Prediction
open Antlr

set_option linter.unusedSectionVars false
variable {I : Type} [TokStream I]

theorem addState_size (hash : ConfigSet → Nat) (d : DFA) (D : DFAState) :
    d.states.length ≤ (DFA.addState hash d D).1.states.length := by
  unfold DFA.addState
  split
  · exact Nat.le_refl _
  · split
    · exact Nat.le_refl _
    · simp

theorem addEdge_size {mx : Int} {d d' : DFA} {src : Nat} {t : Int} {dst : Nat}
    (h : DFA.addEdge mx d src t dst = some d') : d'.states.length = d.states.length := by
  unfold DFA.addEdge at h
  obtain ⟨s, -, h⟩ := Option.bind_eq_some_iff.1 h
  obtain ⟨s', -, rfl⟩ := Option.map_eq_some_iff.1 h
  simp

theorem setPrecedenceStart_size {d d' : DFA} {p : Int} {s : Nat} (h : d.setPrecedenceStart p s = some d') :
    d'.states.length = d.states.length := by
  unfold DFA.setPrecedenceStart at h
  split at h
  · split at h
    · cases h; rfl
    · split at h
      · cases h; rfl
      · obtain ⟨x, -, rfl⟩ := Option.map_eq_some_iff.1 h
        simp
  · cases h

theorem nextState_size {L : Local I} {cf : Nat} {d : DFA} {prev : Nat} {t : Int} {mc : PC.Cache} {i : I}
    {r : Nat × DFA × PC.Cache × I} (h : nextState L cf d prev t mc i = some r) :
    d.states.length ≤ r.2.1.states.length := by
  unfold nextState at h
  obtain ⟨e, -, h⟩ := Option.bind_eq_some_iff.1 h
  split at h
  · cases h; exact Nat.le_refl _
  · unfold computeTarget at h
    obtain ⟨p, -, h⟩ := Option.bind_eq_some_iff.1 h
    obtain ⟨⟨reach, mc1, i1⟩, -, h⟩ := Option.bind_eq_some_iff.1 h
    dsimp only at h
    split at h
    · obtain ⟨d', h1, rfl⟩ := Option.map_eq_some_iff.1 h
      exact Nat.le_of_eq (addEdge_size h1).symm
    · obtain ⟨D, -, h⟩ := Option.bind_eq_some_iff.1 h
      obtain ⟨d', h1, rfl⟩ := Option.map_eq_some_iff.1 h
      have := addEdge_size h1
      have h2 := addState_size L.hash d D
      dsimp only
      omega

theorem fullLoop_dfa {L : Local I} {cf : Nat} {d : DFA} (n : Nat) {s : ConfigSet} {t : Int} {mc : PC.Cache} {i : I}
    {r : Res I} (h : fullLoop L cf d n s t mc i = some r) : r.dfa = d := by
  induction n generalizing s t mc i with
  | zero => simp [fullLoop] at h
  | succ n ih =>
    rw [fullLoop] at h
    obtain ⟨⟨reach, mc1, i1⟩, -, h⟩ := Option.bind_eq_some_iff.1 h
    dsimp only at h
    split at h
    · obtain ⟨i2, -, h⟩ := Option.bind_eq_some_iff.1 h
      obtain ⟨k, -, h⟩ := Option.bind_eq_some_iff.1 h
      split at h
      · cases h; rfl
      · obtain ⟨x, -, rfl⟩ := Option.map_eq_some_iff.1 h
        rfl
    · split at h
      · cases h; rfl
      · obtain ⟨dec, -, h⟩ := Option.bind_eq_some_iff.1 h
        split at h
        · cases h; rfl
        · split at h
          · obtain ⟨i2, -, h⟩ := Option.bind_eq_some_iff.1 h
            obtain ⟨x, -, h⟩ := Option.bind_eq_some_iff.1 h
            exact ih h
          · exact ih h

theorem needFull_dfa {L : Local I} {cf n : Nat} {d : DFA} {D : DFAState} {mc : PC.Cache} {i : I}
    {r : Res I} (h : needFull L cf n d D mc i = some r) : r.dfa = d := by
  unfold needFull at h
  obtain ⟨⟨alts, i1⟩, -, h⟩ := Option.bind_eq_some_iff.1 h
  dsimp only at h
  split at h
  · obtain ⟨m, -, rfl⟩ := Option.map_eq_some_iff.1 h
    rfl
  · obtain ⟨ctx, -, h⟩ := Option.bind_eq_some_iff.1 h
    obtain ⟨⟨s0, mc1, i2⟩, -, h⟩ := Option.bind_eq_some_iff.1 h
    obtain ⟨r1, h3, rfl⟩ := Option.map_eq_some_iff.1 h
    unfold execFull at h3
    obtain ⟨i3, -, h3⟩ := Option.bind_eq_some_iff.1 h3
    obtain ⟨x, -, h3⟩ := Option.bind_eq_some_iff.1 h3
    have := fullLoop_dfa n h3
    exact this

theorem accepting_dfa {L : Local I} {d : DFA} {D : DFAState} {i : I} {r : Res I}
    (h : accepting L d D i = some r) : r.dfa = d := by
  unfold accepting at h
  split at h
  · cases h; rfl
  · obtain ⟨i1, -, h⟩ := Option.bind_eq_some_iff.1 h
    split at h
    · obtain ⟨x, -, rfl⟩ := Option.map_eq_some_iff.1 h
      rfl
    · cases h; rfl
    · cases h; rfl

theorem failing_dfa {L : Local I} {d : DFA} {D : DFAState} {i : I} {r : Res I}
    (h : failing L d D i = some r) : r.dfa = d := by
  unfold failing at h
  obtain ⟨x, -, h⟩ := Option.bind_eq_some_iff.1 h
  obtain ⟨i2, -, h⟩ := Option.bind_eq_some_iff.1 h
  obtain ⟨k, -, h⟩ := Option.map_eq_some_iff.1 h
  split at h <;> (subst h; rfl)

theorem execLoop_size {L : Local I} {cf : Nat} (n : Nat) {d : DFA} {prev : Nat} {t : Int} {mc : PC.Cache} {i : I}
    {r : Res I} (h : execLoop L cf n d prev t mc i = some r) : d.states.length ≤ r.dfa.states.length := by
  induction n generalizing d prev t mc i with
  | zero => simp [execLoop] at h
  | succ n ih =>
    rw [execLoop] at h
    obtain ⟨⟨D, d1, mc1, i1⟩, h1, h⟩ := Option.bind_eq_some_iff.1 h
    have g1 := nextState_size h1
    dsimp only at h g1
    split at h
    · obtain ⟨p, hp, h⟩ := Option.bind_eq_some_iff.1 h
      rw [failing_dfa h]; exact g1
    · obtain ⟨Ds, hDs, h⟩ := Option.bind_eq_some_iff.1 h
      split at h
      · rw [needFull_dfa h]; exact g1
      · split at h
        · rw [accepting_dfa h]; exact g1
        · split at h
          · obtain ⟨i2, h2, h⟩ := Option.bind_eq_some_iff.1 h
            obtain ⟨x, h3, h⟩ := Option.bind_eq_some_iff.1 h
            exact Nat.le_trans g1 (ih h)
          · exact Nat.le_trans g1 (ih h)

theorem startState_size {L : Local I} {fuel : Nat} {d : DFA} {i : I} {r : Nat × DFA × PC.Cache × I}
    (h : startState L fuel d i = some r) : d.states.length ≤ r.2.1.states.length := by
  unfold startState at h
  obtain ⟨e, _, h⟩ := Option.bind_eq_some_iff.1 h
  split at h
  · cases h; exact Nat.le_refl _
  · obtain ⟨⟨cs, mc1, i1⟩, h1, h⟩ := Option.bind_eq_some_iff.1 h
    dsimp only at h
    split at h
    · obtain ⟨s0, _, h⟩ := Option.bind_eq_some_iff.1 h
      obtain ⟨⟨cs', mc2⟩, h2, h⟩ := Option.bind_eq_some_iff.1 h
      obtain ⟨s, h3, h⟩ := Option.bind_eq_some_iff.1 h
      obtain ⟨d', h4, h⟩ := Option.map_eq_some_iff.1 h
      have a1 := setPrecedenceStart_size h4
      dsimp only at a1
      have a2 := addState_size L.hash { d with states := d.states.set s0 { s with configs := cs } } (DFAState.new 0 cs')
      simp only [List.length_set] at a2
      rw [← h]
      dsimp only
      omega
    · cases h
      exact addState_size L.hash d (DFAState.new 0 cs)

/-- A prediction leaves at least as many states as it found. -/
theorem adaptivePredict_size {P : Params I} {cf n : Nat} {d : DFA} {i : I} {r : Res I}
    (h : adaptivePredict P cf n d i = some r) : d.states.length ≤ r.dfa.states.length := by
  unfold adaptivePredict at h
  obtain ⟨⟨s0, d1, mc1, i1⟩, h1, h⟩ := Option.bind_eq_some_iff.1 h
  have g1 := startState_size h1
  obtain ⟨x, h2, h⟩ := Option.bind_eq_some_iff.1 h
  unfold execAtn at h2
  obtain ⟨y, h3, h2⟩ := Option.bind_eq_some_iff.1 h2
  have g2 := execLoop_size n h2
  have g3 := Nat.le_trans g1 g2
  cases he : x.out with
  | alt k =>
    rw [he] at h
    obtain ⟨i2, h4, h⟩ := Option.bind_eq_some_iff.1 h
    obtain ⟨i3, h5, h⟩ := Option.map_eq_some_iff.1 h
    rw [← h]; exact g3
  | noAlt s o =>
    rw [he] at h
    cases h
    exact g3

end Antlr.Prediction
