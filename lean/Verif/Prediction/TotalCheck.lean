import Verif.Prediction.TotalSpec
import Verif.Prediction.Check

/-! Checks for the conditions of C70. -/

namespace Antlr.PredictionSpec
open Antlr LL1Spec IntervalSpec

/-- The edge can be taken without reading a token, or by reading EOF. -/
def idleB : Trans → Bool
  | .epsilon .. | .predicate .. | .action .. | .precedence .. => true
  | .atom _ l => decide (l = TOKEN_EOF)
  | .range _ a b => decide (a ≤ TOKEN_EOF) && decide (TOKEN_EOF ≤ b)
  | .set _ s => s.intervals.any fun i => decide (i.a ≤ TOKEN_EOF) && decide (TOKEN_EOF ≤ i.b)
  | _ => false

/-- The number of the state, and nothing for states there are not. -/
def rankAt (ρ : List Nat) (s : Nat) : Nat := (ρ[s]?).getD 0

/-- The edge leads from a state of rank `r` down. -/
def downB (ρ : List Nat) (r : Nat) : Trans → Bool
  | .rule t f _ _ => decide (rankAt ρ t + rankAt ρ f + 1 < r)
  | tr => !idleB tr || decide (rankAt ρ tr.target < r)

/-- Each step without reading leads to a lower number; a call leads to numbers with a lower sum. -/
def rankedB (atn : ATN) (ρ : List Nat) : Bool :=
  atn.states.zipIdx.all fun e => decide (e.1.stateType = .ruleStop) || e.1.transitions.all (downB ρ (rankAt ρ e.2))

/-- The numbers of the state and of those it returns to. -/
def height (ρ : List Nat) (p : Pos) : Nat := rankAt ρ p.1 + (p.2.map fun f => rankAt ρ f + 1).sum

theorem ranked_state {atn : ATN} {ρ : List Nat} (h : rankedB atn ρ = true) {s : Nat} {st : ATNState}
    (hs : atn.states[s]? = some st) (hn : st.stateType ≠ .ruleStop) {tr : Trans} (ht : tr ∈ st.transitions) :
    downB ρ (rankAt ρ s) tr = true := by
  unfold rankedB at h
  rw [List.all_eq_true] at h
  have := h (st, s) (List.mem_zipIdx_iff_getElem?.2 hs)
  rw [Bool.or_eq_true, decide_eq_true_eq] at this
  rcases this with this | this
  · exact absurd this hn
  · rw [List.all_eq_true] at this
    exact this tr ht

theorem height_idle {atn : ATN} {ρ : List Nat} (h : rankedB atn ρ = true) {p q : Pos} (hi : Idle atn p q) :
    height ρ q < height ρ p := by
  rcases hi with hi | ⟨st, tr, h1, h2, h3, h4, rfl⟩
  · cases hi with
    | @free s k st tr h1 h2 h3 h4 =>
      have := ranked_state h h1 h2 h3
      cases tr <;> simp [Free] at h4 <;> simp [downB, idleB] at this <;> simp only [height] <;> omega
    | @call s k st t f r p h1 h2 h3 =>
      have := ranked_state h h1 h2 h3
      simp only [downB, decide_eq_true_eq] at this
      simp only [height, List.map_cons, List.sum_cons]
      omega
    | ret h1 h2 =>
      simp only [height, List.map_cons, List.sum_cons]
      omega
  · have := ranked_state h h1 h2 h3
    have hb : idleB tr = true := by
      cases tr <;> simp [Takes] at h4 <;> simp [idleB]
      · exact h4
      · exact h4.symm
      · obtain ⟨i, h5, h6⟩ := h4
        exact ⟨i, h5, h6⟩
      · simp [TOKEN_EOF] at h4
      · simp [TOKEN_EOF] at h4
    have ht : rankAt ρ tr.target < rankAt ρ p.1 := by
      cases tr <;> simp [Takes] at h4 <;> simpa [downB, hb] using this
    simp only [height]
    omega

theorem chain_height {atn : ATN} {ρ : List Nat} (h : rankedB atn ρ = true) (n : Nat) {p : Pos} (hc : Chain atn n p) :
    n ≤ height ρ p := by
  induction n generalizing p with
  | zero => omega
  | succ n ih =>
    obtain ⟨q, h1, h2⟩ := hc
    have := ih h2
    have := height_idle h h1
    omega

/-- States can be numbered so that steps without reading lead down: there is no loop. -/
theorem noLoop_of_ranked {atn : ATN} {ρ : List Nat} (h : rankedB atn ρ = true) {n : Nat} (hn : ∀ r ∈ ρ, r < n)
    (h0 : 0 < n) : NoLoop atn n := by
  intro s hc
  have h1 := chain_height h n hc
  have h2 : height ρ (s, []) = rankAt ρ s := by simp [height]
  rw [h2] at h1
  unfold rankAt at h1
  cases hs : ρ[s]? with
  | none => rw [hs] at h1; simp at h1; omega
  | some r =>
    rw [hs] at h1
    simp only [Option.getD_some] at h1
    have := hn r (List.mem_of_getElem? hs)
    omega

/-- No rule has two ends. -/
def oneStopB (atn : ATN) : Bool :=
  atn.states.zipIdx.all fun e => atn.states.zipIdx.all fun f =>
    !(decide (e.1.stateType = .ruleStop) && decide (f.1.stateType = .ruleStop) && decide (e.1.ruleIndex = f.1.ruleIndex)) ||
      decide (e.2 = f.2)

theorem oneStop_of {atn : ATN} (h : oneStopB atn = true) : OneStop atn := by
  intro s s' st st' h1 h2 h3 h4 h5
  unfold oneStopB at h
  rw [List.all_eq_true] at h
  have := h (st, s) (List.mem_zipIdx_iff_getElem?.2 h1)
  rw [List.all_eq_true] at this
  have := this (st', s') (List.mem_zipIdx_iff_getElem?.2 h2)
  simpa [h3, h4, h5] using this

/-- No state calls a rule and reads. -/
def unmixedB (atn : ATN) : Bool :=
  atn.states.all fun st => !(st.transitions.any fun tr => match tr with | .rule .. => true | _ => false) ||
    st.transitions.all (·.isEpsilon)

theorem unmixed_of {atn : ATN} (h : unmixedB atn = true) : Unmixed atn := by
  intro s st h1 t f r p h2 tr h3
  unfold unmixedB at h
  rw [List.all_eq_true] at h
  have := h st (List.mem_of_getElem? h1)
  rw [Bool.or_eq_true] at this
  rcases this with this | this
  · rw [Bool.not_eq_true', List.any_eq_false] at this
    exact absurd rfl (this _ h2)
  · rw [List.all_eq_true] at this
    exact this tr h3

end Antlr.PredictionSpec
