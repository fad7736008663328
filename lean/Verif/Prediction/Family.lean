import Verif.Prediction.Reach

/-!
# The threads of a prediction as classes of threads

`TL` for the phase without context, `Live` in the current context for the phase with it.
-/

namespace Antlr.Prediction
open Antlr StackSpec ConfigSet PC PredictionSpec LL1Spec

variable {I : Type}

/-- `s` is a state at which the parser makes a decision. -/
structure Decides (atn : ATN) (s : Nat) (dec : ATNState) : Prop where
  state : atn.states[s]? = some dec
  inner : dec.stateType ≠ .ruleStop
  silent : ∀ tr ∈ dec.transitions, ∃ t x, tr = .epsilon t x
  few : dec.transitions.length < 2 ^ 63

theorem exists_state {atn : ATN} {s : Nat} (h : s < atn.states.length) : ∃ st, atn.states[s]? = some st :=
  ⟨_, List.getElem?_eq_getElem h⟩

/-- More below the stack of the thread, where the caller is known to fit. -/
theorem Fair.back {atn : ATN} (ha : Plain atn) {p q : Pos} {k : List Nat} (h : Fair atn p) (hs : Step atn p q)
    (hq : Fair atn (q.1, q.2 ++ k)) : Fair atn (p.1, p.2 ++ k) ∧ Step atn (p.1, p.2 ++ k) (q.1, q.2 ++ k) := by
  cases hs with
  | @free s τ st tr h1 h2 h3 h4 =>
    refine ⟨?_, .free h1 h2 h3 h4⟩
    intro st' hst'
    obtain ⟨st2, e⟩ := exists_state (ha.targets _ _ h1 _ h3)
    have := hq st2 e
    rw [ha.sameRule s st h1 h2 tr h3 (by rintro _ _ _ _ rfl; exact h4) st2 e] at this
    dsimp only at hst'
    rw [h1] at hst'
    cases hst'
    exact this
  | @call s τ st t f r p h1 h2 h3 =>
    refine ⟨?_, .call h1 h2 h3⟩
    intro st' hst'
    dsimp only at hst'
    rw [h1] at hst'
    cases hst'
    obtain ⟨st2, e⟩ := exists_state (ha.targets _ _ h1 _ h3)
    obtain ⟨st3, e3⟩ := exists_state (ha.follow _ _ h1 _ _ _ _ h3)
    cases hq st2 e with
    | @call _ s' st0 t' tst f i p k g1 g2 g3 g4 g5 =>
      rw [← ha.followRule _ _ h1 _ _ _ _ h3 st3 e3, ha.followRule _ _ g1 _ _ _ _ g2 st3 e3]
      exact g5
  | @ret s f τ st h1 h2 =>
    refine ⟨?_, .ret h1 h2⟩
    intro st' hst'
    dsimp only at hst'
    rw [h1] at hst'
    cases hst'
    cases h st h1 with
    | @call _ s' st0 t tst f i p k g1 g2 g3 g4 g5 =>
      obtain ⟨st3, e3⟩ := exists_state (ha.follow _ _ g1 _ _ _ _ g2)
      have := hq st3 e3
      rw [ha.followRule _ _ g1 _ _ _ _ g2 st3 e3] at this
      exact .call g1 g2 g3 g4 this

theorem Fair.backRead {atn : ATN} (ha : Plain atn) {t : Int} {p q : Pos} {k : List Nat} (hs : ReadStep atn t p q)
    (hq : Fair atn (q.1, q.2 ++ k)) :
    Fair atn (p.1, p.2 ++ k) ∧ ReadStep atn t (p.1, p.2 ++ k) (q.1, q.2 ++ k) := by
  obtain ⟨st, tr, h1, h2, h3, h4, rfl⟩ := hs
  refine ⟨?_, st, tr, h1, h2, h3, h4, rfl⟩
  intro st' hst'
  dsimp only at hst'
  rw [h1] at hst'
  cases hst'
  obtain ⟨st2, e⟩ := exists_state (ha.targets _ _ h1 _ h3)
  have := hq st2 e
  rw [ha.sameRule _ st h1 h2 tr h3 (by rintro _ _ _ _ rfl; exact h4) st2 e] at this
  exact this

/-- A thread of alternative `j` with an open end: whatever fits below its stack, the thread exists after
some calls. -/
def TL (atn : ATN) (dec : ATNState) (v : List Int) (j : Int) (p : Pos) : Prop :=
  Fair atn p ∧ ∀ k, Fair atn (p.1, p.2 ++ k) →
    ∃ σ, Proper atn dec.ruleIndex σ ∧ Live atn dec σ j v (p.1, p.2 ++ k)

theorem TL.ex {atn : ATN} {dec : ATNState} {v : List Int} {j : Int} {p : Pos} (h : TL atn dec v j p) :
    ∃ σ, Proper atn dec.ruleIndex σ ∧ Live atn dec σ j v p := by
  have := h.2 [] (by simpa using h.1)
  simpa using this

theorem TL.read {atn : ATN} (ha : Plain atn) {dec : ATNState} {v : List Int} {t : Int} {j : Int} {p q : Pos}
    (h : TL atn dec v j p) (hr : ReadStep atn t p q) : TL atn dec (v ++ [t]) j q := by
  refine ⟨h.1.read ha hr, ?_⟩
  intro k hk
  obtain ⟨e1, e2⟩ := Fair.backRead ha hr hk
  obtain ⟨σ, h1, h2⟩ := h.2 k e1
  exact ⟨σ, h1, .read h2 e2⟩

theorem TL.goes {atn : ATN} (ha : Plain atn) {dec : ATNState} {v : List Int} {eof : Bool}
    (hv : eof = true → ∃ u, v = u ++ [TOKEN_EOF]) : Goes atn false eof (TL atn dec v) where
  step := by
    intro j p q h hs
    refine ⟨h.1.step ha hs, ?_⟩
    intro k hk
    obtain ⟨e1, e2⟩ := h.1.back ha hs hk
    obtain ⟨σ, h1, h2⟩ := h.2 k e1
    exact ⟨σ, h1, .silent h2 e2⟩
  out := by
    intro _ j s st f x h h1 h2 h3
    refine ⟨fun _ _ => .nil, ?_⟩
    intro k hk
    obtain ⟨f', x', e, c, cst, t, r, p, tst, g1, g2, g3, g4⟩ := ha.stops s st h1 h2 _ h3
    simp only [Trans.epsilon.injEq] at e
    obtain ⟨rfl, rfl⟩ := e
    have hf : Fair atn (s, f :: k) := by
      intro st' hst'
      dsimp only at hst'
      rw [h1] at hst'
      cases hst'
      obtain ⟨st3, e3⟩ := exists_state (ha.follow _ _ g1 _ _ _ _ g2)
      have := hk st3 e3
      rw [ha.followRule _ _ g1 _ _ _ _ g2 st3 e3] at this
      exact .call g1 g2 g3 g4 this
    obtain ⟨σ, e1, e2⟩ := h.2 (f :: k) hf
    exact ⟨σ, e1, .silent e2 (.ret h1 h2)⟩
  read := by
    intro he j p q h hs
    obtain ⟨u, rfl⟩ := hv he
    refine ⟨h.1.read ha hs, ?_⟩
    intro k hk
    obtain ⟨e1, e2⟩ := Fair.backRead ha hs hk
    obtain ⟨σ, h1, h2⟩ := h.2 k e1
    exact ⟨σ, h1, .more h2 e2⟩

theorem TL.start {atn : ATN} (ha : Plain atn) {s : Nat} {dec : ATNState} (hd : Decides atn s dec) {i : Nat}
    {tr : Trans} (h : dec.transitions[i]? = some tr) : TL atn dec [] ((i + 1 : Nat) : Int) (tr.target, []) := by
  refine ⟨fun _ _ => .nil, ?_⟩
  intro k hk
  have hm := List.mem_of_getElem? h
  obtain ⟨st2, e⟩ := exists_state (ha.targets _ _ hd.state _ hm)
  have := hk st2 e
  rw [ha.sameRule _ _ hd.state hd.inner tr hm ?_ st2 e] at this
  · exact ⟨_, this, .start h⟩
  · obtain ⟨t, x, e⟩ := hd.silent tr hm
    rintro _ _ _ _ rfl
    simp at e

theorem live_goes {atn : ATN} {dec : ATNState} {σ : List Nat} {v : List Int} {eof : Bool}
    (hv : eof = true → ∃ u, v = u ++ [TOKEN_EOF]) : Goes atn true eof (fun j p => Live atn dec σ j v p) where
  step := fun _ _ _ h hs => .silent h hs
  out := by simp
  read := by
    intro he j p q h hs
    obtain ⟨u, rfl⟩ := hv he
    exact .more h hs

theorem _root_.Antlr.PredictionSpec.Live.range {atn : ATN} {dec : ATNState} {σ : List Nat} {v : List Int} {j : Int} {p : Pos}
    (h : Live atn dec σ j v p) : 1 ≤ j ∧ j ≤ dec.transitions.length := by
  induction h with
  | @start i tr h =>
    have := (List.getElem?_eq_some_iff.1 h).1
    constructor <;> omega
  | silent _ _ ih => exact ih
  | read _ _ ih => exact ih
  | more _ _ ih => exact ih

theorem _root_.Antlr.PredictionSpec.Live.fair {atn : ATN} (ha : Plain atn) {s : Nat} {dec : ATNState} (hd : Decides atn s dec) {σ : List Nat}
    (hσ : Proper atn dec.ruleIndex σ) {v : List Int} {j : Int} {p : Pos}
    (h : Live atn dec σ j v p) : Fair atn p := by
  induction h with
  | @start i tr h =>
    intro st hst
    have hm := List.mem_of_getElem? h
    rw [ha.sameRule _ _ hd.state hd.inner tr hm ?_ st hst]
    · exact hσ
    · obtain ⟨t, x, e⟩ := hd.silent tr hm
      rintro _ _ _ _ rfl
      simp at e
  | silent _ h ih => exact ih.step ha h
  | read _ h ih => exact ih.read ha h
  | more _ h ih => exact ih.read ha h

theorem live_generated {atn : ATN} {dec : ATNState} {σ : List Nat} (v : List Int) (t : Int) :
    Generated atn t (fun j p => Live atn dec σ j v p) (fun j p => Live atn dec σ j (v ++ [t]) p) := by
  intro P h1 h2 h3 j p h
  generalize hv : v ++ [t] = u at h
  induction h with
  | start h => simp at hv
  | silent h hs ih => subst hv; exact h2 _ _ _ h (ih rfl) hs
  | read h hs ih =>
    obtain ⟨rfl, e⟩ := List.append_inj' hv rfl
    simp only [List.cons.injEq, and_true] at e
    subst e
    exact h1 _ _ _ h hs
  | more h hs ih =>
    obtain ⟨rfl, e⟩ := List.append_inj' hv rfl
    simp only [List.cons.injEq, and_true] at e
    subst e
    exact h3 rfl _ _ _ h (ih rfl) hs

end Antlr.Prediction
