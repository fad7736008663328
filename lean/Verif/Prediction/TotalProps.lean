import Verif.Prediction.TotalLocal
import Verif.Prediction.TotalCheck
import Verif.Prediction.AnswerProps
import Verif.Prediction.Fuel

/-!
# C70: prediction returns

`adaptive_predict` is modelled with a bound on the recursion of `closure` and one on the rounds of its two
loops; `none` stands for a panic as well as for a bound that was too small.  Here: some bounds are enough.
-/

namespace Antlr.PredictionProps
open Antlr Prediction TokenSpec PredictionSpec LL1Spec StackProps

section
variable {atn : ATN} {s : Nat} {dec : ATNState} {d : DFA} {src : Source} {c : Int} {P : Params CTS} {inp : CTS}
  {σ : List Nat} {N : Nat}

/-- **C70** A prediction returns, whatever the input, the context, the mode, and the predictions made before: on
an automaton without predicates (`Plain`) and without loops that need not read (`NoLoop`), whose rules have one end
each (`OneStop`) and whose states do not both call rules and read (`Unmixed`), there is one result `r` such that
every run with a large enough recursion stack ends with `r`, after at most two rounds per token and two more in its
loops.  No panic.  The DFA grows by at most two states more than there are tokens. -/
theorem C70_returns (ha : Plain atn) (hN : NoLoop atn N) (h1 : OneStop atn) (hu : Unmixed atn)
    (hmax : 0 ≤ atn.maxTokenType ∧ atn.maxTokenType < 2 ^ 63) (hdec : Decides atn s dec) (hd : Cached atn s dec d)
    (hP : P.atn = atn) (hq : Asked src c dec P inp σ)
    (hroom : d.states.length + (eofIdx src + 2) ≤ ERROR_DFA_STATE_REF) :
    ∃ cf r, (∀ cf' n, cf ≤ cf' → 2 * eofIdx src + 2 ≤ n → adaptivePredict P cf' n d inp = some r) ∧
      r.dfa.states.length ≤ d.states.length + (eofIdx src + 2) := by
  subst hP
  obtain ⟨h, hr⟩ := hq.stream
  obtain ⟨len, p, rfl, hok, -, hm, -⟩ := CommonProps.reach_inv hr
  have hp : p ≤ eofIdx src := by unfold COK at hok; omega
  have hi : TokStream.index (cst src c len p) = (p : Int) := cst_index src c len p
  obtain ⟨m, hm1, hm2, hm3⟩ := stepVis_end src c p hp
  have hdinv := cached_dinv ha hdec hd
  obtain rfl := hdinv.atnStart
  obtain ⟨r, ⟨cf, h2⟩, -, h3⟩ := predict_total (inp := cst src c len p)
    (w := fun n => (tok src (stepVis src c n p)).ttype)
    (At := fun n i => ∃ h, CommonProps.Reach src c i h ∧ (p : Int) ∈ h ∧ i.index = (stepVis src c n p : Nat)) (n := 2 * eofIdx src + 2) ha hN hu h1 hmax hdec hq.proper
    hq.stack (by rw [hi]; exact looksT_cts src c p hp) (fun n => hq.types _) hdinv ⟨h, hr, hm, cst_index src c len p⟩ hm2 hm3 (by omega)
    (by omega)
  refine ⟨cf, r, fun cf' n hc hn => ?_, by omega⟩
  exact predict_below hc P d (2 * eofIdx src + 2) n hn _ r (h2 cf (Nat.le_refl _))

/-- **C70** with **C40**: on an input that the decision can match in the current context the prediction ends, with an
alternative that matches the tokens examined in the current context; if it did not look at the context, no other
does. -/
theorem C70_answers (ha : Plain atn) (hN : NoLoop atn N) (h1 : OneStop atn) (hu : Unmixed atn)
    (hmax : 0 ≤ atn.maxTokenType ∧ atn.maxTokenType < 2 ^ 63) (hdec : Decides atn s dec) (hd : Cached atn s dec d)
    (hP : P.atn = atn) (hq : Asked src c dec P inp σ)
    (hroom : d.states.length + (eofIdx src + 2) ≤ ERROR_DFA_STATE_REF) (hmode : P.mode ≠ .SLL)
    (hv : Passable atn dec σ (typesAhead src c inp)) :
    ∃ cf n r, adaptivePredict P cf n d inp = some r ∧
      (∀ k, r.out = .alt k → ∃ v, Ahead (typesAhead src c inp) v ∧ Matches atn dec (· = σ) v k ∧
        (¬ WentFull r → ∀ j q, Alive atn dec false σ j v q → Counts atn false v q → j = k)) ∧
      (¬ WentFull r → ∃ k, r.out = .alt k) := by
  obtain ⟨cf, r, h2, h3⟩ := C70_returns ha hN h1 hu hmax hdec hd hP hq hroom
  have hr := h2 cf _ (Nat.le_refl _) (Nat.le_refl _)
  refine ⟨cf, _, r, hr, fun k hk => ?_, fun hf => ?_⟩
  · by_cases hf : WentFull r
    · obtain ⟨v, g1, g2⟩ := C40_full_partial ha hdec hd hP hq hr (by omega) hf hk
      exact ⟨v, g1, g2, fun h => absurd hf h⟩
    · obtain ⟨k', v, p, g1, g2, g3, g4, g5⟩ := C40_valid_local ha hdec hd hP hq hr (by omega) hmode hf hv
      rw [hk] at g1
      cases g1
      refine ⟨v, g2, ⟨σ, rfl, ?_⟩, fun _ => g5⟩
      rcases g3 with g3 | ⟨-, u, rfl, g3, g6⟩
      · exact .inl ⟨p, g3⟩
      · exact .inr ⟨u, p, List.prefix_append _ _, g3, g6⟩
  · obtain ⟨k', v, p, g1, -⟩ := C40_valid_local ha hdec hd hP hq hr (by omega) hmode hf hv
    exact ⟨k', g1⟩

end

/-! ### Cases that meet the hypotheses -/

theorem exEnd_noLoop : NoLoop exEnd 4 :=
  noLoop_of_ranked (ρ := [3, 0, 2, 0, 0, 0, 2, 1]) (by decide +kernel) (by decide) (by decide)

/-- A sequence of predictions for `'a' | 'a' | 'b'`. -/
example (t : Nat) (ht : t ≤ 2) : ∃ cf r, (∀ cf' n, cf ≤ cf' → 4 ≤ n →
    adaptivePredict exEndParams cf' n exEndDfa (exEndInput t) = some r) ∧ r.dfa.states.length ≤ 4 :=
  C70_returns (src := exSource [t]) exEnd_plain exEnd_noLoop (oneStop_of (by decide +kernel)) (unmixed_of (by decide +kernel))
    (by decide) exEnd_decides exEnd_cached rfl (exEnd_asked ht)
    (show 1 + (1 + 2) ≤ ERROR_DFA_STATE_REF by decide)

theorem exNest_plain' : Plain exNest := plain_of_plainB (by decide +kernel)

theorem exNest_noLoop : NoLoop exNest 7 :=
  noLoop_of_ranked (ρ := [3, 0, 2, 1, 0, 0, 6, 5, 0, 1, 4, 3]) (by decide +kernel) (by decide) (by decide)

/-- The decision `(a 'y')??` of `a : ('w' 'x' (a 'y')??)* ;`. -/
def exNestDec : ATNState := exState 6 (.decision 0 true (.blockStart 10 .basic)) [exEps 10, exEps 7]

theorem exNest_decides : Decides exNest 6 exNestDec := by
  refine ⟨rfl, by decide, ?_, by decide⟩
  intro tr h
  simp only [exNestDec, exState, List.mem_cons, List.not_mem_nil, or_false] at h
  rcases h with rfl | rfl <;> exact ⟨_, _, rfl⟩

/-- On a recursive rule, predictions end on every input. -/
example (ts : List Nat) (ht : ∀ t ∈ ts, t ≤ 3) (hl : ts.length < 2 ^ 32) :
    ∃ cf r, ∀ cf' n, cf ≤ cf' → 2 * ts.length + 2 ≤ n →
      adaptivePredict (exParams CTS) cf' n exDfa (CTS.withChannel (exSource ts) 0) = some r := by
  have he : eofIdx (exSource ts) = ts.length := by simp [eofIdx, exSource]
  obtain ⟨cf, r, h, -⟩ := C70_returns (src := exSource ts) (c := 0) (σ := []) (P := exParams CTS)
    (inp := CTS.withChannel (exSource ts) 0) (d := exDfa) exNest_plain' exNest_noLoop
    (oneStop_of (by decide +kernel)) (unmixed_of (by decide +kernel)) (by decide) exNest_decides
    ⟨_, 0, by decide +kernel, .refl⟩ rfl
    ⟨⟨_, .init⟩, fun n => by have := exSource_types (ts := ts) (b := 3) ht n; omega, .root _, .nil⟩
    (by rw [he]; simp only [exDfa, List.length_singleton, ERROR_DFA_STATE_REF]; omega)
  exact ⟨cf, r, fun cf' n h1 h2 => h cf' n h1 (by rw [he]; exact h2)⟩

/-! ### The conditions are needed -/

/-- An automaton with a state that leads to itself: `s : (() * | 'a')`, so to say. -/
def exLoop : ATN where
  grammarType := .parser
  maxTokenType := 1
  decisionToState := [2]
  ruleToStartState := [0]
  ruleToStopState := [1]
  states := [
    exState 0 (.ruleStart 1 false) [exEps 2],
    exState 1 .ruleStop [],
    exState 2 (.decision 0 false (.blockStart 5 .basic)) [exEps 3, exEps 4],
    exState 3 .basic [exEps 3],
    exState 4 .basic [.atom 5 1],
    exState 5 (.blockEnd 2) [exEps 1]]

/-- Its decision. -/
def exLoopDec : ATNState := exState 2 (.decision 0 false (.blockStart 5 .basic)) [exEps 3, exEps 4]

theorem exLoop_closure {I : Type} [TokStream I] (L : Local I) (hL : L.atn = exLoop) (full eof : Bool) (n : Nat) :
    ∀ (c : Config) (collect : Bool) (depth : Int) (w : Work I), c.state = 3 →
      closureCheck L full eof n c collect depth w = none := by
  induction n with
  | zero => intros; rfl
  | succ n ih =>
    intro c collect depth w hc
    have hs : L.atn.states[c.state]? = some (exState 3 .basic [exEps 3]) := by rw [hL, hc]; rfl
    rw [closureCheck, hs, Option.bind_some, if_neg (by decide), closureWork, hs, Option.bind_some, if_pos (by decide),
      Option.bind_some]
    have hd : canDrop L.atn c = some false := by rw [canDrop, hs]; rfl
    have hk : cloned L.atn c 3 = some { c with state := 3 } := by rw [cloned, hL]; rfl
    show (workStep L full eof (closureCheck L full eof n) c collect depth (exState 3 .basic [exEps 3]) (exEps 3) 0 w).bind _ = none
    rw [workStep, if_pos rfl, hd, Option.bind_some, if_neg (by simp)]
    have he : ∀ a b i, epsilonTarget L full eof c (exEps 3) a b i = some (some { c with state := 3 }, i) := by
      intro a b i
      show (cloned L.atn c 3).map _ = _
      rw [hk]; rfl
    simp only [he, Option.bind_some]
    rw [if_neg (by decide)]
    split
    · next h => simp [exEps, Trans.isEpsilon] at h
    · rw [ih _ _ _ _ rfl]; rfl

/-- **C70 fails** on an automaton with a loop that needs not read: it has no predicates, one end for its rule, no
state that calls and reads; but no prediction for its decision ever returns. -/
theorem C70_false_loop : Plain exLoop ∧ OneStop exLoop ∧ Unmixed exLoop ∧ Decides exLoop 2 exLoopDec ∧
    ∃ d, Cached exLoop 2 exLoopDec d ∧ ∀ (P : Params CTS) (inp : CTS) (cf n : Nat), P.atn = exLoop →
      adaptivePredict P cf n d inp = none := by
  refine ⟨plain_of_plainB (by decide +kernel), oneStop_of (by decide +kernel), unmixed_of (by decide +kernel), ?_,
    { exDfa with atnStartState := 2 }, ⟨_, 0, by decide +kernel, .refl⟩, fun P inp cf n hP => ?_⟩
  · refine ⟨rfl, by decide, ?_, by decide⟩
    intro tr h
    simp only [exLoopDec, exState, List.mem_cons, List.not_mem_nil, or_false] at h
    rcases h with rfl | rfl <;> exact ⟨_, _, rfl⟩
  · have hs : ∀ i, startState (localOf P { exDfa with atnStartState := 2 } inp) cf { exDfa with atnStartState := 2 } i = none := by
      intro i
      have h1 : (localOf P { exDfa with atnStartState := 2 } inp).atn.states[(localOf P { exDfa with atnStartState := 2 } inp).atnStart]?
          = some exLoopDec := by
        show P.atn.states[2]? = _
        rw [hP]; rfl
      rw [startState]
      show (computeStart _ cf PC.EMPTY false [] i).bind _ = none
      rw [computeStart, h1, Option.bind_some]
      show ((startLoop _ cf PC.EMPTY false [exEps 3, exEps 4] 0 _).map _).bind _ = none
      have h2 : cloned (localOf P { exDfa with atnStartState := 2 } inp).atn
          { state := 3, alt := ((0 + 1 : Nat) : Int), ctx := PC.EMPTY } 3 =
          some { state := 3, alt := ((0 + 1 : Nat) : Int), ctx := PC.EMPTY } := by
        show cloned P.atn _ _ = _
        rw [hP]; rfl
      rw [startLoop]
      show (((cloned _ _ 3).bind _).map _).bind _ = none
      rw [show (exEps 3).target = 3 from rfl, h2, Option.bind_some, closure, exLoop_closure _ (show P.atn = _ from hP) _ _ _ _ _ _ _ rfl]
      rfl
    rw [adaptivePredict]
    simp only [hs, Option.bind_none]

end Antlr.PredictionProps
