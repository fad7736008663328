import Verif.Prediction.InputProps
import Verif.Prediction.Spec

/-!
# Where prediction goes wrong (C39, C40)
-/

namespace Antlr.PredictionProps
open Antlr Prediction TokenSpec PredictionSpec LL1Spec

/-- The input `w x y y` for the grammar `a : ('w' 'x' (a 'y')??)* ;`, whose first decision `(a 'y')??`
is predicted at its start. -/
def exInput : CTS := CTS.withChannel (exSource [1, 2, 3, 3]) 0

/-- **C39, negation** The cache is not transparent.  The first prediction of a decision and the second
one, on the same input in the same rule context, with nothing in between, answer differently: with the
empty cache alternative 1 (reported as an ambiguity), with the cache filled by that very prediction
alternative 2 (reported as context sensitive, and the only one that can match the input:
`C39_false_meaning`).  The first prediction computes the DFA with the merge cache that the full-context phase
then uses again, although the two phases merge differently (C63); the second finds the DFA and starts
with an empty merge cache. -/
theorem C39_false :
    ∃ (P : Params CTS) (d : DFA) (s : CTS) (r1 r2 : Res CTS), DFA.new P.atn 6 0 = some d ∧
      adaptivePredict P 40 20 d s = some r1 ∧ adaptivePredict P 40 20 r1.dfa s = some r2 ∧
      r1.out = .alt 1 ∧ r1.reports = [.fullContext 0 1 [1, 2], .ambiguity 0 2 false [1, 2]] ∧
      r2.out = .alt 2 ∧ r2.reports = [.fullContext 0 1 [1, 2], .sensitivity 0 3 2] := by
  have h : ((exPredict CTS exInput 0).bind fun r1 => (exPredict CTS exInput 1).map fun r2 =>
      (r1.out, r1.reports, r2.out, r2.reports)) = some (.alt 1,
        [.fullContext 0 1 [1, 2], .ambiguity 0 2 false [1, 2]], .alt 2,
        [.fullContext 0 1 [1, 2], .sensitivity 0 3 2]) := by decide +kernel
  rw [Option.bind_eq_some_iff] at h
  obtain ⟨r1, h1, h⟩ := h
  rw [Option.map_eq_some_iff] at h
  obtain ⟨r2, h2, h⟩ := h
  simp only [Prod.mk.injEq] at h
  obtain ⟨e1, e2, e3, e4⟩ := h
  refine ⟨exParams CTS, exDfa, exInput, r1, r2, by decide +kernel, h1, ?_, e1, e2, e3, e4⟩
  rw [exPredict, h1] at h2
  exact h2

/-! ### Checking that a thread does not exist -/

/-- At least the token types the edge reads. -/
def takesB : Trans → Int → Bool
  | .atom _ l, x => x == l
  | .range .., _ | .set .., _ | .notSet .., _ | .wildcard .., _ => true
  | _, _ => false

/-- At least the positions one silent step away. -/
def stepsOf (atn : ATN) (p : Pos) : List Pos :=
  match atn.states[p.1]? with
  | none => []
  | some st =>
    if st.stateType = .ruleStop then
      match p.2 with
      | [] => []
      | f :: k => [(f, k)]
    else st.transitions.flatMap fun tr =>
      match tr with
      | .rule t f _ _ => [(t, f :: p.2)]
      | tr => if tr.isEpsilon then [(tr.target, p.2)] else []

/-- At least the positions reached by reading `t`. -/
def readsOf (atn : ATN) (t : Int) (p : Pos) : List Pos :=
  match atn.states[p.1]? with
  | none => []
  | some st =>
    if st.stateType = .ruleStop then []
    else (st.transitions.filter (takesB · t)).map fun tr => (tr.target, p.2)

theorem step_mem {atn : ATN} {p q : Pos} (h : Step atn p q) : q ∈ stepsOf atn p := by
  cases h with
  | @free s k st tr h1 h2 h3 h4 =>
    simp only [stepsOf, h1, if_neg h2, List.mem_flatMap]
    refine ⟨tr, h3, ?_⟩
    cases tr <;> simp [Free] at h4 <;> simp [Trans.isEpsilon]
  | @call s k st t f r p h1 h2 h3 =>
    simp only [stepsOf, h1, if_neg h2, List.mem_flatMap]
    exact ⟨_, h3, by simp⟩
  | ret h1 h2 => simp [stepsOf, h1, h2]

theorem read_mem {atn : ATN} {t : Int} {p q : Pos} (h : ReadStep atn t p q) : q ∈ readsOf atn t p := by
  obtain ⟨st, tr, h1, h2, h3, h4, rfl⟩ := h
  simp only [readsOf, h1, if_neg h2, List.mem_map, List.mem_filter]
  refine ⟨tr, ⟨h3, ?_⟩, rfl⟩
  cases tr <;> simp [Takes] at h4 <;> simp [takesB, h4]

/-- The positions after `n` rounds of silent steps. -/
def saturate (atn : ATN) : Nat → List Pos → List Pos
  | 0, ps => ps
  | n + 1, ps => saturate atn n ((ps ++ ps.flatMap (stepsOf atn)).eraseDups)

/-- The positions after each prefix of `w`, shortest first. -/
def threadSets (atn : ATN) (n : Nat) : List Int → List Pos → List (List Pos)
  | [], ps => [saturate atn n ps]
  | t :: w, ps => saturate atn n ps :: threadSets atn n w ((saturate atn n ps).flatMap (readsOf atn t))

/-- The sets are closed under silent steps, and contain what is read. -/
def closedSets (atn : ATN) (w : List Int) (S : List (List Pos)) : Bool :=
  (List.range (w.length + 1)).all fun i => (S.getD i []).all fun p =>
    (stepsOf atn p).all ((S.getD i []).contains ·) &&
      match w[i]? with
      | some t => (readsOf atn t p).all ((S.getD (i + 1) []).contains ·)
      | none => true

theorem live_mem {atn : ATN} {dec : ATNState} {σ : List Nat} {i : Nat} {tr : Trans} {w : List Int}
    {S : List (List Pos)} (hd : dec.transitions[i]? = some tr) (h0 : (S.getD 0 []).contains (tr.target, σ) = true)
    (hc : closedSets atn w S = true) (he : TOKEN_EOF ∉ w) {v : List Int} {p : Pos}
    (h : Live atn dec σ ((i + 1 : Nat) : Int) v p) (hv : v <+: w) : p ∈ S.getD v.length [] := by
  simp only [closedSets, List.all_eq_true, List.mem_range, Bool.and_eq_true, List.contains_iff_mem] at hc
  generalize hj : ((i + 1 : Nat) : Int) = j at h
  induction h with
  | @start i' tr' h1 =>
    have : i' = i := by omega
    subst this
    rw [hd] at h1
    cases h1
    simpa using h0
  | @silent j v p q h hs ih =>
    exact (hc v.length (by have := hv.length_le; omega) p (ih hv hj)).1 q (step_mem hs)
  | @read j v p q t h hs ih =>
    have h1 := hc v.length (by have := hv.length_le; simp at this; omega) p
      (ih ((List.prefix_append _ _).trans hv) hj)
    obtain ⟨u, rfl⟩ := hv
    have : (v ++ [t] ++ u)[v.length]? = some t := by simp
    rw [this] at h1
    have h2 := h1.2
    simp only [List.all_eq_true, List.contains_iff_mem] at h2
    simpa using h2 q (read_mem hs)
  | @more j v p q h hs ih =>
    obtain ⟨u, rfl⟩ := hv
    simp at he

/-- **C39, negation: what is lost** On the input of `C39_false` the answer 1 of the first prediction is
wrong: after `w x y y` alternative 1 has no thread left, alternative 2 has. -/
theorem C39_false_meaning : ∃ dec, exNest.states[6]? = some dec ∧
    (¬ ∃ p, Live exNest dec [] 1 [1, 2, 3, 3] p) ∧ ∃ p, Live exNest dec [] 2 [1, 2, 3, 3] p := by
  refine ⟨_, rfl, ?_, ?_⟩
  · rintro ⟨p, h⟩
    have := live_mem (i := 0) (tr := exEps 10) (w := [1, 2, 3, 3]) (S := threadSets exNest 12 [1, 2, 3, 3] [(10, [])])
      rfl (by decide +kernel) (by decide +kernel) (by decide) h (List.prefix_refl _)
    revert this
    have e : (threadSets exNest 12 [1, 2, 3, 3] [(10, [])]).getD 4 [] = [] := by decide +kernel
    simp only [List.length_cons, List.length_nil]
    rw [e]
    simp
  · refine ⟨(10, []), ?_⟩
    have s0 := Live.start (atn := exNest) (dec := exState 6 (.decision 0 true (.blockStart 10 .basic)) [exEps 10, exEps 7])
      (σ := []) (i := 1) (tr := exEps 7) rfl
    have s1 := s0.silent (.call (s := 7) (t := 0) (f := 8) (r := 0) (p := 0) rfl (by decide) (by simp [exState]))
    have s2 := s1.silent (.free (s := 0) (tr := exEps 2) rfl (by decide) (by simp [exState]) trivial)
    have s3 := s2.silent (.free (s := 2) (tr := exEps 3) rfl (by decide) (by simp [exState]) trivial)
    have s4 := s3.silent (.free (s := 3) (tr := exEps 4) rfl (by decide) (by simp [exState]) trivial)
    have s5 := s4.read (t := 1) (q := (5, [8])) ⟨_, .atom 5 1, rfl, by decide, by simp [exState], rfl, rfl⟩
    have s6 := s5.read (t := 2) (q := (6, [8])) ⟨_, .atom 6 2, rfl, by decide, by simp [exState], rfl, rfl⟩
    have s7 := s6.silent (.free (s := 6) (tr := exEps 7) rfl (by decide) (by simp [exState]) trivial)
    have s8 := s7.silent (.call (s := 7) (t := 0) (f := 8) (r := 0) (p := 0) rfl (by decide) (by simp [exState]))
    have s9 := s8.silent (.free (s := 0) (tr := exEps 2) rfl (by decide) (by simp [exState]) trivial)
    have s10 := s9.silent (.free (s := 2) (tr := exEps 9) rfl (by decide) (by simp [exState]) trivial)
    have s11 := s10.silent (.free (s := 9) (tr := exEps 1) rfl (by decide) (by simp [exState]) trivial)
    have s12 := s11.silent (.ret (s := 1) (f := 8) (k := [8]) rfl rfl)
    have s13 := s12.read (t := 3) (q := (10, [8])) ⟨_, .atom 10 3, rfl, by decide, by simp [exState], rfl, rfl⟩
    have s14 := s13.silent (.free (s := 10) (tr := exEps 11) rfl (by decide) (by simp [exState]) trivial)
    have s15 := s14.silent (.free (s := 11) (tr := exEps 2) rfl (by decide) (by simp [exState]) trivial)
    have s16 := s15.silent (.free (s := 2) (tr := exEps 9) rfl (by decide) (by simp [exState]) trivial)
    have s17 := s16.silent (.free (s := 9) (tr := exEps 1) rfl (by decide) (by simp [exState]) trivial)
    have s18 := s17.silent (.ret (s := 1) (f := 8) (k := []) rfl rfl)
    exact s18.read (t := 3) (q := (10, [])) ⟨_, .atom 10 3, rfl, by decide, by simp [exState], rfl, rfl⟩

/-! ### An alternative for another caller -/

/-- A state of rule `r`. -/
def exStateIn (r n : Nat) (ty : StateType) (ts : List Trans) : ATNState := { exState n ty ts with ruleIndex := r }

/-- The ATN of `a : 'x'? ; b : a 'c' ; d : a 'd' ;` with `'x'` = 1, `'c'` = 2, `'d'` = 3.  Decision 0 is
`'x'?`: alternative 1 enters, alternative 2 skips. -/
def exTwo : ATN where
  grammarType := .parser
  maxTokenType := 3
  decisionToState := [2]
  ruleToStartState := [0, 5, 9]
  ruleToStopState := [1, 6, 10]
  states := [
    exStateIn 0 0 (.ruleStart 1 false) [exEps 2],
    exStateIn 0 1 .ruleStop [exEps 8, exEps 12],
    exStateIn 0 2 (.decision 0 false (.blockStart 4 .basic)) [exEps 3, exEps 4],
    exStateIn 0 3 .basic [.atom 4 1],
    exStateIn 0 4 (.blockEnd 2) [exEps 1],
    exStateIn 1 5 (.ruleStart 6 false) [exEps 7],
    exStateIn 1 6 .ruleStop [],
    exStateIn 1 7 .basic [.rule 0 8 0 0],
    exStateIn 1 8 .basic [.atom 6 2],
    exStateIn 2 9 (.ruleStart 10 false) [exEps 11],
    exStateIn 2 10 .ruleStop [],
    exStateIn 2 11 .basic [.rule 0 12 0 0],
    exStateIn 2 12 .basic [.atom 10 3]]

/-- A parser in rule `a`, called from rule `b`. -/
def exParamsTwo : Params CTS := { exParams CTS with atn := exTwo, outer := [7, -1] }

/-- The empty DFA of the decision. -/
def exDfaTwo : DFA where
  atnStartState := 2
  decision := 0
  states := [DFAState.new (2 ^ 64 - 1) (ConfigSet.newBase true)]

/-- **C40, negation** The alternative predicted need not be viable in the current context: in rule `a`,
called from `b`, on the input `d` the answer is alternative 2 although nothing can read `d` there (only
after a call from rule `d` it could).  The SLL phase looks at all callers, and a unique alternative ends
it without a look at the context. -/
theorem C40_false : ∃ (dec : ATNState) (r : Res CTS), exTwo.states[2]? = some dec ∧
    DFA.new exTwo 2 0 = some exDfaTwo ∧
    adaptivePredict exParamsTwo 20 20 exDfaTwo (CTS.withChannel (exSource [3]) 0) = some r ∧
    r.out = .alt 2 ∧ PC.fromRuleContext exTwo exParamsTwo.outer = some (.single (some PC.EMPTY) 8) ∧
    ∀ j p, ¬ Live exTwo dec [8] j [3] p := by
  have h : ((adaptivePredict exParamsTwo 20 20 exDfaTwo (CTS.withChannel (exSource [3]) 0)).map (·.out)) =
      some (.alt 2) := by decide +kernel
  rw [Option.map_eq_some_iff] at h
  obtain ⟨r, h1, h2⟩ := h
  refine ⟨_, r, rfl, by decide +kernel, h1, h2, by decide +kernel, ?_⟩
  intro j p h
  have hj : ∃ i tr, j = ((i + 1 : Nat) : Int) ∧ (exState 2 (.decision 0 false (.blockStart 4 .basic)) [exEps 3, exEps 4]).transitions[i]? = some tr := by
    generalize [(3 : Int)] = v at h
    induction h with
    | @start i tr h => exact ⟨i, tr, rfl, h⟩
    | silent _ _ ih => exact ih
    | read _ _ ih => exact ih
    | more _ _ ih => exact ih
  obtain ⟨i, tr, rfl, hi⟩ := hj
  have key : ∀ s, (threadSets exTwo 6 [3] [(s, [8])]).getD 1 [] = [] →
      closedSets exTwo [3] (threadSets exTwo 6 [3] [(s, [8])]) = true →
      ((threadSets exTwo 6 [3] [(s, [8])]).getD 0 []).contains (s, [8]) = true → tr.target = s → False := by
    intro s e1 e2 e3 e4
    have := live_mem (dec := exState 2 (.decision 0 false (.blockStart 4 .basic)) [exEps 3, exEps 4])
      (w := [3]) hi (e4 ▸ e3) e2 (by decide) h (List.prefix_refl _)
    simp only [List.length_cons, List.length_nil] at this
    rw [e1] at this
    simp at this
  match i, hi with
  | 0, hi => cases hi; exact key 3 (by decide +kernel) (by decide +kernel) (by decide +kernel) rfl
  | 1, hi => cases hi; exact key 4 (by decide +kernel) (by decide +kernel) (by decide +kernel) rfl
  | n + 2, hi => simp [exState] at hi

/-! ### An error for another caller -/

/-- The ATN of `s : ('a' | 'a' 'b'?) EOF ; o : s 'x' ;` with `'a'` = 1, `'b'` = 2, `'x'` = 3. -/
def exCalled : ATN where
  grammarType := .parser
  maxTokenType := 3
  decisionToState := [2, 5]
  ruleToStartState := [0, 10]
  ruleToStopState := [1, 11]
  states := [
    exStateIn 0 0 (.ruleStart 1 false) [exEps 2],
    exStateIn 0 1 .ruleStop [exEps 12],
    exStateIn 0 2 (.decision 0 false (.blockStart 7 .basic)) [exEps 3, exEps 4],
    exStateIn 0 3 .basic [.atom 7 1],
    exStateIn 0 4 .basic [.atom 5 1],
    exStateIn 0 5 (.decision 1 false (.blockStart 8 .basic)) [exEps 6, exEps 8],
    exStateIn 0 6 .basic [.atom 8 2],
    exStateIn 0 7 (.blockEnd 2) [exEps 9],
    exStateIn 0 8 (.blockEnd 5) [exEps 7],
    exStateIn 0 9 .basic [.atom 1 (-1)],
    exStateIn 1 10 (.ruleStart 11 false) [exEps 13],
    exStateIn 1 11 .ruleStop [],
    exStateIn 1 12 .basic [.atom 11 3],
    exStateIn 1 13 .basic [.rule 0 12 0 0]]

/-- The empty DFA of the decision `'a' | 'a' 'b'?`. -/
def exDfaCalled : DFA where
  atnStartState := 2
  decision := 0
  states := [DFAState.new (2 ^ 64 - 1) (ConfigSet.newBase true)]

/-- **C40, negation** "No viable alternative" does not mean that there is none: the rule `s`, started as
the outermost one on its sentence `a`, cannot be predicted, because it is also called somewhere.  At the end of
the rule the SLL phase goes on with the callers, none of which can match EOF, and forgets that the rule
may be the outermost one.  (Both alternatives match the whole input.) -/
theorem C40_false_error : ∃ (dec : ATNState) (r : Res CTS) (t a : Tok), exCalled.states[2]? = some dec ∧
    DFA.new exCalled 2 0 = some exDfaCalled ∧
    adaptivePredict { exParams CTS with atn := exCalled } 20 20 exDfaCalled (CTS.withChannel (exSource [1]) 0) = some r ∧
    r.out = .noAlt t a ∧ ∀ j, j = 1 ∨ j = 2 → ∃ p, Live exCalled dec [] j [1, -1] p ∧ Ended exCalled p := by
  have h : ((adaptivePredict { exParams CTS with atn := exCalled } 20 20 exDfaCalled
      (CTS.withChannel (exSource [1]) 0)).map (·.out)) =
      some (.noAlt (tok (exSource [1]) 0) (tok (exSource [1]) 1)) := by decide +kernel
  rw [Option.map_eq_some_iff] at h
  obtain ⟨r, h1, h2⟩ := h
  refine ⟨_, r, _, _, rfl, by decide +kernel, h1, h2, ?_⟩
  let dec : ATNState := exStateIn 0 2 (.decision 0 false (.blockStart 7 .basic)) [exEps 3, exEps 4]
  have fin : ∀ {j}, Live exCalled dec [] j [1] (7, []) → ∃ p, Live exCalled dec [] j [1, -1] p ∧ Ended exCalled p := by
    intro j h
    have s1 := h.silent (.free (s := 7) (tr := exEps 9) rfl (by decide) (by simp [exState, exStateIn]) trivial)
    have s2 := s1.read (t := -1) (q := (1, [])) ⟨_, .atom 1 (-1), rfl, by decide, by simp [exState, exStateIn], rfl, rfl⟩
    exact ⟨_, s2, rfl, _, rfl, rfl⟩
  rintro j (rfl | rfl)
  · have s0 := Live.start (atn := exCalled) (dec := dec) (σ := []) (i := 0) (tr := exEps 3) rfl
    exact fin (s0.read (t := 1) (q := (7, [])) ⟨_, .atom 7 1, rfl, by decide, by simp [exState, exStateIn], rfl, rfl⟩)
  · have s0 := Live.start (atn := exCalled) (dec := dec) (σ := []) (i := 1) (tr := exEps 4) rfl
    have s1 := s0.read (t := 1) (q := (5, [])) ⟨_, .atom 5 1, rfl, by decide, by simp [exState, exStateIn], rfl, rfl⟩
    have s2 := s1.silent (.free (s := 5) (tr := exEps 8) rfl (by decide) (by simp [exState, exStateIn]) trivial)
    exact fin (s2.silent (.free (s := 8) (tr := exEps 7) rfl (by decide) (by simp [exState, exStateIn]) trivial))

end Antlr.PredictionProps
