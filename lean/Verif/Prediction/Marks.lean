import Verif.Prediction.Steps

/-! Helper lemmas: the precedence filter and the marks of DFA states do not depend on the merge cache, nor on the counts. -/

namespace Antlr

/-! ### The evaluation of precedence predicates sees only the precedence -/

namespace SC

mutual
theorem evalPrecedence_env (ord : List SC → List SC) {e e' : Env} (h : e.prec = e'.prec) :
    ∀ s : SC, s.evalPrecedence ord e = s.evalPrecedence ord e'
  | .predicate .. => by simp only [evalPrecedence]
  | .precedence p => by unfold evalPrecedence Env.precpred; rw [h]
  | .or ops => by rw [evalPrecedence, evalPrecedence, orLoop_env ord h ops]
  | .and ops => by rw [evalPrecedence, evalPrecedence, andLoop_env ord h ops]
theorem orLoop_env (ord : List SC → List SC) {e e' : Env} (h : e.prec = e'.prec) :
    ∀ (l : List SC) (d : Bool) (acc : List SC), orLoop ord e l d acc = orLoop ord e' l d acc
  | [], d, acc => by simp only [orLoop]
  | c :: cs, d, acc => by
    rw [orLoop, orLoop, evalPrecedence_env ord h c]
    split
    · exact orLoop_env ord h cs d acc
    · split
      · rfl
      · exact orLoop_env ord h cs _ _
theorem andLoop_env (ord : List SC → List SC) {e e' : Env} (h : e.prec = e'.prec) :
    ∀ (l : List SC) (d : Bool) (acc : List SC), andLoop ord e l d acc = andLoop ord e' l d acc
  | [], d, acc => by simp only [andLoop]
  | c :: cs, d, acc => by
    rw [andLoop, andLoop, evalPrecedence_env ord h c]
    split
    · rfl
    · exact andLoop_env ord h cs _ _
end

end SC

namespace Prediction
open StackSpec ConfigSet PC PredictionSpec PredictionMode

variable {I : Type}

theorem filterFirst_pair {ord : List SC → List SC} {e e' : SC.Env} (he : e.prec = e'.prec) {l l' : List Config} (hl : LPair l l')
    {m : List (Nat × PC)} {s s' : ConfigSet} {mc mc' : PC.Cache} (h : SPair s s' mc mc')
    {r r' : List (Nat × PC) × ConfigSet × PC.Cache} (h1 : filterFirst ord e l m s mc = some r)
    (h1' : filterFirst ord e' l' m s' mc' = some r') : r.1 = r'.1 ∧ SPair r.2.1 r'.2.1 r.2.2 r'.2.2 := by
  induction l generalizing l' m s s' mc mc' with
  | nil =>
    obtain rfl := hl.nil
    cases h1
    cases h1'
    exact ⟨rfl, h⟩
  | cons c l ih =>
    obtain ⟨k, l1, rfl, hf, hl⟩ := hl.cases
    rw [filterFirst.eq_def] at h1 h1'
    dsimp only at h1 h1'
    by_cases hc : c.alt ≠ 1
    · rw [if_pos hc] at h1 h1'
      exact ih hl h h1 h1'
    · rw [if_neg hc] at h1 h1'
      rw [← SC.evalPrecedence_env ord he] at h1'
      cases hv : c.sem.evalPrecedence ord e with
      | none =>
        rw [hv] at h1 h1'
        exact ih hl h h1 h1'
      | some v =>
        rw [hv] at h1 h1'
        dsimp only at h1 h1'
        rw [Option.bind_eq_some_iff] at h1 h1'
        obtain ⟨⟨t, x⟩, h2, h1⟩ := h1
        obtain ⟨⟨t', x'⟩, h2', h1'⟩ := h1'
        rw [Option.bind_eq_some_iff] at h1 h1'
        obtain ⟨x, rfl, h1⟩ := h1
        obtain ⟨x', rfl, h1'⟩ := h1'
        have g : SPair t t' x x' := by
          by_cases hn : v ≠ c.sem
          · rw [if_pos hn] at h2 h2'
            obtain ⟨g1, g2, g3⟩ := addCached_pair h.sets (by exact rfl) (by exact hf) h.mc h.mc' h2 h2'
            exact ⟨g1, g2, g3⟩
          · rw [if_neg hn] at h2 h2'
            obtain ⟨g1, g2, g3⟩ := addCached_pair h.sets (by exact rfl) (by exact hf) h.mc h.mc' h2 h2'
            exact ⟨g1, g2, g3⟩
        exact ih hl g h1 h1'

theorem filterRest_pair {l l' : List Config} (hl : LPair l l') {m : List (Nat × PC)} {s s' r r' : ConfigSet} (h : Pair s s')
    (h1 : filterRest m l s = some r) (h1' : filterRest m l' s' = some r') : Pair r r' := by
  induction l generalizing l' s s' with
  | nil =>
    obtain rfl := hl.nil
    cases h1
    cases h1'
    exact h
  | cons c l ih =>
    obtain ⟨k, l1, rfl, hf, hl⟩ := hl.cases
    rw [filterRest.eq_def] at h1 h1'
    dsimp only at h1 h1'
    by_cases hc : c.alt = 1
    · rw [if_pos hc] at h1 h1'
      exact ih hl h h1 h1'
    · rw [if_neg hc] at h1 h1'
      by_cases hs : (!c.suppressed && m.lookup c.state == some c.ctx) = true
      · rw [if_pos hs] at h1 h1'
        exact ih hl h h1 h1'
      · rw [if_neg hs] at h1 h1'
        rw [Option.bind_eq_some_iff] at h1 h1'
        obtain ⟨⟨t, x⟩, h2, h1⟩ := h1
        obtain ⟨⟨t', x'⟩, h2', h1'⟩ := h1'
        obtain ⟨g1, -, -⟩ := addCached_pair h (by exact rfl) hf LFit.none LFit.none h2 h2'
        exact ih hl g1 h1 h1'

theorem applyPrecedenceFilter_pair {L L' : Local I} (hL : Alike L L') (hp : L.prec = L'.prec) {s s' : ConfigSet} {mc mc' : PC.Cache}
    (h : SPair s s' mc mc') {i i' : I} {r r' : ConfigSet × PC.Cache} (e : applyPrecedenceFilter L s mc i = some r)
    (e' : applyPrecedenceFilter L' s' mc' i' = some r') : SPair r.1 r'.1 r.2 r'.2 := by
  unfold applyPrecedenceFilter at e e'
  rw [← h.sets.fields.2.2.2.1, ← hL.ord] at e'
  rw [h.sets.loc] at e e'
  rw [Option.bind_eq_some_iff] at e e'
  obtain ⟨⟨m, t, c⟩, h1, e⟩ := e
  obtain ⟨⟨m', t', c'⟩, h1', e'⟩ := e'
  obtain ⟨rfl, g⟩ := filterFirst_pair (by exact hp) h.sets.list ⟨.new, h.mc, h.mc'⟩ h1 h1'
  dsimp only at e e' g
  rw [Option.map_eq_some_iff] at e e'
  obtain ⟨u, hu, rfl⟩ := e
  obtain ⟨u', hu', rfl⟩ := e'
  exact ⟨filterRest_pair h.sets.list g.sets hu hu', g.mc, g.mc'⟩

/-! ### Marks -/

/-- States that say the same. -/
structure View (D D' : DFAState) : Prop where
  list : LPair D.configs.configs D'.configs.configs
  unique : D.configs.uniqueAlt = D'.configs.uniqueAlt
  conflict : D.configs.conflictingAlts = D'.configs.conflictingAlts
  accept : D.isAccept = D'.isAccept
  pred : D.prediction = D'.prediction
  full : D.requiresFullCtx = D'.requiresFullCtx
  preds : D.predicates = D'.predicates

theorem LPair.symm {l l' : List Config} (h : LPair l l') : LPair l' l := by
  refine ⟨h.eq.symm, fun c hc => ?_⟩
  have : c.norm ∈ l.map Config.norm := by rw [h.eq]; exact List.mem_map_of_mem hc
  obtain ⟨x, hx, e⟩ := List.mem_map.1 this
  obtain ⟨k, rfl⟩ := norm_iff.1 e
  exact h.fit x hx

theorem LPair.trans {a b c : List Config} (h : LPair a b) (g : LPair b c) : LPair a c := ⟨h.eq.trans g.eq, h.fit⟩

theorem View.symm {D D' : DFAState} (h : View D D') : View D' D :=
  ⟨h.list.symm, h.unique.symm, h.conflict.symm, h.accept.symm, h.pred.symm, h.full.symm, h.preds.symm⟩

theorem View.trans {A B C : DFAState} (h : View A B) (g : View B C) : View A C :=
  ⟨h.list.trans g.list, h.unique.trans g.unique, h.conflict.trans g.conflict, h.accept.trans g.accept, h.pred.trans g.pred,
    h.full.trans g.full, h.preds.trans g.preds⟩

/-- The marks that go with a set of configurations, before predicates are looked at. -/
def marked (cs : ConfigSet) : DFAState :=
  if cs.uniqueAlt ≠ 0 then { DFAState.new 0 cs with isAccept := true, prediction := cs.uniqueAlt }
  else match cs.conflictingAlts with
    | [] => DFAState.new 0 cs
    | m :: _ => { DFAState.new 0 cs with isAccept := true, prediction := (m : Int), requiresFullCtx := true }

/-- The end of `compute_target_state`: the predicates. -/
def finish (P : Params I) (decision : Int) (D : DFAState) : Option DFAState :=
  if D.isAccept && D.configs.hasSem then
    (P.atn.decisionToState[asUsize decision]?).bind fun s => (P.atn.states[s]?).bind fun st =>
      (predicateState P.ord D st.transitions.length).map fun D =>
        if D.predicates.isEmpty then D else { D with prediction := INVALID_ALT }
  else some D

/-- The marks that go with a set of configurations. -/
def dress (P : Params I) (decision : Int) (cs : ConfigSet) : Option DFAState := finish P decision (marked cs)

theorem marked_configs (cs : ConfigSet) : (marked cs).configs = cs ∧ (marked cs).stateNumber = 0 ∧ (marked cs).edges = [] := by
  unfold marked
  split
  · exact ⟨rfl, rfl, rfl⟩
  · cases cs.conflictingAlts <;> exact ⟨rfl, rfl, rfl⟩

theorem predicateState_configs {ord : List SC → List SC} {D D' : DFAState} {n : Nat} (h : predicateState ord D n = some D') :
    D'.configs = D.configs ∧ D'.stateNumber = D.stateNumber ∧ D'.edges = D.edges := by
  unfold predicateState at h
  dsimp only at h
  rw [Option.map_eq_some_iff] at h
  obtain ⟨r, -, rfl⟩ := h
  cases r <;> exact ⟨rfl, rfl, rfl⟩

theorem finish_configs {P : Params I} {k : Int} {D E : DFAState} (h : finish P k D = some E) :
    E.configs = D.configs ∧ E.stateNumber = D.stateNumber ∧ E.edges = D.edges := by
  unfold finish at h
  split at h
  · rw [Option.bind_eq_some_iff] at h
    obtain ⟨s, -, h⟩ := h
    rw [Option.bind_eq_some_iff] at h
    obtain ⟨st, -, h⟩ := h
    rw [Option.map_eq_some_iff] at h
    obtain ⟨F, hF, rfl⟩ := h
    obtain ⟨g1, g2, g3⟩ := predicateState_configs hF
    split
    · exact ⟨g1, g2, g3⟩
    · exact ⟨g1, g2, g3⟩
  · cases h
    exact ⟨rfl, rfl, rfl⟩

theorem dress_configs {P : Params I} {k : Int} {cs : ConfigSet} {D : DFAState} (h : dress P k cs = some D) :
    D.configs = cs ∧ D.stateNumber = 0 ∧ D.edges = [] := by
  obtain ⟨h1, h2, h3⟩ := finish_configs h
  obtain ⟨g1, g2, g3⟩ := marked_configs cs
  exact ⟨h1.trans g1, h2.trans g2, h3.trans g3⟩

/-- What `compute_target_state` makes is determined by the set of configurations with its two marks. -/
theorem targetState_dress {P : Params I} {k : Int} {R : ConfigSet} {T : DFAState} (hu : R.uniqueAlt = 0)
    (hc : R.conflictingAlts = []) (h : targetState P k R = some T) :
    dress P k T.configs = some T ∧ T.configs.configs = R.configs ∧ T.configs.hasSem = R.hasSem ∧ T.configs.fullCtx = R.fullCtx ∧
    T.configs.uniqueAlt = uniqueAlt R ∧
    (T.configs.conflictingAlts = [] ∨ T.configs.conflictingAlts = getAlts (conflictingAltSubsets R)) ∧
    (T.configs.conflictingAlts ≠ [] ↔ uniqueAlt R = 0 ∧
      (R.configs.all (isStop P.atn) = true ∨ hasSllConflictTerminatingPrediction P.mode R = some true)) := by
  unfold targetState at h
  rw [Option.bind_eq_some_iff] at h
  obtain ⟨D, hD, h⟩ := h
  change finish P k D = some T at h
  have key : ∀ cs, marked cs = D → dress P k T.configs = some T ∧ T.configs = cs := by
    rintro cs rfl
    have := (dress_configs h).1
    rw [this]
    exact ⟨h, rfl⟩
  by_cases h1 : uniqueAlt R ≠ INVALID_ALT
  · rw [if_pos h1] at hD
    cases hD
    obtain ⟨g1, g2⟩ := key { R with uniqueAlt := uniqueAlt R } (by
      unfold marked
      rw [if_pos]
      exact h1)
    refine ⟨g1, ?_⟩
    rw [g2]
    refine ⟨rfl, rfl, rfl, rfl, .inl hc, ?_⟩
    simp only [hc]
    simp only [ne_eq, not_true_eq_false, false_iff, not_and]
    exact fun h => absurd h h1
  · rw [if_neg h1] at hD
    have h10 : uniqueAlt R = 0 := Decidable.not_not.1 h1
    rw [Option.bind_eq_some_iff] at hD
    obtain ⟨stop, hs, hD⟩ := hD
    have hstop : stop = true ↔ (R.configs.all (isStop P.atn) = true ∨ hasSllConflictTerminatingPrediction P.mode R = some true) := by
      by_cases ha : R.configs.all (isStop P.atn) = true
      · rw [if_pos ha] at hs
        cases hs
        exact ⟨fun _ => .inl ha, fun _ => rfl⟩
      · rw [if_neg ha] at hs
        rw [hs]
        simp [ha]
    cases stop with
    | true =>
      simp only [if_true] at hD
      rw [Option.map_eq_some_iff] at hD
      obtain ⟨m, hm, rfl⟩ := hD
      have hne : getAlts (conflictingAltSubsets R) ≠ [] := by
        intro h; rw [h] at hm; simp at hm
      obtain ⟨g1, g2⟩ := key { R with conflictingAlts := getAlts (conflictingAltSubsets R) } (by
        unfold marked
        rw [if_neg (by simp [hu])]
        dsimp only
        generalize getAlts (conflictingAltSubsets R) = l at hm
        cases l with
        | nil => simp at hm
        | cons x l => cases hm; rfl)
      refine ⟨g1, ?_⟩
      rw [g2]
      refine ⟨rfl, rfl, rfl, by simp [hu, h10], .inr rfl, ?_⟩
      simp only [h10, true_and]
      exact ⟨fun _ => hstop.1 rfl, fun _ => hne⟩
    | false =>
      simp only [Bool.false_eq_true, if_false, Option.some.injEq] at hD
      subst hD
      obtain ⟨g1, g2⟩ := key R (by
        unfold marked
        rw [if_neg (by simp [hu])]
        simp only [hc])
      refine ⟨g1, ?_⟩
      rw [g2]
      refine ⟨rfl, rfl, rfl, by simp [hu, h10], .inl hc, ?_⟩
      rw [hc]
      simp only [Bool.false_eq_true, false_iff] at hstop
      simp only [ne_eq, not_true_eq_false, false_iff, not_and]
      exact fun _ => hstop

theorem predOf_norm (ord : List SC → List SC) (l : List Config) (a : Nat) : predOf ord (l.map Config.norm) a = predOf ord l a := by
  unfold predOf
  generalize (none : Option SC) = acc
  induction l generalizing acc with
  | nil => rfl
  | cons c l ih =>
    simp only [List.map_cons, List.filter_cons]
    have : c.norm.alt = c.alt := rfl
    rw [this]
    split
    · simp only [List.foldl_cons]
      exact ih _
    · exact ih _

theorem predsForAmbigAlts_norm (ord : List SC → List SC) (ambig : List Nat) (l : List Config) (n : Nat) :
    predsForAmbigAlts ord ambig (l.map Config.norm) n = predsForAmbigAlts ord ambig l n := by
  unfold predsForAmbigAlts
  simp only [predOf_norm, List.any_map]
  rfl

theorem predicateState_view {ord : List SC → List SC} {D D' E E' : DFAState} (h : View D D') {n : Nat}
    (e : predicateState ord D n = some E) (e' : predicateState ord D' n = some E') : View E E' := by
  unfold predicateState at e e'
  dsimp only at e e'
  rw [← h.unique, ← h.conflict, ← predsForAmbigAlts_norm, ← h.list.eq, predsForAmbigAlts_norm] at e'
  rw [Option.map_eq_some_iff] at e e'
  obtain ⟨r, hr, rfl⟩ := e
  obtain ⟨r', hr', rfl⟩ := e'
  rw [hr] at hr'
  cases hr'
  cases r with
  | none => exact ⟨h.list, h.unique, h.conflict, h.accept, rfl, h.full, h.preds⟩
  | some p => exact ⟨h.list, h.unique, h.conflict, h.accept, rfl, h.full, rfl⟩

theorem dress_view {P P' : Params I} (ha : P.atn = P'.atn) (ho : P.ord = P'.ord) {k : Int} {cs cs' : ConfigSet}
    (hl : LPair cs.configs cs'.configs) (hu : cs.uniqueAlt = cs'.uniqueAlt) (hc : cs.conflictingAlts = cs'.conflictingAlts)
    (hs : cs.hasSem = cs'.hasSem) {D D' : DFAState} (h : dress P k cs = some D) (h' : dress P' k cs' = some D') : View D D' := by
  have base : View (marked cs) (marked cs') := by
    unfold marked
    rw [← hu]
    split
    · exact ⟨hl, hu, hc, rfl, rfl, rfl, rfl⟩
    · rw [← hc]
      split
      · exact ⟨hl, hu, hc, rfl, rfl, rfl, rfl⟩
      · exact ⟨hl, hu, hc, rfl, rfl, rfl, rfl⟩
  unfold dress finish at h h'
  rw [← base.accept, (marked_configs cs').1, ← hs, ← ha, ← ho] at h'
  rw [(marked_configs cs).1] at h
  split at h
  · next hb =>
    rw [if_pos hb] at h'
    rw [Option.bind_eq_some_iff] at h h'
    obtain ⟨s, h1, h⟩ := h
    obtain ⟨s', h1', h'⟩ := h'
    rw [h1] at h1'
    cases h1'
    rw [Option.bind_eq_some_iff] at h h'
    obtain ⟨st, h2, h⟩ := h
    obtain ⟨st', h2', h'⟩ := h'
    rw [h2] at h2'
    cases h2'
    rw [Option.map_eq_some_iff] at h h'
    obtain ⟨F, hF, rfl⟩ := h
    obtain ⟨F', hF', rfl⟩ := h'
    have g := predicateState_view base hF hF'
    have hp := g.preds
    by_cases he : F.predicates.isEmpty = true
    · rw [if_pos he, if_pos (by rw [← hp]; exact he)]
      exact g
    · rw [if_neg he, if_neg (by rw [← hp]; exact he)]
      exact ⟨g.list, g.unique, g.conflict, g.accept, rfl, g.full, hp⟩
  · next hb =>
    rw [if_neg hb] at h'
    cases h
    cases h'
    exact base

theorem altMap_norm {κ} [DecidableEq κ] (f : Config → κ) (hf : ∀ c, f c.norm = f c) (l : List Config) :
    altMap f (l.map Config.norm) = altMap f l := by
  unfold altMap
  generalize ([] : List (κ × List Nat)) = acc
  induction l generalizing acc with
  | nil => rfl
  | cons c l ih =>
    simp only [List.map_cons, List.foldl_cons, hf]
    exact ih _

theorem Pair.subsets {s s' : ConfigSet} (h : Pair s s') : conflictingAltSubsets s = conflictingAltSubsets s' := by
  unfold conflictingAltSubsets
  rw [← altMap_norm _ (fun c => rfl) s.configs, h.fields.2.1, altMap_norm _ (fun c => rfl)]

theorem Pair.sll {s s' : ConfigSet} (h : Pair s s') (mode : PredictionMode) :
    hasSllConflictTerminatingPrediction mode s = hasSllConflictTerminatingPrediction mode s' := by
  have hst : s.configs.map strip = s'.configs.map strip := by
    have : ∀ l : List Config, (l.map Config.norm).map strip = l.map strip := by
      intro l; rw [List.map_map]; rfl
    rw [← this, h.fields.2.1, this]
  have h1 : hasStateAssociatedWithOneAlt s = hasStateAssociatedWithOneAlt s' := by
    unfold hasStateAssociatedWithOneAlt
    rw [← altMap_norm _ (fun c => rfl) s.configs, h.fields.2.1, altMap_norm _ (fun c => rfl)]
  unfold hasSllConflictTerminatingPrediction
  dsimp only
  rw [h.fields.2.2.2.2.1, hst, h.subsets, h1]

theorem targetState_view {P P' : Params I} (ha : P.atn = P'.atn) (ho : P.ord = P'.ord) (hm : P.mode = P'.mode) {k : Int}
    {R R' : ConfigSet} (h : Pair R R') {T T' : DFAState} (e : targetState P k R = some T) (e' : targetState P' k R' = some T') :
    View T T' := by
  have hn' : R'.uniqueAlt = 0 := by rw [← h.fields.2.2.2.2.2.2.1]; exact h.noAlt
  have hc' : R'.conflictingAlts = [] := by rw [← h.fields.2.2.1]; exact h.noConflict
  obtain ⟨a1, a2, a3, -, a4, a5, a6⟩ := targetState_dress h.noAlt h.noConflict e
  obtain ⟨b1, b2, b3, -, b4, b5, b6⟩ := targetState_dress hn' hc' e'
  have hu : uniqueAlt R = uniqueAlt R' := h.list.unique _
  rw [← ha, ← hm, ← hu, ← h.sll, ← h.list.all _ (isStop_norm P.atn)] at b6
  rw [← h.subsets] at b5
  refine dress_view ha ho (by rw [a2, b2]; exact h.list) (by rw [a4, b4, hu]) ?_ (by rw [a3, b3, h.fields.2.2.2.2.1]) a1 b1
  by_cases hx : T.configs.conflictingAlts = []
  · rw [hx]
    by_cases hy : T'.configs.conflictingAlts = []
    · exact hy.symm
    · exact absurd hx (a6.2 (b6.1 hy))
  · have hy := b6.2 (a6.1 hx)
    rw [a5.resolve_left hx, b5.resolve_left hy]

end Prediction
end Antlr
