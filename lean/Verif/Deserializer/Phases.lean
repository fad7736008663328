import Verif.Deserializer.Segments

/-!
# The phases of deserialization as maps over the states of the source
-/

namespace Antlr.Deserial
open Antlr SerialSpec IntervalSpec

/-- The list of states made from those of the source. -/
def build (g : Nat → SState → ATNState) (sts : List SState) : List ATNState :=
  sts.zipIdx.map fun p => g p.2 p.1

theorem build_get (g : Nat → SState → ATNState) (sts : List SState) (j : Nat) :
    (build g sts)[j]? = (sts[j]?).map (g j) := by
  simp only [build, List.getElem?_map, List.getElem?_zipIdx, Option.map_map]
  cases sts[j]? <;> simp

theorem build_length (g : Nat → SState → ATNState) (sts : List SState) : (build g sts).length = sts.length := by
  simp [build]

theorem updAll_spec {β : Type} (f : β → ATNState → ATNState) (us : List (Nat × β)) (sts : List ATNState)
    (h : ∀ u ∈ us, u.1 < sts.length) :
    ∃ sts', updAll f us sts = some sts' ∧ ∀ j : Nat, sts'[j]? =
      (sts[j]?).map fun s => (us.filter (·.1 == j)).foldl (fun a u => f u.2 a) s := by
  induction us generalizing sts with
  | nil => exact ⟨sts, rfl, fun j => by simp⟩
  | cons u us ih =>
    have hu := h u (by simp)
    have e : upd (f u.2) sts u.1 = some (sts.set u.1 (f u.2 sts[u.1])) := by
      simp [upd, List.getElem?_eq_getElem hu]
    obtain ⟨sts', h1, h2⟩ := ih (sts.set u.1 (f u.2 sts[u.1]))
      (fun v hv => by rw [List.length_set]; exact h v (by simp [hv]))
    refine ⟨sts', by simp [updAll, e, h1], fun j => ?_⟩
    rw [h2 j, List.getElem?_set]
    by_cases hj : u.1 = j
    · subst hj
      rw [if_pos rfl, if_pos hu]
      simp [hu]
    · rw [if_neg hj]
      have hb : (u.1 == j) = false := by simpa using hj
      simp [hb]

theorem updAll_build {β : Type} (f : β → ATNState → ATNState) (us : List (Nat × β)) (sts : List SState)
    (g g' : Nat → SState → ATNState) (h : ∀ u ∈ us, u.1 < sts.length)
    (hg : ∀ (j : Nat) (s : SState), sts[j]? = some s →
      (us.filter (·.1 == j)).foldl (fun a u => f u.2 a) (g j s) = g' j s) :
    updAll f us (build g sts) = some (build g' sts) := by
  obtain ⟨sts', h1, h2⟩ := updAll_spec f us (build g sts) (by simpa [build_length] using h)
  rw [h1]
  congr 1
  apply List.ext_getElem?
  intro j
  rw [h2 j, build_get, build_get]
  cases hs : sts[j]? with
  | none => rfl
  | some s => simp [hg j s hs]

/-- The same update several times. -/
theorem fold_same {β : Type} (f : β → ATNState → ATNState) (F : ATNState → ATNState)
    (hF : ∀ a, F (F a) = F a) (l : List (Nat × β)) (h : ∀ u ∈ l, f u.2 = F) (a : ATNState) :
    l.foldl (fun a u => f u.2 a) a = if l.isEmpty then a else F a := by
  induction l generalizing a with
  | nil => rfl
  | cons u l ih =>
    rw [List.foldl_cons, ih (fun v hv => h v (by simp [hv])), h u (by simp)]
    cases l <;> simp [hF]

/-! ## Types of states -/

/-- The type of a state of a given kind. -/
def shape (stop : Nat) (lr ng : Bool) (d : Int) (op : Bool) : SKind → StateType
  | .basic => .basic
  | .ruleStart l => .ruleStart stop (lr && l)
  | .blockStart e => .decision d ng (.blockStart e .basic)
  | .plusBlockStart e => .decision d ng (.blockStart e (.plus 0))
  | .starBlockStart e => .decision d ng (.blockStart e .star)
  | .tokenStart => .decision d ng .tokenStart
  | .ruleStop => .ruleStop
  | .blockEnd => .blockEnd 0
  | .starLoopBack => .starLoopback
  | .starLoopEntry => .decision d ng (.starLoopEntry 0 op)
  | .plusLoopBack => .decision d ng .plusLoopBack
  | .loopEnd b => .loopEnd b

theorem kindType_shape (k : SKind) : kindType k = shape 0 false false (-1) false k := by
  cases k <;> rfl

/-- A state with a type. -/
def withType (a : ATNState) (t : StateType) : ATNState := { a with stateType := t }

theorem setNonGreedy_shape (a : ATNState) (st : Nat) (lr ng : Bool) (d : Int) (op : Bool) (k : SKind) :
    setNonGreedy (withType a (shape st lr ng d op k)) = withType a (shape st lr true d op k) := by
  cases k <;> rfl

theorem setLeftRecursive_shape (a : ATNState) (st : Nat) (ng : Bool) (d : Int) (op : Bool) :
    setLeftRecursive (withType a (shape st false ng d op (.ruleStart true))) =
      withType a (shape st true ng d op (.ruleStart true)) := rfl

theorem setStop_shape (a : ATNState) (st st' : Nat) (lr ng : Bool) (d : Int) (op : Bool) (k : SKind) :
    setStop st' (withType a (shape st lr ng d op k)) = withType a (shape st' lr ng d op k) := by
  cases k <;> rfl

theorem setDecision_shape (a : ATNState) (st : Nat) (lr ng : Bool) (d : Int) (d' : Nat) (op : Bool) (k : SKind) :
    setDecision d' (withType a (shape st lr ng d op k)) = withType a (shape st lr ng d' op k) := by
  cases k <;> rfl

theorem setPrecedence_shape (a : ATNState) (st : Nat) (lr ng : Bool) (d : Int) (op : Bool) (k : SKind) :
    setPrecedence (withType a (shape st lr ng d op k)) = withType a (shape st lr ng d true k) := by
  cases k <;> rfl

theorem setNonGreedy_idem (a : ATNState) : setNonGreedy (setNonGreedy a) = setNonGreedy a := by
  obtain ⟨e, r, n, t, ts⟩ := a
  cases t <;> rfl

theorem setLeftRecursive_idem (a : ATNState) : setLeftRecursive (setLeftRecursive a) = setLeftRecursive a := by
  obtain ⟨e, r, n, t, ts⟩ := a
  cases t <;> rfl

theorem setStop_idem (st : Nat) (a : ATNState) : setStop st (setStop st a) = setStop st a := by
  obtain ⟨e, r, n, t, ts⟩ := a
  cases t <;> rfl

theorem setPrecedence_idem (a : ATNState) : setPrecedence (setPrecedence a) = setPrecedence a := by
  obtain ⟨e, r, n, t, ts⟩ := a
  cases t with
  | decision d n k => cases k <;> rfl
  | _ => rfl

/-! ## States -/

theorem mem_numbersOf {f : SState → Bool} {sts : List SState} {j : Nat} :
    j ∈ numbersOf f sts ↔ ∃ s, sts[j]? = some s ∧ f s = true := by
  simp only [numbersOf, List.mem_map, List.mem_filter, Prod.exists, exists_and_right, exists_eq_right]
  constructor
  · rintro ⟨s, hm, hf⟩; exact ⟨s, List.mem_zipIdx_iff_getElem?.mp hm, hf⟩
  · rintro ⟨s, hm, hf⟩; exact ⟨s, List.mem_zipIdx_iff_getElem?.mpr hm, hf⟩

theorem lt_of_get {α : Type} {l : List α} {j : Nat} {s : α} (h : l[j]? = some s) : j < l.length :=
  (List.getElem?_eq_some_iff.mp h).1

theorem filter_numbers (l : List Nat) (j : Nat) :
    ((l.map fun i => (i, ())).filter (·.1 == j)).isEmpty = !decide (j ∈ l) := by
  rw [Bool.eq_iff_iff]
  simp only [List.isEmpty_iff, List.filter_eq_nil_iff, List.mem_map, beq_iff_eq, Bool.not_eq_true',
    decide_eq_false_iff_not]
  constructor
  · intro h hj; exact h _ ⟨j, hj, rfl⟩ rfl
  · rintro h _ ⟨i, hi, rfl⟩ rfl; exact h hi

/-- A state after `read_states`. -/
def state1 (i : Nat) (s : SState) : ATNState :=
  withType (state0 i s) (shape 0 true s.nonGreedy (-1) false s.kind)

theorem reads_states {sts : List SState} (hf : ∀ v ∈ statesWords sts, Fits v) :
    ReadsAs readStates (statesWords sts) (build state1 sts) := by
  intro rest
  have h1 : ReadsAs countU [(sts.length : Int)] sts.length := reads_countU (hf _ (by simp [statesWords]))
  have h2 : ReadsAs (timesFrom readState 0 sts.length) (sts.flatMap stateWords) (build state0 sts) := by
    apply reads_timesFrom
    intro s hs i
    refine reads_state fun v hv => hf v ?_
    simp only [statesWords, List.mem_append, List.mem_cons, List.mem_flatMap]
    exact .inl (.inl (.inr ⟨s, hs, hv⟩))
  have h3 := reads_counted (numbersOf (·.nonGreedy) sts) fun v hv => hf v (by simp [statesWords, hv])
  have h4 := reads_counted (numbersOf isLeftRecursive sts) fun v hv => hf v (by simp [statesWords, hv])
  let g : Nat → SState → ATNState := fun i s => withType (state0 i s) (shape 0 false s.nonGreedy (-1) false s.kind)
  have h5 : updAll (fun _ => setNonGreedy) ((numbersOf (·.nonGreedy) sts).map fun i => (i, ())) (build state0 sts) =
      some (build g sts) := by
    apply updAll_build
    · intro u hu
      simp only [List.mem_map] at hu
      obtain ⟨i, hi, rfl⟩ := hu
      obtain ⟨s, hs, _⟩ := mem_numbersOf.mp hi
      exact lt_of_get hs
    · intro j s hs
      rw [fold_same (fun _ => setNonGreedy) setNonGreedy setNonGreedy_idem _ (fun _ _ => rfl), filter_numbers]
      have e : state0 j s = withType (state0 j s) (shape 0 false false (-1) false s.kind) := by
        rw [← kindType_shape]; rfl
      cases hn : s.nonGreedy
      · have : j ∉ numbersOf (·.nonGreedy) sts := by
          rw [mem_numbersOf]; rintro ⟨s', hs', hn'⟩
          rw [hs] at hs'; cases hs'; rw [hn] at hn'; cases hn'
        simp only [this, g, hn]
        exact e
      · have : j ∈ numbersOf (·.nonGreedy) sts := mem_numbersOf.mpr ⟨s, hs, hn⟩
        simp only [this, g, hn]
        exact (congrArg setNonGreedy e).trans (setNonGreedy_shape _ _ _ _ _ _ _)
  have h6 : updAll (fun _ => setLeftRecursive) ((numbersOf isLeftRecursive sts).map fun i => (i, ())) (build g sts) =
      some (build state1 sts) := by
    apply updAll_build
    · intro u hu
      simp only [List.mem_map] at hu
      obtain ⟨i, hi, rfl⟩ := hu
      obtain ⟨s, hs, _⟩ := mem_numbersOf.mp hi
      exact lt_of_get hs
    · intro j s hs
      rw [fold_same (fun _ => setLeftRecursive) setLeftRecursive setLeftRecursive_idem _ (fun _ _ => rfl), filter_numbers]
      cases hn : isLeftRecursive s
      · have : j ∉ numbersOf isLeftRecursive sts := by
          rw [mem_numbersOf]; rintro ⟨s', hs', hn'⟩
          rw [hs] at hs'; cases hs'; rw [hn] at hn'; cases hn'
        simp only [this, g, state1]
        obtain ⟨k, r, ng, es⟩ := s
        cases k with
        | ruleStart b => cases b <;> first | rfl | cases hn
        | _ => rfl
      · have : j ∈ numbersOf isLeftRecursive sts := mem_numbersOf.mpr ⟨s, hs, hn⟩
        simp only [this, g, state1]
        obtain ⟨k, r, ng, es⟩ := s
        cases k with
        | ruleStart b => cases b <;> first | rfl | cases hn
        | _ => cases hn
  have e : statesWords sts = [(sts.length : Int)] ++ (sts.flatMap stateWords ++
      (counted (numbersOf (·.nonGreedy) sts) ++ counted (numbersOf isLeftRecursive sts))) := by
    simp [statesWords]
  rw [e]
  simp only [List.map_append, List.append_assoc]
  have h3' := h3 (List.map norm (counted (numbersOf isLeftRecursive sts)) ++ rest)
  have h4' := h4 rest
  simp only [readStates]
  rw [h1]
  simp only [Option.bind_some]
  rw [h2]
  simp only [Option.bind_some]
  obtain ⟨n, hn1, hn2⟩ := Option.bind_eq_some_iff.mp h3'
  obtain ⟨m, hm1, hm2⟩ := Option.bind_eq_some_iff.mp h4'
  rw [hn1]
  simp only [Option.bind_some]
  rw [hn2]
  simp only [Option.bind_some, h5]
  rw [hm1]
  simp only [Option.bind_some]
  rw [hm2]
  simp only [Option.bind_some, h6, Option.map_some]

/-! ## Rules -/

theorem setStops_spec (us : List (Nat × Nat)) (l : List Nat) (h : ∀ u ∈ us, u.1 < l.length) :
    ∃ l', setStops us l = some l' ∧ ∀ j : Nat, l'[j]? =
      (l[j]?).map fun a => (us.filter (·.1 == j)).foldl (fun _ u => u.2) a := by
  induction us generalizing l with
  | nil => exact ⟨l, rfl, fun j => by simp⟩
  | cons u us ih =>
    have hu := h u (by simp)
    obtain ⟨l', h1, h2⟩ := ih (l.set u.1 u.2) (fun v hv => by rw [List.length_set]; exact h v (by simp [hv]))
    refine ⟨l', by simp [setStops, hu, h1], fun j => ?_⟩
    rw [h2 j, List.getElem?_set]
    by_cases hj : u.1 = j
    · subst hj
      rw [if_pos rfl, if_pos hu]
      simp [hu]
    · rw [if_neg hj]
      have hb : (u.1 == j) = false := by simpa using hj
      simp [hb]

theorem fold_last {β : Type} (l : List (Nat × β)) (b : β) (h : ∀ u ∈ l, u.2 = b) (hl : l ≠ []) (a : β) :
    l.foldl (fun _ u => u.2) a = b := by
  induction l generalizing a with
  | nil => exact absurd rfl hl
  | cons u l ih =>
    rw [List.foldl_cons]
    cases l with
    | nil => exact h u (by simp)
    | cons v l => exact ih (fun w hw => h w (by simp [hw])) (by simp) _

theorem startsOf_spec (starts : List Nat) (us : List (Nat × Nat)) (h : ∀ u ∈ us, u.1 < starts.length) :
    startsOf starts us = some (us.map fun u => (starts.getD u.1 0, u.2)) := by
  induction us with
  | nil => rfl
  | cons u us ih =>
    have hu := h u (by simp)
    simp [startsOf, ih (fun v hv => h v (by simp [hv])), List.getElem?_eq_getElem hu, List.getD]

theorem shape_stop_iff {stop : Nat} {lr ng : Bool} {d : Int} {op : Bool} {k : SKind} :
    shape stop lr ng d op k = .ruleStop ↔ k = .ruleStop := by
  cases k <;> simp [shape]

theorem mem_stopStates {sts : List SState} {u : Nat × Nat} :
    u ∈ stopStates (build state1 sts) ↔
      ∃ s : SState, sts[u.2]? = some s ∧ s.kind = .ruleStop ∧ ruleNumber s = u.1 := by
  obtain ⟨r, i⟩ := u
  simp only [stopStates, List.mem_filterMap, Prod.exists]
  constructor
  · rintro ⟨a, j, hm, h⟩
    have hm := List.mem_zipIdx_iff_getElem?.mp hm
    simp only [build_get] at hm
    obtain ⟨s, hs, rfl⟩ := Option.map_eq_some_iff.mp hm
    split at h
    · rename_i hk
      cases h
      exact ⟨s, hs, shape_stop_iff.mp hk, rfl⟩
    · cases h
  · rintro ⟨s, hs, hk, hr⟩
    refine ⟨state1 i s, i, ?_, ?_⟩
    · rw [List.mem_zipIdx_iff_getElem?, build_get, hs]; rfl
    · have : (state1 i s).stateType = .ruleStop := shape_stop_iff.mpr hk
      rw [if_pos this]
      simp only [Option.some.injEq, Prod.mk.injEq, and_true]
      exact hr

/-- The stop state of a rule. -/
theorem stopOf_spec {src : Src} (h : WF src) {r : Nat} (hr : r < src.rules.length) :
    ∃ s : SState, src.states[stopOf src r]? = some s ∧ s.kind = .ruleStop ∧ ruleNumber s = r := by
  obtain ⟨i, s, hs, hrule, hk⟩ := h.stops r hr
  have hm : ∃ s ∈ src.states, (decide (s.kind = .ruleStop ∧ ruleNumber s = r)) = true :=
    ⟨s, List.mem_of_getElem? hs, by simp [hk, ruleNumber, hrule]⟩
  have hlt : stopOf src r < src.states.length := List.findIdx_lt_length_of_exists hm
  refine ⟨src.states[stopOf src r], List.getElem?_eq_getElem hlt, ?_⟩
  have := List.findIdx_getElem (w := hlt)
  exact decide_eq_true_eq.mp this

theorem rule_eq {src : Src} {s : SState} {r : Nat} (h : ruleNumber s = r) (hr : r < src.rules.length)
    (hlen : src.rules.length < 0xFFFE) : s.rule = some r := by
  unfold ruleNumber at h
  cases hs : s.rule with
  | none => rw [hs] at h; simp at h; omega
  | some r' => rw [hs] at h; simp at h; rw [h]

theorem rules_few {src : Src} (h : WF src) : src.rules.length < 0xFFFE := by
  have := h.fits (src.rules.length : Int) (by simp [front, rulesWords])
  simp only [Fits] at this; omega

theorem stop_unique {src : Src} (h : WF src) {r i : Nat} {s : SState} (hs : src.states[i]? = some s)
    (hk : s.kind = .ruleStop) (hr : ruleNumber s = r) : i = stopOf src r := by
  have hlt := h.stopRule s (List.mem_of_getElem? hs) hk
  rw [hr] at hlt
  obtain ⟨s', hs', hk', hr'⟩ := stopOf_spec h hlt
  exact h.oneStop i _ s s' hs hs' hk hk'
    ((rule_eq hr hlt (rules_few h)).trans (rule_eq hr' hlt (rules_few h)).symm)

/-- A state after `read_rules`. -/
def state2 (src : Src) (i : Nat) (s : SState) : ATNState :=
  withType (state0 i s) (shape (stopOf src (ruleNumber s)) true s.nonGreedy (-1) false s.kind)

theorem reads_rules {src : Src} (h : WF src) (m : Int) :
    ReadsAs (readRules { grammarType := src.grammarType, maxTokenType := m, states := build state1 src.states })
      (rulesWords src.grammarType src.rules)
      { grammarType := src.grammarType, maxTokenType := m,
        ruleToStartState := src.rules.map (·.1)
        ruleToTokenType := if src.grammarType = .lexer then src.rules.map (·.2) else []
        ruleToStopState := (List.range src.rules.length).map (stopOf src)
        states := build (state2 src) src.states } := by
  intro rest
  have hfit : ∀ v ∈ rulesWords src.grammarType src.rules, Fits v :=
    fun v hv => h.fits v (by simp [front, hv])
  have h1 : ReadsAs countU [(src.rules.length : Int)] src.rules.length :=
    reads_countU (hfit _ (by simp [rulesWords]))
  have h2 : ReadsAs (times (readRule (src.grammarType = .lexer)) src.rules.length)
      (src.rules.flatMap fun r => if src.grammarType = .lexer then [(r.1 : Int), r.2] else [(r.1 : Int)])
      (src.rules.map fun r => (r.1, if src.grammarType = .lexer then some r.2 else none)) := by
    apply reads_times
    intro r hr
    refine reads_rule fun v hv => hfit v ?_
    simp only [rulesWords, List.mem_cons, List.mem_flatMap]
    exact .inr ⟨r, hr, hv⟩
  have hlt : ∀ u ∈ stopStates (build state1 src.states), u.1 < src.rules.length := by
    intro u hu
    obtain ⟨s, hs, hk, hr⟩ := mem_stopStates.mp hu
    rw [← hr]; exact h.stopRule s (List.mem_of_getElem? hs) hk
  have h3 : setStops (stopStates (build state1 src.states)) (List.replicate src.rules.length 0) =
      some ((List.range src.rules.length).map (stopOf src)) := by
    obtain ⟨l', h4, h5⟩ := setStops_spec (stopStates (build state1 src.states))
      (List.replicate src.rules.length 0) (by simpa using hlt)
    rw [h4]
    congr 1
    apply List.ext_getElem?
    intro r
    rw [h5 r, List.getElem?_map]
    by_cases hr : r < src.rules.length
    · simp only [List.getElem?_replicate, if_pos hr, Option.map_some, List.getElem?_range hr, Option.some.injEq]
      apply fold_last
      · intro u hu
        simp only [List.mem_filter, beq_iff_eq] at hu
        obtain ⟨s, hs, hk, hn⟩ := mem_stopStates.mp hu.1
        exact stop_unique h hs hk (hn.trans hu.2)
      · intro hnil
        obtain ⟨s, hs, hk, hn⟩ := stopOf_spec h hr
        have : (r, stopOf src r) ∈ (stopStates (build state1 src.states)).filter (·.1 == r) := by
          simp only [List.mem_filter, beq_self_eq_true, and_true]
          exact mem_stopStates.mpr ⟨s, hs, hk, hn⟩
        rw [hnil] at this
        cases this
    · rw [List.getElem?_eq_none (by simp; omega), List.getElem?_eq_none (by simp; omega)]; rfl
  have h4 : startsOf (src.rules.map (·.1)) (stopStates (build state1 src.states)) =
      some ((stopStates (build state1 src.states)).map fun u => ((src.rules.map (·.1)).getD u.1 0, u.2)) :=
    startsOf_spec _ _ (by simpa using hlt)
  have hstart : ∀ r, r < src.rules.length → ∃ s : SState, src.states[(src.rules.map (·.1)).getD r 0]? = some s ∧
      s.rule = some r ∧ ∃ lr, s.kind = .ruleStart lr := by
    intro r hr
    obtain ⟨s, hs, h5, h6⟩ := h.starts r hr
    refine ⟨s, ?_, h5, h6⟩
    simpa [List.getD, hr] using hs
  have h5 : updAll setStop ((stopStates (build state1 src.states)).map fun u => ((src.rules.map (·.1)).getD u.1 0, u.2))
      (build state1 src.states) = some (build (state2 src) src.states) := by
    apply updAll_build
    · intro u hu
      simp only [List.mem_map] at hu
      obtain ⟨v, hv, rfl⟩ := hu
      obtain ⟨s, hs, _⟩ := hstart v.1 (hlt v hv)
      exact lt_of_get hs
    · intro j s hs
      rw [fold_same setStop (setStop (stopOf src (ruleNumber s))) (setStop_idem _)]
      · by_cases hk : ∃ lr, s.kind = .ruleStart lr
        · obtain ⟨lr, hk⟩ := hk
          have hj := h.onlyStarts j s hs lr hk
          simp only [List.mem_map] at hj
          obtain ⟨p, hp, rfl⟩ := hj
          obtain ⟨r, hr, rfl⟩ := List.getElem_of_mem hp
          obtain ⟨s', hs', hrule, _⟩ := h.starts r hr
          rw [hs] at hs'; cases hs'
          obtain ⟨q, hq, hqk, hqn⟩ := stopOf_spec h hr
          have hm : (r, stopOf src r) ∈ stopStates (build state1 src.states) := mem_stopStates.mpr ⟨q, hq, hqk, hqn⟩
          have hne : (((stopStates (build state1 src.states)).map fun u => ((src.rules.map (·.1)).getD u.1 0, u.2)).filter
              (·.1 == src.rules[r].1)).isEmpty = false := by
            rw [Bool.eq_false_iff]
            intro he
            have hm' : (src.rules[r].1, stopOf src r) ∈ ((stopStates (build state1 src.states)).map
                fun u => ((src.rules.map (·.1)).getD u.1 0, u.2)).filter (·.1 == src.rules[r].1) := by
              simp only [List.mem_filter, List.mem_map, beq_self_eq_true, and_true]
              exact ⟨_, hm, by simp [List.getD, hr]⟩
            rw [List.isEmpty_iff.mp he] at hm'
            cases hm'
          rw [hne]
          exact setStop_shape _ _ _ _ _ _ _ _
        · have : setStop (stopOf src (ruleNumber s)) (state1 j s) = state1 j s := by
            obtain ⟨k, r, ng, es⟩ := s
            cases k <;> first | rfl | exact absurd ⟨_, rfl⟩ hk
          rw [this, ite_self]
          obtain ⟨k, r, ng, es⟩ := s
          cases k <;> first | rfl | exact absurd ⟨_, rfl⟩ hk
      · intro u hu
        simp only [List.mem_filter, List.mem_map, beq_iff_eq] at hu
        obtain ⟨⟨v, hv, rfl⟩, hj⟩ := hu
        obtain ⟨s', hs', hrule, _⟩ := hstart v.1 (hlt v hv)
        simp only at hj
        rw [hj, hs] at hs'
        cases hs'
        obtain ⟨q, hq, hqk, hqn⟩ := mem_stopStates.mp hv
        have : v.2 = stopOf src (ruleNumber s) := by
          rw [stop_unique h hq hqk hqn]
          simp [ruleNumber, hrule]
        simp only [this]
  have e : rulesWords src.grammarType src.rules = [(src.rules.length : Int)] ++
      src.rules.flatMap fun r => if src.grammarType = .lexer then [(r.1 : Int), r.2] else [(r.1 : Int)] := rfl
  rw [e]
  simp only [readRules, List.map_append, List.append_assoc]
  rw [h1]
  simp only [Option.bind_some]
  rw [h2]
  have e1 : List.map (·.1) (src.rules.map fun r => (r.1, if src.grammarType = .lexer then some r.2 else none)) =
      src.rules.map (·.1) := by simp [List.map_map, Function.comp_def]
  have e2 : List.filterMap (·.2) (src.rules.map fun r => (r.1, if src.grammarType = .lexer then some r.2 else none)) =
      if src.grammarType = .lexer then src.rules.map (·.2) else [] := by
    split
    · simp [List.filterMap_map, Function.comp_def]
    · simp
  simp only [Option.bind_some, h3, e1, e2, h4, h5, Option.map_some]

end Antlr.Deserial
