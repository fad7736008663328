import Verif.Deserializer.Phases

/-!
# Edges, decisions and operator loops
-/

namespace Antlr.Deserial
open Antlr SerialSpec IntervalSpec

/-! ## Adding edges -/

/-- Is `epsilonOnly` right? -/
def EpsOk (a : ATNState) : Prop := a.epsilonOnly = (!a.transitions.isEmpty && a.transitions.all (·.isEpsilon))

theorem label_not_epsilon (t : Trans) (h : t.label.isSome = true) : t.isEpsilon = false := by
  cases t <;> first | rfl | (simp [Trans.label] at h)

theorem addTr_epsOk (t : Trans) (a : ATNState) (h : EpsOk a) : EpsOk (addTr t a) := by
  obtain ⟨eo, r, n, ty, ts⟩ := a
  simp only [EpsOk] at h
  subst h
  simp only [EpsOk, addTr, ATNState.addTransition]
  cases ts with
  | nil => simp
  | cons u us =>
    by_cases hd : ((u :: us).any fun x => x.sameAs t) = true
    · rw [if_pos hd]
      simp only [List.isEmpty_cons, Bool.not_false, Bool.true_and]
      rw [if_neg (by simp)]
      rw [List.any_eq_true] at hd
      obtain ⟨x, hx, hs⟩ := hd
      simp only [Trans.sameAs, Bool.and_eq_true, Bool.or_eq_true] at hs
      cases ht : t.isEpsilon
      · rcases hs.2 with h1 | h1
        · have hxe := label_not_epsilon x h1.1.1.1
          have : ((u :: us).all fun x => x.isEpsilon) = false := by
            rw [List.all_eq_false]
            exact ⟨x, hx, by simp [hxe]⟩
          rw [this]; rfl
        · rw [ht] at h1; simp at h1
      · simp
    · rw [if_neg hd]
      simp [Bool.and_assoc]

theorem addTr_keeps (t : Trans) (a : ATNState) : ∃ e ts, addTr t a = { a with epsilonOnly := e, transitions := ts } := by
  simp only [addTr, ATNState.addTransition]
  split
  · exact ⟨_, a.transitions, rfl⟩
  · exact ⟨_, _, rfl⟩

/-- A run of `add_transition`. -/
def addAll (l : List (Nat × Trans)) (a : ATNState) : ATNState := l.foldl (fun a u => addTr u.2 a) a

theorem addAll_epsOk (l : List (Nat × Trans)) (a : ATNState) (h : EpsOk a) : EpsOk (addAll l a) := by
  induction l generalizing a with
  | nil => exact h
  | cons u l ih => exact ih _ (addTr_epsOk u.2 a h)

theorem addAll_keeps (l : List (Nat × Trans)) (a : ATNState) :
    ∃ e ts, addAll l a = { a with epsilonOnly := e, transitions := ts } := by
  induction l generalizing a with
  | nil => exact ⟨a.epsilonOnly, a.transitions, rfl⟩
  | cons u l ih =>
    obtain ⟨e, ts, h⟩ := addTr_keeps u.2 a
    obtain ⟨e', ts', h'⟩ := ih (addTr u.2 a)
    refine ⟨e', ts', ?_⟩
    show addAll l (addTr u.2 a) = _
    rw [h', h]

theorem mem_addTr {t u : Trans} {a : ATNState} (h : u ∈ (addTr t a).transitions) : u ∈ a.transitions ∨ u = t := by
  simp only [addTr, ATNState.addTransition] at h
  split at h
  · exact .inl h
  · simpa using h

theorem mem_addAll {l : List (Nat × Trans)} {u : Trans} {a : ATNState} (h : u ∈ (addAll l a).transitions) :
    u ∈ a.transitions ∨ u ∈ l.map (·.2) := by
  induction l generalizing a with
  | nil => exact .inl h
  | cons v l ih =>
    rcases ih h with h1 | h1
    · rcases mem_addTr h1 with h2 | rfl
      · exact .inl h2
      · exact .inr (by simp)
    · exact .inr (by simp [h1])

theorem addTr_mono {t u : Trans} {a : ATNState} (h : u ∈ a.transitions) : u ∈ (addTr t a).transitions := by
  simp only [addTr, ATNState.addTransition]
  split
  · exact h
  · simp [h]

theorem addAll_mono {l : List (Nat × Trans)} {u : Trans} {a : ATNState} (h : u ∈ a.transitions) :
    u ∈ (addAll l a).transitions := by
  induction l generalizing a with
  | nil => exact h
  | cons v l ih => exact ih (addTr_mono h)

theorem addTr_target (t : Trans) (a : ATNState) : t.target ∈ (addTr t a).transitions.map (·.target) := by
  simp only [addTr, ATNState.addTransition]
  split
  · rename_i h
    rw [List.any_eq_true] at h
    obtain ⟨x, hx, hs⟩ := h
    simp only [Trans.sameAs, Bool.and_eq_true, beq_iff_eq] at hs
    exact List.mem_map.mpr ⟨x, hx, hs.1⟩
  · simp

theorem addAll_target {l : List (Nat × Trans)} {t : Trans} (a : ATNState) (h : t ∈ l.map (·.2)) :
    t.target ∈ (addAll l a).transitions.map (·.target) := by
  induction l generalizing a with
  | nil => cases h
  | cons v l ih =>
    simp only [List.map_cons, List.mem_cons] at h
    rcases h with rfl | h
    · obtain ⟨x, hx, e⟩ := List.mem_map.mp (addTr_target v.2 a)
      exact List.mem_map.mpr ⟨x, addAll_mono (l := l) hx, e⟩
    · exact ih _ h

theorem addAll_nodup {l : List (Nat × Trans)} (a : ATNState) (ha : (a.transitions.map (·.target)).Nodup)
    (hae : ∀ t ∈ a.transitions, t.isEpsilon = true) (hl : ∀ u ∈ l, u.2.isEpsilon = true) :
    ((addAll l a).transitions.map (·.target)).Nodup := by
  induction l generalizing a with
  | nil => exact ha
  | cons v l ih =>
    apply ih (addTr v.2 a)
    · simp only [addTr, ATNState.addTransition]
      split
      · exact ha
      · rename_i h
        simp only [List.map_append, List.map_cons, List.map_nil]
        rw [List.nodup_append]
        refine ⟨ha, by simp, ?_⟩
        rintro x hx y hy rfl
        simp only [List.mem_singleton] at hy
        obtain ⟨w, hw, he⟩ := List.mem_map.mp hx
        apply h
        rw [List.any_eq_true]
        refine ⟨w, hw, ?_⟩
        simp [Trans.sameAs, he, hy, hae w hw, hl v (by simp)]
    · intro t ht
      rcases mem_addTr ht with h | rfl
      · exact hae t h
      · exact hl v (by simp)
    · intro u hu
      exact hl u (by simp [hu])

theorem addAll_distinct {l : List (Nat × Trans)} (a : ATNState)
    (h : (a.transitions ++ l.map (·.2)).Pairwise fun t u => t.sameAs u = false) :
    (addAll l a).transitions = a.transitions ++ l.map (·.2) := by
  induction l generalizing a with
  | nil => simp [addAll]
  | cons v l ih =>
    have hn : (a.transitions.any fun x => x.sameAs v.2) = false := by
      rw [List.any_eq_false]
      intro x hx
      have := (List.pairwise_append.mp h).2.2 x hx v.2 (by simp)
      simp [this]
    have e : (addTr v.2 a).transitions = a.transitions ++ [v.2] := by
      simp [addTr, ATNState.addTransition, hn]
    show (addAll l (addTr v.2 a)).transitions = _
    rw [ih (addTr v.2 a) (by rw [e]; simpa using h), e]
    simp

theorem distinct_sameAs {t u : Trans} (h : t.target = u.target →
    ¬ (t.isEpsilon = true ∧ u.isEpsilon = true) ∧ (t.label.isSome → t.label ≠ u.label)) :
    t.sameAs u = false := by
  rw [Bool.eq_false_iff]
  intro hs
  simp only [Trans.sameAs, Bool.and_eq_true, Bool.or_eq_true, beq_iff_eq] at hs
  obtain ⟨h1, h2⟩ := h hs.1
  rcases hs.2 with h3 | h3
  · apply h2 h3.1.1.1
    obtain ⟨⟨⟨ha, hb⟩, hc⟩, hd⟩ := h3
    obtain ⟨⟨i, r⟩, hx⟩ := Option.isSome_iff_exists.mp ha
    obtain ⟨⟨j, q⟩, hy⟩ := Option.isSome_iff_exists.mp hb
    rw [hx, hy] at hc hd ⊢
    simp only [Option.map_some, Option.some.injEq] at hc hd
    rw [hc, hd]
  · exact h1 h3

/-! ## The edges of the source -/

theorem filter_edges (src : Src) (j : Nat) (s : SState) (hs : src.states[j]? = some s) :
    (allEdges src).filter (·.1 == j) = s.edges.map fun t => (j, t) := by
  have gen : ∀ (l : List SState) (k : Nat), (l.zipIdx k |>.flatMap fun p => p.1.edges.map fun t => (p.2, t)).filter
      (·.1 == j) = if k ≤ j then ((l[j - k]?).map fun s => s.edges.map fun t => (j, t)).getD [] else [] := by
    intro l
    induction l with
    | nil => intro k; simp
    | cons a l ih =>
      intro k
      rw [List.zipIdx_cons, List.flatMap_cons, List.filter_append, ih (k + 1)]
      by_cases h1 : k = j
      · subst h1
        rw [if_neg (by omega), if_pos (Nat.le_refl _)]
        simp
      · have hb : (k == j) = false := by simpa using h1
        have : (a.edges.map fun t => (k, t)).filter (·.1 == j) = [] := by
          rw [List.filter_eq_nil_iff]
          intro u hu
          obtain ⟨t, _, rfl⟩ := List.mem_map.mp hu
          simpa using h1
        simp only at this ⊢
        rw [this, List.nil_append]
        by_cases h2 : k ≤ j
        · rw [if_pos h2, if_pos (by omega)]
          have : j - k = (j - (k + 1)) + 1 := by omega
          rw [this, List.getElem?_cons_succ]
        · rw [if_neg h2, if_neg (by omega)]
  have := gen src.states 0
  rw [if_pos (Nat.zero_le _), Nat.sub_zero, hs] at this
  exact this

/-- A state with edges of its own. -/
def state3 (src : Src) (i : Nat) (s : SState) : ATNState :=
  { state2 src i s with
    transitions := s.edges
    epsilonOnly := !s.edges.isEmpty && s.edges.all (·.isEpsilon) }

theorem edges_added {src : Src} (h : WF src) :
    updAll addTr (allEdges src) (build (state2 src) src.states) = some (build (state3 src) src.states) := by
  apply updAll_build
  · intro u hu
    obtain ⟨s, hs, _⟩ := mem_allEdges.mp hu
    exact lt_of_get hs
  · intro j s hs
    rw [filter_edges src j s hs]
    show addAll (s.edges.map fun t => (j, t)) (state2 src j s) = _
    have ht : (state2 src j s).transitions = [] := rfl
    have hm : (s.edges.map fun t => (j, t)).map (·.2) = s.edges := by simp [Function.comp_def]
    have hd := h.distinct s (List.mem_of_getElem? hs)
    have h1 := addAll_distinct (l := s.edges.map fun t => (j, t)) (state2 src j s)
      (by rw [ht, hm, List.nil_append]; exact hd.imp distinct_sameAs)
    have h2 := addAll_epsOk (s.edges.map fun t => (j, t)) (state2 src j s) rfl
    obtain ⟨e, ts, h3⟩ := addAll_keeps (s.edges.map fun t => (j, t)) (state2 src j s)
    rw [ht, hm, List.nil_append] at h1
    rw [h3] at h1 h2 ⊢
    simp only [EpsOk] at h1 h2
    rw [h2, h1]
    rfl

theorem build_edges (src : Src) : (build (state3 src) src.states).flatMap (·.transitions) =
    src.states.flatMap (·.edges) := by
  have : ∀ (l : List SState) (k : Nat),
      ((l.zipIdx k).map fun p => state3 src p.2 p.1).flatMap (·.transitions) = l.flatMap (·.edges) := by
    intro l
    induction l with
    | nil => intro k; rfl
    | cons a l ih =>
      intro k
      rw [List.zipIdx_cons, List.map_cons, List.flatMap_cons, List.flatMap_cons, ih]
      rfl
  exact this src.states 0

/-! ## Left recursion -/

/-- Is the rule left recursive? -/
def lrOf (src : Src) (r : Nat) : Bool :=
  match ((src.rules.map (·.1))[r]?).bind fun (i : Nat) => src.states[i]? with
  | some s => isLeftRecursive s
  | none => false

theorem lrOf_iff (src : Src) (r : Nat) : lrOf src r = true ↔ LeftRec src r := by
  simp only [lrOf, LeftRec]
  cases h1 : (src.rules.map (·.1))[r]? with
  | none => simp
  | some i =>
    simp only [Option.bind_some, Option.some.injEq]
    cases h2 : src.states[i]? with
    | none => simp [h2]
    | some s =>
      have e : isLeftRecursive s = true ↔ s.kind = .ruleStart true := by
        simp only [isLeftRecursive]
        split
        · simp_all
        · rename_i hk
          simp only [Bool.false_eq_true, false_iff]
          exact hk
      simp only [e]
      constructor
      · intro h; exact ⟨i, s, rfl, h2, h⟩
      · rintro ⟨j, q, rfl, hq, hk⟩
        rw [h2] at hq; cases hq; exact hk

/-- The states the phases after `read_rules` build agree on types with `shape`. -/
def Typed (src : Src) (g : Nat → SState → ATNState) : Prop :=
  ∀ i s, (g i s).ruleIndex = ruleNumber s ∧ ∃ ng d op,
    (g i s).stateType = shape (stopOf src (ruleNumber s)) true ng d op s.kind

theorem ruleLeftRecursive_spec {src : Src} (h : WF src) {g : Nat → SState → ATNState} (hg : Typed src g) {atn : ATN}
    (h1 : atn.ruleToStartState = src.rules.map (·.1)) (h2 : atn.states = build g src.states) {r : Nat}
    (hr : r < src.rules.length) : ruleLeftRecursive atn r = some (lrOf src r) := by
  obtain ⟨s, hs, hrule, lr, hk⟩ := h.starts r hr
  have e : (src.rules.map (·.1))[r]? = some src.rules[r].1 := by simp [hr]
  obtain ⟨_, ng, d, op, ht⟩ := hg src.rules[r].1 s
  simp only [ruleLeftRecursive, lrOf, h1, h2, e, Option.bind_some, build_get, hs, Option.map_some, ht, hk, shape,
    isLeftRecursive]
  cases lr <;> rfl

/-! ## Return edges -/

/-- The return edge of a call. -/
def ret (src : Src) : Trans → Option (Nat × Trans)
  | .rule target follow _ precedence => (src.states[target]?).map fun s =>
      (stopOf src (ruleNumber s), .epsilon follow
        (if lrOf src (ruleNumber s) = true ∧ precedence = 0 then (ruleNumber s : Int) else -1))
  | _ => none

theorem returnEdges_spec {atn : ATN} {f : Trans → Option (Nat × Trans)} (ts : List Trans)
    (h : ∀ t ∈ ts, returnEdge atn t = some (f t)) : returnEdges atn ts = some (ts.filterMap f) := by
  induction ts with
  | nil => rfl
  | cons t ts ih =>
    have h1 := ih (fun u hu => h u (by simp [hu]))
    simp only [returnEdges, h t (by simp), Option.bind_some, h1, Option.map_some]
    cases hf : f t <;> simp [hf]

/-- The return edges of the source. -/
def rets (src : Src) : List (Nat × Trans) := (src.states.flatMap (·.edges)).filterMap (ret src)

/-- A state with all edges. -/
def state4 (src : Src) (i : Nat) (s : SState) : ATNState :=
  addAll ((rets src).filter (·.1 == i)) (state3 src i s)

theorem typed3 (src : Src) : Typed src (state3 src) := fun _ _ => ⟨rfl, _, _, _, rfl⟩

theorem mem_rets {src : Src} {u : Nat × Trans} (hu : u ∈ rets src) :
    ∃ s ∈ src.states, ∃ target follow ri p, .rule target follow ri p ∈ s.edges ∧
      ∃ t : SState, src.states[target]? = some t ∧
        u = (stopOf src (ruleNumber t), .epsilon follow
        (if lrOf src (ruleNumber t) = true ∧ p = 0 then (ruleNumber t : Int) else -1)) := by
  simp only [rets, List.mem_filterMap, List.mem_flatMap] at hu
  obtain ⟨t, ⟨s, hs, ht⟩, hu⟩ := hu
  refine ⟨s, hs, ?_⟩
  cases t with
  | rule target follow ri p =>
    simp only [ret, Option.map_eq_some_iff] at hu
    obtain ⟨q, hq, rfl⟩ := hu
    exact ⟨target, follow, ri, p, ht, q, hq, rfl⟩
  | _ => simp [ret] at hu

theorem mem_rets' {src : Src} {s : SState} (hs : s ∈ src.states) {target follow : Nat} {ri p : Int}
    (ht : .rule target follow ri p ∈ s.edges) {t : SState} (h : src.states[target]? = some t) :
    (stopOf src (ruleNumber t), Trans.epsilon follow
      (if lrOf src (ruleNumber t) = true ∧ p = 0 then (ruleNumber t : Int) else -1)) ∈ rets src := by
  simp only [rets, List.mem_filterMap, List.mem_flatMap]
  exact ⟨_, ⟨s, hs, ht⟩, by simp [ret, h]⟩

theorem call_rule {src : Src} (h : WF src) {s : SState} (hs : s ∈ src.states) {target follow : Nat} {ri p : Int}
    (ht : .rule target follow ri p ∈ s.edges) {t : SState} (hq : src.states[target]? = some t) :
    ruleNumber t < src.rules.length := by
  obtain ⟨q, hq', hlt⟩ := h.edges s hs _ ht
  rw [hq] at hq'; cases hq'; exact hlt

theorem rets_lt {src : Src} (h : WF src) {u : Nat × Trans} (hu : u ∈ rets src) : ∃ s : SState,
    src.states[u.1]? = some s ∧ s.kind = .ruleStop := by
  obtain ⟨s, hs, target, follow, ri, p, ht, t, hq, rfl⟩ := mem_rets hu
  obtain ⟨q, h1, h2, _⟩ := stopOf_spec h (call_rule h hs ht hq)
  exact ⟨q, h1, h2⟩

theorem state4_other {src : Src} (h : WF src) {i : Nat} {s : SState} (hs : src.states[i]? = some s)
    (hk : s.kind ≠ .ruleStop) : state4 src i s = state3 src i s := by
  have : (rets src).filter (·.1 == i) = [] := by
    rw [List.filter_eq_nil_iff]
    intro u hu he
    simp only [beq_iff_eq] at he
    obtain ⟨q, h1, h2⟩ := rets_lt h hu
    rw [he, hs] at h1; cases h1; exact hk h2
  simp only [state4, this]
  rfl

theorem state4_keeps (src : Src) (i : Nat) (s : SState) :
    ∃ e ts, state4 src i s = { state3 src i s with epsilonOnly := e, transitions := ts } := addAll_keeps _ _

theorem typed4 (src : Src) : Typed src (state4 src) := by
  intro i s
  obtain ⟨e, ts, h⟩ := state4_keeps src i s
  rw [h]
  exact typed3 src i s

theorem returns_added {src : Src} (h : WF src) {atn : ATN} (h1 : atn.ruleToStartState = src.rules.map (·.1))
    (h2 : atn.states = build (state3 src) src.states)
    (h3 : atn.ruleToStopState = (List.range src.rules.length).map (stopOf src)) :
    returnEdges atn ((build (state3 src) src.states).flatMap (·.transitions)) = some (rets src) ∧
    updAll addTr (rets src) (build (state3 src) src.states) = some (build (state4 src) src.states) := by
  refine ⟨?_, ?_⟩
  · rw [build_edges]
    apply returnEdges_spec
    intro t ht
    simp only [List.mem_flatMap] at ht
    obtain ⟨s, hs, ht⟩ := ht
    cases t with
    | rule target follow ri p =>
      obtain ⟨q, hq, hlt⟩ := h.edges s hs _ ht
      have e : atn.states[target]? = some (state3 src target q) := by rw [h2, build_get, hq]; rfl
      have er : (state3 src target q).ruleIndex = ruleNumber q := rfl
      have es : atn.ruleToStopState[ruleNumber q]? = some (stopOf src (ruleNumber q)) := by
        rw [h3]; simp [hlt]
      simp only [returnEdge, e, Option.bind_some, er, ruleLeftRecursive_spec h (typed3 src) h1 h2 hlt, es,
        Option.map_some, ret, hq]
    | _ => rfl
  · apply updAll_build
    · intro u hu
      obtain ⟨q, h4, _⟩ := rets_lt h hu
      exact lt_of_get h4
    · intro j s hs
      rfl

/-! ## Decisions -/

/-- A state after `read_decisions`. -/
def state5 (src : Src) (i : Nat) (s : SState) : ATNState :=
  withType (state4 src i s) (shape (stopOf src (ruleNumber s)) true s.nonGreedy (decisionOf src i) false s.kind)

theorem state4_type (src : Src) (i : Nat) (s : SState) :
    (state4 src i s).stateType = shape (stopOf src (ruleNumber s)) true s.nonGreedy (-1) false s.kind := by
  obtain ⟨e, ts, h⟩ := state4_keeps src i s
  rw [h]; rfl

theorem filter_zipIdx (l : List Nat) (h : l.Nodup) (j : Nat) :
    l.zipIdx.filter (·.1 == j) = if j ∈ l then [(j, l.idxOf j)] else [] := by
  have gen : ∀ (l : List Nat) (k : Nat), l.Nodup → (l.zipIdx k).filter (·.1 == j) =
      if j ∈ l then [(j, k + l.idxOf j)] else [] := by
    intro l
    induction l with
    | nil => intro k _; rfl
    | cons a l ih =>
      intro k hn
      have hn := List.nodup_cons.mp hn
      rw [List.zipIdx_cons, List.filter_cons, ih (k + 1) hn.2]
      by_cases ha : a = j
      · subst ha
        simp [hn.1]
      · have hb : (a == j) = false := by simpa using ha
        have hb' : ¬ j = a := fun h => ha h.symm
        simp only [hb, Bool.false_eq_true, if_false, List.mem_cons, hb', false_or, List.idxOf_cons, cond_false]
        split
        · congr 2; omega
        · rfl
  have := gen l 0 h
  simpa using this

theorem reads_decisions {src : Src} (h : WF src) {atn : ATN} (h2 : atn.states = build (state4 src) src.states) :
    ReadsAs (readDecisions atn) (counted src.decisions)
      { atn with states := build (state5 src) src.states, decisionToState := src.decisions } := by
  intro rest
  have h3 := reads_counted src.decisions (fun v hv => h.fits v (by simp [back, hv])) rest
  obtain ⟨n, hn1, hn2⟩ := Option.bind_eq_some_iff.mp h3
  have h4 : updAll setDecision src.decisions.zipIdx (build (state4 src) src.states) =
      some (build (state5 src) src.states) := by
    apply updAll_build
    · intro u hu
      have := List.mem_of_getElem? (List.mem_zipIdx_iff_getElem?.mp hu)
      exact h.decisions.2 _ this
    · intro j s hs
      rw [filter_zipIdx _ h.decisions.1]
      have e : state4 src j s = withType (state4 src j s)
          (shape (stopOf src (ruleNumber s)) true s.nonGreedy (-1) false s.kind) := by
        rw [← state4_type]; rfl
      by_cases hj : j ∈ src.decisions
      · simp only [if_pos hj, List.foldl_cons, List.foldl_nil, state5, decisionOf]
        exact (congrArg _ e).trans (setDecision_shape _ _ _ _ _ _ _ _)
      · simp only [if_neg hj, List.foldl_nil, state5, decisionOf]
        exact e
  simp only [readDecisions]
  rw [hn1]
  simp only [Option.bind_some]
  rw [hn2]
  simp only [Option.bind_some, h2, h4, Option.map_some]

/-! ## Operator loops -/

open Classical in
/-- The final state. -/
noncomputable def state6 (src : Src) (i : Nat) (s : SState) : ATNState :=
  withType (state4 src i s) (typeOf src i s)

theorem typed5 (src : Src) : Typed src (state5 src) := by
  intro i s
  obtain ⟨e, ts, h⟩ := state4_keeps src i s
  refine ⟨?_, _, _, _, rfl⟩
  simp only [state5, withType, h]
  rfl

open Classical in
theorem isPrecedenceLoop_spec {src : Src} (h : WF src) {atn : ATN} (h1 : atn.ruleToStartState = src.rules.map (·.1))
    (h2 : atn.states = build (state5 src) src.states) {j : Nat} {s : SState} (hs : src.states[j]? = some s) :
    isPrecedenceLoop atn (state5 src j s) = some (decide (s.kind = .starLoopEntry ∧ OperatorLoop src s)) := by
  have hmem := List.mem_of_getElem? hs
  by_cases hk : s.kind = .starLoopEntry
  swap
  · have : isStarLoopEntry (state5 src j s) = false := by
      obtain ⟨k, r, ng, es⟩ := s
      cases k <;> first | rfl | exact absurd rfl hk
    simp [isPrecedenceLoop, this, hk]
  · have hst : isStarLoopEntry (state5 src j s) = true := by
      simp only [isStarLoopEntry, state5, withType, hk, shape]
    obtain ⟨hlt, hne⟩ := h.loops s hmem hk
    have er : (state5 src j s).ruleIndex = ruleNumber s := (typed5 src j s).1
    have hl := ruleLeftRecursive_spec h (typed5 src) h1 h2 hlt
    have htr : ∀ (i : Nat) (q : SState), src.states[i]? = some q → q.kind ≠ .ruleStop →
        (state5 src i q).transitions = q.edges ∧
        (state5 src i q).epsilonOnly = (!q.edges.isEmpty && q.edges.all (·.isEpsilon)) := by
      intro i q hq hkq
      simp only [state5, withType, state4_other h hq hkq]
      exact ⟨rfl, rfl⟩
    simp only [isPrecedenceLoop, hst, if_true, er, hl, Option.bind_some]
    cases hlr : lrOf src (ruleNumber s) with
    | false =>
      have : ¬ LeftRec src (ruleNumber s) := by rw [← lrOf_iff, hlr]; simp
      simp only [Bool.false_eq_true, if_false, Option.some.injEq]
      rw [eq_comm, decide_eq_false_iff_not]
      rintro ⟨_, h3, _⟩
      exact this h3
    | true =>
      have hL : LeftRec src (ruleNumber s) := (lrOf_iff _ _).mp hlr
      obtain ⟨t, ht⟩ : ∃ t, s.edges.getLast? = some t := ⟨_, List.getLast?_eq_some_getLast hne⟩
      have htm : t ∈ s.edges := List.mem_of_getLast? ht
      have htl := h.targets s hmem t htm
      obtain ⟨e, he⟩ : ∃ e, src.states[t.target]? = some e := ⟨_, List.getElem?_eq_getElem htl⟩
      have hget : ∀ (i : Nat) (q : SState), src.states[i]? = some q → atn.states[i]? = some (state5 src i q) := by
        intro i q hq; rw [h2, build_get, hq]; rfl
      simp only [if_true, (htr j s hs (by simp [hk])).1, ht, Option.bind_some, hget _ e he]
      have hrhs : (s.kind = .starLoopEntry ∧ OperatorLoop src s) ↔
          (∃ b, e.kind = .loopEnd b) ∧ (∀ t ∈ e.edges, t.isEpsilon = true) ∧ ∃ u, e.edges.head? = some u ∧
            ∃ q, src.states[u.target]? = some q ∧ q.kind = .ruleStop := by
        constructor
        · rintro ⟨_, _, t', e', u, h3, h4, h5, h6, h7, h8⟩
          rw [ht] at h3; cases h3
          rw [he] at h4; cases h4
          exact ⟨h5, h6, u, h7, h8⟩
        · rintro ⟨h5, h6, u, h7, h8⟩
          exact ⟨hk, hL, t, e, u, ht, he, h5, h6, h7, h8⟩
      simp only [hrhs]
      by_cases hek : ∃ b, e.kind = .loopEnd b
      · obtain ⟨b, hb⟩ := hek
        have hty : (state5 src t.target e).stateType = .loopEnd b := by
          simp only [state5, withType, hb, shape]
        have htre := htr _ e he (by simp [hb])
        simp only [hty, htre.1, htre.2]
        cases hed : e.edges with
        | nil => simp
        | cons u us =>
          have hu : u ∈ e.edges := by simp [hed]
          have hul := h.targets e (List.mem_of_getElem? he) u hu
          obtain ⟨q, hq⟩ : ∃ q, src.states[u.target]? = some q := ⟨_, List.getElem?_eq_getElem hul⟩
          have hqt : ((state5 src u.target q).stateType = .ruleStop) ↔ q.kind = .ruleStop := shape_stop_iff
          by_cases hall : ∀ t ∈ u :: us, t.isEpsilon = true
          · have : (!(u :: us).isEmpty && (u :: us).all (·.isEpsilon)) = true := by
              simp only [List.isEmpty_cons, Bool.not_false, Bool.true_and, List.all_eq_true]; exact hall
            simp only [this, if_true, List.head?_cons, Option.bind_some, hget _ q hq, Option.map_some, hqt,
              Option.some.injEq, decide_eq_decide]
            constructor
            · intro h9; exact ⟨⟨b, hb⟩, hall, u, rfl, q, hq, h9⟩
            · rintro ⟨_, _, u', rfl, q', hq', h9⟩
              rw [hq] at hq'; cases hq'; exact h9
          · have : (!(u :: us).isEmpty && (u :: us).all (·.isEpsilon)) = false := by
              rw [Bool.eq_false_iff]
              intro h9
              simp only [List.isEmpty_cons, Bool.not_false, Bool.true_and, List.all_eq_true] at h9
              exact hall h9
            simp only [this, Bool.false_eq_true, if_false, Option.some.injEq]
            rw [eq_comm, decide_eq_false_iff_not]
            rintro ⟨_, h9, _⟩
            exact hall h9
      · have hnl : ∀ b, (state5 src t.target e).stateType ≠ .loopEnd b := by
          intro b hb
          apply hek
          obtain ⟨k, r, ng, es⟩ := e
          cases k <;> first | exact ⟨_, rfl⟩ | cases hb
        have : decide ((∃ b, e.kind = .loopEnd b) ∧ (∀ t ∈ e.edges, t.isEpsilon = true) ∧ ∃ u,
            e.edges.head? = some u ∧ ∃ q, src.states[u.target]? = some q ∧ q.kind = .ruleStop) = false := by
          rw [decide_eq_false_iff_not]; rintro ⟨h9, _⟩; exact hek h9
        rw [this]
        split
        · rename_i b hb; exact absurd hb (hnl b)
        · rfl

theorem precedenceLoops_spec {atn : ATN} {b : ATNState → Bool} (l : List ATNState)
    (h : ∀ s ∈ l, isPrecedenceLoop atn s = some (b s)) :
    precedenceLoops atn l = some ((l.filter b).map (·.stateNumber)) := by
  induction l with
  | nil => rfl
  | cons s l ih =>
    have h1 := ih (fun u hu => h u (by simp [hu]))
    simp only [precedenceLoops, h s (by simp), Option.bind_some, h1, Option.map_some, List.filter_cons]
    cases b s <;> rfl

open Classical in
theorem precedence_marked {src : Src} (h : WF src) {atn : ATN} (h1 : atn.ruleToStartState = src.rules.map (·.1))
    (h2 : atn.states = build (state5 src) src.states) :
    markPrecedence atn = some { atn with states := build (state6 src) src.states } := by
  let b : ATNState → Bool := fun a => (isPrecedenceLoop atn a).getD false
  have hmem : ∀ a ∈ build (state5 src) src.states, ∃ (j : Nat) (s : SState), src.states[j]? = some s ∧
      a = state5 src j s := by
    intro a ha
    obtain ⟨j, hj⟩ := List.getElem?_of_mem ha
    rw [build_get] at hj
    obtain ⟨s, hs, rfl⟩ := Option.map_eq_some_iff.mp hj
    exact ⟨j, s, hs, rfl⟩
  have hb : ∀ (j : Nat) (s : SState), src.states[j]? = some s →
      b (state5 src j s) = decide (s.kind = .starLoopEntry ∧ OperatorLoop src s) := by
    intro j s hs
    simp only [b, isPrecedenceLoop_spec h h1 h2 hs, Option.getD_some]
  have h3 : precedenceLoops atn (build (state5 src) src.states) =
      some (((build (state5 src) src.states).filter b).map (·.stateNumber)) := by
    apply precedenceLoops_spec
    intro a ha
    obtain ⟨j, s, hs, rfl⟩ := hmem a ha
    rw [hb j s hs]
    exact isPrecedenceLoop_spec h h1 h2 hs
  have hnum : ∀ i s, (state5 src i s).stateNumber = i := by
    intro i s
    obtain ⟨e, ts, hh⟩ := state4_keeps src i s
    simp only [state5, withType, hh]
    rfl
  have hin : ∀ (j : Nat) (s : SState), src.states[j]? = some s →
      (j ∈ ((build (state5 src) src.states).filter b).map (·.stateNumber) ↔
        s.kind = .starLoopEntry ∧ OperatorLoop src s) := by
    intro j s hs
    simp only [List.mem_map, List.mem_filter]
    constructor
    · rintro ⟨a, ⟨ha, hba⟩, hj⟩
      obtain ⟨i, q, hq, rfl⟩ := hmem a ha
      rw [hnum] at hj
      subst hj
      rw [hs] at hq; cases hq
      rw [hb _ _ hs] at hba
      exact decide_eq_true_eq.mp hba
    · intro hh
      refine ⟨state5 src j s, ⟨?_, ?_⟩, hnum j s⟩
      · exact List.mem_of_getElem? (i := j) (by rw [build_get, hs]; rfl)
      · rw [hb j s hs]; exact decide_eq_true_eq.mpr hh
  have h4 : updAll (fun _ => setPrecedence)
      ((((build (state5 src) src.states).filter b).map (·.stateNumber)).map fun i => (i, ()))
      (build (state5 src) src.states) = some (build (state6 src) src.states) := by
    apply updAll_build
    · intro u hu
      simp only [List.mem_map, List.mem_filter] at hu
      obtain ⟨i, ⟨a, ⟨ha, _⟩, rfl⟩, rfl⟩ := hu
      obtain ⟨j, s, hs, rfl⟩ := hmem a ha
      simp only [hnum]
      exact lt_of_get hs
    · intro j s hs
      rw [fold_same (fun _ => setPrecedence) setPrecedence setPrecedence_idem _ (fun _ _ => rfl), filter_numbers]
      have hty : ∀ op, (s.kind = .starLoopEntry → op = decide (OperatorLoop src s)) →
          shape (stopOf src (ruleNumber s)) true s.nonGreedy (decisionOf src j) op s.kind = typeOf src j s := by
        intro op hop
        obtain ⟨k, r, ng, es⟩ := s
        cases k <;> simp only [shape, typeOf, Bool.true_and]
        rw [hop rfl]
      by_cases hj : s.kind = .starLoopEntry ∧ OperatorLoop src s
      · have hj' := (hin j s hs).mpr hj
        simp only [hj', decide_true, Bool.not_true, Bool.false_eq_true, if_false]
        have e := setPrecedence_shape (state4 src j s) (stopOf src (ruleNumber s)) true s.nonGreedy
          (decisionOf src j) false s.kind
        rw [hty true (fun _ => by rw [eq_comm, decide_eq_true_eq]; exact hj.2)] at e
        exact e
      · have hj' : j ∉ ((build (state5 src) src.states).filter b).map (·.stateNumber) :=
          fun hh => hj ((hin j s hs).mp hh)
        simp only [hj', decide_false, Bool.not_false, if_true]
        simp only [state5, state6]
        rw [hty false]
        intro hk
        rw [eq_comm, decide_eq_false_iff_not]
        exact fun hh => hj ⟨hk, hh⟩
  simp only [markPrecedence, h2, h3, Option.bind_some, h4, Option.map_some]

end Antlr.Deserial
