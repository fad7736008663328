import Verif.Prediction.Marks
import Verif.Prediction.Predict
import Verif.Prediction.CacheSpec

/-!
Helper lemmas: what the DFA of a decision says, whatever predictions filled it, is what is computed without it.
-/

namespace Antlr.Prediction
open Antlr StackSpec ConfigSet PC PredictionSpec PredictionMode

variable {I : Type}

theorem Alike.refl (L : Local I) : Alike L L := ⟨rfl, rfl, rfl, rfl, rfl⟩

theorem Alike.symm {L L' : Local I} (h : Alike L L') : Alike L' L :=
  ⟨h.atn.symm, h.prec.symm, h.start.symm, h.ord.symm, h.mode.symm⟩

theorem Alike.trans {L L' M : Local I} (h : Alike L L') (g : Alike L' M) : Alike L M :=
  ⟨h.atn.trans g.atn, h.prec.trans g.prec, h.start.trans g.start, h.ord.trans g.ord, h.mode.trans g.mode⟩

/-- The number of the first proper state of the DFA. -/
def base (L0 : Local I) : Nat := if L0.isPrec then 2 else 1

/-- The marks of the state go with its configurations. -/
def Made (L0 : Local I) (k : Int) (D : DFAState) : Prop :=
  ∃ cs E, dress L0.toParams k cs = some E ∧ View E D ∧ cs.hasSem = D.configs.hasSem

/-- What is computed for the configurations `cs` and the token `t`, in some prediction: no state, or one like `D`. -/
def StepTo [TokStream I] (L0 : Local I) (k : Int) (cs : ConfigSet) (t : Int) (o : Option DFAState) : Prop :=
  ∃ (L : Local I) (cf : Nat) (mc : PC.Cache) (inp : I) (r : Option ConfigSet × PC.Cache × I), Alike L0 L ∧ LFit (some mc) ∧
    computeReach L cf cs t false mc inp = some r ∧
    ((r.1 = none ∧ o = none) ∨
      ∃ R T D, r.1 = some R ∧ targetState L.toParams k R = some T ∧ o = some D ∧ View T D)

/-- An edge says what is computed. -/
def EdgeTo [TokStream I] (L0 : Local I) (k : Int) (d : DFA) (cs : ConfigSet) (t : Int) (j : Nat) : Prop :=
  if j = ERROR_DFA_STATE_REF then StepTo L0 k cs t none
  else base L0 ≤ j ∧ ∃ D, d.states[j]? = some D ∧ StepTo L0 k cs t (some D)

/-- The configurations of the start state. -/
def startSet [TokStream I] (L : Local I) (cf : Nat) (inp : I) : Option ConfigSet :=
  (computeStart L cf EMPTY false [] inp).bind fun r =>
    if L.isPrec then (applyPrecedenceFilter L r.1 r.2.1 r.2.2).map (·.1) else some r.1

/-- The state is a start state for precedence `p` as computed in some prediction. -/
def Begin [TokStream I] (L0 : Local I) (p : Int) (D : DFAState) : Prop :=
  ∃ (L : Local I) (cf : Nat) (inp : I) (S : ConfigSet), Alike L0 L ∧ (L0.isPrec = true → L.prec = p) ∧ startSet L cf inp = some S ∧
    View (DFAState.new 0 S) D

/-- What holds of the DFA of a decision. -/
structure TInv [TokStream I] (L0 : Local I) (k : Int) (d : DFA) : Prop where
  prec : d.isPrecedence = L0.isPrec
  atnStart : d.atnStartState = L0.atnStart
  dec : d.decision = k
  len : base L0 ≤ d.states.length
  s0 : L0.isPrec = true → d.s0 = some 1
  map : ∀ key, ∀ i ∈ (d.statesMap.lookup key).getD [], base L0 ≤ i
  made : ∀ (i : Nat) (D : DFAState), base L0 ≤ i → d.states[i]? = some D → Made L0 k D
  edge : ∀ (i : Nat) (D : DFAState) (t : Int) (j : Nat), base L0 ≤ i → d.states[i]? = some D → TokOk t →
    d.existingTarget i t = some (some j) → EdgeTo L0 k d D.configs t j
  start : ∀ (p : Int) (i : Nat), PrecOk p → startRef d p = some (some i) →
    base L0 ≤ i ∧ ∃ D, d.states[i]? = some D ∧ Begin L0 p D

/-- The DFA has grown. -/
structure Ext (L0 : Local I) (d d' : DFA) : Prop where
  len : d.states.length ≤ d'.states.length
  states : ∀ (i : Nat) (D : DFAState), base L0 ≤ i → d.states[i]? = some D → ∃ D', d'.states[i]? = some D' ∧ Core D D'
  edges : ∀ (i : Nat) (u : Int) (j : Nat), base L0 ≤ i → TokOk u → d.existingTarget i u = some (some j) →
    d'.existingTarget i u = some (some j)
  start : ∀ (p : Int) (i : Nat), PrecOk p → startRef d p = some (some i) → startRef d' p = some (some i)

theorem Ext.refl (L0 : Local I) (d : DFA) : Ext L0 d d :=
  ⟨Nat.le_refl _, fun _ D _ h => ⟨D, h, .refl D⟩, fun _ _ _ _ _ h => h, fun _ _ _ h => h⟩

theorem Ext.trans {L0 : Local I} {a b c : DFA} (h : Ext L0 a b) (g : Ext L0 b c) : Ext L0 a c := by
  refine ⟨Nat.le_trans h.len g.len, ?_, fun i u j hi hu hj => g.edges i u j hi hu (h.edges i u j hi hu hj),
    fun p i hp hi => g.start p i hp (h.start p i hp hi)⟩
  intro i D hi hD
  obtain ⟨D1, h1, h2⟩ := h.states i D hi hD
  obtain ⟨D2, h3, h4⟩ := g.states i D1 hi h1
  exact ⟨D2, h3, h2.trans h4⟩

theorem base_pos (L0 : Local I) : 1 ≤ base L0 := by unfold base; split <;> omega

/-! ### Two computations agree -/

section
variable [TokStream I] {L0 : Local I} {k : Int}

theorem opair_cases {o o' : Option ConfigSet} (h : OPair o o') :
    (o = none ∧ o' = none) ∨ ∃ s s', o = some s ∧ o' = some s' ∧ Pair s s' := by
  cases o <;> cases o' <;> simp [OPair] at h
  · exact .inl ⟨rfl, rfl⟩
  · exact .inr ⟨_, _, rfl, rfl, h⟩

/-- The same step from configurations that are the same up to the counts. -/
theorem step_det (ha : Small L0.atn) {cs cs' : ConfigSet} (hl : LPair cs.configs cs'.configs) {t : Int} {o o' : Option DFAState}
    (h : StepTo L0 k cs t o) (h' : StepTo L0 k cs' t o') :
    (o = none ∧ o' = none) ∨ ∃ D D', o = some D ∧ o' = some D' ∧ View D D' := by
  obtain ⟨L, cf, mc, inp, r, hL, hm, hr, h⟩ := h
  obtain ⟨L', cf', mc', inp', r', hL', hm', hr', h'⟩ := h'
  have hLL := hL.symm.trans hL'
  have hs : Small L.atn := hL.atn ▸ ha
  obtain ⟨g, -⟩ := computeReach_pair hLL hs hl hm hm' hr hr'
  rcases opair_cases g with ⟨g1, g2⟩ | ⟨s, s', g1, g2, g3⟩
  · rcases h with ⟨-, h⟩ | ⟨R, T, D, h, -⟩
    · rcases h' with ⟨-, h'⟩ | ⟨R, T, D, h', -⟩
      · exact .inl ⟨h, h'⟩
      · rw [g2] at h'; simp at h'
    · rw [g1] at h; simp at h
  · rcases h with ⟨h, -⟩ | ⟨R, T, D, h, hT, rfl, hv⟩
    · rw [g1] at h; simp at h
    · rcases h' with ⟨h', -⟩ | ⟨R', T', D', h', hT', rfl, hv'⟩
      · rw [g2] at h'; simp at h'
      · rw [g1] at h
        rw [g2] at h'
        cases h
        cases h'
        exact .inr ⟨D, D', rfl, rfl, (hv.symm.trans (targetState_view hLL.atn hLL.ord hLL.mode g3 hT hT')).trans hv'⟩

theorem startSet_pair (ha : Small L0.atn) {L L' : Local I} (h0 : Alike L0 L) (hL : Alike L L') (hp : L.isPrec = true → L.prec = L'.prec)
    {cf cf' : Nat} {i i' : I} {S S' : ConfigSet} (h : startSet L cf i = some S) (h' : startSet L' cf' i' = some S') : Pair S S' := by
  unfold startSet at h h'
  rw [Option.bind_eq_some_iff] at h h'
  obtain ⟨r, hr, h⟩ := h
  obtain ⟨r', hr', h'⟩ := h'
  obtain ⟨g, -, -⟩ := computeStart_pair hL (h0.atn ▸ ha) LFit.nil LFit.nil hr hr'
  rw [← hL.prec] at h'
  by_cases hb : L.isPrec = true
  · rw [if_pos hb] at h h'
    rw [Option.map_eq_some_iff] at h h'
    obtain ⟨q, hq, rfl⟩ := h
    obtain ⟨q', hq', rfl⟩ := h'
    exact (applyPrecedenceFilter_pair hL (hp hb) g hq hq').sets
  · rw [if_neg hb] at h h'
    cases h
    cases h'
    exact g.sets

theorem new_view {s s' : ConfigSet} (h : Pair s s') : View (DFAState.new 0 s) (DFAState.new 0 s') :=
  ⟨h.list, h.fields.2.2.2.2.2.2.1, h.fields.2.2.1, rfl, rfl, rfl, rfl⟩

theorem begin_det (ha : Small L0.atn) {p : Int} {D D' : DFAState} (h : Begin L0 p D) (h' : Begin L0 p D') : View D D' := by
  obtain ⟨L, cf, i, S, hL, hp, hS, hv⟩ := h
  obtain ⟨L', cf', i', S', hL', hp', hS', hv'⟩ := h'
  have := startSet_pair ha hL (hL.symm.trans hL') (fun hb => by
    rw [← hL.prec] at hb; rw [hp hb, hp' hb]) hS hS'
  exact (hv.symm.trans (new_view this)).trans hv'

/-! ### States and edges that are added -/

omit [TokStream I] in
theorem dress_alike {L L' : Local I} (h : Alike L L') (cs : ConfigSet) : dress L.toParams k cs = dress L'.toParams k cs := by
  unfold dress finish
  rw [h.atn, h.ord]

omit [TokStream I] in
theorem Made.view {D E : DFAState} (hD : Made L0 k D) (hE : Made L0 k E) (hn : D.configs.norm = E.configs.norm) : View D E := by
  obtain ⟨a, D1, h1, h2, h3⟩ := hD
  obtain ⟨b, E1, g1, g2, g3⟩ := hE
  have hl : LPair D.configs.configs E.configs.configs := ⟨congrArg (·.1) hn, h2.symm.list.fit⟩
  have e1 := (dress_configs h1).1
  have e2 := (dress_configs g1).1
  have l1 := (h2.list.trans hl).trans g2.symm.list
  have u1 := (h2.unique.trans (congrArg (fun x => x.2.2.1) hn)).trans g2.symm.unique
  have c1 := (h2.conflict.trans (congrArg (fun x => x.2.2.2.1) hn)).trans g2.symm.conflict
  rw [e1, e2] at l1 u1 c1
  exact (h2.symm.trans (dress_view rfl rfl l1 u1 c1
    ((h3.trans (congrArg (fun x => x.2.2.2.2.1) hn)).trans g3.symm) h1 g1)).trans g2

theorem EdgeTo.ext {d d' : DFA} (h : Ext L0 d d') {cs : ConfigSet} {t : Int} {j : Nat} (he : EdgeTo L0 k d cs t j) :
    EdgeTo L0 k d' cs t j := by
  unfold EdgeTo at he ⊢
  split
  · next hj => rw [if_pos hj] at he; exact he
  · next hj =>
    rw [if_neg hj] at he
    obtain ⟨h1, D, h2, L, cf, mc, inp, r, h3, h4, h5, h6⟩ := he
    obtain ⟨D', g1, g2⟩ := h.states j D h1 h2
    refine ⟨h1, D', g1, L, cf, mc, inp, r, h3, h4, h5, ?_⟩
    rcases h6 with ⟨-, h6⟩ | ⟨R, T, E, a, b, c, e⟩
    · simp at h6
    · cases c
      exact .inr ⟨R, T, D', a, b, rfl, e.trans ⟨⟨by rw [g2.1], e.symm.list.fit⟩, by rw [g2.1], by rw [g2.1], g2.2.1.symm, g2.2.2.1.symm,
        g2.2.2.2.1.symm, g2.2.2.2.2.symm⟩⟩

omit [TokStream I] in
theorem core_view {D D' : DFAState} (h : Core D D') (hf : ∀ c ∈ D.configs.configs, Fit false c.ctx) : View D D' :=
  ⟨⟨by rw [h.1], hf⟩, by rw [h.1], by rw [h.1], h.2.1.symm, h.2.2.1.symm, h.2.2.2.1.symm, h.2.2.2.2.symm⟩

omit [TokStream I] in
theorem Made.core {D D' : DFAState} (hD : Made L0 k D) (h : Core D D') : Made L0 k D' := by
  obtain ⟨cs, E, h1, h2, h3⟩ := hD
  exact ⟨cs, E, h1, h2.trans (core_view h h2.symm.list.fit), by rw [h.1]; exact h3⟩

theorem Begin.core {p : Int} {D D' : DFAState} (hD : Begin L0 p D) (h : Core D D') : Begin L0 p D' := by
  obtain ⟨L, cf, i, S, h1, h2, h3, h4⟩ := hD
  exact ⟨L, cf, i, S, h1, h2, h3, h4.trans (core_view h h4.symm.list.fit)⟩

/-- Adding a state. -/
theorem addState_tinv {d : DFA} (hd : TInv L0 k d) {hash : ConfigSet → Nat} {D : DFAState} (hD : Made L0 k D) (hn : D.stateNumber = 0)
    (he : D.edges = []) : TInv L0 k (DFA.addState hash d D).1 ∧ Ext L0 d (DFA.addState hash d D).1 ∧
    base L0 ≤ (DFA.addState hash d D).2 ∧ (DFA.addState hash d D).2 < (DFA.addState hash d D).1.states.length ∧
    (DFA.addState hash d D).1.s0 = d.s0 ∧
    (∀ (i : Nat) (E : DFAState), d.states[i]? = some E → (DFA.addState hash d D).1.states[i]? = some E) ∧
    ∃ E, (DFA.addState hash d D).1.states[(DFA.addState hash d D).2]? = some E ∧ View D E := by
  unfold DFA.addState
  rw [if_neg (by rw [hn]; simp [ERROR_DFA_STATE_REF])]
  cases hf : DFA.findState hash d D with
  | some i =>
    have h1 := List.find?_some hf
    have h2 := List.mem_of_find?_eq_some hf
    dsimp only at h1 ⊢
    split at h1
    · rename_i s hs
      rw [DFAState.same, ConfigSet.same_iff] at h1
      have hi : base L0 ≤ i := hd.map _ i h2
      exact ⟨hd, .refl _ _, hi, (List.getElem?_eq_some_iff.1 hs).1, rfl, fun _ _ h => h, s, hs, hD.view (hd.made i s hi hs) h1.symm⟩
    · simp at h1
  | none =>
    dsimp only
    have get : ∀ (i : Nat) (E F : DFAState), (d.states ++ [F])[i]? = some E → d.states[i]? = some E ∨ (i = d.states.length ∧ E = F) := by
      intro i E F h
      rw [List.getElem?_append] at h
      split at h
      · exact .inl h
      · right
        rw [List.getElem?_singleton] at h
        split at h
        · simp only [Option.some.injEq] at h
          exact ⟨by omega, h.symm⟩
        · simp at h
    have put : ∀ (i : Nat) (E F : DFAState), d.states[i]? = some E → (d.states ++ [F])[i]? = some E := by
      intro i E F h
      rw [List.getElem?_append_left (List.getElem?_eq_some_iff.1 h).1]; exact h
    have hfit : ∀ c ∈ D.configs.configs, Fit false c.ctx := by
      obtain ⟨cs, E, e1, e2, e3⟩ := hD
      exact e2.symm.list.fit
    have hview : View D { D with stateNumber := d.states.length, configs := { D.configs with readOnly := true } } :=
      ⟨⟨rfl, hfit⟩, rfl, rfl, rfl, rfl, rfl, rfl⟩
    have hmade : Made L0 k { D with stateNumber := d.states.length, configs := { D.configs with readOnly := true } } := by
      obtain ⟨cs, E, e1, e2, e3⟩ := hD
      exact ⟨cs, E, e1, e2.trans hview, e3⟩
    have hedges : ({ D with stateNumber := d.states.length, configs := { D.configs with readOnly := true } } : DFAState).edges = [] := he
    generalize ({ D with stateNumber := d.states.length, configs := { D.configs with readOnly := true } } : DFAState) = F at *
    have target : ∀ (i : Nat) (u : Int) (j : Nat),
        ({ d with states := d.states ++ [F], statesMap := mapPush d.statesMap (hash D.configs) d.states.length } : DFA).existingTarget i u
          = some (some j) → d.existingTarget i u = some (some j) := by
      intro i u j h
      rw [DFA.existingTarget, Option.map_eq_some_iff] at h
      obtain ⟨E, h1, h2⟩ := h
      rw [DFA.existingTarget]
      rcases get i E _ h1 with h1 | ⟨-, rfl⟩
      · rw [h1]; simpa using h2
      · simp [hedges] at h2
    have target' : ∀ (i : Nat) (u : Int) (j : Nat), d.existingTarget i u = some (some j) →
        ({ d with states := d.states ++ [F], statesMap := mapPush d.statesMap (hash D.configs) d.states.length } : DFA).existingTarget i u
          = some (some j) := by
      intro i u j h
      rw [DFA.existingTarget, Option.map_eq_some_iff] at h
      obtain ⟨E, h1, h2⟩ := h
      rw [DFA.existingTarget]
      dsimp only
      rw [put i E F h1]
      simpa using h2
    have st : ∀ (p : Int),
        startRef { d with states := d.states ++ [F], statesMap := mapPush d.statesMap (hash D.configs) d.states.length } p
          = startRef d p := by
      intro p
      unfold startRef
      by_cases hb : d.isPrecedence = true
      · simp only [hb, if_true, DFA.getPrecedenceStart]
        have hs := hd.s0 (by rw [← hd.prec]; exact hb)
        rw [hs]
        dsimp only
        have : 1 < d.states.length := by
          have := hd.len
          rw [base, if_pos (by rw [← hd.prec]; exact hb)] at this
          omega
        rw [List.getElem?_append_left this]
      · simp only [hb, Bool.false_eq_true, if_false]
    have ext :
        Ext L0 d { d with states := d.states ++ [F], statesMap := mapPush d.statesMap (hash D.configs) d.states.length } := by
      exact ⟨by simp, fun i E _ h => ⟨E, put i E F h, .refl E⟩, fun i u j _ _ h => target' i u j h,
        fun p i _ h => by rw [st]; exact h⟩
    refine ⟨⟨hd.prec, hd.atnStart, hd.dec, ?_, hd.s0, ?_, ?_, ?_, ?_⟩, ext, hd.len, by simp, rfl, fun i E h => put i E _ h,
      F, by simp, hview⟩
    · have := hd.len
      simp; omega
    · intro key i hi
      dsimp only at hi
      rw [lookup_mapPush] at hi
      split at hi
      · rcases List.mem_append.1 hi with hi | hi
        · exact hd.map _ i hi
        · rw [List.mem_singleton] at hi
          rw [hi]; exact hd.len
      · exact hd.map _ i hi
    · intro i E hi h
      rcases get i E _ h with h | ⟨-, rfl⟩
      · exact hd.made i E hi h
      · exact hmade
    · intro i E t j hi h1 ht h2
      have h3 := target i t j h2
      rw [DFA.existingTarget, Option.map_eq_some_iff] at h3
      obtain ⟨E', h4, h5⟩ := h3
      have h6 : some E' = some E := (put i E' _ h4).symm.trans h1
      cases h6
      exact (hd.edge i _ t j hi h4 ht (by rw [DFA.existingTarget, h4]; simpa using h5)).ext ext
    · intro p i hp hi
      rw [st] at hi
      obtain ⟨h1, E, h2, h3⟩ := hd.start p i hp hi
      exact ⟨h1, E, put i E _ h2, h3⟩

/-- Changing edges only. -/
theorem addEdge_tinv {d d' : DFA} (hd : TInv L0 k d) {max : Int} {src : Nat} {D : DFAState} (hb : base L0 ≤ src) (hD : d.states[src]? = some D)
    {t : Int} (ht : TokOk t) {j : Nat} (hnew : d.existingTarget src t = some none) (he : EdgeTo L0 k d D.configs t j)
    (h : DFA.addEdge max d src t j = some d') : TInv L0 k d' ∧ Ext L0 d d' := by
  obtain ⟨g1, g2, g3, g4, g5, g6, g7⟩ := addEdge_spec ht h
  have g8 := (addEdge_get ht h).1 hnew
  have hmap : d'.statesMap = d.statesMap ∧ d'.decision = d.decision ∧ ∀ i, i ≠ src → d'.states[i]? = d.states[i]? := by
    rw [DFA.addEdge, Option.bind_eq_some_iff] at h
    obtain ⟨s, hs, h⟩ := h
    rw [Option.map_eq_some_iff] at h
    obtain ⟨s', hs', rfl⟩ := h
    exact ⟨rfl, rfl, fun i hi => List.getElem?_set_ne (fun h => hi h.symm)⟩
  have st : ∀ p, startRef d' p = startRef d p := by
    intro p
    unfold startRef
    rw [g4]
    by_cases hp : d.isPrecedence = true
    · simp only [hp, if_true, DFA.getPrecedenceStart, g4]
      have hs := hd.s0 (by rw [← hd.prec]; exact hp)
      rw [g3, hs]
      dsimp only
      rw [hmap.2.2 1]
      rw [base, if_pos (by rw [← hd.prec]; exact hp)] at hb
      omega
    · simp only [hp, Bool.false_eq_true, if_false, g3]
  have ext : Ext L0 d d' := ⟨g1.1, fun i E _ hE => g1.2 i E hE, fun i u j _ hu hj => g8 i u j hu hj, fun p i _ hi => by rw [st]; exact hi⟩
  refine ⟨⟨g4.trans hd.prec, g5.trans hd.atnStart, hmap.2.1.trans hd.dec, by rw [g2]; exact hd.len, by rw [g3]; exact hd.s0,
    by rw [hmap.1]; exact hd.map, ?_, ?_, ?_⟩, ext⟩
  · intro i E' hi hE
    obtain ⟨E, h1, h2⟩ := g6 i E' hE
    exact (hd.made i E hi h1).core h2
  · intro i E' u m hi hE hu hm
    obtain ⟨E, h1, h2⟩ := g6 i E' hE
    rw [h2.1]
    rcases g7 i u m hu hm with ⟨rfl, rfl, rfl⟩ | hm
    · rw [hD] at h1
      cases h1
      exact he.ext ext
    · exact (hd.edge i E u m hi h1 hu hm).ext ext
  · intro p i hp hi
    rw [st] at hi
    obtain ⟨h1, E, h2, h3⟩ := hd.start p i hp hi
    obtain ⟨E', h4, h5⟩ := g1.2 i E h2
    exact ⟨h1, E', h4, h3.core h5⟩

omit [TokStream I] in
theorem lpair_refl {l : List Config} (h : ∀ c ∈ l, Fit false c.ctx) : LPair l l := ⟨rfl, h⟩

theorem Made.fit {D : DFAState} (h : Made L0 k D) : ∀ c ∈ D.configs.configs, Fit false c.ctx := by
  obtain ⟨cs, E, e1, e2, e3⟩ := h
  exact e2.symm.list.fit

/-- One step of prediction: from the DFA or computed. -/
theorem next_tinv (ha : Small L0.atn) {L : Local I} (hL : Alike L0 L) {cf : Nat} {d d' : DFA} (hd : TInv L0 k d) {prev j : Nat}
    {D : DFAState} (hb : base L0 ≤ prev) (hD : d.states[prev]? = some D) {t : Int} (ht : TokOk t) {mc mc' : PC.Cache} {i i' : I}
    (hm : LFit (some mc)) (h : nextState L cf d prev t mc i = some (j, d', mc', i')) (hsz : d'.states.length ≤ ERROR_DFA_STATE_REF) :
    TInv L0 k d' ∧ Ext L0 d d' ∧ i' = i ∧ LFit (some mc') ∧ EdgeTo L0 k d' D.configs t j ∧
    (t ≤ L.atn.maxTokenType → d'.existingTarget prev t = some (some j)) ∧
    (∀ x, d.existingTarget prev t = some (some x) → j = x ∧ d' = d ∧ mc' = mc) := by
  rw [nextState, Option.bind_eq_some_iff] at h
  obtain ⟨e, he, h⟩ := h
  cases e with
  | some x =>
    simp only [Option.some.injEq, Prod.mk.injEq] at h
    obtain ⟨rfl, rfl, rfl, rfl⟩ := h
    refine ⟨hd, .refl _ _, rfl, hm, hd.edge prev D t x hb hD ht he, fun _ => he, ?_⟩
    intro y hy
    rw [he] at hy
    cases hy
    exact ⟨rfl, rfl, rfl⟩
  | none =>
    dsimp only at h
    rw [computeTarget, hD, Option.bind_some, Option.bind_eq_some_iff] at h
    obtain ⟨r, hr, h⟩ := h
    have hfit := (hd.made prev D hb hD).fit
    obtain ⟨g1, g2, -, g3, -⟩ := computeReach_pair (Alike.refl L) (hL.atn ▸ ha) (lpair_refl hfit) hm hm hr hr
    have last : ∀ x, d.existingTarget prev t = some (some x) → j = x ∧ d' = d ∧ mc' = mc := by
      intro x hx; rw [he] at hx; simp at hx
    have hr' := hr
    obtain ⟨o, m1, i1⟩ := r
    dsimp only at g1 g2 g3 h hr'
    subst g3
    cases o with
    | none =>
      dsimp only at h
      rw [Option.map_eq_some_iff] at h
      obtain ⟨d2, h2, h⟩ := h
      simp only [Prod.mk.injEq] at h
      obtain ⟨rfl, rfl, rfl, rfl⟩ := h
      have hedge : ∀ dd, EdgeTo L0 k dd D.configs t ERROR_DFA_STATE_REF := by
        intro dd
        unfold EdgeTo
        rw [if_pos rfl]
        exact ⟨L, cf, mc, i1, _, hL, hm, hr', .inl ⟨rfl, rfl⟩⟩
      obtain ⟨t1, t2⟩ := addEdge_tinv hd hb hD ht he (hedge d) h2
      exact ⟨t1, t2, rfl, g2, hedge _, fun hmax => (addEdge_get ht h2).2 hmax (by simp [ERROR_DFA_STATE_REF]), last⟩
    | some R =>
      dsimp only at h
      rw [Option.bind_eq_some_iff] at h
      obtain ⟨T, hT, h⟩ := h
      rw [Option.map_eq_some_iff] at h
      obtain ⟨d2, h2, h⟩ := h
      simp only [Prod.mk.injEq] at h
      obtain ⟨rfl, rfl, rfl, rfl⟩ := h
      rw [hd.dec] at hT
      have hR : Pair R R := g1
      obtain ⟨a1, a2, -⟩ := targetState_dress hR.noAlt hR.noConflict hT
      have hTfit : ∀ c ∈ T.configs.configs, Fit false c.ctx := by rw [a2]; exact hR.fit
      have hmade : Made L0 k T := ⟨T.configs, T, by rw [dress_alike hL]; exact a1, ⟨⟨rfl, hTfit⟩, rfl, rfl, rfl, rfl, rfl, rfl⟩, rfl⟩
      obtain ⟨-, c2, c3⟩ := dress_configs a1
      obtain ⟨s1, s2, s3, s4, s5, s6, E, s7, s8⟩ := addState_tinv (hash := L.hash) hd hmade c2 c3
      have hlen := addEdge_len h2
      have hedge : ∀ dd E', dd.states[(DFA.addState L.hash d T).2]? = some E' → View T E' →
          EdgeTo L0 k dd D.configs t (DFA.addState L.hash d T).2 := by
        intro dd E' hE hv
        unfold EdgeTo
        rw [if_neg (by omega)]
        exact ⟨s3, E', hE, L, cf, mc, i1, _, hL, hm, hr', .inr ⟨R, T, E', rfl, hT, rfl, hv⟩⟩
      have hnew : (DFA.addState L.hash d T).1.existingTarget prev t = some none := by
        rw [DFA.existingTarget, s6 prev D hD]
        rw [DFA.existingTarget, hD] at he
        exact he
      obtain ⟨t1, t2⟩ := addEdge_tinv s1 hb (s6 prev D hD) ht hnew (hedge _ E s7 s8) h2
      obtain ⟨E', e1, e2⟩ := t2.states _ E s3 s7
      refine ⟨t1, s2.trans t2, rfl, g2, hedge _ E' e1 (s8.trans (core_view e2 s8.symm.list.fit)),
        fun hmax => (addEdge_get ht h2).2 hmax ?_, last⟩
      have := base_pos L0
      omega

/-! ### The start state -/

/-- Changing the state that holds the start states of a decision about precedence. -/
theorem set_tinv {d : DFA} (hd : TInv L0 k d) (hp : L0.isPrec = true) {s s' : DFAState} (hs : d.states[1]? = some s)
    (hk : ∀ (p : Int) (i : Nat), PrecOk p → (s.edges[asUsize p]?).bind readEdge = some i → (s'.edges[asUsize p]?).bind readEdge = some i)
    (hn : ∀ (p : Int) (i : Nat), PrecOk p → (s'.edges[asUsize p]?).bind readEdge = some i →
      (s.edges[asUsize p]?).bind readEdge = some i ∨ (base L0 ≤ i ∧ ∃ D, d.states[i]? = some D ∧ Begin L0 p D)) :
    TInv L0 k { d with states := d.states.set 1 s' } ∧ Ext L0 d { d with states := d.states.set 1 s' } := by
  have hb : base L0 = 2 := by rw [base, if_pos hp]
  have hlt := (List.getElem?_eq_some_iff.1 hs).1
  have get : ∀ i, base L0 ≤ i → (d.states.set 1 s')[i]? = d.states[i]? := fun i hi => List.getElem?_set_ne (by omega)
  have tgt : ∀ i u, base L0 ≤ i → ({ d with states := d.states.set 1 s' } : DFA).existingTarget i u = d.existingTarget i u := by
    intro i u hi
    rw [DFA.existingTarget, DFA.existingTarget]
    dsimp only
    rw [get i hi]
  have s0 := hd.s0 hp
  have pr := hd.prec.trans hp
  have st : ∀ p, startRef d p = some ((s.edges[asUsize p]?).bind readEdge) := by
    intro p
    simp only [startRef, DFA.getPrecedenceStart, pr, if_true, s0, hs, Option.map_some]
  have st' : ∀ p, startRef { d with states := d.states.set 1 s' } p = some ((s'.edges[asUsize p]?).bind readEdge) := by
    intro p
    simp only [startRef, DFA.getPrecedenceStart, pr, if_true, s0, List.getElem?_set_self hlt, Option.map_some]
  have ext : Ext L0 d { d with states := d.states.set 1 s' } := by
    refine ⟨by simp, fun i D hi h => ⟨D, by rw [← h]; exact get i hi, .refl D⟩, fun i u j hi _ h => by rw [tgt i u hi]; exact h, ?_⟩
    intro p i hp h
    rw [st, Option.some.injEq] at h
    rw [st', hk p i hp h]
  refine ⟨⟨hd.prec, hd.atnStart, hd.dec, by simpa using hd.len, hd.s0, hd.map, ?_, ?_, ?_⟩, ext⟩
  · intro i D hi h
    exact hd.made i D hi (by rw [← get i hi]; exact h)
  · intro i D u j hi h hu hj
    rw [tgt i u hi] at hj
    exact (hd.edge i D u j hi (by rw [← get i hi]; exact h) hu hj).ext ext
  · intro p i hp h
    rw [st', Option.some.injEq] at h
    rcases hn p i hp h with h | ⟨h1, D, h2, h3⟩
    · obtain ⟨h1, D, h2, h3⟩ := hd.start p i hp (by rw [st, h])
      exact ⟨h1, D, by rw [← h2]; exact get i h1, h3⟩
    · exact ⟨h1, D, by rw [← h2]; exact get i h1, h3⟩

omit [TokStream I] in
theorem precEdge_get {p q : Int} (hp : PrecOk p) (hq : PrecOk q) {s : DFAState} {j : Nat} (hj : j ≠ 0)
    (hn : (s.edges[asUsize p]?).bind readEdge = none) :
    ((DFA.setPrecedenceEdge p.toNat j s).edges[asUsize q]?).bind readEdge =
      if q = p then some j else (s.edges[asUsize q]?).bind readEdge := by
  have cast : ∀ x : Int, PrecOk x → asUsize x = x.toNat := by
    intro x hx
    obtain ⟨h1, h2⟩ := hx
    unfold asUsize
    omega
  rw [cast p hp] at hn
  rw [cast q hq]
  unfold DFA.setPrecedenceEdge
  dsimp only
  obtain ⟨p0, -⟩ := hp
  obtain ⟨q0, -⟩ := hq
  by_cases hqp : q = p
  · subst hqp
    rw [if_pos rfl]
    rw [List.getElem?_set_self (by
      split
      · simp [growTo]; omega
      · omega)]
    simp [readEdge, hj]
  · rw [if_neg hqp, List.getElem?_set_ne (by omega)]
    split
    · exact growTo_get _ _ _
    · rfl

theorem made_start {S : ConfigSet} (hS : Pair S S) : Made L0 k (DFAState.new 0 S) := by
  refine ⟨S, DFAState.new 0 S, ?_, ⟨⟨rfl, hS.fit⟩, rfl, rfl, rfl, rfl, rfl, rfl⟩, rfl⟩
  unfold dress marked
  rw [if_neg (by simp [hS.noAlt]), hS.noConflict]
  rfl

/-- The start of prediction. -/
theorem start_tinv (ha : Small L0.atn) {L : Local I} (hL : Alike L0 L) (hp : L0.isPrec = true → PrecOk L.prec) {cf : Nat} {d d' : DFA}
    (hd : TInv L0 k d) {j : Nat} {mc : PC.Cache} {i i' : I} (h : startState L cf d i = some (j, d', mc, i')) :
    TInv L0 k d' ∧ Ext L0 d d' ∧ i' = i ∧ LFit (some mc) ∧ base L0 ≤ j ∧
    (∃ D, d'.states[j]? = some D ∧ Begin L0 L.prec D) ∧ startRef d' L.prec = some (some j) ∧
    (∀ x, startRef d L.prec = some (some x) → j = x ∧ d' = d ∧ mc = []) := by
  rw [startState, Option.bind_eq_some_iff] at h
  obtain ⟨o, ho, h⟩ := h
  have ho' : startRef d L.prec = some o := ho
  have any : ∀ (p q : Int) (D : DFAState), L0.isPrec = false → Begin L0 p D → Begin L0 q D := by
    rintro p q D hb ⟨L, cf, i, S, h1, -, h3⟩
    exact ⟨L, cf, i, S, h1, by simp [hb], h3⟩
  cases o with
  | some x =>
    simp only [Option.some.injEq, Prod.mk.injEq] at h
    obtain ⟨rfl, rfl, rfl, rfl⟩ := h
    have hS : base L0 ≤ x ∧ ∃ D, d.states[x]? = some D ∧ Begin L0 L.prec D := by
      cases hb : L0.isPrec with
      | true => exact hd.start _ _ (hp hb) ho'
      | false =>
        have h0 : startRef d 0 = some (some x) := by
          rw [← ho']; simp [startRef, hd.prec, hb]
        obtain ⟨h1, D, h2, h3⟩ := hd.start 0 x ⟨by omega, by omega⟩ h0
        exact ⟨h1, D, h2, any _ _ _ hb h3⟩
    refine ⟨hd, .refl _ _, rfl, LFit.nil, hS.1, hS.2, ho', ?_⟩
    intro y hy
    rw [ho'] at hy
    cases hy
    exact ⟨rfl, rfl, rfl⟩
  | none =>
    have last : ∀ x, startRef d L.prec = some (some x) → j = x ∧ d' = d ∧ mc = [] := by
      intro x hx; rw [ho'] at hx; simp at hx
    dsimp only at h
    rw [Option.bind_eq_some_iff] at h
    obtain ⟨⟨cs, m1, i1⟩, hr, h⟩ := h
    obtain ⟨g1, g2, -⟩ := computeStart_pair (Alike.refl L) (hL.atn ▸ ha) LFit.nil LFit.nil hr hr
    dsimp only at h g1 g2
    subst g2
    by_cases hb : L0.isPrec = true
    · have pr := hd.prec.trans hb
      have s0 := hd.s0 hb
      have hp := hp hb
      rw [if_pos pr, Option.bind_eq_some_iff] at h
      obtain ⟨z, hz, h⟩ := h
      rw [s0, Option.some.injEq] at hz
      subst hz
      rw [Option.bind_eq_some_iff] at h
      obtain ⟨⟨cs', m2⟩, hf, h⟩ := h
      dsimp only at h
      rw [Option.bind_eq_some_iff] at h
      obtain ⟨s, hs, h⟩ := h
      rw [Option.map_eq_some_iff] at h
      obtain ⟨d2, h2, h⟩ := h
      simp only [Prod.mk.injEq] at h
      obtain ⟨rfl, rfl, rfl, rfl⟩ := h
      have f1 := applyPrecedenceFilter_pair (Alike.refl L) rfl g1 hf hf
      dsimp only at f1
      have hst : startSet L cf i1 = some cs' := by
        rw [startSet, hr, Option.bind_some, if_pos (by rw [← hL.prec]; exact hb), hf]
        rfl
      obtain ⟨a1, a2⟩ := set_tinv hd hb (s := s) (s' := { s with configs := cs }) hs (fun _ _ _ h => h) (fun _ _ _ h => .inl h)
      obtain ⟨b1, b2, b3, b4, b5, b6, E, b7, b8⟩ := addState_tinv (hash := L.hash) a1 (made_start f1.sets) rfl rfl
      have hlt := (List.getElem?_eq_some_iff.1 hs).1
      have c1 := b6 1 { s with configs := cs } (by simp [hlt])
      have hbeg : Begin L0 L.prec E := ⟨L, cf, i1, cs', hL, fun _ => rfl, hst, b8⟩
      have pr1 := b1.prec.trans hb
      have s01 := b1.s0 hb
      generalize hgen : DFA.addState L.hash { d with states := d.states.set 1 { s with configs := cs } } (DFAState.new 0 cs') = R at *
      rw [DFA.setPrecedenceStart, if_pos pr1, if_neg (by have := hp.1; omega), s01] at h2
      dsimp only at h2
      rw [c1, Option.map_some, Option.some.injEq] at h2
      subst h2
      have hnone : (({ s with configs := cs } : DFAState).edges[asUsize L.prec]?).bind readEdge = none := by
        simpa [startRef, DFA.getPrecedenceStart, pr, s0, hs] using ho'
      have hj : R.2 ≠ 0 := by have := base_pos L0; omega
      obtain ⟨e1, e2⟩ := set_tinv b1 hb (s' := DFA.setPrecedenceEdge L.prec.toNat R.2 { s with configs := cs }) c1 (by
        intro q x hq hx
        rw [precEdge_get hp hq hj hnone]
        split
        · next hqp => rw [hqp, hnone] at hx; simp at hx
        · exact hx) (by
        intro q x hq hx
        rw [precEdge_get hp hq hj hnone] at hx
        split at hx
        · next hqp =>
          cases hx
          exact .inr ⟨b3, E, b7, hqp ▸ hbeg⟩
        · exact .inl hx)
      obtain ⟨E', k1, k2⟩ := e2.states _ E b3 b7
      rw [s01] at e1 e2
      refine ⟨e1, (a2.trans b2).trans e2, rfl, f1.mc, b3, ⟨E', k1, hbeg.core k2⟩, ?_, last⟩
      have hlt' := (List.getElem?_eq_some_iff.1 c1).1
      simp only [startRef, DFA.getPrecedenceStart, pr1, if_true, List.getElem?_set_self hlt', Option.map_some]
      rw [precEdge_get hp hp hj hnone, if_pos rfl]
    · have pr : d.isPrecedence = false := by rw [hd.prec]; simpa using hb
      have hb' : L0.isPrec = false := by simpa using hb
      rw [if_neg (by rw [pr]; simp)] at h
      simp only [Option.some.injEq, Prod.mk.injEq] at h
      obtain ⟨rfl, rfl, rfl, rfl⟩ := h
      have hst : startSet L cf i1 = some cs := by
        rw [startSet, hr, Option.bind_some, if_neg (by rw [← hL.prec]; exact hb)]
      obtain ⟨b1, b2, b3, b4, b5, b6, E, b7, b8⟩ := addState_tinv (hash := L.hash) hd (made_start g1.sets) rfl rfl
      generalize hgen : DFA.addState L.hash d (DFAState.new 0 cs) = R at *
      have hbeg : ∀ p, Begin L0 p E := fun p => ⟨L, cf, i1, cs, hL, by simp [hb'], hst, b8⟩
      have pr1 : R.1.isPrecedence = false := b1.prec.trans hb'
      have none0 : d.s0 = none := by simpa [startRef, pr] using ho'
      have ext : Ext L0 R.1 { R.1 with s0 := some R.2 } := by
        refine ⟨Nat.le_refl _, fun _ D _ h => ⟨D, h, .refl D⟩, fun _ _ _ _ _ h => h, ?_⟩
        intro p x _ h
        rw [startRef, if_neg (by rw [pr1]; simp), b5, none0] at h
        simp at h
      refine ⟨⟨b1.prec, b1.atnStart, b1.dec, b1.len, by simp [hb'], b1.map, b1.made, ?_, ?_⟩, b2.trans ext, rfl, g1.mc, b3,
        ⟨E, b7, hbeg _⟩, ?_, last⟩
      · intro i D t j hi h ht hj
        exact (b1.edge i D t j hi h ht hj).ext ext
      · intro p x hp h
        rw [startRef, if_neg (by dsimp only; rw [pr1]; simp)] at h
        simp only [Option.some.injEq] at h
        subst h
        exact ⟨b3, E, b7, hbeg p⟩
      · rw [startRef, if_neg (by dsimp only; rw [pr1]; simp)]

/-- A new DFA. -/
theorem new_tinv {d : DFA} {s : Nat} {k : Int} (hs : L0.atnStart = s) (h : DFA.new L0.atn s k = some d) (hp : L0.isPrec = d.isPrecedence) :
    TInv L0 k d := by
  rw [DFA.new, Option.map_eq_some_iff] at h
  obtain ⟨st, -, h⟩ := h
  split at h
  · subst h
    dsimp only at hp
    have hb : base L0 = 2 := by rw [base, if_pos hp]
    have none : ∀ (i : Nat) (D : DFAState), base L0 ≤ i → ([DFAState.new (2 ^ 64 - 1) (ConfigSet.newBase true), DFAState.new 1 (ConfigSet.newBase true)])[i]? = some D → False := by
      intro i D hi h
      rw [List.getElem?_eq_none (by simp; omega)] at h
      simp at h
    refine ⟨hp.symm, hs.symm, rfl, by simp [hb], fun _ => rfl, ?_, ?_, ?_, ?_⟩
    · intro key i hi; simp at hi
    · intro i D hi h; exact (none i D hi h).elim
    · intro i D t j hi h; exact (none i D hi h).elim
    · intro p i _ h
      simp [startRef, DFA.getPrecedenceStart, DFAState.new] at h
  · subst h
    dsimp only at hp
    have hb : base L0 = 1 := by rw [base, if_neg (by simp [hp])]
    have none : ∀ (i : Nat) (D : DFAState), base L0 ≤ i → ([DFAState.new (2 ^ 64 - 1) (ConfigSet.newBase true)])[i]? = some D → False := by
      intro i D hi h
      rw [List.getElem?_eq_none (by simp; omega)] at h
      simp at h
    refine ⟨hp.symm, hs.symm, rfl, by simp [hb], by simp [hp], ?_, ?_, ?_, ?_⟩
    · intro key i hi; simp at hi
    · intro i D hi h; exact (none i D hi h).elim
    · intro i D t j hi h; exact (none i D hi h).elim
    · intro p i _ h
      simp [startRef] at h

end

end Antlr.Prediction
