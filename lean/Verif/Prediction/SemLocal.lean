import Verif.Prediction.SemFull
import Verif.Prediction.TotalLocal
import Verif.Prediction.Range

/-!
# Helper lemmas: prediction returns, with predicates
-/

namespace Antlr.Prediction.Sem
open Antlr StackSpec ConfigSet PC PredictionSpec LL1Spec PredictionMode PredictionModeProps StackProps

variable {I : Type}

/-! ### States of the DFA -/

/-- What holds of the states of the DFA of a decision with `n` alternatives. -/
structure StOk (atn : ATN) (n : Nat) (D : DFAState) : Prop where
  sound : ∀ c ∈ D.configs.configs, Sound false (Near atn n) c
  ripe : D.isAccept = false → ∀ c ∈ D.configs.configs, Ripe atn c
  accept : D.isAccept = true ↔ D.configs.uniqueAlt ≠ 0 ∨ D.configs.conflictingAlts ≠ []

theorem Sound.upto {atn : ATN} {n : Nat} {c : Config} (h : Sound false (Near atn n) c) : 1 ≤ c.alt ∧ c.alt ≤ n := by
  obtain ⟨k, hk⟩ := h.ex
  exact hk.1

theorem predicateState_total {ord : List SC → List SC} {D : DFAState} {n : Nat} (hn : n < 2 ^ 63)
    (hD : ∀ c ∈ D.configs.configs, 1 ≤ c.alt ∧ c.alt ≤ n) :
    ∃ D', predicateState ord D n = some D' ∧ D'.configs = D.configs ∧ D'.isAccept = D.isAccept ∧ D'.edges = D.edges ∧
      D'.stateNumber = D.stateNumber := by
  have : ∀ ambig, ∃ r, predsForAmbigAlts ord ambig D.configs.configs n = some r := by
    intro ambig
    unfold predsForAmbigAlts
    rw [if_neg]
    · exact ⟨_, rfl⟩
    · rw [Bool.not_eq_true, List.any_eq_false]
      intro c hc
      have := asUsize_back (hD c hc).1 (by have := (hD c hc).2; omega)
      have := (hD c hc).2
      simp only [Bool.and_eq_true, decide_eq_true_eq, not_and]
      omega
  unfold predicateState
  dsimp only
  obtain ⟨r, hr⟩ := this (if D.configs.uniqueAlt ≠ INVALID_ALT then [asUsize D.configs.uniqueAlt] else D.configs.conflictingAlts)
  rw [hr, Option.map_some]
  cases r with
  | some p => exact ⟨_, rfl, rfl, rfl, rfl, rfl⟩
  | none => exact ⟨_, rfl, rfl, rfl, rfl, rfl⟩

theorem hasSll_total (mode : PredictionMode) {s : ConfigSet} (hs : ∀ c ∈ s.configs, WF c.ctx) :
    ∃ b, hasSllConflictTerminatingPrediction mode s = some b := by
  unfold hasSllConflictTerminatingPrediction
  dsimp only
  split
  · obtain ⟨s', mc', h, -⟩ := addAll_inv (o := false) (f := true) (d := true) (by simp) (s.configs.map strip) (newBase_inv true true)
      (by
        intro c hc
        obtain ⟨x, hx, rfl⟩ := List.mem_map.1 hc
        exact hs x hx) (mc := none) (by simp [CacheOk])
    rw [h]
    exact ⟨_, rfl⟩
  · exact ⟨_, rfl⟩

/-- The state for a reach set. -/
theorem targetState_total {P : Params I} {decision : Int} {s : Nat} {dec : ATNState} (hdec : Decides P.atn s dec)
    (hs : P.atn.decisionToState[asUsize decision]? = some s) {t : Int} {R : ConfigSet}
    (h : Reached P.atn false true (Near P.atn dec.transitions.length) t R) :
    ∃ D, targetState P decision R = some D ∧ StOk P.atn dec.transitions.length D ∧ D.edges = [] ∧ D.stateNumber = 0 ∧
      (t = TOKEN_EOF → D.isAccept = true) := by
  have hup : ∀ c ∈ R.configs, 1 ≤ c.alt ∧ c.alt ≤ dec.transitions.length := fun c hc => (h.sound c hc).upto
  -- the state before its predicates
  have first : ∃ E : DFAState, (if uniqueAlt R ≠ INVALID_ALT then
      some { DFAState.new 0 { R with uniqueAlt := uniqueAlt R } with isAccept := true, prediction := uniqueAlt R }
    else
      (if R.configs.all (isStop P.atn) then some true else hasSllConflictTerminatingPrediction P.mode R).bind fun stop =>
        if stop then
          (getAlts (conflictingAltSubsets R)).head?.map fun m =>
            { DFAState.new 0 { R with conflictingAlts := getAlts (conflictingAltSubsets R) } with
              isAccept := true, prediction := (m : Int), requiresFullCtx := true }
        else some (DFAState.new 0 R)) = some E ∧ StOk P.atn dec.transitions.length E ∧ E.edges = [] ∧ E.stateNumber = 0 ∧
      (t = TOKEN_EOF → E.isAccept = true) ∧ E.configs.configs = R.configs := by
    split
    · rename_i hu
      exact ⟨_, rfl, ⟨h.sound, by simp, ⟨fun _ => .inl hu, fun _ => rfl⟩⟩, rfl, rfl, fun _ => rfl, rfl⟩
    · rename_i hu
      rw [not_not] at hu
      have hw : ∀ c ∈ R.configs, WF c.ctx := fun c hc => (h.sound c hc).fit.wf
      obtain ⟨b, hb⟩ := hasSll_total P.mode hw
      have hstop : ∃ b, (if R.configs.all (isStop P.atn) then some true else hasSllConflictTerminatingPrediction P.mode R) = some b ∧
          (t = TOKEN_EOF → b = true) := by
        split
        · exact ⟨_, rfl, fun _ => rfl⟩
        · rename_i hall
          exact ⟨b, hb, fun e => absurd (List.all_eq_true.2 (h.eof e)) hall⟩
      obtain ⟨b', hb', heof⟩ := hstop
      rw [hb', Option.bind_some]
      obtain ⟨m, hm⟩ : ∃ m, (getAlts (conflictingAltSubsets R)).head? = some m := by
        cases hx : getAlts (conflictingAltSubsets R) with
        | nil =>
          exfalso
          cases hc : R.configs with
          | nil => exact h.ne hc
          | cons c cs =>
            have := (mem_getAlts R (asUsize c.alt)).2 ⟨c, by rw [hc]; simp, rfl⟩
            rw [hx] at this; simp at this
        | cons m ms => exact ⟨m, rfl⟩
      cases b' with
      | true =>
        rw [if_pos rfl, hm, Option.map_some]
        refine ⟨_, rfl, ⟨h.sound, by simp, ⟨fun _ => .inr ?_, fun _ => rfl⟩⟩, rfl, rfl, fun _ => rfl, rfl⟩
        intro e
        change getAlts (conflictingAltSubsets R) = [] at e
        rw [e] at hm; simp at hm
      | false =>
        rw [if_neg (by simp)]
        refine ⟨_, rfl, ⟨h.sound, fun _ => h.ripe hu, ?_⟩, rfl, rfl, fun e => absurd (heof e) (by simp), rfl⟩
        simp [DFAState.new, h.marks.1, h.marks.2]
  obtain ⟨E, hE, h1, h2, h3, h4, h5⟩ := first
  unfold targetState
  rw [hE, Option.bind_some]
  split
  · obtain ⟨F, hF, f1, f2, f3, f4⟩ := predicateState_total (ord := P.ord) (D := E) hdec.few (by rw [h5]; exact hup)
    rw [hs, Option.bind_some, hdec.state, Option.bind_some, hF, Option.map_some]
    have hok : ∀ G : DFAState, G.configs = F.configs → G.isAccept = F.isAccept → StOk P.atn dec.transitions.length G := by
      intro G g1 g2
      exact ⟨by rw [g1, f1]; exact h1.sound, by rw [g1, g2, f1, f2]; exact h1.ripe, by rw [g1, g2, f1, f2]; exact h1.accept⟩
    split
    · exact ⟨_, rfl, hok _ rfl rfl, f3.trans h2, f4.trans h3, fun e => f2.trans (h4 e)⟩
    · exact ⟨_, rfl, hok _ rfl rfl, f3.trans h2, f4.trans h3, fun e => f2.trans (h4 e)⟩
  · exact ⟨_, rfl, h1, h2, h3, h4⟩

/-! ### The DFA -/

/-- The number of states made with the DFA. -/
def base (d : DFA) : Nat := if d.isPrecedence then 2 else 1

/-- State `j` is a state of the decision; it accepts after EOF. -/
def Leads (atn : ATN) (n : Nat) (d : DFA) (t : Int) (j : Nat) : Prop :=
  j = ERROR_DFA_STATE_REF ∨ (base d ≤ j ∧ ∃ E : DFAState, d.states[j]? = some E ∧ (t = TOKEN_EOF → E.isAccept = true))

/-- State `j` is one a prediction can begin with. -/
def Begin (d : DFA) (j : Nat) : Prop := base d ≤ j ∧ ∃ E : DFAState, d.states[j]? = some E ∧ E.isAccept = false

/-- What holds of the DFA of a decision. -/
structure SInv (atn : ATN) (s : Nat) (n : Nat) (d : DFA) : Prop where
  atnStart : d.atnStartState = s
  dec : atn.decisionToState[asUsize d.decision]? = some s
  len : base d ≤ d.states.length
  holder : d.isPrecedence = true → d.s0 = some 1
  map : ∀ h, ∀ i ∈ (d.statesMap.lookup h).getD [], base d ≤ i
  states : ∀ (i : Nat) (D : DFAState), base d ≤ i → d.states[i]? = some D → StOk atn n D ∧
    (D.edges = [] ∨ asUsize atn.maxTokenType + 2 ≤ D.edges.length)
  edge : ∀ (i : Nat) (t : Int) (j : Nat), base d ≤ i → TokOk t → d.existingTarget i t = some (some j) → Leads atn n d t j
  start : d.isPrecedence = false → ∀ i, d.s0 = some i → Begin d i
  starts : d.isPrecedence = true → ∀ H : DFAState, d.states[1]? = some H → ∀ x ∈ H.edges, x = 0 ∨ Begin d x

theorem append_get {d : DFA} {i : Nat} {E F : DFAState} (h : (d.states ++ [F])[i]? = some E) :
    d.states[i]? = some E ∨ (i = d.states.length ∧ E = F) := by
  rw [List.getElem?_append] at h
  split at h
  · exact .inl h
  · right
    rw [List.getElem?_singleton] at h
    split at h
    · simp only [Option.some.injEq] at h
      exact ⟨by omega, h.symm⟩
    · simp at h

theorem append_put {d : DFA} {i : Nat} {E : DFAState} (F : DFAState) (h : d.states[i]? = some E) :
    (d.states ++ [F])[i]? = some E := by
  rw [List.getElem?_append_left (List.getElem?_eq_some_iff.1 h).1]; exact h

theorem SInv.addState {atn : ATN} {s n : Nat} {d : DFA} (h : SInv atn s n d) {hash : ConfigSet → Nat} {D : DFAState}
    (hD : StOk atn n D) (he : D.edges = []) (hn : D.stateNumber = 0) :
    SInv atn s n (DFA.addState hash d D).1 ∧
    (DFA.addState hash d D).1.isPrecedence = d.isPrecedence ∧ (DFA.addState hash d D).1.s0 = d.s0 ∧
    (DFA.addState hash d D).1.states.length ≤ d.states.length + 1 ∧
    base d ≤ (DFA.addState hash d D).2 ∧
    (∃ E : DFAState, (DFA.addState hash d D).1.states[(DFA.addState hash d D).2]? = some E ∧ E.isAccept = D.isAccept) ∧
    ∀ (i : Nat) (E : DFAState), d.states[i]? = some E → (DFA.addState hash d D).1.states[i]? = some E := by
  unfold DFA.addState
  rw [if_neg (by rw [hn]; simp [ERROR_DFA_STATE_REF])]
  cases hf : DFA.findState hash d D with
  | some i =>
    have h1 := List.find?_some hf
    have h2 := h.map _ i (List.mem_of_find?_eq_some hf)
    dsimp only at h1 ⊢
    split at h1
    · rename_i E hE
      rw [DFAState.same, ConfigSet.same_iff] at h1
      simp only [ConfigSet.norm, Prod.mk.injEq] at h1
      obtain ⟨-, -, h3, h4, -⟩ := h1
      have hEok := (h.states i E h2 hE).1
      refine ⟨h, rfl, rfl, by omega, h2, ⟨E, hE, ?_⟩, fun _ _ h => h⟩
      rw [Bool.eq_iff_iff, hEok.accept, hD.accept, h3, h4]
    · simp at h1
  | none =>
    dsimp only
    generalize hF : ({ D with stateNumber := d.states.length, configs := { D.configs with readOnly := true } } : DFAState) = F
    have hFok : StOk atn n F := by rw [← hF]; exact ⟨hD.sound, hD.ripe, hD.accept⟩
    have hFe : F.edges = [] := by rw [← hF]; exact he
    have hFa : F.isAccept = D.isAccept := by rw [← hF]
    clear hF
    refine ⟨⟨h.atnStart, h.dec, ?_, h.holder, ?_, ?_, ?_, ?_, ?_⟩, rfl, rfl, by simp, h.len, ⟨F, by simp, hFa⟩,
      fun i E hE => append_put F hE⟩
    · have := h.len; simp only [base] at this ⊢; simp; omega
    · intro k i hi
      dsimp only at hi
      rw [lookup_mapPush] at hi
      split at hi
      · rcases List.mem_append.1 hi with hi | hi
        · exact h.map _ i hi
        · rw [List.mem_singleton] at hi
          rw [hi]; exact h.len
      · exact h.map _ i hi
    · intro i E hi hE
      rcases append_get hE with hE | ⟨-, rfl⟩
      · exact h.states i E hi hE
      · exact ⟨hFok, .inl hFe⟩
    · intro i t j hi ht hj
      rw [DFA.existingTarget, Option.map_eq_some_iff] at hj
      obtain ⟨E, h1, h2⟩ := hj
      rcases append_get h1 with h1 | ⟨-, rfl⟩
      · rcases h.edge i t j hi ht (by rw [DFA.existingTarget, h1]; simpa using h2) with e | ⟨g1, G, g2, g3⟩
        · exact .inl e
        · exact .inr ⟨g1, G, append_put F g2, g3⟩
      · simp [hFe] at h2
    · intro hp i hi
      obtain ⟨g1, G, g2, g3⟩ := h.start hp i hi
      exact ⟨g1, G, append_put F g2, g3⟩
    · intro hp H hH x hx
      have : 1 < d.states.length := by
        have := h.len
        rw [base, if_pos hp] at this
        omega
      rcases append_get hH with hH | ⟨e, -⟩
      · rcases h.starts hp H hH x hx with e | ⟨g1, G, g2, g3⟩
        · exact .inl e
        · exact .inr ⟨g1, G, append_put F g2, g3⟩
      · omega

theorem edgeIn_total {max : Int} {D : DFAState} {t : Int} (dst : Nat) (hw : D.edges = [] ∨ asUsize max + 2 ≤ D.edges.length)
    (hmax : 0 ≤ max ∧ max < 2 ^ 63) (ht : TokOk t) :
    ∃ D', DFA.edgeIn max D t dst = some D' ∧ Core D D' ∧ (D'.edges = [] ∨ asUsize max + 2 ≤ D'.edges.length) := by
  have hlen : asUsize max + 2 ≤ (if D.edges.isEmpty then growTo D.edges (asUsize max + 2) else D.edges).length := by
    split
    · exact growTo_length _ _
    · rename_i hne
      rw [List.isEmpty_iff] at hne
      exact hw.resolve_left hne
  unfold DFA.edgeIn
  split
  · exact ⟨_, rfl, .refl _, hw⟩
  · rename_i hr
    have e1 : asUsize (t + 1) = (t + 1).toNat := by
      obtain ⟨h1, h2⟩ := ht
      unfold asUsize
      rw [Int.emod_eq_of_lt (by omega) (by omega)]
    have e2 : asUsize max = max.toNat := by
      unfold asUsize
      rw [Int.emod_eq_of_lt (by omega) (by omega)]
    dsimp only
    rw [if_pos (by omega)]
    exact ⟨_, rfl, ⟨rfl, rfl, rfl, rfl, rfl⟩, .inr (by dsimp only; rw [List.length_set]; exact hlen)⟩

theorem SInv.addEdge {atn : ATN} {s n : Nat} {d : DFA} (h : SInv atn s n d) (hmax : 0 ≤ atn.maxTokenType ∧ atn.maxTokenType < 2 ^ 63)
    {src : Nat} {D : DFAState} (hb : base d ≤ src) (hD : d.states[src]? = some D) {t : Int} (ht : TokOk t) {j : Nat}
    (hj : Leads atn n d t j) : ∃ d', DFA.addEdge atn.maxTokenType d src t j = some d' ∧ SInv atn s n d' ∧
      d'.states.length = d.states.length ∧ d'.isPrecedence = d.isPrecedence ∧
      ∀ (i : Nat) (E : DFAState), d.states[i]? = some E → ∃ E', d'.states[i]? = some E' ∧ Core E E' := by
  obtain ⟨D', h1, h2, h3⟩ := edgeIn_total (max := atn.maxTokenType) j (h.states src D hb hD).2 hmax ht
  have hadd : DFA.addEdge atn.maxTokenType d src t j = some { d with states := d.states.set src D' } := by
    rw [DFA.addEdge, hD, Option.bind_some, h1, Option.map_some]
  obtain ⟨g1, g2, g3, g4, g5, g6, g7⟩ := addEdge_spec ht hadd
  refine ⟨_, hadd, ⟨h.atnStart, h.dec, by rw [g2]; exact h.len, h.holder, h.map, ?_, ?_, ?_, ?_⟩, g2, rfl, g1.2⟩
  · intro i E' hi hE
    have hE0 := hE
    obtain ⟨E, e1, e2⟩ := g6 i E' hE
    have hE := h.states i E hi e1
    refine ⟨⟨by rw [e2.1]; exact hE.1.sound, by rw [e2.1, e2.2.1]; exact hE.1.ripe, by rw [e2.1, e2.2.1]; exact hE.1.accept⟩, ?_⟩
    dsimp only at hE0
    rw [List.getElem?_set] at hE0
    split at hE0
    · split at hE0
      · cases hE0; exact h3
      · simp at hE0
    · rw [hE0] at e1; cases e1; exact hE.2
  · intro i u m hi hu hm
    have up : ∀ u m, Leads atn n d u m → Leads atn n { d with states := d.states.set src D' } u m := by
      rintro u m (e | ⟨k1, G, k2, k3⟩)
      · exact .inl e
      · obtain ⟨G', l1, l2⟩ := g1.2 m G k2
        exact .inr ⟨k1, G', l1, fun e => by rw [l2.2.1]; exact k3 e⟩
    rcases g7 i u m hu hm with ⟨rfl, rfl, rfl⟩ | hm
    · exact up _ _ hj
    · exact up _ _ (h.edge i u m hi hu hm)
  · intro hp i hi
    obtain ⟨k1, G, k2, k3⟩ := h.start hp i hi
    obtain ⟨G', l1, l2⟩ := g1.2 i G k2
    exact ⟨k1, G', l1, by rw [l2.2.1]; exact k3⟩
  · intro hp H hH x hx
    have hp' : d.isPrecedence = true := hp
    rw [base, if_pos hp'] at hb
    dsimp only at hH
    rw [List.getElem?_set_ne (by omega)] at hH
    rcases h.starts hp H hH x hx with e | ⟨k1, G, k2, k3⟩
    · exact .inl e
    · obtain ⟨G', l1, l2⟩ := g1.2 x G k2
      exact .inr ⟨k1, G', l1, by rw [l2.2.1]; exact k3⟩

/-- The state from which the starts of the precedences lead, changed: its edges lead to states to begin with. -/
theorem SInv.setHolder {atn : ATN} {s n : Nat} {d : DFA} (h : SInv atn s n d) (hp : d.isPrecedence = true) {H : DFAState}
    (hH : ∀ x ∈ H.edges, x = 0 ∨ Begin d x) : SInv atn s n { d with states := d.states.set 1 H } := by
  have hb : base d = 2 := by rw [base, if_pos hp]
  have get : ∀ i, base d ≤ i → (d.states.set 1 H)[i]? = d.states[i]? := by
    intro i hi
    rw [List.getElem?_set_ne (by omega)]
  have beg : ∀ x, Begin d x → Begin { d with states := d.states.set 1 H } x := by
    rintro x ⟨k1, G, k2, k3⟩
    exact ⟨k1, G, (get x k1).trans k2, k3⟩
  refine ⟨h.atnStart, h.dec, by have := h.len; simpa [base] using this, h.holder, h.map, ?_, ?_, ?_, ?_⟩
  · intro i D hi hD
    exact h.states i D hi ((get i hi).symm.trans hD)
  · intro i t j hi ht hj
    rw [DFA.existingTarget] at hj
    dsimp only at hj
    rw [get i hi] at hj
    rcases h.edge i t j hi ht hj with e | ⟨k1, G, k2, k3⟩
    · exact .inl e
    · exact .inr ⟨k1, G, (get j k1).trans k2, k3⟩
  · intro hp' i hi
    exact beg i (h.start hp' i hi)
  · intro hp' H' hH' x hx
    dsimp only at hH'
    rw [List.getElem?_set] at hH'
    simp only [if_true] at hH'
    split at hH'
    · cases hH'
      rcases hH x hx with e | e
      · exact .inl e
      · exact .inr (beg x e)
    · simp at hH'

/-- A new DFA. -/
theorem SInv.new {atn : ATN} {s : Nat} {n : Nat} {k : Int} {d : DFA} (h : DFA.new atn s k = some d)
    (hk : atn.decisionToState[asUsize k]? = some s) : SInv atn s n d := by
  rw [DFA.new, Option.map_eq_some_iff] at h
  obtain ⟨st, -, h⟩ := h
  split at h
  · subst h
    refine ⟨rfl, hk, by simp [base], fun _ => rfl, by simp, ?_, ?_, by simp, ?_⟩
    · intro i D hi hD
      simp only [base, if_true] at hi
      rw [List.getElem?_eq_none (by simp; omega)] at hD
      simp at hD
    · intro i t j hi ht hj
      simp only [base, if_true] at hi
      rw [DFA.existingTarget] at hj
      rw [List.getElem?_eq_none (by simp; omega)] at hj
      simp at hj
    · intro _ H hH x hx
      simp only [List.getElem?_cons_succ, List.getElem?_cons_zero, Option.some.injEq] at hH
      subst hH
      simp [DFAState.new] at hx
  · subst h
    refine ⟨rfl, hk, by simp [base], by simp, by simp, ?_, ?_, by simp, by simp⟩
    · intro i D hi hD
      simp only [base, Bool.false_eq_true, if_false] at hi
      rw [List.getElem?_eq_none (by simp; omega)] at hD
      simp at hD
    · intro i t j hi ht hj
      simp only [base, Bool.false_eq_true, if_false] at hi
      rw [DFA.existingTarget] at hj
      rw [List.getElem?_eq_none (by simp; omega)] at hj
      simp at hj

/-! ### The loop -/

theorem nextState_total [TokStream I] {L : Local I} {N : Nat} (ha : Tame L.atn) (hN : NoLoop L.atn N)
    (hmax : 0 ≤ L.atn.maxTokenType ∧ L.atn.maxTokenType < 2 ^ 63)
    {s : Nat} {dec : ATNState} (hdec : Decides L.atn s dec) (hst0 : L.atnStart = s) {d : DFA} {prev : Nat} {t : Int}
    {mc : PC.Cache} {inp : I} (hd : SInv L.atn s dec.transitions.length d) (ht : TokOk t) (hb : base d ≤ prev) {D : DFAState}
    (hD : d.states[prev]? = some D) (hacc : D.isAccept = false)
    (hm : CacheFit false true mc) {Z : I → Prop} (hz : Z inp) :
    ∃ j d' mc' inp', Returns (fun cf => nextState L cf d prev t mc inp) (j, d', mc', inp') ∧
      d'.states.length ≤ d.states.length + 1 ∧ d'.isPrecedence = d.isPrecedence ∧ Z inp' ∧ CacheFit false true mc' ∧
      SInv L.atn s dec.transitions.length d' ∧ Leads L.atn dec.transitions.length d' t j ∧
      (∃ E, d'.states[prev]? = some E) := by
  simp only [nextState]
  cases he : d.existingTarget prev t with
  | none => rw [DFA.existingTarget, hD] at he; simp at he
  | some e =>
  simp only [Option.bind_some]
  cases e with
  | some j => exact ⟨j, d, mc, inp, .const rfl, by omega, rfl, hz, hm, hd, hd.edge prev t j hb ht he, D, hD⟩
  | none =>
    dsimp only
    have hD' := (hd.states prev D hb hD).1
    obtain ⟨r, mc', inp', hret, hz', g2, g3⟩ := computeReach_total (full := false) (d := true) (t := t) (Z := Z) ha hN
      (near_moves ha dec.transitions.length _) (fun _ _ h => h.1.1) (fun _ _ _ h hr => near_read ha h hr)
      ⟨_, by rw [hst0]; exact hdec.state⟩ (by simp)
      (cs := D.configs) (fun c hc => ⟨⟨hD'.sound c hc, hD'.ripe hacc c hc⟩, by simp⟩) hm hz
    simp only [computeTarget, hD, Option.bind_some]
    cases r with
    | none =>
      obtain ⟨d', h1, h2, h3, h4, h5⟩ := hd.addEdge hmax hb hD ht (.inl rfl)
      obtain ⟨E, h6, -⟩ := h5 prev D hD
      refine ⟨ERROR_DFA_STATE_REF, d', mc', inp', hret.bind ⟨0, fun _ _ => ?_⟩, by omega, h4, hz', g2, h2, .inl rfl, E, h6⟩
      simp only [h1, Option.map_some]
    | some R =>
      obtain ⟨T, k1, k2, k3, k4, k5⟩ := targetState_total (P := L.toParams) hdec hd.dec (g3 R rfl)
      obtain ⟨a1, a2, a3, a4, a5, ⟨E, a6, a7⟩, a8⟩ := hd.addState (hash := L.hash) k2 k3 k4
      have hbase : base (DFA.addState L.hash d T).1 = base d := by rw [base, base, a2]
      obtain ⟨d', h1, h2, h3, h4, h5⟩ := a1.addEdge hmax (by rw [hbase]; exact hb) (a8 prev D hD) ht
        (j := (DFA.addState L.hash d T).2) (.inr ⟨by rw [hbase]; exact a5, E, a6, fun e => a7.trans (k5 e)⟩)
      obtain ⟨E', h6, h7⟩ := h5 _ E a6
      obtain ⟨D2, h8, -⟩ := h5 prev D (a8 prev D hD)
      have hbase' : base d' = base d := by rw [base, base, h4, a2]
      refine ⟨(DFA.addState L.hash d T).2, d', mc', inp', hret.bind ⟨0, fun _ _ => ?_⟩, by omega, h4.trans a2, hz', g2, h2,
        .inr ⟨by rw [hbase']; exact a5, E', h6, fun e => by rw [h7.2.1]; exact a7.trans (k5 e)⟩, D2, h8⟩
      simp only [k1, Option.bind_some, h1, Option.map_some]

theorem execLoop_total [TokStream I] {L : Local I} {N : Nat} (ha : Tame L.atn) (hN : NoLoop L.atn N)
    (h1s : OneStop L.atn) (hmax : 0 ≤ L.atn.maxTokenType ∧ L.atn.maxTokenType < 2 ^ 63)
    {dec : ATNState} (hdec : Decides L.atn L.atnStart dec) {σ : List Nat} (hσ : Proper L.atn dec.ruleIndex σ)
    (hcalls : Calls L.atn L.outer (ints σ))
    {w : Nat → Int} {At : Nat → I → Prop} (hl : LooksB L.startIndex w At) (hw : ∀ n, TokOk (w n))
    {m : Nat} (hm : w m = TOKEN_EOF) (hlt : ∀ i, i < m → w i ≠ TOKEN_EOF) (g : Nat) :
    ∀ (k n : Nat) (d : DFA) (prev : Nat) (mc : PC.Cache) (inp : I), k + g = m → g + 1 + (m + 1) ≤ n →
      SInv L.atn L.atnStart dec.transitions.length d → Begin d prev →
      CacheFit false true mc → At k inp → d.states.length + (g + 1) ≤ ERROR_DFA_STATE_REF →
      ∃ r, Returns (fun cf => execLoop L cf n d prev (w k) mc inp) r ∧ (∃ k', At k' r.inp) ∧
        r.dfa.states.length ≤ d.states.length + (g + 1) ∧ SInv L.atn L.atnStart dec.transitions.length r.dfa := by
  induction g with
  | zero => ?_
  | succ g ih => ?_
  all_goals
    intro k n d prev mc inp hk hn hd hprev hmc hat hroom
    obtain ⟨hb, D, hD, hacc⟩ := hprev
    obtain ⟨n, rfl⟩ : ∃ n', n = n' + 1 := ⟨n - 1, by omega⟩
    obtain ⟨j, d1, mc1, i1, hret, hlen, hprec, hat, g2, g3, g6, ⟨Dp, g4⟩⟩ := nextState_total ha hN hmax hdec rfl hd (hw k) hb hD hacc
      hmc hat
    simp only [execLoop]
    by_cases hj : j = ERROR_DFA_STATE_REF
    · have hDp := (g3.states prev Dp (by rw [base, hprec]; exact hb) g4).1
      obtain ⟨r, h1, h2⟩ := failing_total (L := L) hl.toLooksT (d := d1) (D := Dp) (fun c hc => (hDp.sound c hc).fit.wf) hat
      have hrd := (failing_spec h1).1
      refine ⟨r, hret.bind ⟨0, fun _ _ => ?_⟩, h2, by rw [hrd]; omega, by rw [hrd]; exact g3⟩
      simp only [hj, if_true, g4, Option.bind_some, h1]
    · obtain ⟨k0, E, k1, k2⟩ := g6.resolve_left hj
      by_cases hf : E.requiresFullCtx ∧ L.mode ≠ .SLL
      · obtain ⟨r, h1, h2, h3⟩ := needFull_total (D := E) ha hN h1s hdec hσ hcalls hl d1 hm hlt (n := n) (by omega)
          g2.toFull hat
        refine ⟨r, hret.bind ?_, h2, by rw [h3]; omega, by rw [h3]; exact g3⟩
        simp only [if_neg hj, k1, Option.bind_some, if_pos hf]
        exact h1
      · by_cases hacc' : E.isAccept = true
        · obtain ⟨r, h1, h2, h3⟩ := accepting_total hl d1 E hat
          refine ⟨r, hret.bind ⟨0, fun _ _ => ?_⟩, h2, by rw [h3]; omega, by rw [h3]; exact g3⟩
          simp only [if_neg hj, k1, Option.bind_some, if_neg hf, if_pos hacc', h1]
        · have hnE : w k ≠ TOKEN_EOF := fun e => hacc' (k2 e)
          first
            | exact absurd (by rw [show k = m by omega]; exact hm) hnE
            | obtain ⟨i2, s1⟩ := hl.consumeT hat hnE
              have at1 := hl.consume hat hnE s1
              obtain ⟨⟨t, i3⟩, s2⟩ := hl.laT at1
              obtain ⟨e, at2⟩ := hl.la at1 s2
              dsimp only at e at2
              subst e
              rw [Bool.not_eq_true] at hacc'
              obtain ⟨r, h1, h2, h3, h4⟩ := ih (k + 1) n d1 j mc1 i3 (by omega) (by omega) g3
                ⟨k0, E, k1, hacc'⟩ g2 at2 (by omega)
              refine ⟨r, hret.bind ?_, h2, by omega, h4⟩
              simp only [if_neg hj, k1, Option.bind_some, if_neg hf, hacc', Bool.false_eq_true, if_false, if_pos hnE, s1, s2]
              exact h1

/-! ### The start -/

theorem StOk.new {atn : ATN} {n : Nat} {s : ConfigSet} (h : Waits atn (Near atn n) s) : StOk atn n (.new 0 s) := by
  refine ⟨fun c hc => (h.fine c hc).1, fun _ c hc => (h.fine c hc).2, ?_⟩
  simp [DFAState.new, h.marks.1, h.marks.2]

theorem startState_total [TokStream I] {L : Local I} {N : Nat} (ha : Tame L.atn) (hN : NoLoop L.atn N)
    (hord : ∀ l, (L.ord l).Perm l)
    {dec : ATNState} (hdec : Decides L.atn L.atnStart dec) {d : DFA} {inp : I}
    (hd : SInv L.atn L.atnStart dec.transitions.length d) {Z : I → Prop} (hz : Z inp) :
    ∃ j d' mc inp', Returns (fun cf => startState L cf d inp) (j, d', mc, inp') ∧ d'.states.length ≤ d.states.length + 1 ∧
      Z inp' ∧ CacheFit false true mc ∧ SInv L.atn L.atnStart dec.transitions.length d' ∧ Begin d' j := by
  obtain ⟨S, hS1, hS2⟩ := stays_ex hord L.atn
  obtain ⟨cs, mc, inp', hret, hO, hz'⟩ := computeStart_total (full := false) (d := true) (Z := Z) (S := S) ha hN
    (near_moves ha dec.transitions.length false) hdec.state (by simp) hS1 ⟨by simp, fun _ => hS2⟩ (Fit.empty _)
    (by intro k hk; cases hk; simp) (fun i tr hi k hk => by
      cases hk
      have := (List.getElem?_eq_some_iff.1 hi).1
      exact ⟨by omega, ha.targets _ _ hdec.state _ (List.mem_of_getElem? hi), by simp [nats]⟩)
    (CacheFit.nil false true) hz
  simp only [startState]
  by_cases hp : d.isPrecedence = true
  · have hs0 := hd.holder hp
    have hlen := hd.len
    rw [base, if_pos hp] at hlen
    obtain ⟨H, hH⟩ : ∃ H, d.states[1]? = some H := ⟨_, List.getElem?_eq_getElem (by omega)⟩
    have hget : d.getPrecedenceStart L.prec = some ((H.edges[asUsize L.prec]?).bind readEdge) := by
      rw [DFA.getPrecedenceStart, if_pos hp, hs0]
      dsimp only
      rw [hH, Option.map_some]
    simp only [if_pos hp, hget, Option.bind_some]
    cases hx : (H.edges[asUsize L.prec]?).bind readEdge with
    | some j =>
      refine ⟨j, d, [], inp, .const rfl, by omega, hz, CacheFit.nil _ _, hd, ?_⟩
      obtain ⟨x, h1, h2⟩ := Option.bind_eq_some_iff.1 hx
      unfold readEdge at h2
      split at h2
      · simp at h2
      · cases h2
        rename_i hne
        exact (hd.starts hp H hH _ (List.mem_of_getElem? h1)).resolve_left hne
    | none =>
      dsimp only
      obtain ⟨cs', mc', h1, h2, h3⟩ := applyPrecedenceFilter_total inp' hO
      have hd1 : SInv L.atn L.atnStart dec.transitions.length { d with states := d.states.set 1 { H with configs := cs } } :=
        hd.setHolder hp (fun x hx => hd.starts hp H hH x hx)
      obtain ⟨a1, a2, a3, a4, a5, ⟨E, a6, a7⟩, a8⟩ := hd1.addState (hash := L.hash) (StOk.new h2) rfl rfl
      have hp2 : (DFA.addState L.hash { d with states := d.states.set 1 { H with configs := cs } } (DFAState.new 0 cs')).1.isPrecedence = true :=
        a2.trans hp
      have hs2 : (DFA.addState L.hash { d with states := d.states.set 1 { H with configs := cs } } (DFAState.new 0 cs')).1.s0 = some 1 :=
        a3.trans hs0
      have hH2 : (DFA.addState L.hash { d with states := d.states.set 1 { H with configs := cs } } (DFAState.new 0 cs')).1.states[1]? =
          some { H with configs := cs } :=
        a8 1 { H with configs := cs } (by rw [List.getElem?_set]; simp; omega)
      have hbeg : Begin (DFA.addState L.hash { d with states := d.states.set 1 { H with configs := cs } } (DFAState.new 0 cs')).1
          (DFA.addState L.hash { d with states := d.states.set 1 { H with configs := cs } } (DFAState.new 0 cs')).2 := by
        refine ⟨?_, E, a6, a7.trans rfl⟩
        rw [base, a2]; exact a5
      have a4' : (DFA.addState L.hash { d with states := d.states.set 1 { H with configs := cs } } (DFAState.new 0 cs')).1.states.length ≤
          d.states.length + 1 := by simpa using a4
      have hwhole : Returns (fun cf => (computeStart L cf EMPTY false [] inp).bind fun x =>
          d.s0.bind fun s0 => (applyPrecedenceFilter L x.1 x.2.1 x.2.2).bind fun y =>
            (d.states[s0]?).bind fun s =>
              ((DFA.addState L.hash { d with states := d.states.set s0 { s with configs := x.1 } } (DFAState.new 0 y.1)).1.setPrecedenceStart
                L.prec (DFA.addState L.hash { d with states := d.states.set s0 { s with configs := x.1 } } (DFAState.new 0 y.1)).2).map
                fun d' => ((DFA.addState L.hash { d with states := d.states.set s0 { s with configs := x.1 } } (DFAState.new 0 y.1)).2,
                  d', y.2, x.2.2))
          ((DFA.addState L.hash { d with states := d.states.set 1 { H with configs := cs } } (DFAState.new 0 cs')).2,
            if L.prec < 0 then (DFA.addState L.hash { d with states := d.states.set 1 { H with configs := cs } } (DFAState.new 0 cs')).1
            else { (DFA.addState L.hash { d with states := d.states.set 1 { H with configs := cs } } (DFAState.new 0 cs')).1 with
              states := (DFA.addState L.hash { d with states := d.states.set 1 { H with configs := cs } } (DFAState.new 0 cs')).1.states.set 1
                (DFA.setPrecedenceEdge L.prec.toNat (DFA.addState L.hash { d with states := d.states.set 1 { H with configs := cs } } (DFAState.new 0 cs')).2
                  { H with configs := cs }) }, mc', inp') := by
        refine hret.bind ⟨0, fun _ _ => ?_⟩
        refine Option.bind_eq_some_iff.2 ⟨1, hs0, ?_⟩
        simp only [h1, Option.bind_some, hH, DFA.setPrecedenceStart, hp2, if_true, hs2, hH2, Option.map_some]
        split <;> rfl
      generalize (DFA.addState L.hash { d with states := d.states.set 1 { H with configs := cs } } (DFAState.new 0 cs')) = R at *
      refine ⟨_, _, _, _, hwhole, ?_, hz', h3, ?_⟩
      · split
        · exact a4'
        · simpa using a4'
      · split
        · exact ⟨a1, hbeg⟩
        · refine ⟨a1.setHolder hp2 ?_, ?_⟩
          · intro x hx
            simp only [DFA.setPrecedenceEdge] at hx
            rcases List.mem_or_eq_of_mem_set hx with hx | rfl
            · have old : ∀ x ∈ H.edges, x = 0 ∨ Begin R.1 x := fun x hx => a1.starts hp2 _ hH2 x hx
              split at hx
              · unfold growTo at hx
                rcases List.mem_append.1 hx with hx | hx
                · exact old x hx
                · exact .inl (List.eq_of_mem_replicate hx)
              · exact old x hx
            · exact .inr hbeg
          · obtain ⟨b1, G, b2, b3⟩ := hbeg
            refine ⟨b1, G, ?_, b3⟩
            rw [base, if_pos hp2] at b1
            dsimp only
            rw [List.getElem?_set_ne (by omega)]
            exact b2
  · rw [Bool.not_eq_true] at hp
    simp only [hp, Bool.false_eq_true, if_false, Option.bind_some]
    cases hs0 : d.s0 with
    | some j => exact ⟨j, d, [], inp, .const rfl, by omega, hz, CacheFit.nil _ _, hd, hd.start hp j hs0⟩
    | none =>
      obtain ⟨A, hA1, hA2⟩ := hO.holds
      obtain ⟨a1, a2, a3, a4, a5, ⟨E, a6, a7⟩, a8⟩ := hd.addState (hash := L.hash) (StOk.new (waits_of hA1 hA2)) rfl rfl
      have hbeg : Begin (DFA.addState L.hash d (DFAState.new 0 cs)).1 (DFA.addState L.hash d (DFAState.new 0 cs)).2 := by
        refine ⟨?_, E, a6, a7.trans rfl⟩
        rw [base, a2]; exact a5
      refine ⟨(DFA.addState L.hash d (DFAState.new 0 cs)).2, { (DFA.addState L.hash d (DFAState.new 0 cs)).1 with
        s0 := some (DFA.addState L.hash d (DFAState.new 0 cs)).2 }, mc, inp', hret.bind ⟨0, fun _ _ => rfl⟩, a4, hz', hO.cache, ?_, hbeg⟩
      refine ⟨a1.atnStart, a1.dec, a1.len, fun e => ?_, a1.map, a1.states, a1.edge, fun _ i hi => ?_, a1.starts⟩
      · have : (DFA.addState L.hash d (DFAState.new 0 cs)).1.isPrecedence = true := e
        rw [a2, hp] at this; simp at this
      · cases hi
        exact hbeg

/-- Prediction returns. -/
theorem predict_total [TokStream I] {P : Params I} {N : Nat} (ha : Tame P.atn) (hN : NoLoop P.atn N)
    (h1s : OneStop P.atn) (hmax : 0 ≤ P.atn.maxTokenType ∧ P.atn.maxTokenType < 2 ^ 63) (hord : ∀ l, (P.ord l).Perm l)
    {d : DFA} {dec : ATNState} (hdec : Decides P.atn d.atnStartState dec) {σ : List Nat}
    (hσ : Proper P.atn dec.ruleIndex σ) (hcalls : Calls P.atn P.outer (ints σ))
    {w : Nat → Int} {At : Nat → I → Prop} {inp : I} (hl : LooksB (TokStream.index inp) w At) (hw : ∀ n, TokOk (w n))
    (hd : SInv P.atn d.atnStartState dec.transitions.length d) (hat : At 0 inp) {m : Nat} (hm : w m = TOKEN_EOF)
    (hlt : ∀ i, i < m → w i ≠ TOKEN_EOF) (hroom : d.states.length + (m + 2) ≤ ERROR_DFA_STATE_REF)
    {n : Nat} (hn : 2 * m + 2 ≤ n) :
    ∃ r, Returns (fun cf => adaptivePredict P cf n d inp) r ∧ (∃ k, At k r.inp) ∧
      r.dfa.states.length ≤ d.states.length + (m + 2) ∧ SInv P.atn d.atnStartState dec.transitions.length r.dfa := by
  obtain ⟨s0, d1, mc, i1, hret, hlen, at1, g2, g3, g4⟩ := startState_total (L := localOf P d inp) (inp := (TokStream.mark inp).2)
    (Z := At 0) ha hN hord hdec hd (hl.mark hat)
  obtain ⟨⟨t, i2⟩, s2⟩ := hl.laT at1
  obtain ⟨e, at2⟩ := hl.la at1 s2
  dsimp only at e at2
  subst e
  obtain ⟨r, h1, ⟨k', h2⟩, h3, h4⟩ := execLoop_total (L := localOf P d inp) ha hN h1s hmax hdec hσ hcalls hl hw hm hlt m
    0 n d1 s0 mc i2 (by omega) (by omega) g3 g4 g2 at2 (by omega)
  have hexec : Returns (fun cf => execAtn (localOf P d inp) cf n d1 s0 mc i1) r := by
    simp only [execAtn, s2, Option.bind_some]
    exact h1
  unfold adaptivePredict
  cases ho : r.out with
  | alt k =>
    obtain ⟨i3, s3⟩ := hl.seekT h2
    obtain ⟨i4, s4, at4⟩ := hl.releaseT (hl.seek h2 s3) (TokStream.mark inp).1
    refine ⟨{ r with inp := i4 }, hret.bind (hexec.bind ⟨0, fun _ _ => ?_⟩), ⟨0, at4⟩, by dsimp only; omega, h4⟩
    simp only [ho]
    rw [show (localOf P d inp).startIndex = TokStream.index inp from rfl, s3, Option.bind_some, s4]
    rfl
  | noAlt a b =>
    refine ⟨r, hret.bind (hexec.bind ⟨0, fun _ _ => ?_⟩), ⟨k', h2⟩, by omega, h4⟩
    simp only [ho]

end Antlr.Prediction.Sem
