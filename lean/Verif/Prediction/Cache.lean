import Verif.Prediction.Family
import Verif.Prediction.Begin
import Verif.PredictionMode.Props
import Verif.DFA.Lemmas

/-!
# What the DFA of a decision says about threads

An invariant of the DFA that every prediction keeps: whatever tokens lead to a state, its configurations
are threads that exist, and none is missing.
-/

namespace Antlr.Prediction
open Antlr StackSpec ConfigSet PC PredictionSpec LL1Spec PredictionMode

variable {I : Type}

/-- Some thread ended the outermost rule on the way. -/
def EndedBefore (atn : ATN) (T : List Int → Int → Pos → Prop) (v : List Int) (j : Int) : Prop :=
  ∃ u p, u <+: v ∧ T u j p ∧ Ended atn p

theorem EndedBefore.next {atn : ATN} {T : List Int → Int → Pos → Prop} {v : List Int} {t : Int} {j : Int}
    (h : EndedBefore atn T v j ∨ ∃ p, T v j p ∧ Ended atn p) : EndedBefore atn T (v ++ [t]) j := by
  rcases h with ⟨u, p, h1, h2, h3⟩ | ⟨p, h1, h2⟩
  · exact ⟨u, p, h1.trans (List.prefix_append _ _), h2, h3⟩
  · exact ⟨v, p, List.prefix_append _ _, h1, h2⟩

/-- The state of the DFA is right after the tokens `v`. -/
structure Fits (atn : ATN) (dec : ATNState) (D : DFAState) (v : List Int) : Prop where
  sound : ∀ c ∈ D.configs.configs, SoundK atn false (TL atn dec v) (EndedBefore atn (TL atn dec) v) c
  one : D.isAccept = true → D.requiresFullCtx = false → ∀ σ, Proper atn dec.ruleIndex σ →
    ∀ j p, Alive atn dec false σ j v p → Counts atn false v p → j = D.prediction
  more : D.isAccept = false → ∀ σ, Proper atn dec.ruleIndex σ →
    ∀ j p, Live atn dec σ j v p → Worth atn false p → Covers true (· ∈ D.configs.configs) j p
  confl : D.requiresFullCtx = true → ∀ σ, Proper atn dec.ruleIndex σ →
    ∀ j p, Alive atn dec false σ j v p → Counts atn false v p → Covers true (· ∈ D.configs.configs) j p
  stops : D.isAccept = false → ∀ c ∈ D.configs.configs, Ripe atn c

/-- The marks of a state follow from its configurations. -/
structure Tidy (D : DFAState) : Prop where
  preds : D.predicates = []
  accept : D.isAccept = true ↔ D.configs.uniqueAlt ≠ 0 ∨ D.configs.conflictingAlts ≠ []
  full : D.requiresFullCtx = true ↔ D.configs.uniqueAlt = 0 ∧ D.configs.conflictingAlts ≠ []
  unique : D.configs.uniqueAlt ≠ 0 → D.prediction = D.configs.uniqueAlt
  alt : D.isAccept = true → ∃ c ∈ D.configs.configs, c.alt = D.prediction
  least : D.requiresFullCtx = true → ∀ c ∈ D.configs.configs, D.prediction ≤ c.alt

theorem norm_mem {a b : ConfigSet} (h : a.norm = b.norm) {c : Config} (hc : c ∈ a.configs) :
    ∃ c' ∈ b.configs, c'.norm = c.norm := by
  have h1 : a.configs.map Config.norm = b.configs.map Config.norm := congrArg (·.1) h
  have : c.norm ∈ b.configs.map Config.norm := by rw [← h1]; exact List.mem_map_of_mem hc
  obtain ⟨c', h2, h3⟩ := List.mem_map.1 this
  exact ⟨c', h2, h3⟩

theorem norm_covers {a b : ConfigSet} (h : a.norm = b.norm) {d : Bool} {j : Int} {p : Pos}
    (hc : Covers d (· ∈ a.configs) j p) : Covers d (· ∈ b.configs) j p := by
  obtain ⟨x, h1, h2, h3, h4⟩ := hc
  obtain ⟨y, g1, g2⟩ := norm_mem h h1
  simp only [Config.norm, Config.mk.injEq] at g2
  exact ⟨y, g1, g2.2.1.trans h2, g2.1.trans h3, g2.2.2.1 ▸ h4⟩

/-- Equal configuration sets make for equally right states. -/
theorem Fits.same {atn : ATN} {dec : ATNState} {D E : DFAState} {v : List Int} (h : Fits atn dec D v)
    (hD : Tidy D) (hE : Tidy E) (hn : D.configs.norm = E.configs.norm) : Fits atn dec E v := by
  have hu : D.configs.uniqueAlt = E.configs.uniqueAlt := congrArg (fun x => x.2.2.1) hn
  have hc : D.configs.conflictingAlts = E.configs.conflictingAlts := congrArg (fun x => x.2.2.2.1) hn
  have hacc : D.isAccept = E.isAccept := by
    rw [Bool.eq_iff_iff, hD.accept, hE.accept, hu, hc]
  have hfull : D.requiresFullCtx = E.requiresFullCtx := by
    rw [Bool.eq_iff_iff, hD.full, hE.full, hu, hc]
  refine ⟨?_, ?_, ?_, ?_, ?_⟩
  rotate_right
  · intro h1 c hcE
    obtain ⟨c', h3, h2⟩ := norm_mem hn.symm hcE
    simp only [Config.norm, Config.mk.injEq] at h2
    obtain ⟨e1, -, e3, -⟩ := h2
    obtain ⟨k1, k2⟩ := h.stops (by rw [hacc]; exact h1) c' h3
    refine ⟨fun hst => by rw [← e3]; exact k1 (isStop_state e1 hst), ?_⟩
    rcases k2 with k2 | k2
    · exact .inl (isStop_state e1.symm k2)
    · rw [e1] at k2; exact .inr k2
  · intro c hcE
    obtain ⟨c', h1, h2⟩ := norm_mem hn.symm hcE
    have := h.sound c' h1
    simp only [Config.norm, Config.mk.injEq] at h2
    obtain ⟨e1, e2, e3, e4, -⟩ := h2
    rcases this with g | ⟨g1, g2, g3, g4⟩
    · exact .inl ⟨e3 ▸ g.fit, e4 ▸ g.sem, fun s hs => by rw [← e1, ← e2]; exact g.all s (by rw [e3]; exact hs)⟩
    · refine .inr ⟨?_, e3 ▸ g2, e4 ▸ g3, e2 ▸ g4⟩
      unfold isStop at g1 ⊢
      rw [← e1]; exact g1
  · intro h1 h2 σ hσ j p hj hp
    rw [← hacc] at h1
    rw [← hfull] at h2
    have hne : D.configs.uniqueAlt ≠ 0 := by
      intro h0
      rcases hD.accept.1 h1 with h | h
      · exact h h0
      · have := hD.full.2 ⟨h0, h⟩
        rw [h2] at this; simp at this
    rw [h.one h1 h2 σ hσ j p hj hp, hD.unique hne, hE.unique (hu ▸ hne), hu]
  · intro h1 σ hσ j p hj hp
    exact norm_covers hn (h.more (by rw [hacc]; exact h1) σ hσ j p hj hp)
  · intro h1 σ hσ j p hj hp
    exact norm_covers hn (h.confl (by rw [hfull]; exact h1) σ hσ j p hj hp)

/-- No thread counts after the tokens, whatever the calls before. -/
def Dead (atn : ATN) (dec : ATNState) (v : List Int) : Prop :=
  ∀ σ, Proper atn dec.ruleIndex σ → ∀ j p, Alive atn dec false σ j v p → ¬ Counts atn false v p

/-- Token types of the input. -/
def TokOk (t : Int) : Prop := -1 ≤ t ∧ t < 2 ^ 63

/-- An edge from `D` under `t` to state number `j`. -/
def EdgeOk (atn : ATN) (dec : ATNState) (d : DFA) (D : DFAState) (t : Int) (j : Nat) : Prop :=
  if j = ERROR_DFA_STATE_REF then ∀ v, Fits atn dec D v → Dead atn dec (v ++ [t])
  else ∃ D', d.states[j]? = some D' ∧ (t = TOKEN_EOF → D'.isAccept = true) ∧
    ∀ v, Fits atn dec D v → Fits atn dec D' (v ++ [t])

/-- Each state has no edges, or room for the edges of all tokens. -/
def Wide (max : Int) (d : DFA) : Prop :=
  ∀ D ∈ d.states, D.edges = [] ∨ asUsize max + 2 ≤ D.edges.length

/-- What holds of the DFA of a decision. -/
structure DInv (atn : ATN) (s : Nat) (dec : ATNState) (d : DFA) : Prop where
  noPrec : d.isPrecedence = false
  atnStart : d.atnStartState = s
  tidy : ∀ (i : Nat) (D : DFAState), d.states[i]? = some D → Tidy D
  edge : ∀ (i : Nat) (D : DFAState) (t : Int) (j : Nat), d.states[i]? = some D → D.isAccept = false → TokOk t →
    d.existingTarget i t = some (some j) → EdgeOk atn dec d D t j
  zero : ∃ N : DFAState, d.states[0]? = some N ∧ N.configs.configs = []
  start : ∀ i, d.s0 = some i → ∃ D : DFAState, d.states[i]? = some D ∧ Fits atn dec D [] ∧ D.isAccept = false
  wide : Wide atn.maxTokenType d

/-- `D'` is `D` up to edges and the number. -/
def Core (D D' : DFAState) : Prop :=
  D'.configs = D.configs ∧ D'.isAccept = D.isAccept ∧ D'.prediction = D.prediction ∧
  D'.requiresFullCtx = D.requiresFullCtx ∧ D'.predicates = D.predicates

theorem Core.refl (D : DFAState) : Core D D := ⟨rfl, rfl, rfl, rfl, rfl⟩

theorem Core.symm {D D' : DFAState} (h : Core D D') : Core D' D :=
  ⟨h.1.symm, h.2.1.symm, h.2.2.1.symm, h.2.2.2.1.symm, h.2.2.2.2.symm⟩

theorem Core.fits {D D' : DFAState} (h : Core D D') {atn : ATN} {dec : ATNState} {v : List Int}
    (hf : Fits atn dec D v) : Fits atn dec D' v := by
  obtain ⟨h1, h2, h3, h4, -⟩ := h
  exact ⟨by rw [h1]; exact hf.sound, by rw [h2, h3, h4]; exact hf.one, by rw [h1, h2]; exact hf.more,
    by rw [h1, h4]; exact hf.confl, by rw [h1, h2]; exact hf.stops⟩

theorem Core.tidy {D D' : DFAState} (h : Core D D') (ht : Tidy D) : Tidy D' := by
  obtain ⟨h1, h2, h3, h4, h5⟩ := h
  exact ⟨by rw [h5]; exact ht.preds, by rw [h1, h2]; exact ht.accept, by rw [h1, h4]; exact ht.full,
    by rw [h1, h3]; exact ht.unique, by rw [h1, h2, h3]; exact ht.alt, by rw [h1, h3, h4]; exact ht.least⟩

/-- The DFA has grown: its states are there still, perhaps with more edges. -/
def Grows (d d' : DFA) : Prop :=
  d.states.length ≤ d'.states.length ∧
  ∀ (i : Nat) (D : DFAState), d.states[i]? = some D → ∃ D', d'.states[i]? = some D' ∧ Core D D'

theorem Grows.refl (d : DFA) : Grows d d := ⟨Nat.le_refl _, fun _ D h => ⟨D, h, .refl D⟩⟩

theorem Core.trans {A B C : DFAState} (h1 : Core A B) (h2 : Core B C) : Core A C :=
  ⟨h2.1.trans h1.1, h2.2.1.trans h1.2.1, h2.2.2.1.trans h1.2.2.1, h2.2.2.2.1.trans h1.2.2.2.1,
    h2.2.2.2.2.trans h1.2.2.2.2⟩

theorem Grows.trans {a b c : DFA} (h1 : Grows a b) (h2 : Grows b c) : Grows a c := by
  refine ⟨Nat.le_trans h1.1 h2.1, ?_⟩
  intro i D h
  obtain ⟨D', e1, e2⟩ := h1.2 i D h
  obtain ⟨D'', e3, e4⟩ := h2.2 i D' e1
  exact ⟨D'', e3, e2.trans e4⟩

theorem EdgeOk.grows {atn : ATN} {dec : ATNState} {d d' : DFA} {D D' : DFAState} {t : Int} {j : Nat}
    (h : EdgeOk atn dec d D t j) (hg : Grows d d') (hc : Core D D') : EdgeOk atn dec d' D' t j := by
  unfold EdgeOk at h ⊢
  split
  · rename_i e
    rw [if_pos e] at h
    exact fun v hv => h v (hc.symm.fits hv)
  · rename_i e
    rw [if_neg e] at h
    obtain ⟨E, h1, h2, h3⟩ := h
    obtain ⟨E', g1, g2⟩ := hg.2 j E h1
    exact ⟨E', g1, fun ht => by rw [g2.2.1]; exact h2 ht, fun v hv => g2.fits (h3 v (hc.symm.fits hv))⟩

theorem edgeIn_some {max : Int} {s s' : DFAState} {t : Int} {dst : Nat} (h : DFA.edgeIn max s t dst = some s') :
    s' = s ∨ ∃ es : List Nat, (∀ k : Nat, (es[k]?).bind readEdge = (s.edges[k]?).bind readEdge) ∧
      s' = { s with edges := es.set (asUsize (t + 1)) dst } := by
  unfold DFA.edgeIn at h
  by_cases h1 : t < -1 ∨ t > max
  · rw [if_pos h1, Option.some.injEq] at h
    exact .inl h.symm
  · rw [if_neg h1] at h
    dsimp only at h
    by_cases h2 : s.edges.isEmpty = true
    · rw [if_pos h2] at h
      split at h
      · rw [Option.some.injEq] at h
        exact .inr ⟨_, growTo_get _ _, h.symm⟩
      · simp at h
    · rw [if_neg h2] at h
      split at h
      · rw [Option.some.injEq] at h
        exact .inr ⟨_, fun _ => rfl, h.symm⟩
      · simp at h

theorem growTo_length (l : List Nat) (n : Nat) : n ≤ (growTo l n).length := by
  unfold growTo
  simp only [List.length_append, List.length_replicate]; omega

theorem addEdge_wide {max : Int} {d d' : DFA} {src : Nat} {t : Int} {dst : Nat} (hw : Wide max d)
    (h : DFA.addEdge max d src t dst = some d') : Wide max d' := by
  rw [DFA.addEdge, Option.bind_eq_some_iff] at h
  obtain ⟨s, hs, h⟩ := h
  rw [Option.map_eq_some_iff] at h
  obtain ⟨s', hs', rfl⟩ := h
  have hs0 := hw s (List.mem_of_getElem? hs)
  intro D hD
  rcases List.mem_or_eq_of_mem_set hD with hD | rfl
  · exact hw D hD
  · unfold DFA.edgeIn at hs'
    split at hs'
    · rw [Option.some.injEq] at hs'; rw [← hs']; exact hs0
    · have hge : asUsize max + 2 ≤ (if s.edges.isEmpty then growTo s.edges (asUsize max + 2) else s.edges).length := by
        split
        · exact growTo_length _ _
        · rename_i hne
          rw [List.isEmpty_iff] at hne
          exact hs0.resolve_left hne
      dsimp only at hs'
      generalize (if s.edges.isEmpty then growTo s.edges (asUsize max + 2) else s.edges) = es at hs' hge
      split at hs'
      · rw [Option.some.injEq] at hs'
        subst hs'
        right
        rw [List.length_set]
        exact hge
      · simp at hs'

theorem addEdge_total {max : Int} {d : DFA} {src : Nat} {t : Int} (dst : Nat) (hw : Wide max d) (hmax : 0 ≤ max ∧ max < 2 ^ 63)
    (ht : TokOk t) (hlt : src < d.states.length) : ∃ d', DFA.addEdge max d src t dst = some d' := by
  rw [DFA.addEdge, List.getElem?_eq_getElem hlt, Option.bind_some]
  have hs0 := hw _ (List.getElem_mem hlt)
  unfold DFA.edgeIn
  split
  · exact ⟨_, rfl⟩
  · rename_i hr
    have e1 : asUsize (t + 1) = (t + 1).toNat := by
      obtain ⟨h1, h2⟩ := ht
      unfold asUsize
      rw [Int.emod_eq_of_lt (by omega) (by omega)]
    have e2 : asUsize max = max.toNat := by
      unfold asUsize
      rw [Int.emod_eq_of_lt (by omega) (by omega)]
    have hlen : asUsize (t + 1) < (if (d.states[src]).edges.isEmpty then growTo (d.states[src]).edges (asUsize max + 2)
        else (d.states[src]).edges).length := by
      have hge : asUsize max + 2 ≤ (if (d.states[src]).edges.isEmpty then growTo (d.states[src]).edges (asUsize max + 2)
        else (d.states[src]).edges).length := by
        split
        · exact growTo_length _ _
        · rename_i hne
          rw [List.isEmpty_iff] at hne
          exact hs0.resolve_left hne
      omega
    dsimp only
    rw [if_pos hlen]
    exact ⟨_, rfl⟩

theorem addState_wide {max : Int} {hash : ConfigSet → Nat} {d : DFA} {D : DFAState} (hw : Wide max d) (he : D.edges = []) :
    Wide max (DFA.addState hash d D).1 ∧ (DFA.addState hash d D).1.states.length ≤ d.states.length + 1 := by
  unfold DFA.addState
  split
  · exact ⟨hw, by simp⟩
  · split
    · exact ⟨hw, by simp⟩
    · refine ⟨?_, by simp⟩
      intro E hE
      rcases List.mem_append.1 hE with hE | hE
      · exact hw E hE
      · rw [List.mem_singleton] at hE
        subst hE
        exact .inl he

theorem addEdge_spec {max : Int} {d d' : DFA} {src : Nat} {t : Int} {dst : Nat} (ht : TokOk t)
    (h : DFA.addEdge max d src t dst = some d') :
    Grows d d' ∧ d'.states.length = d.states.length ∧ d'.s0 = d.s0 ∧ d'.isPrecedence = d.isPrecedence ∧
    d'.atnStartState = d.atnStartState ∧
    (∀ (i : Nat) (D' : DFAState), d'.states[i]? = some D' → ∃ D, d.states[i]? = some D ∧ Core D D') ∧
    ∀ (i : Nat) (u : Int) (j : Nat), TokOk u → d'.existingTarget i u = some (some j) →
      (i = src ∧ u = t ∧ j = dst) ∨ d.existingTarget i u = some (some j) := by
  rw [DFA.addEdge, Option.bind_eq_some_iff] at h
  obtain ⟨s, hs, h⟩ := h
  rw [Option.map_eq_some_iff] at h
  obtain ⟨s', hs', rfl⟩ := h
  have hcore : Core s s' := by
    rcases edgeIn_some hs' with rfl | ⟨es, -, rfl⟩
    · exact .refl _
    · exact ⟨rfl, rfl, rfl, rfl, rfl⟩
  have get : ∀ i, (d.states.set src s')[i]? = if i = src then some s' else d.states[i]? := by
    intro i
    rw [List.getElem?_set]
    have := (List.getElem?_eq_some_iff.1 hs).1
    by_cases h : src = i
    · subst h; simp [this]
    · rw [if_neg h, if_neg (fun hh => h hh.symm)]
  refine ⟨⟨by simp, ?_⟩, by simp, rfl, rfl, rfl, ?_, ?_⟩
  · intro i D hD
    dsimp only
    rw [get]
    by_cases h : i = src
    · subst h
      rw [hs] at hD
      cases hD
      exact ⟨s', by simp, hcore⟩
    · exact ⟨D, by rw [if_neg h]; exact hD, .refl D⟩
  · intro i D' hD
    dsimp only at hD
    rw [get] at hD
    by_cases h : i = src
    · subst h
      simp only [if_true, Option.some.injEq] at hD
      subst hD
      exact ⟨s, hs, hcore⟩
    · rw [if_neg h] at hD
      exact ⟨D', hD, .refl D'⟩
  · intro i u j hu he
    rw [DFA.existingTarget] at he ⊢
    dsimp only at he
    rw [get] at he
    by_cases h : i = src
    · subst h
      simp only [if_true, Option.map_some, Option.some.injEq] at he
      rw [hs]
      simp only [Option.map_some, Option.some.injEq]
      rcases edgeIn_some hs' with rfl | ⟨es, hes, rfl⟩
      · exact .inr he
      · dsimp only at he
        rw [List.getElem?_set] at he
        split at he
        · rename_i heq
          have e : u = t := by
            unfold TokOk at ht hu
            rw [asUsize_small _ (by omega) (by omega), asUsize_small _ (by omega) (by omega)] at heq
            omega
          split at he
          · left
            simp only [Option.bind_some, readEdge] at he
            split at he
            · simp at he
            · simp only [Option.some.injEq] at he
              exact ⟨trivial, e, he.symm⟩
          · simp at he
        · right
          rwa [hes] at he
    · rw [if_neg h] at he
      exact .inr he

/-- No edge is lost. -/
def Keeps (d d' : DFA) : Prop :=
  ∀ (i : Nat) (u : Int) (k : Nat), TokOk u → d.existingTarget i u = some (some k) → d'.existingTarget i u = some (some k)

theorem Keeps.refl (d : DFA) : Keeps d d := fun _ _ _ _ h => h

theorem Keeps.trans {a b c : DFA} (h1 : Keeps a b) (h2 : Keeps b c) : Keeps a c :=
  fun i u k hu h => h2 i u k hu (h1 i u k hu h)

theorem addEdge_get {max : Int} {d d' : DFA} {src : Nat} {t : Int} {dst : Nat} (ht : TokOk t)
    (h : DFA.addEdge max d src t dst = some d') :
    (d.existingTarget src t = some none → Keeps d d') ∧
    (t ≤ max → dst ≠ 0 → d'.existingTarget src t = some (some dst)) := by
  rw [DFA.addEdge, Option.bind_eq_some_iff] at h
  obtain ⟨s, hs, h⟩ := h
  rw [Option.map_eq_some_iff] at h
  obtain ⟨s', hs', rfl⟩ := h
  have hlt := (List.getElem?_eq_some_iff.1 hs).1
  refine ⟨?_, ?_⟩
  · intro hnone i u k hu hk
    rw [DFA.existingTarget] at hk ⊢
    dsimp only
    rw [List.getElem?_set]
    by_cases hi : src = i
    · subst hi
      rw [if_pos rfl, if_pos hlt]
      rw [hs] at hk
      simp only [Option.map_some, Option.some.injEq] at hk ⊢
      rcases edgeIn_some hs' with rfl | ⟨es, hes, rfl⟩
      · exact hk
      · dsimp only
        rw [List.getElem?_set]
        split
        · rename_i heq
          have e : u = t := by
            unfold TokOk at ht hu
            rw [asUsize_small _ (by omega) (by omega), asUsize_small _ (by omega) (by omega)] at heq
            omega
          subst e
          rw [DFA.existingTarget, hs] at hnone
          simp only [Option.map_some, Option.some.injEq] at hnone
          rw [hk] at hnone
          simp at hnone
        · rw [hes]; exact hk
    · rw [if_neg hi]; exact hk
  · intro hmax hd0
    rw [DFA.existingTarget]
    dsimp only
    rw [List.getElem?_set, if_pos rfl, if_pos hlt]
    simp only [Option.map_some, Option.some.injEq]
    unfold DFA.edgeIn at hs'
    unfold TokOk at ht
    rw [if_neg (by omega)] at hs'
    dsimp only at hs'
    generalize (if s.edges.isEmpty = true then growTo s.edges (asUsize max + 2) else s.edges) = es at hs'
    split at hs'
    · rename_i hlt2
      simp only [Option.some.injEq] at hs'
      subst hs'
      dsimp only
      rw [List.getElem?_set, if_pos rfl, if_pos hlt2]
      simp [readEdge, hd0]
    · simp at hs'

theorem addState_spec {hash : ConfigSet → Nat} {d : DFA} {D : DFAState} (hD : Tidy D) (hn : D.stateNumber = 0)
    (he : D.edges = []) (ht : ∀ (i : Nat) (E : DFAState), d.states[i]? = some E → Tidy E) :
    Grows d (DFA.addState hash d D).1 ∧ (DFA.addState hash d D).1.s0 = d.s0 ∧
    (DFA.addState hash d D).1.isPrecedence = d.isPrecedence ∧
    (DFA.addState hash d D).1.atnStartState = d.atnStartState ∧
    (∀ (i : Nat) (E : DFAState), (DFA.addState hash d D).1.states[i]? = some E → Tidy E) ∧
    (∀ (i : Nat) (u : Int) (j : Nat), (DFA.addState hash d D).1.existingTarget i u = some (some j) →
      d.existingTarget i u = some (some j)) ∧
    (∃ E, (DFA.addState hash d D).1.states[(DFA.addState hash d D).2]? = some E ∧ E.configs.norm = D.configs.norm) ∧
    (∀ (i : Nat) (E : DFAState), d.states[i]? = some E → (DFA.addState hash d D).1.states[i]? = some E) ∧
    (DFA.addState hash d D).2 < (DFA.addState hash d D).1.states.length := by
  unfold DFA.addState
  rw [if_neg (by rw [hn]; simp [ERROR_DFA_STATE_REF])]
  cases hf : DFA.findState hash d D with
  | some i =>
    have h1 := List.find?_some hf
    dsimp only at h1 ⊢
    split at h1
    · rename_i s hs
      rw [DFAState.same, ConfigSet.same_iff] at h1
      exact ⟨.refl d, rfl, rfl, rfl, ht, fun _ _ _ h => h, ⟨s, hs, h1⟩, fun _ _ h => h, (List.getElem?_eq_some_iff.1 hs).1⟩
    · simp at h1
  | none =>
    dsimp only
    have get : ∀ (i : Nat) (E F : DFAState), (d.states ++ [F])[i]? = some E → d.states[i]? = some E ∨ (i = d.states.length ∧ E = F) := by
      intro i E F h
      rw [List.getElem?_append] at h
      split at h
      · exact .inl h
      · right
        rw [List.getElem?_singleton] at h
        split at h
        · simp only [Option.some.injEq] at h
          exact ⟨by omega, h.symm⟩
        · simp at h
    have put : ∀ (i : Nat) (E F : DFAState), d.states[i]? = some E → (d.states ++ [F])[i]? = some E := by
      intro i E F h
      rw [List.getElem?_append_left (List.getElem?_eq_some_iff.1 h).1]; exact h
    refine ⟨⟨by simp, fun i E h => ⟨E, put i E _ h, .refl E⟩⟩, rfl, rfl, rfl, ?_, ?_, ?_, ?_, by simp⟩
    · intro i E h
      rcases get i E _ h with h | ⟨-, rfl⟩
      · exact ht i E h
      · exact ⟨hD.preds, hD.accept, hD.full, hD.unique, hD.alt, hD.least⟩
    · intro i u j h
      rw [DFA.existingTarget, Option.map_eq_some_iff] at h
      obtain ⟨E, h1, h2⟩ := h
      rw [DFA.existingTarget]
      rcases get i E _ h1 with h1 | ⟨-, rfl⟩
      · rw [h1]; simpa using h2
      · simp [he] at h2
    · exact ⟨_, by simp; rfl, by simp [ConfigSet.norm]⟩
    · intro i E h
      exact put i E _ h

end Antlr.Prediction
