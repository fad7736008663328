import Verif.Gen.ReturnMain

/-! # Fuel for `LL1Analyzer` while calls are nested at most `K` deep; errors that leave a rule -/

namespace Antlr.GenProps
open Antlr ParserSpec ParserProps GenSpec Gen ErrorSpec ErrorProps TokenSpec ParserView Prediction
  LL1Spec LL1Props LL1Lemmas ParserLemmas CommonProps

theorem lists_max {L : Nat} {P : List Nat → Nat → Prop} (h : ∀ k, (∀ f ∈ k, f < L) → ∃ F, ∀ fuel, F ≤ fuel → P k fuel) (K : Nat) :
    ∃ F, ∀ fuel, F ≤ fuel → ∀ k, (∀ f ∈ k, f < L) → k.length ≤ K → P k fuel := by
  have below : ∀ {Q : Nat → Nat → Prop} (M : Nat), (∀ a < M, ∃ F, ∀ fuel, F ≤ fuel → Q a fuel) →
      ∃ F, ∀ fuel, F ≤ fuel → ∀ a < M, Q a fuel := by
    intro Q M hq
    induction M with
    | zero => exact ⟨0, fun _ _ a ha => by omega⟩
    | succ M ih =>
      obtain ⟨F1, h1⟩ := ih fun a ha => hq a (by omega)
      obtain ⟨F2, h2⟩ := hq M (by omega)
      refine ⟨max F1 F2, fun fuel hf a ha => ?_⟩
      rcases Nat.lt_or_eq_of_le (Nat.le_of_lt_succ ha) with h' | rfl
      · exact h1 fuel (by omega) a h'
      · exact h2 fuel (by omega)
  induction K generalizing P with
  | zero =>
    obtain ⟨F, hF⟩ := h [] (by simp)
    refine ⟨F, fun fuel hf k _ hk => ?_⟩
    obtain rfl : k = [] := List.eq_nil_of_length_eq_zero (by omega)
    exact hF fuel hf
  | succ K ih =>
    obtain ⟨F1, h1⟩ := h [] (by simp)
    obtain ⟨F2, h2⟩ := below (Q := fun a fuel => ∀ k, (∀ f ∈ k, f < L) → k.length ≤ K → P (a :: k) fuel) L fun a ha =>
      ih (P := fun k => P (a :: k)) fun k hk => h (a :: k) (by
        intro f hf
        rcases List.mem_cons.1 hf with rfl | hf
        · exact ha
        · exact hk f hf)
    refine ⟨max F1 F2, fun fuel hf k hk hl => ?_⟩
    cases k with
    | nil => exact h1 fuel (by omega)
    | cons a k => exact h2 fuel (by omega) a (hk a (by simp)) k (fun f hf => hk f (by simp [hf])) (by simpa using hl)

theorem calls_length {atn : ATN} {chain stack : List Int} (h : StackProps.Calls atn chain stack) : stack.length ≤ chain.length := by
  induction h with
  | root i => simp
  | nobody rest => simp
  | call _ _ _ _ _ _ _ _ _ _ _ ih => simpa using ih

/-- Fuel that suffices for all sets that are looked up while calls are nested at most `K` deep. -/
theorem enough {atn : ATN} (wf : WFAtn atn) (K : Nat) : ∃ F, ∀ fuel, F ≤ fuel →
    (∀ a, a < atn.states.length → ∃ set, nextTokens atn fuel a = some set) ∧
    ∀ a, a < atn.states.length → ∀ chain stack, StackProps.Calls atn chain stack → chain.length ≤ K →
      ∃ set, nextTokensInCtx atn fuel a (some chain) = some set := by
  obtain ⟨F1, h1⟩ := lists_max (L := atn.states.length)
    (P := fun k fuel => ∀ a ∈ k.head?, ∃ set, nextTokens atn fuel a = some set) (by
      intro k hk
      cases k with
      | nil => exact ⟨0, fun _ _ a ha => by simp at ha⟩
      | cons a k =>
        obtain ⟨F, set, h⟩ := C42_terminates atn wf a (hk a (by simp))
        refine ⟨F, fun fuel hf b hb => ?_⟩
        simp only [List.head?_cons, Option.mem_def, Option.some.injEq] at hb
        subst hb
        exact ⟨set, h fuel hf⟩) 1
  obtain ⟨F2, h2⟩ := lists_max (L := atn.states.length)
    (P := fun k fuel => ∀ a ∈ k.head?, ∃ st', lookWork atn fuel a (toPC true k.tail) {} = some st') (by
      intro k hk
      cases k with
      | nil => exact ⟨0, fun _ _ a ha => by simp at ha⟩
      | cons a k =>
        obtain ⟨F, st', h⟩ := look_exists wf true (hk a (by simp)) (k := k) (fun f hf => hk f (by simp [hf]))
        refine ⟨F, fun fuel hf b hb => ?_⟩
        simp only [List.head?_cons, Option.mem_def, Option.some.injEq] at hb
        subst hb
        exact ⟨st', h fuel hf⟩) (K + 1)
  refine ⟨max F1 F2, fun fuel hf => ⟨fun a ha => ?_, fun a ha chain stack hc hl => ?_⟩⟩
  · exact h1 fuel (by omega) [a] (by simpa using ha) (by simp) a rfl
  · obtain ⟨k, e1, e2, e3⟩ := calls_toPC wf hc
    have hk : k.length ≤ K := by
      have := calls_length hc
      rw [e1, List.length_map] at this
      omega
    obtain ⟨st', h⟩ := h2 fuel (by omega) (a :: k) (by
      intro f hf
      rcases List.mem_cons.1 hf with rfl | hf
      · exact ha
      · exact e3 f hf) (by simpa using hk) a rfl
    simp only [List.tail_cons] at h
    refine ⟨st'.look, ?_⟩
    simp only [nextTokensInCtx, e2]
    cases hk : toPC true k with
    | none => cases k <;> simp [toPC] at hk
    | some c => rw [hk] at h; simp [h]

section
variable {I S : Type} [TokStream I]

/-- Only a `FallThrough` gets past the end of a rule. -/
theorem finish_error {C : Cfg I S} {m : Nat} {x : Except PErr Unit × GS I S} {s' : GS I S} {e : PErr}
    (h3 : finish C m x = some (.error e, s')) : ∃ e', e = .fallThrough e' := by
  simp only [finish, GS.strat, Option.map_eq_some_iff] at h3
  obtain ⟨⟨x4, e4⟩, h4, h5⟩ := h3
  obtain ⟨rfl, -⟩ := Prod.mk.inj h5
  split at h4
  · unfold ES.bailRuleEnd at h4
    split at h4
    · simp at h4
    · simp only [Option.some.injEq, Prod.mk.injEq, Except.error.injEq] at h4
      exact ⟨_, h4.1.symm⟩
    · obtain ⟨s5, -, h4⟩ := Option.bind_eq_some_iff.1 h4
      simp only [ES.bailRecover, ES.processError, Option.map_eq_some_iff, Option.bind_eq_some_iff] at h4
      obtain ⟨_, ⟨_, -, _, -, rfl⟩, h4⟩ := h4
      simp only [Prod.mk.injEq, Except.error.injEq] at h4
      exact ⟨_, h4.1.symm⟩
  · unfold ES.ruleEnd at h4
    split at h4
    · simp at h4
    · simp only [Option.some.injEq, Prod.mk.injEq, Except.error.injEq] at h4
      exact ⟨_, h4.1.symm⟩
    · obtain ⟨s5, -, h4⟩ := Option.bind_eq_some_iff.1 h4
      simp only [Option.map_eq_some_iff] at h4
      obtain ⟨_, -, h4⟩ := h4
      simp at h4

/-- Only a `FallThrough` leaves a rule. -/
theorem rule_error {C : Cfg I S} {m r : Nat} {q : Int} {s s' : GS I S} {e : PErr}
    (h : runRule C m r q s = some (.error e, s')) : ∃ e', e = .fallThrough e' := by
  cases m with
  | zero => simp [runRule] at h
  | succ m =>
    have leave : ∀ (x : Except PErr Unit × GS I S) (f : P I → Option (P I)),
        (andThen (finish C m x) fun _ s => andThen (s.act f) fun _ s' => ret s.es.p.ctx s') = some (.error e, s') →
        ∃ e', e = .fallThrough e' := by
      intro x f h
      obtain ⟨⟨x3, s3⟩, h3, h⟩ := Option.bind_eq_some_iff.1 h
      cases x3 with
      | ok a =>
        dsimp only at h
        obtain ⟨⟨x4, s4⟩, h4, h⟩ := Option.bind_eq_some_iff.1 h
        simp only [GS.act, Option.map_eq_some_iff] at h4
        obtain ⟨p4, -, h4⟩ := h4
        obtain ⟨rfl, rfl⟩ := Prod.mk.inj h4
        simp [ret] at h
      | error e3 =>
        simp only [Option.some.injEq, Prod.mk.injEq, Except.error.injEq] at h
        obtain ⟨rfl, -⟩ := h
        exact finish_error h3
    cases hr : C.rules[r]? with
    | none => simp [runRule, hr] at h
    | some fn =>
      cases fn <;> simp only [runRule, hr] at h
      all_goals
        obtain ⟨⟨x1, s1⟩, h1, h⟩ := Option.bind_eq_some_iff.1 h
        simp only [GS.act, Option.map_eq_some_iff] at h1
        obtain ⟨p1, -, h1⟩ := h1
        obtain ⟨rfl, rfl⟩ := Prod.mk.inj h1
        dsimp only at h
        obtain ⟨⟨x2, s2⟩, -, h⟩ := Option.bind_eq_some_iff.1 h
        exact leave _ _ h

end
end Antlr.GenProps
