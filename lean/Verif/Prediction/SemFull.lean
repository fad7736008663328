import Verif.Prediction.SemReach

/-!
# Helper lemmas: the loop with context returns, with predicates
-/

namespace Antlr.Prediction.Sem
open Antlr StackSpec ConfigSet PC PredictionSpec LL1Spec PredictionMode PredictionModeProps StackProps

variable {I : Type}

theorem inside_goes {atn : ATN} (ha : Tame atn) (full eof : Bool) : Goes atn full eof (fun _ p => Inside atn p) where
  step := by
    intro _ p q h hs
    cases hs with
    | free h1 h2 h3 h4 => exact ⟨ha.targets _ _ h1 _ h3, h.2⟩
    | call h1 h2 h3 =>
      refine ⟨ha.targets _ _ h1 _ h3, ?_⟩
      intro f hf
      rcases List.mem_cons.1 hf with rfl | hf
      · exact ha.follow _ _ h1 _ _ _ _ h3
      · exact h.2 f hf
    | ret h1 h2 => exact ⟨h.2 _ (by simp), fun f hf => h.2 f (List.mem_cons_of_mem _ hf)⟩
  out := by
    intro _ _ s st f x h h1 h2 h3
    exact ⟨ha.targets _ _ h1 _ h3, by simp⟩
  read := by
    rintro _ _ p q h ⟨st, tr, h1, h2, h3, h4, rfl⟩
    exact ⟨ha.targets _ _ h1 _ h3, h.2⟩

/-- Threads of the alternatives `1 … n`. -/
def Near (atn : ATN) (n : Nat) (j : Int) (p : Pos) : Prop := (1 ≤ j ∧ j ≤ n) ∧ Inside atn p

theorem near_moves {atn : ATN} (ha : Tame atn) (n : Nat) (eof : Bool) : Moves atn false eof (Near atn n) where
  step := fun j p q h hs => ⟨h.1, (inside_goes ha false eof).step j p q h.2 hs⟩
  out := fun e j s st f x h h1 h2 h3 => ⟨h.1, (inside_goes ha false eof).out e j s st f x h.2 h1 h2 h3⟩
  read := fun e j p q h hs => ⟨h.1, (inside_goes ha false eof).read e j p q h.2 hs⟩
  inside := fun _ _ h => h.2

theorem near_read {atn : ATN} (ha : Tame atn) {n : Nat} {t j : Int} {p q : Pos} (h : Near atn n j p)
    (hs : ReadStep atn t p q) : Near atn n j q := by
  obtain ⟨st, tr, h1, h2, h3, h4, rfl⟩ := hs
  exact ⟨h.1, ha.targets _ _ h1 _ h3, h.2.2⟩

theorem home_step {atn : ATN} (ha : Tame atn) {b n : Nat} {j : Int} {p q : Pos} (h : Home atn b n j p)
    (hs : Step atn p q) : Home atn b n j q := by
  refine ⟨h.low, h.high, (inside_goes ha true true).step j p q h.inside hs, ?_⟩
  have hb := h.bottom
  have hi := h.inside
  cases hs with
  | @free s k st tr h1 h2 h3 h4 =>
    refine bottom_swap hb hi.1 ?_
    intro st1 st2 e1 e2
    rw [h1, Option.some.injEq] at e1
    subst e1
    exact ha.sameRule s st h1 h2 tr h3 (by rintro _ _ _ _ rfl; exact h4) _ e2
  | @call s k st t f r p h1 h2 h3 =>
    have := bottom_swap (s' := f) hb hi.1 (by
      intro st1 st2 e1 e2
      rw [h1, Option.some.injEq] at e1
      subst e1
      exact ha.followRule s st h1 _ _ _ _ h3 _ e2)
    intro x st' hx hst'
    exact this x st' (by simpa using hx) hst'
  | ret h1 h2 =>
    intro x st' hx hst'
    exact hb x st' (by simpa using hx) hst'

theorem home_read {atn : ATN} (ha : Tame atn) {b n : Nat} {j : Int} {t : Int} {p q : Pos} (h : Home atn b n j p)
    (hs : ReadStep atn t p q) : Home atn b n j q := by
  obtain ⟨st, tr, h1, h2, h3, h4, rfl⟩ := hs
  refine ⟨h.low, h.high, ⟨ha.targets _ _ h1 _ h3, h.inside.2⟩, ?_⟩
  refine bottom_swap h.bottom h.inside.1 ?_
  intro st1 st2 e1 e2
  rw [h1, Option.some.injEq] at e1
  subst e1
  exact ha.sameRule _ st h1 h2 tr h3 (by rintro _ _ _ _ rfl; exact h4) _ e2

theorem home_moves {atn : ATN} (ha : Tame atn) (b n : Nat) (eof : Bool) : Moves atn true eof (Home atn b n) where
  step := fun _ _ _ h hs => home_step ha h hs
  out := by simp
  read := fun _ _ _ _ h hs => home_read ha h hs
  inside := fun _ _ h => h.inside

theorem proper_lt {atn : ATN} (ha : Tame atn) {r : Nat} {k : List Nat} (h : Proper atn r k) :
    ∀ f ∈ k, f < atn.states.length := by
  induction h with
  | nil => simp
  | call h1 h2 h3 h4 _ ih =>
    intro f hf
    rcases List.mem_cons.1 hf with rfl | hf
    · exact ha.follow _ _ h1 _ _ _ _ h2
    · exact ih f hf

theorem home_start {atn : ATN} (ha : Tame atn) {s : Nat} {dec : ATNState} (hdec : Decides atn s dec) {σ : List Nat}
    (hσ : Proper atn dec.ruleIndex σ) : ∃ b, ∀ (i : Nat) tr, dec.transitions[i]? = some tr →
      Home atn b dec.transitions.length ((i + 1 : Nat) : Int) (tr.target, σ) := by
  have hlt := proper_lt ha hσ
  have hin : ∀ tr ∈ dec.transitions, Inside atn (tr.target, σ) := fun tr h => ⟨ha.targets _ _ hdec.state _ h, hlt⟩
  obtain ⟨b, hb⟩ : ∃ b, Bottom atn b (s, σ) := by
    cases hx : (s :: σ).getLast? with
    | none => simp at hx
    | some x =>
      cases hst : atn.states[x]? with
      | none =>
        refine ⟨0, fun y st h1 h2 => ?_⟩
        rw [hx, Option.some.injEq] at h1
        subst h1
        rw [hst] at h2; simp at h2
      | some st =>
        refine ⟨st.ruleIndex, fun y st' h1 h2 => ?_⟩
        rw [hx, Option.some.injEq] at h1
        subst h1
        rw [hst, Option.some.injEq] at h2
        rw [h2]
  refine ⟨b, fun i tr hi => ?_⟩
  have htr := List.mem_of_getElem? hi
  have hi' := (List.getElem?_eq_some_iff.1 hi).1
  refine ⟨by omega, by omega, hin tr htr, bottom_swap hb ((List.getElem?_eq_some_iff.1 hdec.state).1) ?_⟩
  intro st st' e1 e2
  rw [hdec.state, Option.some.injEq] at e1
  subst e1
  obtain ⟨t, x, rfl⟩ := hdec.silent tr htr
  exact ha.sameRule _ _ hdec.state hdec.inner _ htr (by simp) _ e2

/-- A stream that can go to the start of the prediction and back. -/
structure LooksB [TokStream I] (start : Int) (w : Nat → Int) (At : Nat → I → Prop) : Prop extends LooksT start w At where
  backT : ∀ n, Back start (At n)

/-- The loop with context returns when EOF lies ahead. -/
theorem fullLoop_total [TokStream I] {L : Local I} {N : Nat} (ha : Tame L.atn) (hN : NoLoop L.atn N)
    (h1s : OneStop L.atn) {dec : ATNState} (hdec : Decides L.atn L.atnStart dec)
    {w : Nat → Int} {At : Nat → I → Prop} (hl : LooksB L.startIndex w At) (dfa : DFA) {b na m : Nat} (hna : na < 2 ^ 63)
    (hm : w m = TOKEN_EOF) (hlt : ∀ i, i < m → w i ≠ TOKEN_EOF) (g : Nat) :
    ∀ (k n : Nat) (cs : ConfigSet) (mc : PC.Cache) (inp : I), k + g = m → g + 1 ≤ n →
      (∀ c ∈ cs.configs, Fine L.atn true (Home L.atn b na) c ∧ c.reaches ≤ 0) → CacheFit true true mc → At k inp →
      ∃ r, Returns (fun cf => fullLoop L cf dfa n cs (w k) mc inp) r ∧ (∃ k', At k' r.inp) ∧ r.dfa = dfa := by
  induction g using Nat.strongRecOn with
  | ind g ih =>
  intro k n cs mc inp hk hn hcs hmc hat
  obtain ⟨n, rfl⟩ : ∃ n', n = n' + 1 := ⟨n - 1, by omega⟩
  obtain ⟨r, mc', inp', hret, hat, g2, g3⟩ := computeReach_total (full := true) (d := true) (t := w k) (Z := At k) ha hN
    (home_moves ha b na _) (fun _ _ h => h.low) (fun _ _ _ h hr => home_read ha h hr) ⟨_, hdec.state⟩ (by simp)
    (cs := cs) (fun c hc => ⟨(hcs c hc).1, fun _ => (hcs c hc).2⟩) hmc hat
  simp only [fullLoop]
  cases r with
  | none =>
    obtain ⟨i1, s1⟩ := hl.seekT hat
    have at1 := hl.seek hat s1
    obtain ⟨a, s2⟩ := synValidAlt_total (L := L) (cs := cs) (inp := i1) (fun c hc => (hcs c hc).1.1.fit.wf)
    by_cases ha0 : a ≠ INVALID_ALT
    · refine ⟨{ out := .alt a, dfa := dfa, inp := i1 }, hret.bind ⟨0, fun _ _ => ?_⟩, ⟨0, at1⟩, rfl⟩
      simp only [s1, Option.bind_some, s2, if_pos ha0]
    · obtain ⟨x, y, i2, s3, at2⟩ := noViableAlt_total hl.toLooksT at1
      refine ⟨{ out := .noAlt x y, dfa := dfa, inp := i2 }, hret.bind ⟨0, fun _ _ => ?_⟩, ⟨0, at2⟩, rfl⟩
      simp only [s1, Option.bind_some, s2, if_neg ha0, s3, Option.map_some]
  | some reach =>
    have hr := g3 reach rfl
    have hsound := hr.sound
    by_cases hun : uniqueAlt reach ≠ INVALID_ALT
    · refine ⟨{ out := .alt (uniqueAlt reach), dfa := dfa, inp := inp', reports := [.sensitivity L.startIndex (TokStream.index inp') (uniqueAlt reach)] },
        hret.bind ⟨0, fun _ _ => ?_⟩, ⟨k, hat⟩, rfl⟩
      simp only [if_pos hun]
    · obtain ⟨dc, hdc⟩ := fullDecision_total L.mode reach
      cases dc with
      | some q =>
        obtain ⟨kk, ex⟩ := q
        refine ⟨{ out := .alt kk, dfa := dfa, inp := inp', reports := [.ambiguity L.startIndex (TokStream.index inp') ex (altsOf reach)] },
          hret.bind ⟨0, fun _ _ => ?_⟩, ⟨k, hat⟩, rfl⟩
        simp only [if_neg hun, hdc, Option.bind_some]
      | none =>
        rw [not_not] at hun
        have ripe := hr.ripe hun
        by_cases heof : w k = TOKEN_EOF
        · -- all are at the end of the outermost rule
          exfalso
          have hall := hr.eof heof
          have end' : ∀ c ∈ reach.configs, c.ctx = EMPTY ∧ ∃ st, L.atn.states[c.state]? = some st ∧
              st.stateType = .ruleStop ∧ st.ruleIndex = b := by
            intro c hc
            have he := (ripe c hc).stop (hall c hc)
            have hh := (hsound c hc).all [] (by rw [he]; exact .bottomS)
            obtain ⟨st, hst⟩ := exists_state hh.inside.1
            exact ⟨he, st, hst, (isStop_iff hst).1 (hall c hc), hh.bottom _ _ (by simp [nats]) hst⟩
          obtain ⟨q, hq⟩ := fullDecision_same (mode := L.mode) hr.ne (fun c hc => by
            obtain ⟨s, hs⟩ := wf_nonempty_stack (hsound c hc).fit.wf
            have := (hsound c hc).all s hs
            have h1 := this.low
            have h2 := this.high
            omega) (fun c hc c' hc' => by
              obtain ⟨e1, st, e2, e3, e4⟩ := end' c hc
              obtain ⟨e1', st', e2', e3', e4'⟩ := end' c' hc'
              exact ⟨h1s _ _ _ _ e2 e2' e3 e3' (e4.trans e4'.symm), e1.trans e1'.symm⟩) hun
          rw [hdc] at hq
          simp at hq
        · have hlt' : k < m := by
            rcases Nat.lt_or_ge k m with h | h
            · exact h
            · exfalso
              have : k = m := by omega
              rw [this] at heof
              exact heof hm
          obtain ⟨i1, s1⟩ := hl.consumeT hat heof
          have at1 := hl.consume hat heof s1
          obtain ⟨⟨t, i2⟩, s2⟩ := hl.laT at1
          obtain ⟨rfl, at2⟩ := hl.la at1 s2
          obtain ⟨res, h5, h6⟩ := ih (g - 1) (by omega) (k + 1) n reach mc' i2 (by omega) (by omega)
            (fun c hc => ⟨⟨hsound c hc, ripe c hc⟩, hr.low rfl c hc⟩) g2 at2
          refine ⟨res, hret.bind ?_, h6⟩
          have hun' : ¬ uniqueAlt reach ≠ INVALID_ALT := by rw [hun]; simp
          simp only [if_neg hun', hdc, Option.bind_some, if_pos heof, ne_eq, heof, not_false_eq_true, if_true, s1, s2]
          exact h5

theorem conflictPreds_total [TokStream I] {L : Local I} {w : Nat → Int} {At : Nat → I → Prop} (hl : LooksB L.startIndex w At)
    {D : DFAState} {k : Nat} {inp : I} (hat : At k inp) :
    ∃ alts i1 k', conflictPreds L D inp = some (alts, i1) ∧ At k' i1 := by
  unfold conflictPreds
  split
  · exact ⟨_, _, k, rfl, hat⟩
  · split
    · obtain ⟨i1, h1, i2, h2, at2⟩ := hl.backT k inp hat
      rw [h1, Option.bind_some]
      split
      · exact ⟨_, _, 0, rfl, hl.seek hat h1⟩
      · rw [h2]; exact ⟨_, _, k, rfl, at2⟩
    · rw [Option.bind_some]
      split
      · exact ⟨_, _, k, rfl, hat⟩
      · exact ⟨_, _, k, rfl, hat⟩

theorem needFull_total [TokStream I] {L : Local I} {N : Nat} (ha : Tame L.atn) (hN : NoLoop L.atn N)
    (h1s : OneStop L.atn)
    {dec : ATNState} (hdec : Decides L.atn L.atnStart dec) {σ : List Nat} (hσ : Proper L.atn dec.ruleIndex σ)
    (hcalls : Calls L.atn L.outer (ints σ))
    {w : Nat → Int} {At : Nat → I → Prop} (hl : LooksB L.startIndex w At) (dfa : DFA) {n k m : Nat}
    (hm : w m = TOKEN_EOF) (hlt : ∀ i, i < m → w i ≠ TOKEN_EOF) (hn : m + 1 ≤ n)
    {D : DFAState} {mc : PC.Cache} {inp : I} (hmc : CacheFit true true mc) (hat : At k inp) :
    ∃ r, Returns (fun cf => needFull L cf n dfa D mc inp) r ∧ (∃ k', At k' r.inp) ∧ r.dfa = dfa := by
  obtain ⟨alts, i0, k0, hcp, hat0⟩ := conflictPreds_total hl (D := D) hat
  simp only [needFull, hcp, Option.bind_some]
  by_cases hone : D.predicates ≠ [] ∧ alts.length = 1
  · obtain ⟨a, hlen⟩ := List.length_eq_one_iff.1 hone.2
    refine ⟨{ out := .alt (a : Int), dfa := dfa, inp := i0 }, ⟨0, fun _ _ => ?_⟩, ⟨k0, hat0⟩, rfl⟩
    simp [hone.1, hlen]
  · have hlt' := proper_lt ha hσ
    obtain ⟨ctx, hc1, hc2⟩ := C32_from_rule_context _ _ _ hcalls
    obtain ⟨c', hc1', hc3⟩ := C32_well_formed _ _ _ hcalls (by
      intro f hf
      obtain ⟨g, hg, rfl⟩ := List.mem_map.1 hf
      exact lt' ha (hlt' g hg))
    rw [hc1, Option.some.injEq] at hc1'
    subst hc1'
    obtain ⟨b, hb⟩ := home_start ha hdec hσ
    have hstart : ∀ (i : Nat) tr, dec.transitions[i]? = some tr → ∀ k, HasStack ctx k →
        Home L.atn b dec.transitions.length ((i + 1 : Nat) : Int) (tr.target, nats k) := by
      intro i tr hi k hk
      rw [hc2] at hk
      subst hk
      rw [nats_ints' ha σ hlt']
      exact hb i tr hi
    have hfit : Fit true ctx := ⟨hc3, by simp⟩
    obtain ⟨s0, mc1, i1, hret, hO, hat1⟩ := computeStart_total (full := true) (d := true) (Z := At k0) (S := [SC.NONE]) ha hN
      (home_moves ha b _ _) hdec.state (by simp) (by simp) ⟨fun _ => hl.backT k0, by simp⟩ hfit (by
        intro k hk
        rw [hc2] at hk
        subst hk
        intro r hr
        obtain ⟨g, -, rfl⟩ := List.mem_map.1 hr
        exact Int.natCast_nonneg g) hstart hmc hat0
    obtain ⟨i2, s1⟩ := hl.seekT hat1
    have at1 := hl.seek hat1 s1
    obtain ⟨⟨t, i3⟩, s2⟩ := hl.laT at1
    obtain ⟨rfl, at2⟩ := hl.la at1 s2
    obtain ⟨r, h5, h6, h7⟩ := fullLoop_total ha hN h1s hdec hl dfa hdec.few hm hlt m 0 n s0 mc1 i3 (by omega) hn
      (fun c hc => ⟨hO.fine c hc, hO.low rfl c hc⟩) hO.cache at2
    refine ⟨{ r with reports := .fullContext L.startIndex (TokStream.index i0) alts :: r.reports }, ?_, h6, h7⟩
    simp only [if_neg hone, hc1, Option.bind_some]
    refine hret.bind ?_
    simp only [execFull, s1, Option.bind_some, s2]
    exact h5.map fun r => { r with reports := .fullContext L.startIndex (TokStream.index i0) alts :: r.reports }

theorem accepting_total [TokStream I] {L : Local I} {w : Nat → Int} {At : Nat → I → Prop} (hl : LooksB L.startIndex w At)
    (d : DFA) (D : DFAState) {k : Nat} {inp : I} (hat : At k inp) :
    ∃ r, accepting L d D inp = some r ∧ (∃ k', At k' r.inp) ∧ r.dfa = d := by
  unfold accepting
  split
  · exact ⟨_, rfl, ⟨k, hat⟩, rfl⟩
  · obtain ⟨i1, s1⟩ := hl.seekT hat
    have at1 := hl.seek hat s1
    rw [s1, Option.bind_some]
    split
    · obtain ⟨x, y, i2, s3, at2⟩ := noViableAlt_total hl.toLooksT at1
      rw [s3]
      exact ⟨_, rfl, ⟨0, at2⟩, rfl⟩
    · exact ⟨_, rfl, ⟨0, at1⟩, rfl⟩
    · exact ⟨_, rfl, ⟨0, at1⟩, rfl⟩

end Antlr.Prediction.Sem
