import Verif.Gen.Main

/-! # With `BailErrorStrategy` a parse that returns `Ok` has reported nothing -/

namespace Antlr.Gen
open Antlr ParserSpec ParserLemmas ParserProps ErrorProps

set_option linter.unusedSectionVars false
variable {I S : Type} [TokStream I] {C : Cfg I S}

/-- If the result is `Ok`, the count of errors is the same. -/
def Still {α : Type} (s : GS I S) (r : Out I S α) : Prop :=
  ∀ a s', r = some (.ok a, s') → reports s'.es = reports s.es

theorem Still.andThen {α β : Type} {s : GS I S} {r : Out I S α} {f : α → GS I S → Out I S β}
    (h1 : Still s r) (h2 : ∀ a s1, Still s1 (f a s1)) : Still s (andThen r f) := by
  intro x s' h
  rcases andThen_some.1 h with ⟨a, s1, e1, e2⟩ | ⟨e, _, e1⟩
  · exact (h2 _ _ _ _ e2).trans (h1 _ _ e1)
  · cases e1

theorem Still.ret {α : Type} (s : GS I S) (a : α) : Still s (ret a s) := by
  intro x s' h
  simp only [Gen.ret, Option.some.injEq, Prod.mk.injEq] at h
  rw [← h.2]

theorem Still.none {α : Type} (s : GS I S) : Still (α := α) s none := by
  intro x s' h; cases h

theorem Still.state {α : Type} {s : GS I S} {st : Int} {r : Out I S α}
    (h : Still (s.setState st) r) : Still s r := fun x s' e => (h x s' e).trans rfl

theorem still_ite {α : Type} {c : Prop} [Decidable c] {s : GS I S} {a b : Out I S α}
    (h1 : Still s a) (h2 : Still s b) : Still s (if c then a else b) := by
  split
  · exact h1
  · exact h2

theorem still_act {s : GS I S} {f : P I → Option (P I)}
    (h : ∀ p p', f p = some p' → p'.syntaxErrors = p.syntaxErrors) : Still s (s.act f) := by
  intro x s' e
  obtain ⟨-, e, -⟩ := act_some e
  exact h _ _ e

theorem still_failed {α : Type} (msg : List Char) (s : GS I S) :
    Still (α := α) s (failedPredicate C msg s) := fun _ _ h => (failed_not_ok h).elim

theorem still_noViable {α : Type} (s : GS I S) : Still (α := α) s (noViable s) :=
  fun _ _ h => (noViable_not_ok h).elim

section
variable (hb : C.bail = true)
include hb

theorem still_sync (m : Nat) (s : GS I S) : Still s (sync C m s) := by
  intro x s' h
  simp only [sync, hb, if_true, ES.bailSync, GS.strat, Option.map_some, Option.some.injEq,
    Prod.mk.injEq] at h
  rw [← h.2]

theorem still_matchTok (t : Int) (s : GS I S) : Still s (matchTok C t s) := by
  intro x s' h
  simp only [matchTok, hb, if_true, GS.strat, ES.bailMatchToken, Option.map_eq_some_iff, Prod.exists,
    Option.bind_eq_some_iff, Prod.mk.injEq] at h
  obtain ⟨r, e, ⟨tok, -, h⟩, rfl, rfl⟩ := h
  split at h
  · simp only [Option.map_eq_some_iff, Prod.mk.injEq, ES.bailReportMatch] at h
    obtain ⟨e', h, _, rfl⟩ := h
    exact ((consume_quiet h).1.1).trans (eofFlag_quiet _ _).1
  · simp only [Option.bind_eq_some_iff, Prod.exists] at h
    obtain ⟨r, s1, h1, h2⟩ := h
    obtain ⟨rfl, e', rfl⟩ := bailInline_quiet h1
    simp at h2

theorem still_matchAny (s : GS I S) : Still s (matchAny C s) := by
  intro x s' h
  simp only [matchAny, hb, if_true, GS.strat, bailMatchWildcard, Option.map_eq_some_iff, Prod.exists,
    Option.bind_eq_some_iff, Prod.mk.injEq] at h
  obtain ⟨r, e, ⟨tok, -, h⟩, rfl, rfl⟩ := h
  split at h
  · simp only [Option.map_eq_some_iff, Prod.mk.injEq, ES.bailReportMatch] at h
    obtain ⟨e', h, _, rfl⟩ := h
    exact (consume_quiet h).1.1
  · simp only [Option.bind_eq_some_iff, Prod.exists] at h
    obtain ⟨r, s1, h1, h2⟩ := h
    obtain ⟨rfl, e', rfl⟩ := bailInline_quiet h1
    simp at h2

theorem still_matchSet (ts : List Int) (invert : Bool) (s : GS I S) :
    Still s (matchSet C ts invert s) := by
  intro x s' h
  simp only [matchSet, hb, if_true, Option.bind_eq_some_iff, Prod.exists] at h
  obtain ⟨t, p, h1, h2⟩ := h
  have q1 := (mild_la h1).1
  have q1' : reports (⟨s.es.eh, p⟩ : ES I) = reports s.es := (quiet_same (s := s.es) (la_same h1)).1
  split at h2
  · simp only [Option.bind_eq_some_iff, Prod.exists, Option.map_eq_some_iff, Prod.mk.injEq] at h2
    obtain ⟨t', p', h3, e, h4, _, rfl⟩ := h2
    have q2 : reports (⟨s.es.eh, p'⟩ : ES I) = reports (⟨s.es.eh, p⟩ : ES I) :=
      (quiet_same (s := ⟨s.es.eh, p⟩) (la_same h3)).1
    have q3 := (consume_quiet h4).1.1
    simp only [ES.bailReportMatch] at q3
    refine q3.trans (Eq.trans ?_ (q2.trans q1'))
    split <;> rfl
  · simp only [Option.map_eq_some_iff, Prod.exists, Prod.mk.injEq] at h2
    obtain ⟨r, e, h3, h4, rfl⟩ := h2
    obtain ⟨-, y, rfl⟩ := bailInline_quiet h3
    simp [Except.map] at h4

theorem still_choose (m : Nat) (ch : Choice) (s : GS I S) : Still s (choose C m ch s) := by
  intro x s' h
  cases ch with
  | predict d =>
    simp only [choose, Option.map_eq_some_iff, Prod.mk.injEq] at h
    obtain ⟨y, _, _, rfl⟩ := h
    rfl
  | look sets other =>
    simp only [choose, Option.bind_eq_some_iff, Prod.exists] at h
    obtain ⟨t, p, h1, h2⟩ := h
    have q1' : reports (⟨s.es.eh, p⟩ : ES I) = reports s.es := (quiet_same (s := s.es) (la_same h1)).1
    split at h2
    · exact (Still.ret _ _ _ _ h2).trans q1'
    · exact (Still.ret _ _ _ _ h2).trans q1'
    · exact (noViable_not_ok h2).elim

theorem still_head (m : Nat) (st : Int) (ch : Choice) (s : GS I S) : Still s (head C m st ch s) :=
  Still.state (st := st) (.andThen (still_sync hb m _) fun _ s1 => still_choose hb m ch s1)

theorem still_select {α : Type} (m : Nat) (sel : Option (Int × Choice)) (alts : List α) (s : GS I S) :
    Still s (select C m sel alts s) := by
  unfold select
  split
  · exact .ret _ _
  · exact .andThen (still_head hb _ _ _ _) fun _ _ => .ret _ _

theorem finish_bail {m : Nat} {x : Except PErr Unit} {s s' : GS I S}
    (h : finish C m (x, s) = some (.ok (), s')) : x = .ok () ∧ s' = s := by
  simp only [finish, hb, if_true, GS.strat, Option.map_eq_some_iff, Prod.exists, Prod.mk.injEq] at h
  obtain ⟨r, e1, e, rfl, rfl⟩ := h
  unfold ES.bailRuleEnd at e
  split at e
  · simp only [Option.some.injEq, Prod.mk.injEq] at e
    obtain ⟨-, rfl⟩ := e
    exact ⟨rfl, rfl⟩
  · simp at e
  · simp only [Option.bind_eq_some_iff, ES.bailRecover, Option.map_eq_some_iff, Prod.mk.injEq] at e
    obtain ⟨_, _, _, _, h, _⟩ := e
    cases h

theorem still_precGuard (o : OpAlt) (s : GS I S) : Still s (precGuard C o s) := by
  unfold precGuard
  split
  · exact .ret _ _
  · exact still_failed _ _

theorem still_all (m : Nat) :
    (∀ c s, Still s (run C m c s)) ∧
    (∀ back ch exit bodyAlt body k s, Still s (loop C m back ch exit bodyAlt body k s)) ∧
    (∀ back ch exit bodyAlt body k s, Still s (plusLoop C m back ch exit bodyAlt body k s)) ∧
    (∀ r q s, Still s (runRule C m r q s)) ∧
    (∀ r start parent inv back ch opSel ops k s,
      Still s (opLoop C m r start parent inv back ch opSel ops k s)) := by
  induction m with
  | zero =>
    refine ⟨?_, ?_, ?_, ?_, ?_⟩ <;> intros
    · rw [run]; exact .none _
    · rw [loop]; exact .none _
    · rw [plusLoop]; exact .none _
    · rw [runRule]; exact .none _
    · rw [opLoop]; exact .none _
  | succ m ih =>
    obtain ⟨i1, i2, i3, i4, i5⟩ := ih
    refine ⟨?_, ?_, ?_, ?_, ?_⟩
    · intro c s
      cases c with
      | nop => rw [run]; exact .ret _ _
      | seq a b => rw [run]; exact .andThen (i1 _ _) fun _ _ => i1 _ _
      | tok st t => rw [run]; exact Still.state (st := st) (.andThen (still_matchTok hb _ _) fun _ _ => .ret _ _)
      | set st ts inv => rw [run]; exact Still.state (st := st) (still_matchSet hb _ _ _)
      | any st => rw [run]; exact Still.state (st := st) (.andThen (still_matchAny hb _) fun _ _ => .ret _ _)
      | call st r q => rw [run]; exact Still.state (st := st) (.andThen (i4 _ _ _) fun _ _ => .ret _ _)
      | guard st k msg =>
        rw [run]
        exact Still.state (st := st) (still_ite (.ret _ _) (still_failed _ _))
      | block st ch alts =>
        rw [run]
        refine .andThen (still_head hb _ _ _ _) fun k s1 => ?_
        split
        · exact i1 _ _
        · exact .ret _ _
      | opt st ch off alts =>
        rw [run]
        refine .andThen (still_head hb _ _ _ _) fun k s1 => ?_
        split
        · exact i1 _ _
        · exact .ret _ _
      | star st back ch exit bodyAlt body =>
        rw [run]
        exact .andThen (still_head hb _ _ _ _) fun k s1 => i2 _ _ _ _ _ _ _
      | plus st back ch exit bodyAlt body =>
        rw [run]
        exact Still.state (st := st) (.andThen (still_sync hb _ _) fun k s1 => i3 _ _ _ _ _ _ _)
    · intro back ch exit bodyAlt body k s
      rw [loop]
      refine still_ite (.ret _ _) (.andThen (still_ite (i1 _ _) (.ret _ _)) fun _ s1 => ?_)
      exact .andThen (still_head hb _ _ _ _) fun k s1 => i2 _ _ _ _ _ _ _
    · intro back ch exit bodyAlt body k s
      rw [plusLoop]
      refine .andThen (still_ite (i1 _ _) (still_noViable _)) fun _ s1 => ?_
      exact .andThen (still_head hb _ _ _ _) fun k s1 => still_ite (.ret _ _) (i3 _ _ _ _ _ _ _)
    · intro r q s
      rw [runRule]
      split
      · exact .none _
      · refine .andThen (still_act fun p p' h => (count_op (.enterRule _ _) rfl (p := (p.alloc r none p.ctx p.state).2) h).trans rfl) fun _ s1 => ?_
        intro x s' h
        simp only [Option.bind_eq_some_iff, Prod.exists] at h
        obtain ⟨y, s2, h1, h2⟩ := h
        rcases andThen_some.1 h2 with ⟨_, s3, e1, e2⟩ | ⟨e, _, e1⟩
        · obtain ⟨rfl, rfl⟩ := finish_bail hb e1
          have m1 : reports s3.es = reports s1.es := by
            refine Still.andThen (still_select hb _ _ _ _) (fun a s3 => ?_) _ _ h1
            split
            · exact .ret _ _
            · exact .andThen (still_act (enterAlt_count _ _)) fun _ _ => i1 _ _
          refine Eq.trans ?_ m1
          exact Still.andThen (still_act fun p p' h => count_op .exitRule rfl h) (fun _ _ => .ret _ _) _ _ e2
        · cases e1
      · refine .andThen (still_act fun p p' h => (count_op (.enterRecursionRule _ _ _) rfl (p := (p.alloc r none p.ctx p.state).2) h).trans rfl)
          fun _ s1 => ?_
        intro x s' h
        simp only [Option.bind_eq_some_iff, Prod.exists] at h
        obtain ⟨y, s2, h1, h2⟩ := h
        rcases andThen_some.1 h2 with ⟨_, s3, e1, e2⟩ | ⟨e, _, e1⟩
        · obtain ⟨rfl, rfl⟩ := finish_bail hb e1
          have m1 : reports s3.es = reports s1.es := by
            refine Still.andThen (still_act (f := fun p => p.enterOuterAlt none) fun p p' h => count_op (.enterOuterAlt none) rfl h)
              (fun _ s3 => ?_) _ _ h1
            refine .andThen (still_select hb _ _ _ _) fun a s4 => ?_
            refine .andThen ?_ fun _ s5 => ?_
            · split
              · exact .ret _ _
              · exact .andThen (still_act (replaceCtx_count _ _)) fun _ _ => i1 _ _
            · refine .andThen (still_act setStopTok_count) fun _ s6 => ?_
              exact .andThen (still_head hb _ _ _ _) fun k s7 => i5 _ _ _ _ _ _ _ _ _ _
          refine Eq.trans ?_ m1
          exact Still.andThen (still_act fun p p' h => count_op (.unrollRecursionContext s.es.p.ctx) rfl h)
            (fun _ _ => .ret _ _) _ _ e2
        · cases e1
    · intro r start parent inv back ch opSel ops k s
      rw [opLoop]
      refine still_ite (.ret _ _) (.andThen (still_ite ?_ (.ret _ _)) fun _ s1 => ?_)
      · refine .andThen (still_act fun p p' h => (same_triggerExit h).2.2.2) fun _ s1 => ?_
        refine .andThen (still_select hb _ _ _ _) fun o s2 => ?_
        split
        · exact .ret _ _
        · refine .andThen (still_act (pushCtx_count _ _ _ _ _)) fun _ s3 => ?_
          exact Still.state (.andThen (still_precGuard hb _ _) fun _ s4 => i1 _ _)
      · exact .andThen (still_head hb _ _ _ _) fun k s7 => i5 _ _ _ _ _ _ _ _ _ _

end
end Antlr.Gen
