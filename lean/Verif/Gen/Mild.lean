import Verif.Gen.Model
import Verif.ErrorStrategy.History

/-! # Generated code reports before it recovers -/

namespace Antlr.Gen
open Antlr ParserProps ErrorProps

set_option linter.unusedSectionVars false
variable {I S : Type} [TokStream I] {C : Cfg I S}

/-- The count of errors does not fall; if it stays, a parser that was not recovering is still not. -/
def Mild (s s' : GS I S) : Prop :=
  reports s.es ≤ reports s'.es ∧
    (s.es.eh.mode = false → reports s'.es = reports s.es → s'.es.eh.mode = false)

def MildO {α : Type} (s : GS I S) (r : Out I S α) : Prop :=
  ∀ x s', r = some (x, s') → Mild s s'

theorem Mild.refl (s : GS I S) : Mild s s := ⟨Nat.le_refl _, fun h _ => h⟩

theorem Mild.trans {a b c : GS I S} (h1 : Mild a b) (h2 : Mild b c) : Mild a c := by
  obtain ⟨a1, a2⟩ := h1
  obtain ⟨b1, b2⟩ := h2
  exact ⟨by omega, fun h e => b2 (a2 h (by omega)) (by omega)⟩

theorem Mild.ofReports {s s' : GS I S} (h : Reports s.es s'.es) : Mild s s' := by
  rcases h with h | h
  · exact ⟨Nat.le_of_eq h.1.symm, fun hm _ => by rw [h.2, hm]⟩
  · exact ⟨by omega, fun _ e => by omega⟩

theorem Mild.ofQuiet {s s' : GS I S} (h : Quiet s.es s'.es) : Mild s s' := .ofReports (.inl h)

theorem Mild.ofAccepted {s s' : GS I S} (h : Accepted s.es s'.es) : Mild s s' := by
  obtain ⟨a, b⟩ := h
  exact ⟨by omega, fun _ _ => a⟩

theorem andThen_some {α β : Type} {r : Out I S α} {f : α → GS I S → Out I S β} {x : Except PErr β}
    {s' : GS I S} : andThen r f = some (x, s') ↔
      (∃ a s1, r = some (.ok a, s1) ∧ f a s1 = some (x, s')) ∨
      (∃ e, r = some (.error e, s') ∧ x = .error e) := by
  unfold andThen
  cases r with
  | none => simp
  | some y =>
    obtain ⟨z, s1⟩ := y
    cases z with
    | ok a => simp
    | error e =>
      simp only [Option.bind_some, Option.some.injEq, Prod.mk.injEq]
      constructor
      · rintro ⟨rfl, rfl⟩; exact .inr ⟨e, ⟨rfl, rfl⟩, rfl⟩
      · rintro (⟨a, s1, ⟨h, -⟩, -⟩ | ⟨e', ⟨h, h'⟩, h2⟩)
        · cases h
        · cases h; cases h'; exact ⟨h2.symm, rfl⟩

theorem MildO.andThen {α β : Type} {s : GS I S} {r : Out I S α} {f : α → GS I S → Out I S β}
    (h1 : MildO s r) (h2 : ∀ a s1, MildO s1 (f a s1)) : MildO s (andThen r f) := by
  intro x s' h
  rcases andThen_some.1 h with ⟨a, s1, e1, e2⟩ | ⟨e, e1, _⟩
  · exact (h1 _ _ e1).trans (h2 _ _ _ _ e2)
  · exact h1 _ _ e1

theorem MildO.ret {α : Type} (s : GS I S) (a : α) : MildO s (ret a s) := by
  intro x s' h
  simp only [Gen.ret, Option.some.injEq, Prod.mk.injEq] at h
  rw [← h.2]; exact .refl _

theorem MildO.none {α : Type} (s : GS I S) : MildO (α := α) s none := by
  intro x s' h; cases h

theorem Mild.then {α : Type} {s s1 : GS I S} {r : Out I S α} (h1 : Mild s s1) (h2 : MildO s1 r) :
    MildO s r := fun x s' h => h1.trans (h2 x s' h)

theorem mild_setState (s : GS I S) (st : Int) : Mild s (s.setState st) := .ofQuiet ⟨rfl, rfl⟩

theorem mild_act {s : GS I S} {f : P I → Option (P I)}
    (hf : ∀ p p', f p = some p' → p'.syntaxErrors = p.syntaxErrors) : MildO s (s.act f) := by
  intro x s' h
  simp only [GS.act, Option.map_eq_some_iff, Prod.mk.injEq] at h
  obtain ⟨p, h, _, rfl⟩ := h
  exact .ofQuiet ⟨hf _ _ h, rfl⟩

theorem mild_strat {α : Type} {s : GS I S} {r : Option (Except PErr α × ES I)}
    (hr : ∀ x e, r = some (x, e) → Reports s.es e ∨ Accepted s.es e) : MildO s (s.strat r) := by
  intro x s' h
  simp only [GS.strat, Option.map_eq_some_iff, Prod.mk.injEq] at h
  obtain ⟨⟨y, e⟩, h, rfl, rfl⟩ := h
  rcases hr _ _ h with h | h
  · exact .ofReports h
  · exact .ofAccepted h

theorem bailInline_quiet {s s' : ES I} {r : Except PErr Tok}
    (h : ES.bailRecoverInline s = some (r, s')) : s' = s ∧ ∃ e, r = .error (.fallThrough e) := by
  simp only [ES.bailRecoverInline, ES.processError, Option.bind_eq_some_iff, Option.map_eq_some_iff,
    Prod.mk.injEq] at h
  obtain ⟨e, _, e2, ⟨c, _, u, _, rfl⟩, rfl, rfl⟩ := h
  exact ⟨rfl, e, rfl⟩

theorem opStep {env : EEnv I} {fuel : Nat} {s s' : ES I} {op : EOp}
    (h : op.run env fuel s = some s') : Reports s s' ∨ Accepted s s' := by
  rcases op_step h with h | h
  · exact .inl h.2
  · exact .inr h.2

theorem mild_sync (m : Nat) (s : GS I S) : MildO s (sync C m s) := by
  refine mild_strat fun x e h => ?_
  split at h
  · simp only [ES.bailSync, Option.some.injEq, Prod.mk.injEq] at h
    rw [← h.2]; exact .inl (.inl (.refl _))
  · exact opStep (op := .sync) (env := C.env) (fuel := m) (by simp [EOp.run, h])

theorem eofFlag_quiet (s : ES I) (b : Prop) [Decidable b] :
    Quiet s (if b then { s with p := { s.p with matchedEof := true } } else s) := by
  split <;> exact ⟨rfl, rfl⟩

theorem mild_matchTok (t : Int) (s : GS I S) : MildO s (matchTok C t s) := by
  refine mild_strat fun x e h => ?_
  split at h
  · simp only [ES.bailMatchToken, Option.bind_eq_some_iff] at h
    obtain ⟨tok, _, h⟩ := h
    split at h
    · simp only [Option.map_eq_some_iff, Prod.mk.injEq, ES.bailReportMatch] at h
      obtain ⟨e', h, _, rfl⟩ := h
      exact .inl (.inl ((eofFlag_quiet _ _).trans (consume_quiet h).1))
    · simp only [Option.bind_eq_some_iff, Prod.exists] at h
      obtain ⟨r, s1, h1, h2⟩ := h
      obtain ⟨rfl, e', rfl⟩ := bailInline_quiet h1
      simp only [Option.some.injEq, Prod.mk.injEq] at h2
      rw [← h2.2]; exact .inl (.inl (.refl _))
  · exact opStep (op := .matchToken t) (env := C.env) (fuel := 0) (by simp [EOp.run, h])

theorem mild_matchAny (s : GS I S) : MildO s (matchAny C s) := by
  refine mild_strat fun x e h => ?_
  split at h
  · simp only [bailMatchWildcard, Option.bind_eq_some_iff] at h
    obtain ⟨tok, _, h⟩ := h
    split at h
    · simp only [Option.map_eq_some_iff, Prod.mk.injEq, ES.bailReportMatch] at h
      obtain ⟨e', h, _, rfl⟩ := h
      exact .inl (.inl (consume_quiet h).1)
    · simp only [Option.bind_eq_some_iff, Prod.exists] at h
      obtain ⟨r, s1, h1, h2⟩ := h
      obtain ⟨rfl, e', rfl⟩ := bailInline_quiet h1
      simp only [Option.some.injEq, Prod.mk.injEq] at h2
      rw [← h2.2]; exact .inl (.inl (.refl _))
  · exact opStep (op := .matchWildcard) (env := C.env) (fuel := 0) (by simp [EOp.run, h])

theorem mild_la {s : GS I S} {k t : Int} {p : P I} (h : s.es.p.la k = some (t, p)) :
    Mild s { s with es := { s.es with p } } :=
  .ofQuiet (quiet_same (la_same h))

theorem mild_matchSet (ts : List Int) (invert : Bool) (s : GS I S) :
    MildO s (matchSet C ts invert s) := by
  intro x s' h
  simp only [matchSet, Option.bind_eq_some_iff, Prod.exists] at h
  obtain ⟨t, p, h1, h2⟩ := h
  refine (mild_la h1).trans ?_
  split at h2
  · simp only [Option.bind_eq_some_iff, Prod.exists, Option.map_eq_some_iff, Prod.mk.injEq] at h2
    obtain ⟨t', p', h3, e, h4, -, rfl⟩ := h2
    have q1 : Quiet (⟨s.es.eh, p⟩ : ES I) ⟨s.es.eh, p'⟩ := quiet_same (la_same h3)
    have q2 : Quiet (⟨s.es.eh, p'⟩ : ES I)
        ⟨s.es.eh, if t' = TOKEN_EOF then { p' with matchedEof := true } else p'⟩ := by
      split <;> exact ⟨rfl, rfl⟩
    have q3 := (consume_quiet h4).1
    split at q3
    · exact .ofQuiet ((q1.trans q2).trans q3)
    · refine .ofAccepted ⟨?_, .inl ?_⟩
      · rw [q3.2]; rfl
      · rw [q3.1]; exact (q1.trans q2).1
  · simp only [Option.map_eq_some_iff, Prod.exists, Prod.mk.injEq] at h2
    obtain ⟨r, e, h3, -, rfl⟩ := h2
    split at h3
    · rw [(bailInline_quiet h3).1]; exact .refl _
    · rcases opStep (op := .recoverInline) (env := C.env) (fuel := 0) (s := ⟨s.es.eh, p⟩) (s' := e)
        (by simp [EOp.run, h3]) with h | h
      · exact .ofReports h
      · exact .ofAccepted h

theorem mild_noViable {α : Type} (s : GS I S) : MildO (α := α) s (noViable s) := by
  intro x s' h
  simp only [noViable, Option.bind_eq_some_iff, Option.map_eq_some_iff, Prod.mk.injEq] at h
  obtain ⟨_, _, _, _, _, rfl⟩ := h
  exact .refl _

theorem mild_failed {α : Type} (msg : List Char) (s : GS I S) :
    MildO (α := α) s (failedPredicate C msg s) := by
  intro x s' h
  simp only [failedPredicate, Option.bind_eq_some_iff, Option.map_eq_some_iff, Prod.mk.injEq] at h
  obtain ⟨_, _, _, _, _, _, _, rfl⟩ := h
  exact .refl _

theorem mild_choose (m : Nat) (ch : Choice) (s : GS I S) : MildO s (choose C m ch s) := by
  cases ch with
  | predict d =>
    intro x s' h
    simp only [choose, Option.map_eq_some_iff, Prod.mk.injEq] at h
    obtain ⟨_, _, _, rfl⟩ := h
    exact .ofQuiet ⟨rfl, rfl⟩
  | look sets other =>
    intro x s' h
    simp only [choose, Option.bind_eq_some_iff, Prod.exists] at h
    obtain ⟨t, p, h1, h2⟩ := h
    refine (mild_la h1).trans ?_
    split at h2
    · exact MildO.ret _ _ _ _ h2
    · exact MildO.ret _ _ _ _ h2
    · exact mild_noViable _ _ _ h2

theorem mild_head (m : Nat) (st : Int) (ch : Choice) (s : GS I S) : MildO s (head C m st ch s) :=
  (mild_setState s st).then (.andThen (mild_sync m _) fun _ _ => mild_choose m ch _)

theorem mild_select {α : Type} (m : Nat) (sel : Option (Int × Choice)) (alts : List α) (s : GS I S) :
    MildO s (select C m sel alts s) := by
  unfold select
  split
  · exact .ret _ _
  · exact .andThen (mild_head _ _ _ _) fun _ _ => .ret _ _

theorem mild_finish (m : Nat) (r : Except PErr Unit × GS I S) : MildO r.2 (finish C m r) := by
  refine mild_strat fun x e h => ?_
  obtain ⟨r, s⟩ := r
  simp only at h
  split at h
  · unfold ES.bailRuleEnd at h
    split at h
    · simp only [Option.some.injEq, Prod.mk.injEq] at h
      rw [← h.2]; exact .inl (.inl (.refl _))
    · simp only [Option.some.injEq, Prod.mk.injEq] at h
      rw [← h.2]; exact .inl (.inl (.refl _))
    · simp only [Option.bind_eq_some_iff, ES.bailRecover, Option.map_eq_some_iff, Prod.mk.injEq] at h
      obtain ⟨s1, h1, _, _, _, rfl⟩ := h
      exact .inl (once_reports (reportError_reports h1))
  · unfold ES.ruleEnd at h
    split at h
    · simp only [Option.some.injEq, Prod.mk.injEq] at h
      rw [← h.2]; exact .inl (.inl (.refl _))
    · simp only [Option.some.injEq, Prod.mk.injEq] at h
      rw [← h.2]; exact .inl (.inl (.refl _))
    · simp only [Option.bind_eq_some_iff, Option.map_eq_some_iff, Prod.mk.injEq] at h
      obtain ⟨s1, h1, s2, h2, _, rfl⟩ := h
      exact .inl ((once_reports (reportError_reports h1)).quiet (recover_quiet h2))

/-! ## Parser functions report nothing -/

theorem count_op (x : POp) (hx : x.reports = []) {p p' : P I} (h : x.run p = some p') :
    p'.syntaxErrors = p.syntaxErrors := by
  have := (op_effect x h).2.2.1
  simpa [hx] using this

theorem labelled_count {p : P I} {l : Option Nat} {c : Nat} {r : Option Nat × P I}
    (h : p.labelled l c = some r) : r.2.syntaxErrors = p.syntaxErrors := by
  cases l with
  | none => simp only [P.labelled, Option.some.injEq] at h; rw [← h]
  | some l =>
    simp only [P.labelled, P.copyFrom, Option.map_map, Option.map_eq_some_iff] at h
    obtain ⟨_, _, rfl⟩ := h
    rfl

theorem enterAlt_count (l : Option Nat) (c : Nat) (p p' : P I) (h : enterAlt l c p = some p') :
    p'.syntaxErrors = p.syntaxErrors := by
  simp only [enterAlt, Option.bind_eq_some_iff] at h
  obtain ⟨r, h1, h2⟩ := h
  rw [count_op (.enterOuterAlt r.1) rfl h2, labelled_count h1]

theorem replaceCtx_count (l : Option Nat) (c : Nat) (p p' : P I) (h : replaceCtx l c p = some p') :
    p'.syntaxErrors = p.syntaxErrors := by
  simp only [replaceCtx, Option.map_eq_some_iff] at h
  obtain ⟨r, h1, rfl⟩ := h
  rw [← labelled_count h1]
  unfold P.useLabel
  split <;> rfl

theorem setStopTok_count (p p' : P I) (h : setStopTok p = some p') :
    p'.syntaxErrors = p.syntaxErrors := by
  simp only [setStopTok, Option.bind_eq_some_iff] at h
  obtain ⟨r, h1, i, _, h2⟩ := h
  rw [(same_modify h2).2.2.2, (same_lt h1).2.2.2]

theorem pushCtx_count (r : Nat) (l o : Option Nat) (inv st : Int) (p p' : P I)
    (h : pushCtx r l o inv st p = some p') : p'.syntaxErrors = p.syntaxErrors := by
  unfold pushCtx at h
  have := count_op (.pushNewRecursionContext _ _) rfl h
  exact this

theorem mild_precGuard (o : OpAlt) (s : GS I S) : MildO s (precGuard C o s) := by
  unfold precGuard
  split
  · exact .ret _ _
  · exact mild_failed _ _

theorem mild_ite {α : Type} {c : Prop} [Decidable c] {s : GS I S} {a b : Out I S α}
    (h1 : MildO s a) (h2 : MildO s b) : MildO s (if c then a else b) := by
  split
  · exact h1
  · exact h2

/-! ## The interpreter -/

theorem mild_all (m : Nat) :
    (∀ c s, MildO s (run C m c s)) ∧
    (∀ back ch exit bodyAlt body k s, MildO s (loop C m back ch exit bodyAlt body k s)) ∧
    (∀ back ch exit bodyAlt body k s, MildO s (plusLoop C m back ch exit bodyAlt body k s)) ∧
    (∀ r q s, MildO s (runRule C m r q s)) ∧
    (∀ r start parent inv back ch opSel ops k s,
      MildO s (opLoop C m r start parent inv back ch opSel ops k s)) := by
  induction m with
  | zero =>
    refine ⟨?_, ?_, ?_, ?_, ?_⟩ <;> intros
    · rw [run]; exact .none _
    · rw [loop]; exact .none _
    · rw [plusLoop]; exact .none _
    · rw [runRule]; exact .none _
    · rw [opLoop]; exact .none _
  | succ m ih =>
    obtain ⟨i1, i2, i3, i4, i5⟩ := ih
    refine ⟨?_, ?_, ?_, ?_, ?_⟩
    · intro c s
      cases c with
      | nop => rw [run]; exact .ret _ _
      | seq a b => rw [run]; exact .andThen (i1 _ _) fun _ _ => i1 _ _
      | tok st t => rw [run]; exact (mild_setState s st).then (.andThen (mild_matchTok _ _) fun _ _ => .ret _ _)
      | set st ts inv => rw [run]; exact (mild_setState s st).then (mild_matchSet _ _ _)
      | any st => rw [run]; exact (mild_setState s st).then (.andThen (mild_matchAny _) fun _ _ => .ret _ _)
      | call st r q => rw [run]; exact (mild_setState s st).then (.andThen (i4 _ _ _) fun _ _ => .ret _ _)
      | guard st k msg =>
        rw [run]
        exact (mild_setState s st).then (mild_ite (.ret _ _) (mild_failed _ _))
      | block st ch alts =>
        rw [run]
        refine .andThen (mild_head _ _ _ _) fun k s1 => ?_
        split
        · exact i1 _ _
        · exact .ret _ _
      | opt st ch off alts =>
        rw [run]
        refine .andThen (mild_head _ _ _ _) fun k s1 => ?_
        split
        · exact i1 _ _
        · exact .ret _ _
      | star st back ch exit bodyAlt body =>
        rw [run]
        exact .andThen (mild_head _ _ _ _) fun k s1 => i2 _ _ _ _ _ _ _
      | plus st back ch exit bodyAlt body =>
        rw [run]
        exact (mild_setState s st).then (.andThen (mild_sync _ _) fun k s1 => i3 _ _ _ _ _ _ _)
    · intro back ch exit bodyAlt body k s
      rw [loop]
      refine mild_ite (.ret _ _) (.andThen (mild_ite (i1 _ _) (.ret _ _)) fun _ s1 => ?_)
      exact .andThen (mild_head _ _ _ _) fun k s1 => i2 _ _ _ _ _ _ _
    · intro back ch exit bodyAlt body k s
      rw [plusLoop]
      refine .andThen (mild_ite (i1 _ _) (mild_noViable _)) fun _ s1 => ?_
      exact .andThen (mild_head _ _ _ _) fun k s1 => mild_ite (.ret _ _) (i3 _ _ _ _ _ _ _)
    · intro r q s
      rw [runRule]
      split
      · exact .none _
      · refine .andThen (mild_act fun p p' h => (count_op (.enterRule _ _) rfl (p := (p.alloc r none p.ctx p.state).2) h).trans rfl) fun _ s1 => ?_
        intro x s' h
        simp only [Option.bind_eq_some_iff, Prod.exists] at h
        obtain ⟨y, s2, h1, h2⟩ := h
        have m1 : Mild s1 s2 := by
          refine MildO.andThen (mild_select _ _ _ _) (fun a s3 => ?_) _ _ h1
          split
          · exact .ret _ _
          · exact .andThen (mild_act (enterAlt_count _ _)) fun _ _ => i1 _ _
        refine m1.trans (MildO.andThen (mild_finish _ _) (fun _ s3 => ?_) _ _ h2)
        exact .andThen (mild_act fun p p' h => count_op .exitRule rfl h) fun _ _ => .ret _ _
      · refine .andThen (mild_act fun p p' h => (count_op (.enterRecursionRule _ _ _) rfl (p := (p.alloc r none p.ctx p.state).2) h).trans rfl)
          fun _ s1 => ?_
        intro x s' h
        simp only [Option.bind_eq_some_iff, Prod.exists] at h
        obtain ⟨y, s2, h1, h2⟩ := h
        have m1 : Mild s1 s2 := by
          refine MildO.andThen (mild_act (f := fun p => p.enterOuterAlt none) fun p p' h => count_op (.enterOuterAlt none) rfl h)
            (fun _ s3 => ?_) _ _ h1
          refine .andThen (mild_select _ _ _ _) fun a s4 => ?_
          refine .andThen ?_ fun _ s5 => ?_
          · split
            · exact .ret _ _
            · exact .andThen (mild_act (replaceCtx_count _ _)) fun _ _ => i1 _ _
          · refine .andThen (mild_act setStopTok_count) fun _ s6 => ?_
            exact .andThen (mild_head _ _ _ _) fun k s7 => i5 _ _ _ _ _ _ _ _ _ _
        refine m1.trans (MildO.andThen (mild_finish _ _) (fun _ s3 => ?_) _ _ h2)
        exact .andThen (mild_act fun p p' h => count_op (.unrollRecursionContext s.es.p.ctx) rfl h)
          fun _ _ => .ret _ _
    · intro r start parent inv back ch opSel ops k s
      rw [opLoop]
      refine mild_ite (.ret _ _) (.andThen (mild_ite ?_ (.ret _ _)) fun _ s1 => ?_)
      · refine .andThen (mild_act fun p p' h => (same_triggerExit h).2.2.2) fun _ s1 => ?_
        refine .andThen (mild_select _ _ _ _) fun o s2 => ?_
        split
        · exact .ret _ _
        · refine .andThen (mild_act (pushCtx_count _ _ _ _ _)) fun _ s3 => ?_
          exact (mild_setState _ _).then (.andThen (mild_precGuard _ _) fun _ s4 => i1 _ _)
      · exact .andThen (mild_head _ _ _ _) fun k s7 => i5 _ _ _ _ _ _ _ _ _ _

end Antlr.Gen
