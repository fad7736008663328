import Verif.ErrorStrategy.Model
import Verif.Parser.HistoryProps

/-!
# Histories of the error strategy: property C44
-/

namespace Antlr.ErrorProps
open Antlr ParserProps

variable {I : Type} [TokStream I]

/-- Everything that happens to a parser with the default strategy: the calls of the strategy made by
generated code, `match_token`, `match_wildcard`, and the parser operations of `POp` that are not
reports. -/
inductive EOp where
  | reportError (e : PErr)
  | reportMatch
  | recoverInline
  | sync
  | recover
  | consume
  | matchToken (ttype : Int)
  | matchWildcard
  | parser (o : POp) (h : o.reports = [])

def EOp.run (env : EEnv I) (fuel : Nat) (s : ES I) : EOp → Option (ES I)
  | .reportError e => s.reportError env e
  | .reportMatch => some s.reportMatch
  | .recoverInline => (s.recoverInline env).map (·.2)
  | .sync => (s.sync env fuel).map (·.2)
  | .recover => s.recover env fuel
  | .consume => s.consume
  | .matchToken t => (s.matchToken env t).map (·.2)
  | .matchWildcard => (s.matchWildcard env).map (·.2)
  | .parser o _ => (o.run s.p).map fun p => { s with p }

/-- The token after the current one is expected, so that the current one is deleted. -/
def Deletes (env : EEnv I) (s : ES I) : Prop :=
  ∃ next p E, s.p.la 2 = some (next, p) ∧ p.getExpectedTokens env = some E ∧
    E.contains next = true

/-- `sync` at a block or loop entry with an unexpected token that is to be deleted. -/
def SyncDeletes (env : EEnv I) (s : ES I) : Prop :=
  s.eh.mode = false ∧ ∃ next p st nt, s.p.la 1 = some (next, p) ∧
    env.atn.stateAt p.state = some st ∧ nextTokens env.atn env.fuel p.state.toNat = some nt ∧
    nt.contains next = false ∧ nt.contains TOKEN_EPSILON = false ∧
    ES.syncKind st.stateType = some false ∧ Deletes env ⟨s.eh, p⟩

/-- The operation makes the parser happy again: a token was matched, or deleted because the token
after it is expected. -/
def Accepts (env : EEnv I) (s : ES I) : EOp → Prop
  | .reportMatch => True
  | .recoverInline => Deletes env s
  | .sync => SyncDeletes env s
  | .matchToken t => (∃ tok, s.p.getCurrentToken = some tok ∧ tok.ttype = t) ∨ Deletes env s
  | .matchWildcard => (∃ tok, s.p.getCurrentToken = some tok ∧ tok.ttype > 0) ∨ Deletes env s
  | _ => False

/-- A history: each operation with the state before it. -/
inductive Hist (env : EEnv I) (fuel : Nat) : ES I → List (ES I × EOp) → ES I → Prop
  | nil {s} : Hist env fuel s [] s
  | cons {s s1 s' op l} : op.run env fuel s = some s1 → Hist env fuel s1 l s' →
      Hist env fuel s ((s, op) :: l) s'

/-- Number of reports so far. -/
def reports (s : ES I) : Nat := s.p.syntaxErrors

/-! ## Effects of the single functions -/

/-- Nothing reported, mode unchanged. -/
def Quiet (s s' : ES I) : Prop := reports s' = reports s ∧ s'.eh.mode = s.eh.mode

/-- At most one report, none in recovery mode; the mode is on if it was on or a report was made. -/
def Reports (s s' : ES I) : Prop :=
  Quiet s s' ∨ (s.eh.mode = false ∧ reports s' = reports s + 1 ∧ s'.eh.mode = true)

/-- At most one report, none in recovery mode; the mode is off. -/
def Accepted (s s' : ES I) : Prop :=
  s'.eh.mode = false ∧ (reports s' = reports s ∨ (s.eh.mode = false ∧ reports s' = reports s + 1))

theorem Quiet.refl (s : ES I) : Quiet s s := ⟨rfl, rfl⟩
theorem Quiet.trans {a b c : ES I} (h1 : Quiet a b) (h2 : Quiet b c) : Quiet a c :=
  ⟨h2.1.trans h1.1, h2.2.trans h1.2⟩
theorem Quiet.reports {a b c : ES I} (h1 : Quiet a b) (h2 : Reports b c) : Reports a c := by
  rcases h2 with h | ⟨x, y, z⟩
  · exact .inl (h1.trans h)
  · exact .inr ⟨h1.2 ▸ x, by rw [y, h1.1], z⟩
theorem Reports.quiet {a b c : ES I} (h1 : Reports a b) (h2 : Quiet b c) : Reports a c := by
  rcases h1 with h | ⟨x, y, z⟩
  · exact .inl (h.trans h2)
  · exact .inr ⟨x, by rw [h2.1, y], by rw [h2.2, z]⟩

theorem la_same {p p' : P I} {k x : Int} (h : p.la k = some (x, p')) : Same p p' := by
  simp only [P.la, Option.map_eq_some_iff, Prod.mk.injEq] at h
  obtain ⟨r, _, _, rfl⟩ := h
  exact ⟨rfl, rfl, rfl, rfl⟩

theorem notify_count {p p' : P I} {m : List Char} {o : Option Int}
    (h : p.notifyErrorListeners m o = some p') : p'.syntaxErrors = p.syntaxErrors + 1 := by
  simp only [P.notifyErrorListeners, Option.map_eq_some_iff] at h
  obtain ⟨t, _, rfl⟩ := h
  rfl

theorem quiet_same {s : ES I} {p : P I} (h : Same s.p p) : Quiet s { s with p } :=
  ⟨h.2.2.2, rfl⟩

theorem consume_quiet {s s' : ES I} (h : s.consume = some s') : Quiet s s' ∧ s'.eh = s.eh := by
  simp only [ES.consume, Option.map_eq_some_iff] at h
  obtain ⟨p, h, rfl⟩ := h
  exact ⟨quiet_same (same_consume h), rfl⟩

theorem reportError_reports {env : EEnv I} {s s' : ES I} {e : PErr}
    (h : s.reportError env e = some s') :
    (s.eh.mode = true ∧ s' = s) ∨
      (s.eh.mode = false ∧ reports s' = reports s + 1 ∧ s'.eh.mode = true) := by
  unfold ES.reportError at h
  split at h
  · rename_i hm; cases h; exact .inl ⟨hm, rfl⟩
  · rename_i hm
    simp only [Option.bind_eq_some_iff, Option.map_eq_some_iff] at h
    obtain ⟨m, _, p, h, rfl⟩ := h
    exact .inr ⟨by simpa using hm, notify_count h, rfl⟩

theorem reportUnwanted_reports {env : EEnv I} {s s' : ES I} (h : s.reportUnwanted env = some s') :
    (s.eh.mode = true ∧ s' = s) ∨
      (s.eh.mode = false ∧ reports s' = reports s + 1 ∧ s'.eh.mode = true) := by
  unfold ES.reportUnwanted at h
  split at h
  · rename_i hm; cases h; exact .inl ⟨hm, rfl⟩
  · rename_i hm
    simp only [Option.bind_eq_some_iff, Option.map_eq_some_iff] at h
    obtain ⟨_, _, _, _, p, h, rfl⟩ := h
    exact .inr ⟨by simpa using hm, notify_count h, rfl⟩

theorem reportMissing_reports {env : EEnv I} {s s' : ES I} (h : s.reportMissing env = some s') :
    (s.eh.mode = true ∧ s' = s) ∨
      (s.eh.mode = false ∧ reports s' = reports s + 1 ∧ s'.eh.mode = true) := by
  unfold ES.reportMissing at h
  split at h
  · rename_i hm; cases h; exact .inl ⟨hm, rfl⟩
  · rename_i hm
    simp only [Option.bind_eq_some_iff, Option.map_eq_some_iff] at h
    obtain ⟨_, _, _, _, p, h, rfl⟩ := h
    exact .inr ⟨by simpa using hm, notify_count h, rfl⟩

theorem once_reports {s s' : ES I} (h : (s.eh.mode = true ∧ s' = s) ∨
    (s.eh.mode = false ∧ reports s' = reports s + 1 ∧ s'.eh.mode = true)) : Reports s s' := by
  rcases h with ⟨_, rfl⟩ | h
  · exact .inl (.refl _)
  · exact .inr h

theorem deletion_effect {env : EEnv I} {s s' : ES I} {r : Option Tok}
    (h : s.singleTokenDeletion env = some (r, s')) :
    (r = none ∧ ¬ Deletes env s ∧ Quiet s s') ∨
      (r.isSome = true ∧ Deletes env s ∧ Accepted s s') := by
  simp only [ES.singleTokenDeletion, Option.bind_eq_some_iff, Prod.exists] at h
  obtain ⟨next, p, h1, E, h2, h3⟩ := h
  have q1 := quiet_same (s := s) (la_same h1)
  split at h3
  · rename_i hc
    simp only [Option.bind_eq_some_iff, Option.map_eq_some_iff, Prod.mk.injEq] at h3
    obtain ⟨s1, h4, s2, h5, t, _, rfl, rfl⟩ := h3
    refine .inr ⟨rfl, ⟨next, p, E, h1, h2, hc⟩, rfl, ?_⟩
    have q2 := (consume_quiet h5).1
    have e : reports s2.reportMatch = reports s2 := rfl
    rw [e, q2.1]
    rcases reportUnwanted_reports h4 with ⟨_, rfl⟩ | ⟨a, b, _⟩
    · exact .inl q1.1
    · exact .inr ⟨a, by rw [b, q1.1]⟩
  · rename_i hc
    simp only [Option.some.injEq, Prod.mk.injEq] at h3
    obtain ⟨rfl, rfl⟩ := h3
    refine .inl ⟨rfl, ?_, q1⟩
    rintro ⟨n', p', E', a1, a2, a3⟩
    rw [h1] at a1
    simp only [Option.some.injEq, Prod.mk.injEq] at a1
    obtain ⟨rfl, rfl⟩ := a1
    rw [h2] at a2
    cases a2
    exact hc a3

theorem insertion_effect {env : EEnv I} {s s' : ES I} {r : Bool}
    (h : s.singleTokenInsertion env = some (r, s')) : Reports s s' := by
  simp only [ES.singleTokenInsertion, Option.bind_eq_some_iff, Prod.exists] at h
  obtain ⟨cur, p, h1, L, _, h3⟩ := h
  have q1 := quiet_same (s := s) (la_same h1)
  split at h3
  · simp only [Option.map_eq_some_iff, Prod.mk.injEq] at h3
    obtain ⟨s1, h4, _, rfl⟩ := h3
    exact q1.reports (once_reports (reportMissing_reports h4))
  · simp only [Option.some.injEq, Prod.mk.injEq] at h3
    obtain ⟨_, rfl⟩ := h3
    exact .inl q1

theorem recoverInline_effect {env : EEnv I} {s s' : ES I} {r : Except PErr Tok}
    (h : s.recoverInline env = some (r, s')) :
    (¬ Deletes env s ∧ Reports s s') ∨ (Deletes env s ∧ Accepted s s') := by
  simp only [ES.recoverInline, Option.bind_eq_some_iff, Prod.exists] at h
  obtain ⟨t, s1, h1, h2⟩ := h
  rcases deletion_effect h1 with ⟨rfl, hd, hq⟩ | ⟨ht, hd, ha⟩
  · refine .inl ⟨hd, hq.reports ?_⟩
    simp only [Option.bind_eq_some_iff, Prod.exists] at h2
    obtain ⟨b, s2, h3, h4⟩ := h2
    have := insertion_effect h3
    split at h4
    · simp only [Option.map_eq_some_iff, Prod.mk.injEq] at h4
      obtain ⟨_, _, _, rfl⟩ := h4
      exact this
    · simp only [Option.map_eq_some_iff, Prod.mk.injEq] at h4
      obtain ⟨_, _, _, rfl⟩ := h4
      exact this
  · refine .inr ⟨hd, ?_⟩
    cases t with
    | none => simp at ht
    | some t =>
      simp only [Option.map_eq_some_iff, Prod.mk.injEq] at h2
      obtain ⟨s2, h3, _, rfl⟩ := h2
      have q := (consume_quiet h3).1
      exact ⟨by rw [q.2]; exact ha.1, by rw [q.1]; exact ha.2⟩

theorem consumeUntil_quiet {set : IntervalSet} (fuel : Nat) {s s' : ES I}
    (h : ES.consumeUntil set fuel s = some s') : Quiet s s' ∧ s'.eh = s.eh := by
  induction fuel generalizing s with
  | zero => simp [ES.consumeUntil] at h
  | succ fuel ih =>
    simp only [ES.consumeUntil, Option.bind_eq_some_iff, Prod.exists] at h
    obtain ⟨t, p, h1, h2⟩ := h
    have q1 := quiet_same (s := s) (la_same h1)
    split at h2
    · simp only [Option.bind_eq_some_iff] at h2
      obtain ⟨s1, h3, h4⟩ := h2
      obtain ⟨a, b⟩ := consume_quiet h3
      obtain ⟨c, d⟩ := ih h4
      exact ⟨(q1.trans a).trans c, d.trans b⟩
    · cases h2; exact ⟨q1, rfl⟩

theorem recover_quiet {env : EEnv I} {fuel : Nat} {s s' : ES I} (h : s.recover env fuel = some s') :
    Quiet s s' := by
  simp only [ES.recover, Option.bind_eq_some_iff] at h
  obtain ⟨s1, h1, R, _, h2⟩ := h
  have q1 : Quiet s s1 := by
    split at h1
    · exact (consume_quiet h1).1
    · cases h1; exact .refl _
  have q2 := (consumeUntil_quiet fuel h2).1
  exact q1.trans ⟨q2.1, q2.2⟩

theorem sync_effect {env : EEnv I} {fuel : Nat} {s s' : ES I} {r : Except PErr Unit}
    (h : s.sync env fuel = some (r, s')) :
    (¬ SyncDeletes env s ∧ Reports s s') ∨ (SyncDeletes env s ∧ Accepted s s') := by
  unfold ES.sync at h
  split at h
  · rename_i hm
    cases h
    exact .inl ⟨fun hd => by simp [hd.1] at hm, .inl (.refl _)⟩
  rename_i hm
  have hm : s.eh.mode = false := by simpa using hm
  simp only [Option.bind_eq_some_iff, Prod.exists] at h
  obtain ⟨next, p, h1, st, h2, nt, h3, h4⟩ := h
  have q1 := quiet_same (s := s) (la_same h1)
  have no : ∀ hno : nt.contains next = true ∨ nt.contains TOKEN_EPSILON = true ∨
      ES.syncKind st.stateType ≠ some false ∨ ¬ Deletes env ⟨s.eh, p⟩, ¬ SyncDeletes env s := by
    rintro hno ⟨_, n', p', st', nt', a1, a2, a3, a4, a5, a6, a7⟩
    rw [h1] at a1
    simp only [Option.some.injEq, Prod.mk.injEq] at a1
    obtain ⟨rfl, rfl⟩ := a1
    rw [h2] at a2; cases a2
    rw [h3] at a3; cases a3
    rcases hno with h | h | h | h
    · simp [h] at a4
    · simp [h] at a5
    · exact h a6
    · exact h a7
  split at h4
  · rename_i hc
    simp only [Option.some.injEq, Prod.mk.injEq] at h4
    obtain ⟨_, rfl⟩ := h4
    exact .inl ⟨no (.inl hc), .inl ⟨q1.1, rfl⟩⟩
  rename_i hc
  split at h4
  · rename_i he
    refine .inl ⟨no (.inr (.inl he)), .inl ?_⟩
    split at h4
    · simp only [Option.some.injEq, Prod.mk.injEq] at h4
      obtain ⟨_, rfl⟩ := h4
      exact q1
    · simp only [Option.map_eq_some_iff, Prod.mk.injEq] at h4
      obtain ⟨_, _, _, rfl⟩ := h4
      exact ⟨q1.1, rfl⟩
  rename_i he
  split at h4
  · rename_i hk
    simp only [Option.bind_eq_some_iff, Prod.exists] at h4
    obtain ⟨t, s1, h5, h6⟩ := h4
    rcases deletion_effect h5 with ⟨rfl, hd, hq⟩ | ⟨ht, hd, ha⟩
    · refine .inl ⟨no (.inr (.inr (.inr hd))), .inl ?_⟩
      simp only [Option.map_eq_some_iff, Prod.mk.injEq] at h6
      obtain ⟨_, _, _, rfl⟩ := h6
      exact q1.trans hq
    · cases t with
      | none => simp at ht
      | some t =>
        simp only [Option.some.injEq, Prod.mk.injEq] at h6
        obtain ⟨_, rfl⟩ := h6
        refine .inr ⟨⟨hm, next, p, st, nt, h1, h2, h3, by simpa using hc, by simpa using he, hk, hd⟩,
          ha.1, ?_⟩
        rw [← q1.1]
        exact ha.2
  · rename_i hk
    simp only [Option.bind_eq_some_iff, Option.map_eq_some_iff, Prod.mk.injEq] at h4
    obtain ⟨s1, h5, _, _, _, _, s2, h6, _, rfl⟩ := h4
    refine .inl ⟨no (.inr (.inr (.inl (by rw [hk]; simp)))), ?_⟩
    exact (q1.reports (once_reports (reportUnwanted_reports h5))).quiet (consumeUntil_quiet fuel h6).1
  · cases h4

theorem conjured_quiet {s : ES I} {p : P I} {t : Tok} (h : s.p.addConjured t = some p) :
    Quiet s { s with p } := by
  have := (op_effect (.conjure t) (p := s.p) (p' := p) h).2.2.1
  exact ⟨this, rfl⟩

theorem op_step {env : EEnv I} {fuel : Nat} {s s' : ES I} {op : EOp}
    (h : op.run env fuel s = some s') :
    (¬ Accepts env s op ∧ Reports s s') ∨ (Accepts env s op ∧ Accepted s s') := by
  cases op with
  | reportError e => exact .inl ⟨id, once_reports (reportError_reports h)⟩
  | reportMatch => cases h; exact .inr ⟨trivial, rfl, .inl rfl⟩
  | recoverInline =>
    simp only [EOp.run, Option.map_eq_some_iff, Prod.exists] at h
    obtain ⟨r, s1, h, rfl⟩ := h
    exact recoverInline_effect h
  | sync =>
    simp only [EOp.run, Option.map_eq_some_iff, Prod.exists] at h
    obtain ⟨r, s1, h, rfl⟩ := h
    exact sync_effect h
  | recover => exact .inl ⟨id, .inl (recover_quiet h)⟩
  | consume => exact .inl ⟨id, .inl (consume_quiet h).1⟩
  | matchToken t =>
    simp only [EOp.run, Option.map_eq_some_iff, Prod.exists] at h
    obtain ⟨r, s1, h, rfl⟩ := h
    simp only [ES.matchToken, Option.bind_eq_some_iff] at h
    obtain ⟨tok, h1, h2⟩ := h
    split at h2
    · rename_i ht
      simp only [Option.map_eq_some_iff, Prod.mk.injEq] at h2
      obtain ⟨s2, h3, _, rfl⟩ := h2
      have q := (consume_quiet h3).1
      refine .inr ⟨.inl ⟨tok, h1, ht⟩, by rw [q.2]; rfl, .inl ?_⟩
      rw [q.1]
      by_cases he : t = TOKEN_EOF <;> simp [he, reports, ES.reportMatch]
    · rename_i ht
      simp only [Option.bind_eq_some_iff, Prod.exists] at h2
      obtain ⟨r2, s2, h3, h4⟩ := h2
      have hq : Quiet s2 s1 := by
        split at h4
        · simp only [Option.some.injEq, Prod.mk.injEq] at h4
          obtain ⟨_, rfl⟩ := h4
          exact .refl _
        · simp only [Option.map_eq_some_iff, Prod.mk.injEq] at h4
          obtain ⟨p, h5, _, rfl⟩ := h4
          exact conjured_quiet h5
      rcases recoverInline_effect h3 with ⟨hd, hr⟩ | ⟨hd, ha⟩
      · refine .inl ⟨?_, hr.quiet hq⟩
        rintro (⟨tok', a, b⟩ | h)
        · rw [h1] at a; cases a; exact ht b
        · exact hd h
      · exact .inr ⟨.inr hd, by rw [hq.2]; exact ha.1, by rw [hq.1]; exact ha.2⟩
  | matchWildcard =>
    simp only [EOp.run, Option.map_eq_some_iff, Prod.exists] at h
    obtain ⟨r, s1, h, rfl⟩ := h
    simp only [ES.matchWildcard, Option.bind_eq_some_iff] at h
    obtain ⟨tok, h1, h2⟩ := h
    split at h2
    · rename_i ht
      simp only [Option.map_eq_some_iff, Prod.mk.injEq] at h2
      obtain ⟨s2, h3, _, rfl⟩ := h2
      have q := (consume_quiet h3).1
      refine .inr ⟨.inl ⟨tok, h1, ht⟩, by rw [q.2]; rfl, .inl ?_⟩
      rw [q.1]
      rfl
    · rename_i ht
      simp only [Option.bind_eq_some_iff, Prod.exists] at h2
      obtain ⟨r2, s2, h3, h4⟩ := h2
      have hq : Quiet s2 s1 := by
        split at h4
        · simp only [Option.some.injEq, Prod.mk.injEq] at h4
          obtain ⟨_, rfl⟩ := h4
          exact .refl _
        · simp only [Option.map_eq_some_iff, Prod.mk.injEq] at h4
          obtain ⟨p, h5, _, rfl⟩ := h4
          exact conjured_quiet h5
      rcases recoverInline_effect h3 with ⟨hd, hr⟩ | ⟨hd, ha⟩
      · refine .inl ⟨?_, hr.quiet hq⟩
        rintro (⟨tok', a, b⟩ | h)
        · rw [h1] at a; cases a; exact ht b
        · exact hd h
      · exact .inr ⟨.inr hd, by rw [hq.2]; exact ha.1, by rw [hq.1]; exact ha.2⟩
  | parser o ho =>
    simp only [EOp.run, Option.map_eq_some_iff] at h
    obtain ⟨p, h, rfl⟩ := h
    have := (op_effect o h).2.2.1
    rw [ho] at this
    exact .inl ⟨id, .inl ⟨this, rfl⟩⟩

/-! ## C44 -/

/-- **C44, in recovery mode nothing is reported**, whatever is called; and the mode only ends with an
operation that accepts a token. -/
theorem C44_silent_in_recovery (env : EEnv I) (fuel : Nat) (s s' : ES I) (op : EOp)
    (h : op.run env fuel s = some s') (hm : s.eh.mode = true) :
    reports s' = reports s ∧ (¬ Accepts env s op → s'.eh.mode = true) := by
  rcases op_step h with ⟨_, h1 | h1⟩ | ⟨ha, h1⟩
  · exact ⟨h1.1, fun _ => by rw [h1.2, hm]⟩
  · simp [hm] at h1
  · refine ⟨?_, fun hn => absurd ha hn⟩
    rcases h1.2 with h | h
    · exact h
    · simp [hm] at h

/-- **C44, no operation reports twice**, and after a report the strategy is in recovery mode, unless
the report was of a deleted token followed by an expected one. -/
theorem C44_report_starts_episode (env : EEnv I) (fuel : Nat) (s s' : ES I) (op : EOp)
    (h : op.run env fuel s = some s') :
    reports s ≤ reports s' ∧ reports s' ≤ reports s + 1 ∧
      (reports s' ≠ reports s → ¬ Accepts env s op → s'.eh.mode = true) := by
  rcases op_step h with ⟨_, h1 | h1⟩ | ⟨ha, h1⟩
  · exact ⟨Nat.le_of_eq h1.1.symm, by have := h1.1; omega, fun hn => absurd h1.1 hn⟩
  · exact ⟨by omega, by omega, fun _ _ => h1.2.2⟩
  · refine ⟨by rcases h1.2 with h | h <;> omega, by rcases h1.2 with h | h <;> omega,
      fun _ hn => absurd ha hn⟩

/-- **C44, one report per episode.**  In a history in which no token is accepted there is at most
one report, and none at all if the strategy was already in recovery mode. -/
theorem C44_one_report_per_episode (env : EEnv I) (fuel : Nat) (s s' : ES I)
    (l : List (ES I × EOp)) (h : Hist env fuel s l s') (hn : ∀ x ∈ l, ¬ Accepts env x.1 x.2) :
    reports s' ≤ reports s + (if s.eh.mode then 0 else 1) := by
  suffices H : (s.eh.mode = true → reports s' = reports s ∧ s'.eh.mode = true) ∧
      (s.eh.mode = false → reports s' = reports s ∨
        (reports s' = reports s + 1 ∧ s'.eh.mode = true)) by
    cases hm : s.eh.mode
    · rcases H.2 hm with h | h <;> simp <;> omega
    · simpa using Nat.le_of_eq (H.1 hm).1
  induction h with
  | nil => exact ⟨fun h => ⟨rfl, h⟩, fun _ => .inl rfl⟩
  | @cons s s1 s' op l h1 h2 ih =>
    have ih := ih (fun x hx => hn x (by simp [hx]))
    have hna : ¬ Accepts env s op := hn (s, op) (by simp)
    rcases op_step h1 with ⟨_, hr⟩ | ⟨ha, _⟩
    · rcases hr with hq | ⟨a, b, c⟩
      · refine ⟨fun hm => ?_, fun hm => ?_⟩
        · have := ih.1 (by rw [hq.2, hm])
          exact ⟨this.1.trans hq.1, this.2⟩
        · have := ih.2 (by rw [hq.2, hm])
          rw [← hq.1]; exact this
      · refine ⟨fun hm => by simp [hm] at a, fun _ => .inr ?_⟩
        have := ih.1 c
        exact ⟨by rw [this.1, b], this.2⟩
    · exact absurd ha hna

/-- **C44, between two reports a token is accepted.**  If the first operation of a history reports
and so does an operation right after it, then some operation of the history accepted a token. -/
theorem C44_accepted_between_reports (env : EEnv I) (fuel : Nat) (s s1 s2 s3 : ES I) (op op' : EOp)
    (l : List (ES I × EOp)) (h1 : op.run env fuel s = some s1) (r1 : reports s < reports s1)
    (h2 : Hist env fuel s1 l s2) (h3 : op'.run env fuel s2 = some s3) (r3 : reports s2 < reports s3) :
    ∃ x ∈ (s, op) :: l, Accepts env x.1 x.2 := by
  by_contra hc0
  have hcon : ∀ x ∈ (s, op) :: l, ¬ Accepts env x.1 x.2 := fun x hx hx' => hc0 ⟨x, hx, hx'⟩
  clear hc0
  have hna : ¬ Accepts env s op := hcon (s, op) (by simp)
  have m1 := (C44_report_starts_episode env fuel s s1 op h1).2.2 (by omega) hna
  have m2 : s2.eh.mode = true := by
    clear h3 r3 h1 r1
    induction h2 with
    | nil => exact m1
    | @cons a b c o l h4 h5 ih =>
      have hb := (C44_silent_in_recovery env fuel a b o h4 m1).2 (hcon (a, o) (by simp))
      refine ih ?_ hb
      intro x hx
      rcases List.mem_cons.mp hx with rfl | hx
      · exact hna
      · exact hcon x (by simp [hx])
  have := (C44_silent_in_recovery env fuel s2 s3 op' h3 m2).1
  omega

/-- **C44, a match re-enables reporting**: after a matched token the next error is reported. -/
theorem C44_match_reenables (env : EEnv I) (fuel : Nat) (s s1 s2 s3 : ES I) (op : EOp) (e : PErr)
    (l : List (ES I × EOp)) (h1 : op.run env fuel s = some s1) (ha : Accepts env s op)
    (hl : Hist env fuel s1 l s2) (hquiet : reports s2 = reports s1)
    (h2 : s2.reportError env e = some s3) : reports s3 = reports s2 + 1 := by
  have m1 : s1.eh.mode = false := by
    rcases op_step h1 with ⟨hn, _⟩ | ⟨_, h⟩
    · exact absurd ha hn
    · exact h.1
  have m2 : s2.eh.mode = false := by
    clear h2 h1
    induction hl with
    | nil => exact m1
    | @cons a b c o l h4 h5 ih =>
      have mono : ∀ {x y : ES I} {l}, Hist env fuel x l y → reports x ≤ reports y := by
        intro x y l h
        induction h with
        | nil => exact Nat.le_refl _
        | @cons a b c o l h4 _ ih =>
          exact Nat.le_trans (C44_report_starts_episode env fuel a b o h4).1 ih
      have k1 := (C44_report_starts_episode env fuel a b o h4).1
      have k2 := mono h5
      refine ih (by omega) ?_
      rcases op_step h4 with ⟨_, hq | hr⟩ | ⟨_, h⟩
      · rw [hq.2, m1]
      · omega
      · exact h.1
  rcases reportError_reports h2 with ⟨h, _⟩ | h
  · simp [m2] at h
  · exact h.2.1

end Antlr.ErrorProps
