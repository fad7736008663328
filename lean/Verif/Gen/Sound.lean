import Verif.Gen.Mild
import Verif.Gen.Frame
import Verif.Gen.Erase

/-! # Code that reports nothing builds a tree of the grammar -/

namespace Antlr.Gen
open Antlr ParserSpec ParserLemmas ParserProps ErrorProps GenSpec

set_option linter.unusedSectionVars false
variable {I S : Type} [TokStream I] {C : Cfg I S} {T : Nat → Tok} {V : I → Nat → Prop}

/-! ## What is asked of prediction and of the code -/

/-- Alternatives numbered `1 … n`. -/
def Choice.Fits (width : Nat → Nat) (n : Nat) : Choice → Prop
  | .predict d => width d ≤ n
  | .look sets other => sets.length ≤ n ∧ ∀ k, other = some k → 1 ≤ k ∧ k ≤ n

mutual
/-- Every block has as many alternatives as its decision. -/
def Code.Fits (width : Nat → Nat) : Code → Prop
  | .seq a b => a.Fits width ∧ b.Fits width
  | .block _ ch alts => ch.Fits width alts.length ∧ allFit width alts
  | .opt _ _ _ alts => allFit width alts
  | .star _ _ _ _ _ body => body.Fits width
  | .plus _ _ _ _ _ body => body.Fits width
  | _ => True
def allFit (width : Nat → Nat) : List Code → Prop
  | [] => True
  | c :: cs => c.Fits width ∧ allFit width cs
end

def selFits (width : Nat → Nat) (sel : Option (Int × Choice)) (n : Nat) : Prop :=
  match sel with
  | none => n ≠ 0
  | some (_, ch) => ch.Fits width n

def RuleFn.Fits (width : Nat → Nat) : RuleFn → Prop
  | .plain _ sel alts => selFits width sel alts.length ∧ ∀ a ∈ alts, a.code.Fits width
  | .recursive _ sel prims _ _ _ _ ops =>
    selFits width sel prims.length ∧ (∀ a ∈ prims, a.code.Fits width) ∧
      ∀ o ∈ ops, o.code.Fits width

theorem allFit_mem {width : Nat → Nat} {cs : List Code} (h : allFit width cs) :
    ∀ c ∈ cs, c.Fits width := by
  induction cs with
  | nil => simp
  | cons a l ih =>
    rw [allFit] at h
    intro c hc
    rcases List.mem_cons.1 hc with rfl | hc
    · exact h.1
    · exact ih h.2 c hc

/-- What is needed of the predictor: its answers are numbers of alternatives, and it leaves the
stream where it was. -/
structure Fair (C : Cfg I S) (V : I → Nat → Prop) (width : Nat → Nat) : Prop where
  range : ∀ m d p σ k i' σ', C.predict m d p σ = some (.ok k, i', σ') → 1 ≤ k ∧ k ≤ width d
  keeps : ∀ m d p σ k i' σ' n, V p.input n → C.predict m d p σ = some (.ok k, i', σ') → V i' n
  rules : ∀ r ∈ C.rules, r.Fits width

/-! ## The steps without an error -/

theorem la_view (hv : IsView T V) {p p' : P I} {n : Nat} {t : Int} (h : V p.input n)
    (e : p.la 1 = some (t, p')) : t = (T n).ttype ∧ ∃ i', V i' n ∧ p' = { p with input := i' } := by
  obtain ⟨i', h1, h2⟩ := hv.la p.input n 1 h (Nat.le_refl _)
  have h1' : TokStream.la p.input 1 = some ((T n).ttype, i') := h1
  simp only [P.la, h1', Option.map_some, Option.some.injEq, Prod.mk.injEq] at e
  exact ⟨e.1.symm, i', h2, e.2.symm⟩

theorem recoverInline_ok {env : EEnv I} {s s' : ES I} {t : Tok} (hm : s.eh.mode = false)
    (h : s.recoverInline env = some (.ok t, s')) : reports s < reports s' := by
  simp only [ES.recoverInline, Option.bind_eq_some_iff, Prod.exists] at h
  obtain ⟨o, s1, h1, h2⟩ := h
  cases o with
  | some tok =>
    simp only [Option.map_eq_some_iff, Prod.mk.injEq] at h2
    obtain ⟨s2, h2, -, rfl⟩ := h2
    rw [(consume_quiet h2).1.1]
    simp only [ES.singleTokenDeletion, Option.bind_eq_some_iff, Prod.exists] at h1
    obtain ⟨next, p, h3, E, _, h4⟩ := h1
    split at h4
    · simp only [Option.bind_eq_some_iff, Option.map_eq_some_iff, Prod.mk.injEq] at h4
      obtain ⟨s4, h5, s5, h6, t', _, -, rfl⟩ := h4
      have : reports s5.reportMatch = reports s5 := rfl
      rw [this, (consume_quiet h6).1.1]
      rcases reportUnwanted_reports h5 with ⟨hx, _⟩ | ⟨_, hx, _⟩
      · rw [hm] at hx; cases hx
      · have : reports (⟨s.eh, p⟩ : ES I) = reports s := (quiet_same (s := s) (la_same h3)).1
        omega
    · simp at h4
  | none =>
    simp only [Option.bind_eq_some_iff, Prod.exists] at h2
    obtain ⟨b, s2, h3, h4⟩ := h2
    have q1 : Quiet s s1 := by
      rcases deletion_effect h1 with h | h
      · exact h.2.2
      · simp at h
    split at h4
    · rename_i hb
      simp only [Option.map_eq_some_iff, Prod.mk.injEq] at h4
      obtain ⟨_, _, -, rfl⟩ := h4
      subst hb
      simp only [ES.singleTokenInsertion, Option.bind_eq_some_iff, Prod.exists] at h3
      obtain ⟨cur, p, h5, L, _, h6⟩ := h3
      split at h6
      · simp only [Option.map_eq_some_iff, Prod.mk.injEq] at h6
        obtain ⟨s4, h7, -, rfl⟩ := h6
        have e2 : reports (⟨s1.eh, p⟩ : ES I) = reports s1 := (quiet_same (s := s1) (la_same h5)).1
        rcases reportMissing_reports h7 with ⟨hx, _⟩ | ⟨_, hx, _⟩
        · rw [q1.2, hm] at hx; cases hx
        · have := q1.1; omega
      · simp at h6
    · simp only [Option.map_eq_some_iff, Prod.mk.injEq] at h4
      obtain ⟨_, _, h, _⟩ := h4
      cases h

/-- Only the input moved, within the same view. -/
def Looked (V : I → Nat → Prop) (n : Nat) (s s' : GS I S) : Prop :=
  ∃ i', V i' n ∧ s'.es.p = { s.es.p with input := i' }

theorem sync_clean (hv : IsView T V) {m : Nat} {s s' : GS I S} {n : Nat} (h : V s.es.p.input n)
    (hm : s.es.eh.mode = false) (hr : reports s'.es = reports s.es)
    (e : sync C m s = some (.ok (), s')) : Looked V n s s' := by
  simp only [sync, GS.strat, Option.map_eq_some_iff, Prod.exists, Prod.mk.injEq] at e
  obtain ⟨r, s1, e, rfl, rfl⟩ := e
  split at e
  · simp only [ES.bailSync, Option.some.injEq, Prod.mk.injEq] at e
    rw [← e.2]
    exact ⟨_, h, rfl⟩
  · simp only [ES.sync, hm] at e
    simp only [Bool.false_eq_true, if_false, Option.bind_eq_some_iff, Prod.exists] at e
    obtain ⟨t, p, e1, state, _, nt, _, e2⟩ := e
    obtain ⟨-, i', hi, rfl⟩ := la_view hv h e1
    split at e2
    · simp only [Option.some.injEq, Prod.mk.injEq] at e2
      rw [← e2.2]; exact ⟨i', hi, rfl⟩
    · split at e2
      · split at e2
        · simp only [Option.some.injEq, Prod.mk.injEq] at e2
          rw [← e2.2]; exact ⟨i', hi, rfl⟩
        · simp only [Option.map_eq_some_iff, Prod.mk.injEq] at e2
          obtain ⟨_, _, _, rfl⟩ := e2
          exact ⟨i', hi, rfl⟩
      · exfalso
        simp only at hr
        have q0 : reports (⟨s.es.eh, { s.es.p with input := i' }⟩ : ES I) = reports s.es := rfl
        split at e2
        · simp only [Option.bind_eq_some_iff, Prod.exists] at e2
          obtain ⟨o, s2, e3, e4⟩ := e2
          cases o with
          | none =>
            simp only [Option.map_eq_some_iff, Prod.mk.injEq] at e4
            obtain ⟨_, _, h, _⟩ := e4
            cases h
          | some t' =>
            simp only [Option.some.injEq, Prod.mk.injEq] at e4
            obtain ⟨-, rfl⟩ := e4
            simp only [ES.singleTokenDeletion, Option.bind_eq_some_iff, Prod.exists] at e3
            obtain ⟨next, p, h3, E, _, h4⟩ := e3
            split at h4
            · simp only [Option.bind_eq_some_iff, Option.map_eq_some_iff, Prod.mk.injEq] at h4
              obtain ⟨s4, h5, s5, h6, t', _, -, rfl⟩ := h4
              have e5 : reports s5.reportMatch = reports s5 := rfl
              rw [e5, (consume_quiet h6).1.1] at hr
              rcases reportUnwanted_reports h5 with ⟨hx, _⟩ | ⟨_, hx, _⟩
              · rw [hm] at hx; cases hx
              · have : reports (⟨s.es.eh, p⟩ : ES I) = reports s.es := (quiet_same (s := ⟨s.es.eh, { s.es.p with input := i' }⟩) (la_same h3)).1
                omega
            · simp at h4
        · simp only [Option.bind_eq_some_iff, Option.map_eq_some_iff, Prod.mk.injEq] at e2
          obtain ⟨s2, e3, _, _, _, _, s3, e4, -, rfl⟩ := e2
          have q2 := (consumeUntil_quiet _ e4).1.1
          rcases reportUnwanted_reports e3 with ⟨hx, _⟩ | ⟨_, hx, _⟩
          · rw [hm] at hx; cases hx
          · rw [q2, hx] at hr; exact Nat.succ_ne_self _ hr
        · cases e2

theorem current_eq (hv : IsView T V) {p : P I} {n : Nat} (h : V p.input n) :
    p.getCurrentToken = some (T n) := hv.current _ _ h

theorem eofSet (s : ES I) (t : Int) :
    (if t = TOKEN_EOF then ({ s with p := { s.p with matchedEof := true } } : ES I) else s) =
      { s with p := if t = TOKEN_EOF then { s.p with matchedEof := true } else s.p } := by
  split <;> rfl

theorem matchTok_clean (hv : IsView T V) {t : Int} {s s' : GS I S} {n : Nat} {tok : Tok}
    (h : V s.es.p.input n) (hm : s.es.eh.mode = false) (hr : reports s'.es = reports s.es)
    (e : matchTok C t s = some (.ok tok, s')) :
    (T n).ttype = t ∧ s.es.p.matchCurrent = some s'.es.p := by
  simp only [matchTok, GS.strat, Option.map_eq_some_iff, Prod.exists, Prod.mk.injEq] at e
  obtain ⟨r, s1, e, rfl, rfl⟩ := e
  have hc := current_eq hv h
  split at e
  · simp only [ES.bailMatchToken, hc, Option.bind_some] at e
    split at e
    · rename_i ht
      refine ⟨ht, ?_⟩
      simp only [ES.bailReportMatch, eofSet, ES.consume, Option.map_map, Option.map_eq_some_iff,
        Function.comp_apply, Prod.mk.injEq] at e
      obtain ⟨p, e, -, rfl⟩ := e
      rw [hm, ← ht] at e
      simp only [P.matchCurrent, hc, Option.bind_some]
      exact e
    · simp only [Option.bind_eq_some_iff, Prod.exists] at e
      obtain ⟨r, s1, h1, h2⟩ := e
      obtain ⟨rfl, e', rfl⟩ := bailInline_quiet h1
      simp at h2
  · simp only [ES.matchToken, hc, Option.bind_some] at e
    split at e
    · rename_i ht
      refine ⟨ht, ?_⟩
      simp only [ES.reportMatch, eofSet, ES.consume, Option.map_map, Option.map_eq_some_iff,
        Function.comp_apply, Prod.mk.injEq] at e
      obtain ⟨p, e, -, rfl⟩ := e
      rw [← ht] at e
      simp only [P.matchCurrent, hc, Option.bind_some]
      exact e
    · exfalso
      simp only [Option.bind_eq_some_iff, Prod.exists] at e
      obtain ⟨r, s2, h1, h2⟩ := e
      cases r with
      | error x => simp at h2
      | ok x =>
        simp only [Option.map_eq_some_iff, Prod.mk.injEq] at h2
        obtain ⟨p, h2, -, rfl⟩ := h2
        have := recoverInline_ok hm h1
        have := (conjured_quiet h2).1
        simp only at hr
        omega

theorem matchCurrent_of_pos (hv : IsView T V) {p : P I} {n : Nat} (h : V p.input n)
    (ht : (T n).ttype > 0) : p.matchCurrent = p.consume false := by
  have hc := current_eq hv h
  simp only [P.matchCurrent, hc, Option.bind_some]
  rw [if_neg (by simp only [TOKEN_EOF]; omega)]

theorem matchAny_clean (hv : IsView T V) {s s' : GS I S} {n : Nat} {tok : Tok}
    (h : V s.es.p.input n) (hm : s.es.eh.mode = false) (hr : reports s'.es = reports s.es)
    (e : matchAny C s = some (.ok tok, s')) :
    0 < (T n).ttype ∧ s.es.p.matchCurrent = some s'.es.p := by
  simp only [matchAny, GS.strat, Option.map_eq_some_iff, Prod.exists, Prod.mk.injEq] at e
  obtain ⟨r, s1, e, rfl, rfl⟩ := e
  have hc := current_eq hv h
  split at e
  · simp only [bailMatchWildcard, hc, Option.bind_some] at e
    split at e
    · rename_i ht
      refine ⟨ht, ?_⟩
      simp only [ES.bailReportMatch, ES.consume, Option.map_map, Option.map_eq_some_iff,
        Function.comp_apply, Prod.mk.injEq] at e
      obtain ⟨p, e, -, rfl⟩ := e
      rw [hm] at e
      rw [matchCurrent_of_pos hv h ht]
      exact e
    · simp only [Option.bind_eq_some_iff, Prod.exists] at e
      obtain ⟨r, s1, h1, h2⟩ := e
      obtain ⟨rfl, e', rfl⟩ := bailInline_quiet h1
      simp at h2
  · simp only [ES.matchWildcard, hc, Option.bind_some] at e
    split at e
    · rename_i ht
      refine ⟨ht, ?_⟩
      simp only [ES.reportMatch, ES.consume, Option.map_map, Option.map_eq_some_iff,
        Function.comp_apply, Prod.mk.injEq] at e
      obtain ⟨p, e, -, rfl⟩ := e
      rw [matchCurrent_of_pos hv h ht]
      exact e
    · exfalso
      simp only [Option.bind_eq_some_iff, Prod.exists] at e
      obtain ⟨r, s2, h1, h2⟩ := e
      cases r with
      | error x => simp at h2
      | ok x =>
        simp only [Option.map_eq_some_iff, Prod.mk.injEq] at h2
        obtain ⟨p, h2, -, rfl⟩ := h2
        have := recoverInline_ok hm h1
        have := (conjured_quiet h2).1
        simp only at hr
        omega

theorem matchSet_clean (hv : IsView T V) {ts : List Int} {invert : Bool} {s s' : GS I S} {n : Nat}
    (h : V s.es.p.input n) (hm : s.es.eh.mode = false) (hr : reports s'.es = reports s.es)
    (e : matchSet C ts invert s = some (.ok (), s')) :
    inSet ts invert (T n).ttype = true ∧
      ∃ i', V i' n ∧ ({ s.es.p with input := i' } : P I).matchCurrent = some s'.es.p := by
  simp only [matchSet, Option.bind_eq_some_iff, Prod.exists] at e
  obtain ⟨t, p, e1, e2⟩ := e
  obtain ⟨rfl, i1, hi1, rfl⟩ := la_view hv h e1
  split at e2
  · rename_i hin
    refine ⟨hin, ?_⟩
    simp only [Option.bind_eq_some_iff, Prod.exists, Option.map_eq_some_iff, Prod.mk.injEq] at e2
    obtain ⟨t', p', e3, x, e4, -, rfl⟩ := e2
    obtain ⟨rfl, i2, hi2, rfl⟩ := la_view hv (p := { s.es.p with input := i1 }) hi1 e3
    refine ⟨i2, hi2, ?_⟩
    have hc := current_eq hv (p := { s.es.p with input := i2 }) hi2
    simp only [P.matchCurrent, hc, Option.bind_some]
    split at e4 <;>
    · simp only [ES.bailReportMatch, ES.reportMatch, ES.consume, Option.map_eq_some_iff] at e4
      obtain ⟨p, e4, rfl⟩ := e4
      first
        | exact e4
        | (simp only [hm] at e4; exact e4)
  · exfalso
    simp only [Option.map_eq_some_iff, Prod.exists, Prod.mk.injEq] at e2
    obtain ⟨r, x, e3, e4, rfl⟩ := e2
    split at e3
    · obtain ⟨-, y, rfl⟩ := bailInline_quiet e3
      simp [Except.map] at e4
    · cases r with
      | error y => simp [Except.map] at e4
      | ok y =>
        have := recoverInline_ok (s := ⟨s.es.eh, { s.es.p with input := i1 }⟩) hm e3
        have e5 : reports (⟨s.es.eh, { s.es.p with input := i1 }⟩ : ES I) = reports s.es := rfl
        simp only at hr
        omega

theorem failed_not_ok {α : Type} {msg : List Char} {s s' : GS I S} {a : α}
    (h : failedPredicate C msg s = some (.ok a, s')) : False := by
  simp only [failedPredicate, Option.bind_eq_some_iff, Option.map_eq_some_iff, Prod.mk.injEq] at h
  obtain ⟨_, _, _, _, _, _, h, _⟩ := h
  cases h

theorem noViable_not_ok {α : Type} {s s' : GS I S} {a : α}
    (h : noViable s = some ((.ok a : Except PErr α), s')) : False := by
  simp only [noViable, Option.bind_eq_some_iff, Option.map_eq_some_iff, Prod.mk.injEq] at h
  obtain ⟨_, _, _, _, h, _⟩ := h
  cases h

theorem choose_clean (hv : IsView T V) {width : Nat → Nat} (hf : Fair C V width) {m : Nat}
    {ch : Choice} {s s' : GS I S} {n : Nat} {k : Int} (h : V s.es.p.input n)
    (e : choose C m ch s = some (.ok k, s')) :
    Looked V n s s' ∧ ∀ w, ch.Fits width w → 1 ≤ k ∧ k ≤ w := by
  cases ch with
  | predict d =>
    simp only [choose, Option.map_eq_some_iff, Prod.mk.injEq] at e
    obtain ⟨⟨x, i', σ'⟩, e, rfl, rfl⟩ := e
    refine ⟨⟨i', hf.keeps _ _ _ _ _ _ _ _ h e, rfl⟩, ?_⟩
    intro w hw
    have := hf.range _ _ _ _ _ _ _ e
    simp only [Choice.Fits] at hw
    omega
  | look sets other =>
    simp only [choose, Option.bind_eq_some_iff, Prod.exists] at e
    obtain ⟨t, p, e1, e2⟩ := e
    obtain ⟨-, i1, hi1, rfl⟩ := la_view hv h e1
    split at e2
    · rename_i j hj
      simp only [ret, Option.some.injEq, Prod.mk.injEq, Except.ok.injEq] at e2
      obtain ⟨rfl, rfl⟩ := e2
      refine ⟨⟨i1, hi1, rfl⟩, ?_⟩
      intro w hw
      simp only [Choice.Fits] at hw
      have := (List.findIdx?_eq_some_iff_getElem.1 hj).1
      omega
    · rename_i j hj
      simp only [ret, Option.some.injEq, Prod.mk.injEq, Except.ok.injEq] at e2
      obtain ⟨rfl, rfl⟩ := e2
      refine ⟨⟨i1, hi1, rfl⟩, ?_⟩
      intro w hw
      simp only [Choice.Fits] at hw
      exact hw.2 _ rfl
    · exact absurd e2 (fun h => noViable_not_ok h)

/-- The head of a block sets the state and looks. -/
def Headed (V : I → Nat → Prop) (n : Nat) (st : Int) (s s' : GS I S) : Prop :=
  ∃ i', V i' n ∧ s'.es.p = { s.es.p with input := i', state := st }

theorem head_clean (hv : IsView T V) {width : Nat → Nat} (hf : Fair C V width) {m : Nat} {st : Int}
    {ch : Choice} {s s' : GS I S} {n : Nat} {k : Int} (h : V s.es.p.input n)
    (hm : s.es.eh.mode = false) (hr : reports s'.es = reports s.es)
    (e : head C m st ch s = some (.ok k, s')) :
    Headed V n st s s' ∧ s'.es.eh.mode = false ∧ ∀ w, ch.Fits width w → 1 ≤ k ∧ k ≤ w := by
  have hmild := mild_head (C := C) m st ch s _ _ e
  refine ⟨?_, hmild.2 hm hr, ?_⟩
  all_goals
    unfold head at e
    rcases andThen_some.1 e with ⟨u, s1, e1, e2⟩ | ⟨x, _, h⟩
    · have m1 := mild_sync (C := C) m (s.setState st) _ _ e1
      have m2 := mild_choose (C := C) m ch s1 _ _ e2
      have m0 : reports (s.setState st).es = reports s.es := rfl
      have r1 : reports s1.es = reports (s.setState st).es := by
        have := m1.1; have := m2.1; omega
      obtain ⟨i1, hi1, h1⟩ := sync_clean hv (s := s.setState st) h hm r1 e1
      have hi1' : V s1.es.p.input n := by rw [h1]; exact hi1
      obtain ⟨⟨i2, hi2, h2⟩, h3⟩ := choose_clean hv hf hi1' e2
      first
        | exact ⟨i2, hi2, by rw [h2, h1]; rfl⟩
        | exact h3
    · cases h

theorem pick_mem {α : Type} {l : List α} {k : Int} {a : α} (h : pick l k = some a) : a ∈ l := by
  unfold pick at h
  split at h
  · exact List.mem_of_getElem? h
  · cases h

theorem pick_some {α : Type} {l : List α} {k : Int} (h : 1 ≤ k ∧ k ≤ l.length) :
    ∃ a, pick l k = some a := by
  unfold pick
  rw [if_pos h.1]
  have : (k - 1).toNat < l.length := by omega
  exact ⟨_, List.getElem?_eq_getElem this⟩

theorem select_clean {α : Type} (hv : IsView T V) {width : Nat → Nat} (hf : Fair C V width) {m : Nat}
    {sel : Option (Int × Choice)} {alts : List α} {s s' : GS I S} {n : Nat} {a : Option α}
    (h : V s.es.p.input n) (hm : s.es.eh.mode = false) (hr : reports s'.es = reports s.es)
    (e : select C m sel alts s = some (.ok a, s')) :
    (∃ st, Headed V n st s s') ∧ s'.es.eh.mode = false ∧ (∀ x, a = some x → x ∈ alts) ∧
      (selFits width sel alts.length → a ≠ none) := by
  unfold select at e
  split at e
  · simp only [ret, Option.some.injEq, Prod.mk.injEq, Except.ok.injEq] at e
    obtain ⟨rfl, rfl⟩ := e
    refine ⟨⟨s.es.p.state, s.es.p.input, h, rfl⟩, hm, ?_, ?_⟩
    · intro x hx
      exact List.mem_of_mem_head? hx
    · intro hs
      simp only [selFits] at hs
      cases alts with
      | nil => simp at hs
      | cons a l => simp
  · rename_i st ch
    rcases andThen_some.1 e with ⟨k, s1, e1, e2⟩ | ⟨x, _, h⟩
    · simp only [ret, Option.some.injEq, Prod.mk.injEq, Except.ok.injEq] at e2
      obtain ⟨rfl, rfl⟩ := e2
      obtain ⟨h1, h2, h3⟩ := head_clean hv hf h hm hr e1
      refine ⟨⟨st, h1⟩, h2, fun x hx => pick_mem hx, ?_⟩
      intro hs
      obtain ⟨a, ha⟩ := pick_some (l := alts) (h3 _ hs)
      simp [ha]
    · cases h

/-! ## Trees -/

theorem consumes_trans {a b c : Nat} {x y : List Tok} (h1 : Consumes T a x b)
    (h2 : Consumes T b y c) : Consumes T a (x ++ y) c := by
  induction h1 with
  | nil => exact h2
  | tok h _ ih => exact .tok h (ih h2)
  | eof h _ ih => exact .eof h (ih h2)

theorem tokensAll_append (x y : List Node) : tokensAll (x ++ y) = tokensAll x ++ tokensAll y := by
  induction x with
  | nil => rfl
  | cons a l ih => simp [tokensAll, ih]

theorem yields_alts {G : Grammar} {cs : List Code} {c : Code} (h : c ∈ cs) {x : List Node}
    (hy : Yields G c.ebnf x) : Yields G (altsEbnf cs) x := by
  induction cs with
  | nil => cases h
  | cons a l ih =>
    rw [altsEbnf]
    rcases List.mem_cons.1 h with rfl | h
    · exact .altL hy
    · exact .altR (ih h)

/-- The code added trees matching the expression to the context `c`. -/
def Done (G : Grammar) (T : Nat → Tok) (V : I → Nat → Prop) (e : Ebnf) (p : P I) (st : St) (c : Nat)
    (p' : P I) : Prop :=
  ∃ nodes st' evs, Step V p c (some p') nodes st' evs ∧ Yields G e nodes ∧
    Consumes T st.pos (tokensAll nodes) st'.pos

/-- The rule call built a tree of the rule. -/
def Called (G : Grammar) (T : Nat → Tok) (V : I → Nat → Prop) (r : Nat) (q : Int) (p : P I) (st : St)
    (o : Option Nat) (root : Nat) (p' : P I) : Prop :=
  ∃ node st', CallAt V p o p' root node st' ∧ Builds G r q node ∧
    Consumes T st.pos (tokens node) st'.pos

theorem Done.nil {G : Grammar} {p : P I} {st : St} {c : Nat} (ha : At V p st c) :
    Done G T V .eps p st c p :=
  ⟨[], st, [], (PStep.nil ha).step, .eps, .nil⟩

theorem Done.at {G : Grammar} {e : Ebnf} {p p' : P I} {st : St} {c : Nat} (ha : At V p st c)
    (h : Done G T V e p st c p') : ∃ st', At V p' st' c := by
  obtain ⟨n, st', ev, h1, -⟩ := h
  exact ⟨st', h1.at ha⟩

theorem Done.mk' {G : Grammar} {e : Ebnf} {p p' : P I} {st st' : St} {c : Nat} {nodes : List Node}
    {evs : List PEvent} (h1 : Step V p c (some p') nodes st' evs) (h2 : Yields G e nodes)
    (h3 : Consumes T st.pos (tokensAll nodes) st'.pos) : Done G T V e p st c p' :=
  ⟨nodes, st', evs, h1, h2, h3⟩

/-- First the head of a block, then the rest. -/
theorem Done.after {G : Grammar} {e : Ebnf} {p p1 p' : P I} {st : St} {c : Nat} (ha : At V p st c)
    {i : I} {n : Int} (hi : V i st.pos) (h1 : p1 = { p with input := i, state := n })
    (h2 : ∀ (_ : At V p1 { st with state := n } c), Done G T V e p1 { st with state := n } c p') :
    Done G T V e p st c p' := by
  subst h1
  have hs := Step.look ha hi n
  obtain ⟨nodes, st', evs, a, b, d⟩ := h2 (hs.at ha)
  exact ⟨[] ++ nodes, st', [] ++ evs, hs.trans ha a, b, d⟩

theorem Done.seq {G : Grammar} {a b : Ebnf} {p p1 p2 : P I} {st : St} {c : Nat} (ha : At V p st c)
    (h1 : Done G T V a p st c p1)
    (h2 : ∀ st1, At V p1 st1 c → Done G T V b p1 st1 c p2) : Done G T V (.seq a b) p st c p2 := by
  obtain ⟨n1, st1, e1, s1, y1, c1⟩ := h1
  obtain ⟨n2, st2, e2, s2, y2, c2⟩ := h2 st1 (s1.at ha)
  refine ⟨n1 ++ n2, st2, e1 ++ e2, s1.trans ha s2, .seq y1 y2, ?_⟩
  rw [tokensAll_append]
  exact consumes_trans c1 c2

theorem Done.starCons {G : Grammar} {a : Ebnf} {p p1 p2 : P I} {st : St} {c : Nat} (ha : At V p st c)
    (h1 : Done G T V a p st c p1)
    (h2 : ∀ st1, At V p1 st1 c → Done G T V (.star a) p1 st1 c p2) :
    Done G T V (.star a) p st c p2 := by
  obtain ⟨n1, st1, e1, s1, y1, c1⟩ := h1
  obtain ⟨n2, st2, e2, s2, y2, c2⟩ := h2 st1 (s1.at ha)
  refine ⟨n1 ++ n2, st2, e1 ++ e2, s1.trans ha s2, .starCons y1 y2, ?_⟩
  rw [tokensAll_append]
  exact consumes_trans c1 c2

theorem Done.match {G : Grammar} (hv : IsView T V) {e : Ebnf} {p p' : P I} {st : St} {c : Nat}
    (ha : At V p st c) (h : p.matchCurrent = some p')
    (hy : Yields G e [.leaf (T st.pos) false]) : Done G T V e p st c p' := by
  have := (prim_ok hv ha .matchTok).step
  have e1 : Prim.run p .matchTok = some p' := h
  rw [e1] at this
  refine ⟨_, _, _, this, hy, ?_⟩
  simp only [primDen, tokensAll, tokens, List.append_nil]
  by_cases he : (T st.pos).ttype = TOKEN_EOF
  · simp only [he, if_true, advance]
    exact .eof he .nil
  · simp only [he, if_false, advance]
    exact .tok he .nil

/-- One state number later. -/
theorem at_setState {s : GS I S} {st : St} {c : Nat} (ha : At V s.es.p st c) (n : Int) :
    At V (s.setState n).es.p { st with state := n } c :=
  ⟨ha.view, ha.meof, rfl, ha.ctx, ha.mem⟩

theorem Done.afterState {G : Grammar} {e : Ebnf} {s : GS I S} {p' : P I} {st : St} {c : Nat}
    (ha : At V s.es.p st c) (n : Int)
    (h2 : At V (s.setState n).es.p { st with state := n } c →
      Done G T V e (s.setState n).es.p { st with state := n } c p') :
    Done G T V e s.es.p st c p' :=
  Done.after ha ha.view rfl h2

/-- The state of the loop of a left-recursive rule: the operand built so far. -/
structure Loop (G : Grammar) (T : Nat → Tok) (V : I → Nat → Prop) (h0 : List Ctx) (o : Option Nat)
    (idx : Nat) (inv : Int) (start : Tok) (q : Int) (n0 : Nat) (base p : P I) (st : St)
    (label : Option Nat) (kids : List Node) (r : Nat) : Prop where
  here : LoopAt V h0 o idx inv start p st r label kids
  sib : Sib base p
  tree : ∀ inv' stop, Builds G idx q (.rule idx label inv' start stop kids)
  toks : Consumes T n0 (tokensAll kids) st.pos

theorem finish_clean {m : Nat} {x : Except PErr Unit} {s s' : GS I S} (hm : s.es.eh.mode = false)
    (hr : reports s'.es = reports s.es) (e : finish C m (x, s) = some (.ok (), s')) :
    x = .ok () ∧ s' = s := by
  simp only [finish, GS.strat, Option.map_eq_some_iff, Prod.exists, Prod.mk.injEq] at e
  obtain ⟨r, e1, e, rfl, rfl⟩ := e
  split at e
  · unfold ES.bailRuleEnd at e
    split at e
    · simp only [Option.some.injEq, Prod.mk.injEq] at e
      obtain ⟨-, rfl⟩ := e
      exact ⟨rfl, rfl⟩
    · simp at e
    · simp only [Option.bind_eq_some_iff, ES.bailRecover, Option.map_eq_some_iff, Prod.mk.injEq] at e
      obtain ⟨_, _, _, _, h, _⟩ := e
      cases h
  · unfold ES.ruleEnd at e
    split at e
    · simp only [Option.some.injEq, Prod.mk.injEq] at e
      obtain ⟨-, rfl⟩ := e
      exact ⟨rfl, rfl⟩
    · simp at e
    · exfalso
      simp only [Option.bind_eq_some_iff, Option.map_eq_some_iff, Prod.mk.injEq] at e
      obtain ⟨s1, h1, s2, h2, _, rfl⟩ := e
      have q2 := (recover_quiet h2).1
      simp only at hr
      rcases reportError_reports h1 with ⟨hx, _⟩ | ⟨_, hx, _⟩
      · rw [hm] at hx; cases hx
      · omega

theorem act_some {s s' : GS I S} {f : P I → Option (P I)} {x : Except PErr Unit}
    (h : s.act f = some (x, s')) : x = .ok () ∧ f s.es.p = some s'.es.p ∧ s'.es.eh = s.es.eh := by
  simp only [GS.act, Option.map_eq_some_iff, Prod.mk.injEq] at h
  obtain ⟨p, h, rfl, rfl⟩ := h
  exact ⟨rfl, h, rfl⟩

end Antlr.Gen
