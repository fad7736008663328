import Verif.Gen.PathLemmas
import Verif.Gen.Sound
import Verif.PredictionContext.Props

/-!
# Where the parser is while it follows a path

`Ends` is what is claimed of a piece of code: with enough fuel it returns without an error in a good state
(`total`), or it does so if it returns at all.
-/

namespace Antlr.Gen
open Antlr ParserSpec ParserLemmas ParserProps ErrorProps GenSpec LL1Spec PredictionSpec StackProps

set_option linter.unusedSectionVars false
variable {I S : Type} [TokStream I] {C : Cfg I S} {T : Nat → Tok} {V : I → Nat → Prop}

/-! ## Returning -/

def Ends (total : Bool) {α : Type} (r : Nat → Out I S α) (Q : α → GS I S → Prop) : Prop :=
  if total then ∃ m0 a s', Q a s' ∧ ∀ m, m0 ≤ m → r m = some (.ok a, s')
  else ∀ m x s', r m = some (x, s') → ∃ a, x = .ok a ∧ Q a s'

section
variable {total : Bool} {α β : Type}

theorem Ends.ret {r : Nat → Out I S α} {Q : α → GS I S → Prop} {a : α} {s' : GS I S} (h : ∀ m, r m = some (.ok a, s'))
    (hq : Q a s') : Ends total r Q := by
  cases total
  · intro m x s1 e
    rw [h m] at e
    cases e
    exact ⟨a, rfl, hq⟩
  · exact ⟨0, a, s', hq, fun m _ => h m⟩

theorem Ends.bind {r : Nat → Out I S α} {Q : α → GS I S → Prop} {g : Nat → Except PErr α × GS I S → Out I S β}
    {R : β → GS I S → Prop} (h : Ends total r Q) (hg : ∀ a s, Q a s → Ends total (fun m => g m (.ok a, s)) R) :
    Ends total (fun m => (r m).bind (g m)) R := by
  cases total
  · intro m x s1 e
    obtain ⟨⟨y, s2⟩, e1, e2⟩ := Option.bind_eq_some_iff.1 e
    obtain ⟨a, rfl, hq⟩ := h m y s2 e1
    exact hg a s2 hq m x s1 e2
  · obtain ⟨m0, a, s1, hq, h⟩ := h
    obtain ⟨m1, b, s2, hr, h'⟩ := hg a s1 hq
    refine ⟨max m0 m1, b, s2, hr, ?_⟩
    intro m hm
    show (r m).bind (g m) = _
    rw [h m (by omega), Option.bind_some]
    exact h' m (by omega)

theorem Ends.andThen {r : Nat → Out I S α} {Q : α → GS I S → Prop} {f : Nat → α → GS I S → Out I S β}
    {R : β → GS I S → Prop} (h : Ends total r Q) (hg : ∀ a s, Q a s → Ends total (fun m => f m a s) R) :
    Ends total (fun m => Gen.andThen (r m) (f m)) R :=
  h.bind hg

theorem Ends.mono {r : Nat → Out I S α} {Q Q' : α → GS I S → Prop} (h : Ends total r Q)
    (hq : ∀ a s, Q a s → Q' a s) : Ends total r Q' := by
  cases total
  · intro m x s1 e
    obtain ⟨a, rfl, h1⟩ := h m x s1 e
    exact ⟨a, rfl, hq _ _ h1⟩
  · obtain ⟨m0, a, s1, h1, h⟩ := h
    exact ⟨m0, a, s1, hq _ _ h1, h⟩

theorem Ends.succ {r b : Nat → Out I S α} {Q : α → GS I S → Prop} (h0 : r 0 = none) (h1 : ∀ m, r (m + 1) = b m)
    (h : Ends total b Q) : Ends total r Q := by
  cases total
  · intro m x s1 e
    cases m with
    | zero => rw [h0] at e; cases e
    | succ m => rw [h1] at e; exact h m x s1 e
  · obtain ⟨m0, a, s1, hq, h⟩ := h
    refine ⟨m0 + 1, a, s1, hq, ?_⟩
    intro m hm
    obtain ⟨m, rfl⟩ : ∃ k, m = k + 1 := ⟨m - 1, by omega⟩
    rw [h1]
    exact h m (by omega)

end

/-! ## Contexts -/

/-- The contexts `cs`, innermost first, are each other's parents, and were invoked from the given states. -/
inductive Chain (h : List Ctx) : List Nat → List Int → Prop
  | nil : Chain h [] []
  | cons {c x cs l} : h[c]? = some x → x.parent = cs.head? → (∀ q, cs.head? = some q → q < c) → Chain h cs l →
      Chain h (c :: cs) (x.invoking :: l)

theorem Chain.under {h : List Ctx} {cs : List Nat} {l : List Int} (hc : Chain h cs l) (b : Nat)
    (hb : ∀ q, cs.head? = some q → q < b) : ∀ c ∈ cs, c < b := by
  induction hc generalizing b with
  | nil => simp
  | cons h1 h2 h3 h4 ih =>
    have := hb _ rfl
    intro c hc
    rcases List.mem_cons.1 hc with rfl | hc
    · exact this
    · exact ih _ (fun q hq => by have := h3 q hq; omega) c hc

/-- Contexts keep their parents and their invoking states. -/
theorem Chain.frame {h h' : List Ctx} {cs : List Nat} {l : List Int} (hc : Chain h cs l)
    (hf : ∀ c ∈ cs, ∀ x, h[c]? = some x → ∃ x', h'[c]? = some x' ∧ x'.parent = x.parent ∧ x'.invoking = x.invoking) :
    Chain h' cs l := by
  induction hc with
  | nil => exact .nil
  | @cons c x cs l h1 h2 h3 h4 ih =>
    obtain ⟨x', e1, e2, e3⟩ := hf c (by simp) _ h1
    rw [← e3]
    exact .cons e1 (by rw [e2, h2]) h3 (ih fun c hc => hf c (by simp [hc]))

theorem Chain.from {h : List Ctx} {cs : List Nat} {l : List Int} (hc : Chain h cs l) {fuel : Nat}
    (hf : ∀ q, cs.head? = some q → q < fuel) : P.chainFrom h fuel cs.head? = some l := by
  induction hc generalizing fuel with
  | nil => cases fuel <;> rfl
  | @cons c x cs l h1 h2 h3 h4 ih =>
    have := hf c rfl
    obtain ⟨fuel, rfl⟩ : ∃ k, fuel = k + 1 := ⟨fuel - 1, by omega⟩
    simp only [List.head?_cons, P.chainFrom, h1, Option.bind_some]
    rw [h2, ih (fun q hq => by have := h3 q hq; omega)]
    rfl

/-- The parser has read `n` tokens and is in the contexts `cs`. -/
structure Track (V : I → Nat → Prop) (p : P I) (n : Nat) (cs : List Nat) (outer : List Int) : Prop where
  ready : ∃ st, Ready V p st cs.head? ∧ st.pos = n
  chain : Chain p.heap cs outer

/-- Without errors so far (or `e` of them). -/
structure Good (V : I → Nat → Prop) (Inv : S → Prop) (e : Nat) (s : GS I S) (n : Nat) (cs : List Nat) (outer : List Int) :
    Prop where
  track : Track V s.es.p n cs outer
  mode : s.es.eh.mode = false
  errs : s.es.p.syntaxErrors = e
  inv : Inv s.sim

section
variable {Inv : S → Prop} {e n : Nat} {s : GS I S} {cs : List Nat} {outer : List Int}

theorem Good.view (h : Good V Inv e s n cs outer) : V s.es.p.input n := by
  obtain ⟨st, h1, rfl⟩ := h.track.ready
  exact h1.view

theorem Good.ctx (h : Good V Inv e s n cs outer) : s.es.p.ctx = cs.head? := by
  obtain ⟨st, h1, rfl⟩ := h.track.ready
  exact h1.ctx

theorem Good.setState (h : Good V Inv e s n cs outer) (st : Int) : Good V Inv e (s.setState st) n cs outer := by
  obtain ⟨st', h1, rfl⟩ := h.track.ready
  exact ⟨⟨⟨{ st' with state := st }, ⟨h1.view, h1.meof, rfl, h1.ctx, h1.mem⟩, rfl⟩, h.track.chain⟩, h.mode, h.errs, h.inv⟩

/-- The input was looked at. -/
theorem Good.look (h : Good V Inv e s n cs outer) {i : I} (hi : V i n) {eh : EH} (hm : eh.mode = false) {σ : S}
    (hσ : Inv σ) : Good V Inv e ({ es := ⟨eh, { s.es.p with input := i }⟩, sim := σ } : GS I S) n cs outer := by
  obtain ⟨st', h1, rfl⟩ := h.track.ready
  exact ⟨⟨⟨st', ⟨hi, h1.meof, h1.state, h1.ctx, h1.mem⟩, rfl⟩, h.track.chain⟩, hm, h.errs, hσ⟩

/-- A token was matched. -/
theorem Good.match (hv : IsView T V) (h : Good V Inv e s n cs outer) (hc : cs ≠ []) :
    ∃ p', s.es.p.matchCurrent = some p' ∧ ∀ eh : EH, eh.mode = false →
      Good V Inv e ({ s with es := ⟨eh, p'⟩ } : GS I S) (if (T n).ttype = TOKEN_EOF then n else n + 1) cs outer := by
  obtain ⟨st, h1, rfl⟩ := h.track.ready
  obtain ⟨c, cs, rfl⟩ : ∃ c l, cs = c :: l := by
    cases cs with
    | nil => exact absurd rfl hc
    | cons c l => exact ⟨c, l, rfl⟩
  have ha : At V s.es.p st c := ⟨h1.view, h1.meof, h1.state, h1.ctx, h1.mem c rfl⟩
  obtain ⟨i', h', new, stop', c0, e1, e2, e3, e4, e5, e6, -⟩ := (prim_ok hv ha .matchTok).step
  refine ⟨_, e1, ?_⟩
  intro eh hm
  have hp : (primDen T Prim.matchTok st).2.pos = if (T st.pos).ttype = TOKEN_EOF then st.pos else st.pos + 1 := by
    simp only [primDen]
    by_cases he : (T st.pos).ttype = TOKEN_EOF
    · simp only [he, if_true, advance]
    · simp only [he, if_false, advance]
  refine ⟨⟨⟨_, ⟨e2, rfl, rfl, h1.ctx, ?_⟩, hp⟩, ?_⟩, hm, h.errs, h.inv⟩
  · intro c' hc'
    have := h1.mem c' hc'
    exact Nat.lt_of_lt_of_le this e3
  · refine h.track.chain.frame ?_
    intro d hd x hx
    by_cases hdc : d = c
    · subst hdc
      rw [e5, Option.some.injEq] at hx
      subst hx
      exact ⟨_, e6, rfl, rfl⟩
    · have hl : d < s.es.p.heap.length := (List.getElem?_eq_some_iff.1 hx).1
      exact ⟨x, by rw [← hx]; exact e4 d hdc hl, rfl, rfl⟩

/-! ## Matching -/

theorem matchTok_ok (hv : IsView T V) (h : Good V Inv e s n cs outer) (hc : cs ≠ []) {t : Int} (ht : (T n).ttype = t) :
    ∃ tok s', matchTok C t s = some (.ok tok, s') ∧
      Good V Inv e s' (if (T n).ttype = TOKEN_EOF then n else n + 1) cs outer := by
  obtain ⟨p', h1, h2⟩ := h.match hv hc
  have hcur := current_eq hv h.view
  simp only [P.matchCurrent, hcur, Option.bind_some, ht] at h1
  by_cases hb : C.bail
  · refine ⟨T n, _, ?_, h2 s.es.eh h.mode⟩
    simp only [matchTok, GS.strat, hb, if_true, ES.bailMatchToken, hcur, Option.bind_some, ht, ES.bailReportMatch,
      eofSet, ES.consume, h.mode, h1, Option.map_some]
  · refine ⟨T n, _, ?_, h2 s.es.eh.end_ rfl⟩
    have hm : s.es.eh.end_.mode = false := rfl
    simp only [matchTok, GS.strat, hb, ES.matchToken, hcur, Option.bind_some, ht, ES.reportMatch,
      eofSet, ES.consume, hm, h1, Option.map_some, if_true, Bool.false_eq_true, if_false]

theorem matchAny_ok (hv : IsView T V) (h : Good V Inv e s n cs outer) (hc : cs ≠ []) (ht : 0 < (T n).ttype) :
    ∃ tok s', matchAny C s = some (.ok tok, s') ∧
      Good V Inv e s' (if (T n).ttype = TOKEN_EOF then n else n + 1) cs outer := by
  obtain ⟨p', h1, h2⟩ := h.match hv hc
  have hcur := current_eq hv h.view
  rw [matchCurrent_of_pos hv h.view ht] at h1
  by_cases hb : C.bail
  · refine ⟨T n, _, ?_, h2 s.es.eh h.mode⟩
    simp only [matchAny, GS.strat, hb, if_true, bailMatchWildcard, hcur, Option.bind_some, gt_iff_lt, ht, ES.bailReportMatch,
      ES.consume, h.mode, h1, Option.map_some]
  · refine ⟨T n, _, ?_, h2 s.es.eh.end_ rfl⟩
    have hm : s.es.eh.end_.mode = false := rfl
    simp only [matchAny, GS.strat, hb, ES.matchWildcard, hcur, Option.bind_some, gt_iff_lt, ht, ES.reportMatch,
      ES.consume, hm, h1, Option.map_some, if_true, Bool.false_eq_true, if_false]

theorem la_ok (hv : IsView T V) {p : P I} {n : Nat} (h : V p.input n) :
    ∃ i', p.la 1 = some ((T n).ttype, { p with input := i' }) ∧ V i' n := by
  obtain ⟨i', h1, h2⟩ := hv.la p.input n 1 h (Nat.le_refl _)
  have h1' : TokStream.la p.input 1 = some ((T n).ttype, i') := h1
  exact ⟨i', by simp [P.la, h1'], h2⟩

theorem matchSet_ok (hv : IsView T V) (h : Good V Inv e s n cs outer) (hc : cs ≠ []) {ts : List Int} {invert : Bool}
    (ht : inSet ts invert (T n).ttype = true) :
    ∃ s', matchSet C ts invert s = some (.ok (), s') ∧
      Good V Inv e s' (if (T n).ttype = TOKEN_EOF then n else n + 1) cs outer := by
  obtain ⟨i1, a1, v1⟩ := la_ok hv h.view
  obtain ⟨i2, a2, v2⟩ := la_ok hv (p := { s.es.p with input := i1 }) v1
  have g2 := h.look v2 (eh := s.es.eh) h.mode h.inv
  obtain ⟨p', h1, h2⟩ := g2.match hv hc
  have hcur := current_eq hv g2.view
  simp only [P.matchCurrent] at h1
  rw [hcur] at h1
  simp only [Option.bind_some] at h1
  by_cases hb : C.bail
  · refine ⟨_, ?_, h2 s.es.eh h.mode⟩
    simp only [matchSet, a1, Option.bind_some, ht, if_true, a2, hb, ES.bailReportMatch, ES.consume, h.mode]
    rw [h1]; rfl
  · refine ⟨_, ?_, h2 s.es.eh.end_ rfl⟩
    have hm : s.es.eh.end_.mode = false := rfl
    simp only [matchSet, a1, Option.bind_some, ht, if_true, a2, hb, ES.reportMatch, ES.consume, hm,
      Bool.false_eq_true, if_false]
    rw [h1]; rfl

/-! ## Synchronizing -/

/-- The set computed for the state has every token that can come next inside the rule, and `EPSILON` if the
rule can end. -/
def Foresees (atn : ATN) (fuel a : Nat) : Prop :=
  ∃ set, nextTokens atn fuel a = some set ∧ (∀ x, CanMatch atn (a, []) x → set.contains x = true) ∧
    (CanEnd atn (a, []) → set.contains TOKEN_EPSILON = true)

theorem reach_split {atn : ATN} {a : Nat} {τ : List Nat} {q : Pos} (h : Reach atn (a, τ) q) :
    (∃ t k, q = (t, k ++ τ) ∧ Reach atn (a, []) (t, k)) ∨ CanEnd atn (a, []) := by
  induction h with
  | refl => exact .inl ⟨a, [], rfl, .refl⟩
  | tail _ hs ih =>
    rcases ih with ⟨t, k, rfl, hr⟩ | h
    · generalize hp : (t, k ++ τ) = p at hs
      cases hs with
      | free h1 h2 h3 h4 =>
        simp only [Prod.mk.injEq] at hp
        obtain ⟨rfl, rfl⟩ := hp
        exact .inl ⟨_, k, rfl, .tail hr (.free h1 h2 h3 h4)⟩
      | call h1 h2 h3 =>
        simp only [Prod.mk.injEq] at hp
        obtain ⟨rfl, rfl⟩ := hp
        exact .inl ⟨_, _ :: k, rfl, .tail hr (.call h1 h2 h3)⟩
      | ret h1 h2 =>
        simp only [Prod.mk.injEq] at hp
        obtain ⟨rfl, hp⟩ := hp
        cases k with
        | nil => exact .inr ⟨_, _, hr, h1, h2⟩
        | cons f k =>
          simp only [List.cons_append, List.cons.injEq] at hp
          obtain ⟨rfl, rfl⟩ := hp
          exact .inl ⟨_, k, rfl, .tail hr (.ret h1 h2)⟩
    · exact .inr h

theorem takes_matches {max x : Int} {tr : Trans} (hx : x ≠ 0) (h : Takes max tr x) : LL1Spec.Matches max tr x := by
  cases tr <;> simp only [Takes, LL1Spec.Matches] at h ⊢ <;> try exact h
  · exact ⟨by omega, h.2⟩
  · omega

/-- What comes next on a winning path is foreseen. -/
theorem _root_.Antlr.GenSpec.Go.foreseen {atn : ATN} {E : Nat → Prop} {w : Nat → Int} (ha : Plain atn) {k a : Nat} {τ : List Nat} (h : Go atn E w k n (a, τ))
    (hx : w n ≠ 0) : CanMatch atn (a, []) (w n) ∨ CanEnd atn (a, []) := by
  obtain ⟨q, h1, h2⟩ := h.next ha
  rcases reach_split h1 with ⟨t, k, rfl, hr⟩ | h3
  · rcases h2 with ⟨⟨h3, st, h4, h5⟩, -⟩ | ⟨r, st, tr, h3, h4, h5, h6, -⟩
    · simp only [List.append_eq_nil_iff] at h3
      obtain ⟨rfl, -⟩ := h3
      exact .inr ⟨t, st, hr, h4, h5⟩
    · exact .inl ⟨t, k, st, tr, hr, h3, h4, h5, takes_matches hx h6⟩
  · exact .inr h3

theorem _root_.Antlr.GenSpec.Go.state {atn : ATN} {E : Nat → Prop} {w : Nat → Int} (ha : Plain atn) {k a : Nat} {τ : List Nat} (h : Go atn E w k n (a, τ)) :
    ∃ st, atn.states[a]? = some st := by
  rcases h.cases ha with ⟨⟨-, st, h1, -⟩, -⟩ | ⟨l, -, ⟨q, hs, -⟩ | ⟨q, -, hr, -⟩ | ⟨q, -, hr, -⟩⟩
  · exact ⟨st, h1⟩
  · cases hs with
    | free h1 _ _ _ => exact ⟨_, h1⟩
    | call h1 _ _ => exact ⟨_, h1⟩
    | ret h1 _ => exact ⟨_, h1⟩
  all_goals
    obtain ⟨st, tr, h, -⟩ := hr
    exact ⟨st, h⟩

theorem sync_ok (hv : IsView T V) {atn : ATN} {E : Nat → Prop} {w : Nat → Int} (hw : ∀ n, w n = (T n).ttype) (ha : Plain atn)
    (hC : C.bail = true ∨ (C.env.atn = atn ∧ ∀ a st, atn.states[a]? = some st → Foresees atn C.env.fuel a))
    (h : Good V Inv e s n cs outer) (hc : cs ≠ []) {k a : Nat} {τ : List Nat} (hg : Go atn E w k n (a, τ)) (hx : w n ≠ 0) :
    ∃ s', (∀ m, sync C m (s.setState (a : Nat)) = some (.ok (), s')) ∧ Good V Inv e s' n cs outer := by
  have h' := h.setState (a : Nat)
  by_cases hb : C.bail
  · exact ⟨s.setState (a : Nat), fun m => by simp [sync, hb, GS.strat, ES.bailSync], h'⟩
  obtain ⟨rfl, hC⟩ := hC.resolve_left hb
  obtain ⟨st, hst⟩ := hg.state ha
  obtain ⟨set, f1, f2, f3⟩ := hC a st hst
  obtain ⟨i1, a1, v1⟩ := la_ok hv h'.view
  have hs : C.env.atn.stateAt (a : Nat) = some st := by simp [ATN.stateAt, hst]
  have hm : (s.setState (a : Nat)).es.eh.mode = false := h.mode
  rw [hw] at hx
  have key : ∀ m, sync C m (s.setState (a : Nat)) = (s.setState (a : Nat)).strat (
      if set.contains (T n).ttype then
        some (.ok (), ⟨{ s.es.eh with ntState := -1, ntCtx := none }, { (s.setState (a : Nat)).es.p with input := i1 }⟩)
      else if set.contains TOKEN_EPSILON then
        match s.es.eh.ntCtx with
        | some _ => some (.ok (), ⟨s.es.eh, { (s.setState (a : Nat)).es.p with input := i1 }⟩)
        | none => s.es.p.ctx.map fun c =>
          (.ok (), ⟨{ s.es.eh with ntState := (a : Nat), ntCtx := some c }, { (s.setState (a : Nat)).es.p with input := i1 }⟩)
      else ES.sync C.env m (s.setState (a : Nat)).es) := by
    intro m
    simp only [sync, hb, Bool.false_eq_true, if_false]
    congr 1
    by_cases c1 : set.contains (T n).ttype
    · rw [if_pos c1]
      simp only [ES.sync, hm, Bool.false_eq_true, if_false, a1, Option.bind_some]
      simp only [GS.setState, hs, Option.bind_some, Int.toNat_natCast, f1, c1, if_true, h.mode]
    · rw [if_neg c1]
      by_cases c2 : set.contains TOKEN_EPSILON
      · rw [if_pos c2]
        simp only [ES.sync, hm, Bool.false_eq_true, if_false, a1, Option.bind_some]
        simp only [GS.setState, hs, Option.bind_some, Int.toNat_natCast, f1, c1, if_false, c2, if_true, Bool.false_eq_true, h.mode]
        rfl
      · rw [if_neg c2]
  obtain ⟨c, cs', rfl⟩ : ∃ c l, cs = c :: l := by
    cases cs with
    | nil => exact absurd rfl hc
    | cons c l => exact ⟨c, l, rfl⟩
  have hctx : s.es.p.ctx = some c := h.ctx
  by_cases c1 : set.contains (T n).ttype
  · refine ⟨_, fun m => by rw [key m, if_pos c1]; rfl, ?_⟩
    exact h'.look v1 (eh := { s.es.eh with ntState := -1, ntCtx := none }) h.mode h.inv
  · have c2 : set.contains TOKEN_EPSILON = true := by
      rcases hg.foreseen ha (by rw [hw]; exact hx) with h3 | h3
      · rw [hw] at h3; exact absurd (f2 _ h3) c1
      · exact f3 h3
    cases hn : s.es.eh.ntCtx with
    | some d =>
      refine ⟨_, fun m => by rw [key m, if_neg c1, if_pos c2, hn]; rfl, ?_⟩
      exact h'.look v1 (eh := s.es.eh) h.mode h.inv
    | none =>
      refine ⟨_, fun m => by rw [key m, if_neg c1, if_pos c2, hn, hctx]; rfl, ?_⟩
      exact h'.look v1 (eh := { s.es.eh with ntState := (a : Nat), ntCtx := some c }) h.mode h.inv

end
end Antlr.Gen
