import Verif.Prediction.Input
import Verif.TokenStream.Props
import Verif.TokenStream.CommonProps

/-!
# Prediction and the token stream (C38)
-/

namespace Antlr.PredictionProps
open Antlr Prediction TokenSpec

/-- `UnbufferedTokenStream` as the input of a parser, src/token_stream.rs:151-292 -/
instance : TokStream TS where
  index s := s.cur
  get := TS.get
  lt := TS.lt
  la := TS.la
  consume := TS.consume
  seek := TS.seek
  mark := TS.mark
  release := TS.release

/-! ### An example: the grammar `a : ('w' 'x' (a 'y')??)* ;` -/

/-- A token of type `t`, number `i`. -/
def exTok (t : Int) (i : Nat) : Tok := { ttype := t, index := i }

/-- The source that delivers tokens of these types. -/
def exSource (ts : List Nat) : Source where
  pre := ts.zipIdx.map fun p => exTok p.1 p.2
  eof := exTok TOKEN_EOF ts.length
  pre_ne := by
    intro t h
    simp only [List.mem_map] at h
    obtain ⟨⟨a, b⟩, _, rfl⟩ := h
    simp only [exTok, TOKEN_EOF]; omega
  eof_eq := rfl

/-- A state of rule 0. -/
def exState (n : Nat) (ty : StateType) (ts : List Trans) : ATNState where
  epsilonOnly := !ts.isEmpty && ts.all (·.isEpsilon)
  ruleIndex := 0
  stateNumber := n
  stateType := ty
  transitions := ts

/-- An epsilon transition. -/
def exEps (t : Nat) : Trans := .epsilon t (-1)

/-- The ATN of `a : ('w' 'x' (a 'y')??)* ;` with `'w'` = 1, `'x'` = 2, `'y'` = 3.  Decision 0 is
`(a 'y')??`: alternative 1 skips, alternative 2 enters. -/
def exNest : ATN where
  grammarType := .parser
  maxTokenType := 3
  decisionToState := [6, 2, 3]
  ruleToStartState := [0]
  ruleToStopState := [1]
  states := [
    exState 0 (.ruleStart 1 false) [exEps 2],
    exState 1 .ruleStop [exEps 8],
    exState 2 (.decision 1 false (.starLoopEntry 11 false)) [exEps 3, exEps 9],
    exState 3 (.decision 2 false (.blockStart 10 .star)) [exEps 4],
    exState 4 .basic [.atom 5 1],
    exState 5 .basic [.atom 6 2],
    exState 6 (.decision 0 true (.blockStart 10 .basic)) [exEps 10, exEps 7],
    exState 7 .basic [.rule 0 8 0 0],
    exState 8 .basic [.atom 10 3],
    exState 9 (.loopEnd 11) [exEps 1],
    exState 10 (.blockEnd 6) [exEps 11],
    exState 11 .starLoopback [exEps 2]]

/-- A parser for it, standing in its start rule. -/
def exParams (I : Type) : Params I where
  atn := exNest
  mode := .LL
  sempred := fun _ _ _ _ => true
  prec := 0
  outer := [-1]
  ord := id
  hash := fun _ => 0

/-- The empty DFA of decision 0. -/
def exDfa : DFA where
  atnStartState := 6
  decision := 0
  states := [DFAState.new (2 ^ 64 - 1) (ConfigSet.newBase true)]

example : DFA.new exNest 6 0 = some exDfa := by decide +kernel

/-- Prediction number `n + 1` in a row for decision 0, on the same input. -/
def exPredict (I : Type) [TokStream I] (i : I) : Nat → Option (Res I)
  | 0 => adaptivePredict (exParams I) 40 20 exDfa i
  | n + 1 => (exPredict I i n).bind fun r => adaptivePredict (exParams I) 40 20 r.dfa i

/-! ### C38 -/

theorem rewinds_cts (src : Source) (c : Int) (start : Int) :
    Rewinds (I := CTS) start (fun i => ∃ h, CommonProps.Reach src c i h ∧ start ∈ h) := by
  have hlt : ∀ {i : CTS} {h k r s}, CommonProps.Reach src c i h → i.lt k = some (r, s) →
      s.index = i.index := by
    intro i h k r s hr hl
    obtain ⟨len, p, rfl, hok, -⟩ := CommonProps.reach_inv hr
    rcases Int.lt_trichotomy k 0 with hk | hk | hk
    · obtain ⟨n, rfl⟩ : ∃ n : Nat, k = -(n : Int) := ⟨(-k).toNat, by omega⟩
      rw [lt_neg_cst src c len p n (by omega) hok] at hl
      split at hl
      · simp only [Option.some.injEq, Prod.mk.injEq] at hl
        rw [← hl.2]
      · rw [Option.map_eq_some_iff] at hl
        obtain ⟨_, _, hl⟩ := hl
        simp only [Prod.mk.injEq] at hl
        rw [← hl.2]
    · subst hk; simp [CTS.lt] at hl
    · obtain ⟨n, rfl⟩ : ∃ n : Nat, k = (n : Int) := ⟨k.toNat, by omega⟩
      obtain ⟨len', h1, h2, h3⟩ := lt_cst src c len p n (by omega) hok
      rw [h3] at hl
      simp only [Option.some.injEq, Prod.mk.injEq] at hl
      rw [← hl.2]; rfl
  refine ⟨?_, ?_, ?_, ?_, ?_⟩
  · rintro i k ⟨x, i'⟩ ⟨h, hr, hm⟩ hl
    refine ⟨⟨h, hr.la hl, hm⟩, ?_⟩
    change CTS.la i k = _ at hl
    rw [CTS.la, Option.map_eq_some_iff] at hl
    obtain ⟨⟨r, t⟩, hl, he⟩ := hl
    simp only [Prod.mk.injEq] at he
    rw [← he.2]
    exact hlt hr hl
  · rintro i k ⟨x, i'⟩ ⟨h, hr, hm⟩ hl
    exact ⟨⟨h, hr.lt hl, hm⟩, hlt hr hl⟩
  · rintro i i' ⟨h, hr, hm⟩ hc
    exact ⟨_, hr.consume hc, List.mem_cons_of_mem _ hm⟩
  · rintro i i' ⟨h, hr, hm⟩ hs
    obtain ⟨s', h1, h2, h3⟩ := CommonProps.C19_seek_recorded src c i h hr start hm
    have e : i' = s' := by
      have : some i' = some s' := hs.symm.trans h1
      simpa using this
    rw [e]
    exact ⟨⟨h, h3, hm⟩, h2⟩
  · rintro i i' i'' ⟨h, hr, hm⟩ hs hb
    have hr' := hr.seek hm hs
    obtain ⟨len, p, rfl, hok, hv, h1, -⟩ := CommonProps.reach_inv hr
    have e : TokStream.index (cst src c len p) = (p : Int) := by
      simp [TokStream.index, CTS.index, cst, st]
    rw [e] at hb ⊢
    obtain ⟨s', g1, g2, g3⟩ := CommonProps.C19_seek_recorded src c i' h hr' p h1
    have e : i'' = s' := by
      have : some i'' = some s' := hb.symm.trans g1
      simpa using this
    rw [e]
    exact ⟨⟨h, g3, hm⟩, g2⟩

/-- **C38** For every ATN, DFA cache, prediction mode, predicate evaluation and reachable token
stream: when `adaptive_predict` returns — an alternative or an error — the stream stands where it
stood at the call, and it is a reachable stream still (so everything read from it later depends on
that position alone, `C19_position_determines`). -/
theorem C38_input_restored (P : Params CTS) (cf n : Nat) (d : DFA) (src : Source) (c : Int) (s : CTS)
    (h : List Int) (hr : CommonProps.Reach src c s h) (r : Res CTS)
    (hp : adaptivePredict P cf n d s = some r) :
    r.inp.index = s.index ∧ ∃ h', CommonProps.Reach src c r.inp h' := by
  have hm : s.index ∈ h := by
    obtain ⟨len, p, rfl, hok, hv, h1, -⟩ := CommonProps.reach_inv hr
    simpa [CTS.index, cst, st] using h1
  have := adaptivePredict_inp P cf n d s r (rewinds_cts src c s.index) ⟨h, hr.mark, hm⟩ hp
  cases ho : r.out with
  | alt k =>
    simp only [ho] at this
    obtain ⟨j, ⟨h', hj, _⟩, h2, h3⟩ := this
    have e : j = r.inp := by
      have : some (j.release (TokStream.mark s).1) = some r.inp := h3
      simpa [CTS.release] using this
    rw [← e]
    exact ⟨h2, h', hj⟩
  | noAlt a b =>
    simp only [ho] at this
    obtain ⟨⟨h', hj, _⟩, h2⟩ := this
    exact ⟨h2, h', hj⟩

/-- Predictions that read four tokens and that fail: both leave the stream at the start. -/
example : ((exPredict CTS (CTS.withChannel (exSource [1, 2, 3, 3]) 0) 1).map fun r =>
      (decide (r.out = .alt 2), r.inp.index, r.inp.base.fetched)) = some (true, 0, 4) ∧
    ((exPredict CTS (CTS.withChannel (exSource [1, 1]) 0) 0).map fun r =>
      (decide (r.out = .noAlt (exTok 1 0) (exTok 1 1)), r.inp.index, r.inp.base.fetched)) =
        some (true, 0, 2) ∧
    CommonProps.Reach (exSource [1, 1]) 0 (CTS.withChannel (exSource [1, 1]) 0) [0] :=
  ⟨by decide +kernel, by decide +kernel, CommonProps.Reach.init⟩

theorem rewinds_ts (src : Source) (m : Int) (start : Int) :
    Rewinds (I := TS) start (fun i => TokenProps.Inv src i ∧ i.markers = m) := by
  have hseek : ∀ {i : TS} {q : Int} {i'}, TokenProps.Inv src i → i.seek q = some i' →
      TokenProps.Inv src i' ∧ i'.markers = i.markers ∧ i'.cur = q := by
    rintro i q i' ⟨m, bs, len, p, rfl, hok⟩ h
    rw [seek_st _ _ _ _ _ _ hok] at h
    split at h
    · rename_i e
      simp only [Option.some.injEq] at h
      rw [← h, e]
      exact ⟨⟨m, bs, len, p, rfl, hok⟩, rfl, rfl⟩
    · split at h
      · rename_i h1 h2
        simp only [Option.some.injEq] at h
        rw [← h]
        refine ⟨⟨m, bs, len, _, rfl, ?_⟩, rfl, ?_⟩
        · unfold OK at *; omega
        · simp only [st]; omega
      · simp at h
  refine ⟨?_, ?_, ?_, ?_, ?_⟩
  · rintro i k ⟨x, i'⟩ ⟨hi, hm⟩ hl
    change TS.la i k = _ at hl
    rw [TS.la, Option.map_eq_some_iff] at hl
    obtain ⟨⟨r, t⟩, hl, he⟩ := hl
    simp only [Prod.mk.injEq] at he
    rw [← he.2]
    obtain ⟨a, b, c⟩ := TokenProps.inv_lt hi hl
    exact ⟨⟨a, c.trans hm⟩, b⟩
  · rintro i k ⟨x, i'⟩ ⟨hi, hm⟩ hl
    obtain ⟨a, b, c⟩ := TokenProps.inv_lt hi hl
    exact ⟨⟨a, c.trans hm⟩, b⟩
  · rintro i i' ⟨⟨m', bs, len, p, rfl, hok⟩, hm⟩ hc
    change TS.consume _ = _ at hc
    rw [consume_st _ _ _ _ _ hok] at hc
    split at hc
    · rename_i he
      simp only [Option.some.injEq] at hc
      rw [← hc]
      exact ⟨⟨m', bs, _, _, rfl, OK_consume hok he⟩, hm⟩
    · simp at hc
  · rintro i i' ⟨hi, hm⟩ hs
    obtain ⟨a, b, c⟩ := hseek hi hs
    exact ⟨⟨a, b.trans hm⟩, c⟩
  · rintro i i' i'' ⟨hi, hm⟩ hs hb
    obtain ⟨a, b, c⟩ := hseek hi hs
    obtain ⟨a', b', c'⟩ := hseek a hb
    exact ⟨⟨a', b'.trans (b.trans hm)⟩, c'⟩

/-- **C38** The same for an unbuffered token stream.  But only a successful prediction releases the
mark it took: after an error the stream holds one marker more than before, for ever (from then on it
keeps every token it reads, and a `release` by a caller that had taken a mark earlier panics). -/
theorem C38_unbuffered (P : Params TS) (cf n : Nat) (d : DFA) (src : Source) (s : TS)
    (hr : TokenProps.Reachable src s) (r : Res TS) (hp : adaptivePredict P cf n d s = some r) :
    r.inp.cur = s.cur ∧
      r.inp.markers = s.markers + (match r.out with | .alt _ => 0 | .noAlt _ _ => 1) := by
  have hi := TokenProps.inv_reachable hr
  have hi' : TokenProps.Inv src s.mark.2 := TokenProps.inv_op .mark hi rfl
  have := adaptivePredict_inp P cf n d s r (rewinds_ts src (s.markers + 1) s.cur) ⟨hi', rfl⟩ hp
  cases ho : r.out with
  | alt k =>
    simp only [ho] at this
    obtain ⟨j, ⟨⟨m', bs, len, p, rfl, hok⟩, h1⟩, h2, h3⟩ := this
    change TS.release _ _ = _ at h3
    have h2 : (bs + p : Nat) = s.cur := h2
    have h1 : m' = s.markers + 1 := h1
    rw [release_st _ _ _ _ _ _ hok] at h3
    split at h3
    · simp at h3
    · split at h3
      all_goals
        simp only [Option.some.injEq] at h3
        rw [← h3]
        simp only [st]
        omega
  | noAlt a b =>
    simp only [ho] at this
    obtain ⟨⟨_, h1⟩, h2⟩ := this
    exact ⟨h2, h1⟩

/-- After a failed prediction, releasing a mark taken before it panics. -/
example : ((exPredict TS (TS.newUnbuffered (exSource [1, 1])).mark.2 0).map fun r =>
    (decide (r.out = .noAlt (exTok 1 0) (exTok 1 1)), r.inp.cur, r.inp.markers,
      (r.inp.release (-1)).isNone)) = some (true, 0, 2, true) := by decide +kernel

end Antlr.PredictionProps
