import Verif.Prediction.Lockstep
import Verif.Prediction.Fuel
import Verif.Prediction.AnswerProps

/-!
# How far the DFA of a decision is only a cache (C39)

For every parser automaton — with predicates and precedence — every common token stream and every history of predictions that filled the
DFA, in one prediction mode.  (`ord`, the order in which sets of semantic contexts are gone through, is fixed.)
-/

namespace Antlr.PredictionProps
open Antlr Prediction TokenSpec PredictionSpec

/-- A prediction asked at some state of a common token stream with token types an `isize` can hold that are not below EOF, for the
grammar `atn` in the mode `mode`.  Everything else (call stack, precedence, predicates) may be anything. -/
structure Posed (atn : ATN) (mode : PredictionMode) (ord : List SC → List SC) (src : Source) (c : Int) (P : Params CTS) (inp : CTS) :
    Prop where
  stream : ∃ h, CommonProps.Reach src c inp h
  types : ∀ n, -1 ≤ (tok src n).ttype ∧ (tok src n).ttype < 2 ^ 63
  prec : 0 ≤ P.prec ∧ P.prec < 2 ^ 63
  atn : P.atn = atn
  mode : P.mode = mode
  ord : P.ord = ord

/-- The DFA `d'` is what any number of predictions made of `d`.  (The number of states stays below the greatest `usize`, which marks
errors.) -/
inductive After (atn : ATN) (mode : PredictionMode) (ord : List SC → List SC) (d : DFA) : DFA → Prop
  | refl : After atn mode ord d d
  | step {d1 : DFA} {src : Source} {c : Int} {P : Params CTS} {inp : CTS} {cf n : Nat} {r : Res CTS} :
      After atn mode ord d d1 → Posed atn mode ord src c P inp → adaptivePredict P cf n d1 inp = some r →
      r.dfa.states.length ≤ ERROR_DFA_STATE_REF → After atn mode ord d r.dfa

/-- The DFA of decision number `k`, at state `s`, after any number of predictions. -/
def Filled (atn : ATN) (mode : PredictionMode) (ord : List SC → List SC) (s : Nat) (k : Int) (d : DFA) : Prop :=
  ∃ d0, DFA.new atn s k = some d0 ∧ After atn mode ord d0 d

/-! ### Helpers -/

section
variable {atn : ATN} {mode : PredictionMode} {ord : List SC → List SC} {src : Source} {c : Int} {P : Params CTS} {inp : CTS}

theorem Posed.looks (h : Posed atn mode ord src c P inp) : ∃ At : Nat → CTS → Prop,
    Looks (TokStream.index inp) (typesAhead src c inp) At ∧ At 0 inp := by
  obtain ⟨hh, hr⟩ := h.stream
  obtain ⟨len, p, rfl, hok, -, hm, -⟩ := CommonProps.reach_inv hr
  have e : TokStream.index (cst src c len p) = (p : Int) := cst_index src c len p
  have e2 : typesAhead src c (cst src c len p) = fun n => (tok src (stepVis src c n p)).ttype := by
    funext n; simp [typesAhead, cst_index]
  rw [e, e2]
  exact ⟨_, looks_cts src c p, hh, hr, hm, cst_index src c len p⟩

theorem Posed.toks (h : Posed atn mode ord src c P inp) (n : Nat) : TokOk (typesAhead src c inp n) := h.types _

theorem Posed.fitting (h : Posed atn mode ord src c P inp) {L0 : Local CTS} (h1 : L0.atn = atn) (h2 : L0.mode = mode) (h3 : L0.ord = ord) :
    Fitting L0 P := ⟨h1.trans h.atn.symm, h3.trans h.ord.symm, h2.trans h.mode.symm⟩

/-- The fixed part of the predictions of a decision. -/
def frame (atn : ATN) (mode : PredictionMode) (ord : List SC → List SC) (s : Nat) (isPrec : Bool) : Local CTS :=
  { atn := atn, mode := mode, ord := ord, sempred := fun _ _ _ _ => true, prec := 0, outer := [], hash := fun _ => 0, startIndex := 0,
    isPrec := isPrec, atnStart := s }

theorem After.tinv (ha : Small atn) {s : Nat} {b : Bool} {k : Int} {d d' : DFA} (hd : TInv (frame atn mode ord s b) k d)
    (h : After atn mode ord d d') : TInv (frame atn mode ord s b) k d' ∧ Ext (frame atn mode ord s b) d d' := by
  induction h with
  | refl => exact ⟨hd, .refl _ _⟩
  | step _ hq hp hsz ih =>
    obtain ⟨i1, i2⟩ := ih
    obtain ⟨At, h1, h2⟩ := hq.looks
    obtain ⟨g1, g2, -⟩ := predict_tinv (L0 := frame atn mode ord s b) ha (hq.fitting rfl rfl rfl) hq.prec h1 hq.toks h2 i1 hp hsz
    exact ⟨g1, i2.trans g2⟩

theorem Filled.tinv (ha : Small atn) {s : Nat} {k : Int} {d : DFA} (h : Filled atn mode ord s k d) :
    ∃ b, (∀ d0, DFA.new atn s k = some d0 → d0.isPrecedence = b) ∧ TInv (frame atn mode ord s b) k d := by
  obtain ⟨d0, h1, h2⟩ := h
  refine ⟨d0.isPrecedence, fun d hd => ?_, ?_⟩
  · rw [h1, Option.some.injEq] at hd; rw [hd]
  · exact (h2.tinv ha (new_tinv (L0 := frame atn mode ord s d0.isPrecedence) rfl h1 rfl)).1

theorem Filled.two (ha : Small atn) {s : Nat} {k : Int} {d d' : DFA} (h : Filled atn mode ord s k d) (h' : Filled atn mode ord s k d') :
    ∃ b, TInv (frame atn mode ord s b) k d ∧ TInv (frame atn mode ord s b) k d' := by
  obtain ⟨b, h1, h2⟩ := h.tinv ha
  obtain ⟨b', h1', h2'⟩ := h'.tinv ha
  obtain ⟨d0, e, -⟩ := h
  obtain rfl : b = b' := by rw [← h1 d0 e, h1' d0 e]
  exact ⟨b, h2, h2'⟩

end

section
variable {atn : ATN} {mode : PredictionMode} {ord : List SC → List SC} {s : Nat} {k : Int} {d d' : DFA} {src : Source} {c : Int}
  {P : Params CTS} {inp : CTS} {cf n cf' n' : Nat} {r r' : Res CTS}

/-! ### C39 -/

/-- **C39** The same prediction with two caches, filled by different histories (or not at all), gives the same answer with the same
reports, unless it looks at the context — then with both caches, for the same reason — or no alternative is viable — then with both
caches, and each answers the same error or falls back on some alternative.  The two exceptions are real: `C39_false`,
`C39_false_fallback`. -/
theorem C39_cache_partial (ha : Small atn) (hd : Filled atn mode ord s k d) (hd' : Filled atn mode ord s k d')
    (hq : Posed atn mode ord src c P inp) (h : adaptivePredict P cf n d inp = some r) (h' : adaptivePredict P cf' n' d' inp = some r')
    (hsz : r.dfa.states.length ≤ ERROR_DFA_STATE_REF) (hsz' : r'.dfa.states.length ≤ ERROR_DFA_STATE_REF) :
    (Agree r r' ∧ ¬ WentFull r) ∨ BothFull r r' ∨ BothLost r r' := by
  obtain ⟨b, t, t'⟩ := hd.two ha hd'
  obtain ⟨At, h1, h2⟩ := hq.looks
  rcases predict_pair (L0 := frame atn mode ord s b) ha (hq.fitting rfl rfl rfl) hq.prec h1 hq.toks h2 t t' h h' hsz hsz' with
    g | ⟨g, -⟩ | ⟨g, -⟩
  · exact .inl g
  · exact .inr (.inl g)
  · exact .inr (.inr g)

/-- **C39** A prediction that ends without a look at the context, and whose tokens do not lead to the error state in the DFA it leaves,
is independent of the cache: with any other cache it gives the same answer with the same reports. -/
theorem C39_local_partial (ha : Small atn) (hd : Filled atn mode ord s k d) (hd' : Filled atn mode ord s k d')
    (hq : Posed atn mode ord src c P inp) (h : adaptivePredict P cf n d inp = some r) (h' : adaptivePredict P cf' n' d' inp = some r')
    (hsz : r.dfa.states.length ≤ ERROR_DFA_STATE_REF) (hsz' : r'.dfa.states.length ≤ ERROR_DFA_STATE_REF)
    (hmax : ∀ m, typesAhead src c inp m ≤ atn.maxTokenType) (hf : ¬ WentFull r)
    (hl : ¬ Knows mode r.dfa P.prec (typesAhead src c inp) true) : r'.out = r.out ∧ r'.reports = r.reports := by
  obtain ⟨b, t, t'⟩ := hd.two ha hd'
  obtain ⟨At, h1, h2⟩ := hq.looks
  rcases predict_pair (L0 := frame atn mode ord s b) ha (hq.fitting rfl rfl rfl) hq.prec h1 hq.toks h2 t t' h h' hsz hsz' with
    ⟨g, -⟩ | ⟨g, -⟩ | ⟨-, g⟩
  · exact g.symm
  · exact absurd g.full.1 hf
  · rw [hq.mode, hq.atn] at g
    exact absurd (g hmax).1 hl

/-- **C39** Two caches that both know the way — which holds once the prediction was made before: `C39_knows` — agree on everything but
the alternative to fall back on when none is viable, full context or not. -/
theorem C39_known_partial (ha : Small atn) (hd : Filled atn mode ord s k d) (hd' : Filled atn mode ord s k d')
    (hq : Posed atn mode ord src c P inp) (h : adaptivePredict P cf n d inp = some r) (h' : adaptivePredict P cf' n' d' inp = some r')
    (hsz : r.dfa.states.length ≤ ERROR_DFA_STATE_REF) (hsz' : r'.dfa.states.length ≤ ERROR_DFA_STATE_REF)
    (hk : Knows mode d P.prec (typesAhead src c inp) false) (hk' : ∃ bad, Knows mode d' P.prec (typesAhead src c inp) bad)
    (hmax : ∀ m, typesAhead src c inp m ≤ atn.maxTokenType) : r'.out = r.out ∧ r'.reports = r.reports := by
  obtain ⟨b, t, t'⟩ := hd.two ha hd'
  obtain ⟨At, h1, h2⟩ := hq.looks
  have e := predict_below (Nat.le_max_left cf cf') P d n (max n n') (Nat.le_max_left _ _) inp _ h
  have e' := predict_below (Nat.le_max_right cf cf') P d' n' (max n n') (Nat.le_max_right _ _) inp _ h'
  rcases predict_pair (L0 := frame atn mode ord s b) ha (hq.fitting rfl rfl rfl) hq.prec h1 hq.toks h2 t t' e e' hsz hsz' with
    ⟨g, -⟩ | ⟨-, g⟩ | ⟨-, g⟩
  · exact g.symm
  · rw [hq.mode] at g
    exact (g rfl rfl ⟨_, hk⟩ hk').symm
  · exfalso
    rw [hq.mode, hq.atn] at g
    obtain ⟨-, x, -⟩ := predict_tinv (L0 := frame atn mode ord s b) ha (hq.fitting rfl rfl rfl) hq.prec h1 hq.toks h2 t h hsz
    have := (hk.ext hq.prec t hq.toks x).unique (g hmax).1
    simp at this

/-- **C39** The cache that a prediction leaves behind knows its way, and goes on knowing it. -/
theorem C39_knows (ha : Small atn) (hd : Filled atn mode ord s k d) (hq : Posed atn mode ord src c P inp)
    (h : adaptivePredict P cf n d inp = some r) (hsz : r.dfa.states.length ≤ ERROR_DFA_STATE_REF) (hl : After atn mode ord r.dfa d')
    (hmax : ∀ m, typesAhead src c inp m ≤ atn.maxTokenType) : ∃ bad, Knows mode d' P.prec (typesAhead src c inp) bad := by
  obtain ⟨b, -, t⟩ := hd.tinv ha
  obtain ⟨At, h1, h2⟩ := hq.looks
  obtain ⟨x1, -, x2⟩ := predict_tinv (L0 := frame atn mode ord s b) ha (hq.fitting rfl rfl rfl) hq.prec h1 hq.toks h2 t h hsz
  rw [hq.mode, hq.atn] at x2
  obtain ⟨bad, g⟩ := x2 hmax
  exact ⟨bad, g.ext hq.prec x1 hq.toks (hl.tinv ha x1).2⟩

/-- **C39** A prediction asked again after any other predictions gives the same answer with the same reports, unless it looked at the
context the first time; then it does so again, for the same reason. -/
theorem C39_again_partial (ha : Small atn) (hd : Filled atn mode ord s k d) (hq : Posed atn mode ord src c P inp)
    (h : adaptivePredict P cf n d inp = some r) (hsz : r.dfa.states.length ≤ ERROR_DFA_STATE_REF) (hl : After atn mode ord r.dfa d')
    (h' : adaptivePredict P cf' n' d' inp = some r') (hmax : ∀ m, typesAhead src c inp m ≤ atn.maxTokenType) :
    (r'.out = r.out ∧ r'.reports = r.reports) ∨ BothFull r r' := by
  obtain ⟨b, -, t⟩ := hd.tinv ha
  obtain ⟨At, h1, h2⟩ := hq.looks
  obtain ⟨x1, -, -⟩ := predict_tinv (L0 := frame atn mode ord s b) ha (hq.fitting rfl rfl rfl) hq.prec h1 hq.toks h2 t h hsz
  obtain ⟨y1, y2⟩ := hl.tinv ha x1
  rcases predict_again (L0 := frame atn mode ord s b) ha (hq.fitting rfl rfl rfl) hq.prec h1 hq.toks (by rw [hq.atn]; exact hmax) h2 t y1 h hsz
    y2 h' with g | g
  · exact .inl g.symm
  · exact .inr g

/-- **C39** From the second time on the answer to a prediction stands: whatever predictions come between, the second and any later one
give the same answer with the same reports. -/
theorem C39_stable {d1 d2 : DFA} {r1 r2 : Res CTS} {cf1 n1 cf2 n2 : Nat} (ha : Small atn) (hd : Filled atn mode ord s k d)
    (hq : Posed atn mode ord src c P inp) (h : adaptivePredict P cf n d inp = some r) (hsz : r.dfa.states.length ≤ ERROR_DFA_STATE_REF)
    (hl1 : After atn mode ord r.dfa d1) (h1 : adaptivePredict P cf1 n1 d1 inp = some r1)
    (hsz1 : r1.dfa.states.length ≤ ERROR_DFA_STATE_REF)
    (hl2 : After atn mode ord r.dfa d2) (h2 : adaptivePredict P cf2 n2 d2 inp = some r2)
    (hsz2 : r2.dfa.states.length ≤ ERROR_DFA_STATE_REF)
    (hmax : ∀ m, typesAhead src c inp m ≤ atn.maxTokenType) : r2.out = r1.out ∧ r2.reports = r1.reports := by
  obtain ⟨k1, g1⟩ := C39_knows ha hd hq h hsz hl1 hmax
  obtain ⟨k2, g2⟩ := C39_knows ha hd hq h hsz hl2 hmax
  obtain ⟨b, -, t⟩ := hd.tinv ha
  obtain ⟨At, w1, w2⟩ := hq.looks
  obtain ⟨x1, -, -⟩ := predict_tinv (L0 := frame atn mode ord s b) ha (hq.fitting rfl rfl rfl) hq.prec w1 hq.toks w2 t h hsz
  have t1 := (hl1.tinv ha x1).1
  have t2 := (hl2.tinv ha x1).1
  rcases C39_again_partial ha hd hq h hsz hl1 h1 hmax with e1 | e1
  · rcases C39_again_partial ha hd hq h hsz hl2 h2 hmax with e2 | e2
    · exact ⟨e2.1.trans e1.1.symm, e2.2.trans e1.2.symm⟩
    · rcases predict_pair (L0 := frame atn mode ord s b) ha (hq.fitting rfl rfl rfl) hq.prec w1 hq.toks w2 t1 t2
        (predict_below (Nat.le_max_left cf1 cf2) P d1 n1 (max n1 n2) (Nat.le_max_left _ _) inp _ h1)
        (predict_below (Nat.le_max_right cf1 cf2) P d2 n2 (max n1 n2) (Nat.le_max_right _ _) inp _ h2) hsz1 hsz2 with ⟨g, -⟩ | ⟨-, g⟩ | ⟨g, -⟩
      · exact g.symm
      · rw [hq.mode] at g
        exact (g rfl rfl ⟨_, g1⟩ ⟨_, g2⟩).symm
      · obtain ⟨-, g, -⟩ := g
        obtain ⟨a, b', l, x, x', -, e⟩ := e2
        rw [g] at e; simp at e
  · rcases predict_pair (L0 := frame atn mode ord s b) ha (hq.fitting rfl rfl rfl) hq.prec w1 hq.toks w2 t1 t2
        (predict_below (Nat.le_max_left cf1 cf2) P d1 n1 (max n1 n2) (Nat.le_max_left _ _) inp _ h1)
        (predict_below (Nat.le_max_right cf1 cf2) P d2 n2 (max n1 n2) (Nat.le_max_right _ _) inp _ h2) hsz1 hsz2 with ⟨g, -⟩ | ⟨-, g⟩ | ⟨g, -⟩
    · exact g.symm
    · rw [hq.mode] at g
      exact (g rfl rfl ⟨_, g1⟩ ⟨_, g2⟩).symm
    · obtain ⟨a, b', l, x, x', -, e⟩ := e1
      rw [g.1] at e; simp at e

end

/-! ### The fallback depends on the cache -/

/-- The ATN of `r : ( ( ( 'a' | 'd' r ) 'c' | 'b' ) | ( 'a' .. 'b' ) 'd'? ) ;` with `'a'` = 1, …, `'d'` = 4; decision 0 is the outer one. -/
def exBack : ATN where
  grammarType := .parser
  maxTokenType := 4
  decisionToState := [2]
  ruleToStartState := [0]
  ruleToStopState := [1]
  states := [
    exState 0 (.ruleStart 1 false) [exEps 2],
    exState 1 .ruleStop [exEps 8],
    exState 2 (.decision 0 false (.blockStart 15 .basic)) [exEps 3, exEps 11],
    exState 3 (.decision 1 false (.blockStart 10 .basic)) [exEps 4, exEps 9],
    exState 4 (.decision 2 false (.blockStart 13 .basic)) [exEps 5, exEps 6],
    exState 5 .basic [.atom 13 1],
    exState 6 .basic [.atom 7 4],
    exState 7 .basic [.rule 0 8 0 0],
    exState 8 .basic [exEps 13],
    exState 9 .basic [.atom 10 2],
    exState 10 (.blockEnd 3) [exEps 15],
    exState 11 .basic [.range 12 1 2],
    exState 12 (.decision 3 false (.blockStart 15 .basic)) [exEps 14, exEps 15],
    exState 13 .basic [.atom 10 3],
    exState 14 .basic [.atom 15 4],
    exState 15 (.blockEnd 2) [exEps 1]]

/-- A parser in rule `r`, which nobody called. -/
def exBackParams : Params CTS := { exParams CTS with atn := exBack }

/-- The empty DFA of the decision. -/
def exBackDfa : DFA := { exDfa with atnStartState := 2 }

/-- The input of the token types `l`. -/
def exBackInput (l : List Nat) : CTS := CTS.withChannel (exSource l) 0

theorem small_of_all {atn : ATN} (hall : (atn.states.all fun st => st.transitions.all fun tr => match tr with
      | .rule _ f _ _ => decide ((f : Int) < PC.EMPTY_RS)
      | _ => true) = true) : Small atn := by
  intro i st h t f r p hm
  rw [List.all_eq_true] at hall
  have := hall st (List.mem_of_getElem? h)
  rw [List.all_eq_true] at this
  simpa using this _ hm

theorem exBack_small : Small exBack := small_of_all (by decide)

theorem exBack_posed {l : List Nat} (h : ∀ t ∈ l, t ≤ 4) : Posed exBack .LL id (exSource l) 0 exBackParams (exBackInput l) := by
  refine ⟨⟨_, .init⟩, fun n => ?_, by decide, rfl, rfl, rfl⟩
  have := exSource_types (ts := l) (b := 4) h n
  omega

theorem exBack_filled : Filled exBack .LL id 2 0 exBackDfa := ⟨_, by decide +kernel, .refl⟩

/-- **C39, negation** On wrong input the answer depends on the cache too: on `a a` the empty cache makes the prediction fall back on
alternative 2, a cache filled by a prediction on `b a` on alternative 1.  What counts is how often a configuration has left the rule, and
states of the DFA that differ in this only are taken for the same state.  (In the code the hash of a state ignores it too; here all
hashes are the same.) -/
theorem C39_false_fallback : ∃ (P : Params CTS) (d : DFA) (s0 s : CTS) (r0 r1 r2 : Res CTS), DFA.new P.atn 2 0 = some d ∧
    adaptivePredict P 40 20 d s0 = some r0 ∧ adaptivePredict P 40 20 d s = some r1 ∧ adaptivePredict P 40 20 r0.dfa s = some r2 ∧
    r1.out = .alt 2 ∧ r2.out = .alt 1 ∧ r1.reports = [] ∧ r2.reports = [] := by
  have h : ((adaptivePredict exBackParams 40 20 exBackDfa (exBackInput [2, 1])).bind fun r0 =>
      (adaptivePredict exBackParams 40 20 exBackDfa (exBackInput [1, 1])).bind fun r1 =>
      (adaptivePredict exBackParams 40 20 r0.dfa (exBackInput [1, 1])).map fun r2 => (r1.out, r2.out, r1.reports, r2.reports)) =
      some (.alt 2, .alt 1, [], []) := by decide +kernel
  rw [Option.bind_eq_some_iff] at h
  obtain ⟨r0, h0, h⟩ := h
  rw [Option.bind_eq_some_iff] at h
  obtain ⟨r1, h1, h⟩ := h
  rw [Option.map_eq_some_iff] at h
  obtain ⟨r2, h2, h⟩ := h
  simp only [Prod.mk.injEq] at h
  obtain ⟨e1, e2, e3, e4⟩ := h
  exact ⟨exBackParams, exBackDfa, exBackInput [2, 1], exBackInput [1, 1], r0, r1, r2, by decide +kernel, h0, h1, h2, e1, e2, e3, e4⟩

/-! ### Cases that meet the hypotheses -/

/-- Where the DFA leads, if to an end within `fuel` steps. -/
def walk (mode : PredictionMode) (d : DFA) (w : Nat → Int) : Nat → Nat → Nat → Option Bool
  | 0, _, _ => none
  | fuel + 1, i, n => (d.existingTarget i (w n)).bind fun t => t.bind fun j =>
    if j = ERROR_DFA_STATE_REF then some true
    else (d.states[j]?).bind fun D => if ends mode D then some false else walk mode d w fuel j (if w n = TOKEN_EOF then n else n + 1)

theorem walk_leads {mode : PredictionMode} {d : DFA} {w : Nat → Int} {b : Bool} : ∀ (fuel i n : Nat),
    walk mode d w fuel i n = some b → Leads mode d w b i n := by
  intro fuel
  induction fuel with
  | zero => intro i n h; simp [walk] at h
  | succ fuel ih =>
    intro i n h
    simp only [walk] at h
    rw [Option.bind_eq_some_iff] at h
    obtain ⟨t, h1, h⟩ := h
    rw [Option.bind_eq_some_iff] at h
    obtain ⟨j, rfl, h⟩ := h
    by_cases hj : j = ERROR_DFA_STATE_REF
    · rw [if_pos hj] at h
      subst hj
      exact .error (by simpa using h.symm) h1
    · rw [if_neg hj, Option.bind_eq_some_iff] at h
      obtain ⟨D, h2, h⟩ := h
      by_cases he : ends mode D = true
      · rw [if_pos he] at h
        exact .stop (by simpa using h.symm) h1 hj h2 he
      · rw [if_neg he] at h
        exact .step h1 hj h2 (by simpa using he) (ih _ _ h)

theorem knows_of_walk {mode : PredictionMode} {d : DFA} {p : Int} {w : Nat → Int} {b : Bool} {fuel : Nat}
    (h : ((startRef d p).bind fun i => i.bind fun i => walk mode d w fuel i 0) = some b) : Knows mode d p w b := by
  rw [Option.bind_eq_some_iff] at h
  obtain ⟨i, h1, h⟩ := h
  rw [Option.bind_eq_some_iff] at h
  obtain ⟨j, rfl, h⟩ := h
  exact ⟨j, h1, walk_leads _ _ _ h⟩

/-- On `b d` the empty cache and a cache filled by a prediction on `a a` give the same answer; both theorems say so. -/
example : ∃ r0 r r', adaptivePredict exBackParams 40 20 exBackDfa (exBackInput [1, 1]) = some r0 ∧
    adaptivePredict exBackParams 40 20 exBackDfa (exBackInput [2, 4]) = some r ∧
    adaptivePredict exBackParams 40 20 r0.dfa (exBackInput [2, 4]) = some r' ∧ r.out = .alt 2 ∧ ¬ WentFull r ∧
    (r'.out = r.out ∧ r'.reports = r.reports) ∧ ((Agree r r' ∧ ¬ WentFull r) ∨ BothFull r r' ∨ BothLost r r') := by
  have h : ((adaptivePredict exBackParams 40 20 exBackDfa (exBackInput [1, 1])).bind fun r0 =>
      (adaptivePredict exBackParams 40 20 exBackDfa (exBackInput [2, 4])).bind fun r =>
      (adaptivePredict exBackParams 40 20 r0.dfa (exBackInput [2, 4])).map fun r' =>
      ([r0.dfa.states.length, r.dfa.states.length, r'.dfa.states.length], (r.out, r.reports),
        (startRef r.dfa 0).bind fun i => i.bind fun i =>
          walk .LL r.dfa (typesAhead (exSource [2, 4]) 0 (exBackInput [2, 4])) 5 i 0)) =
      some ([3, 4, 4], (.alt 2, []), some false) := by decide +kernel
  rw [Option.bind_eq_some_iff] at h
  obtain ⟨r0, h0, h⟩ := h
  rw [Option.bind_eq_some_iff] at h
  obtain ⟨r, h1, h⟩ := h
  rw [Option.map_eq_some_iff] at h
  obtain ⟨r', h2, h⟩ := h
  simp only [Prod.mk.injEq, List.cons.injEq, and_true] at h
  obtain ⟨⟨e0, e1, e2⟩, ⟨e3, e4⟩, e5⟩ := h
  have hf : ¬ WentFull r := by rintro ⟨a, b, l, h⟩; rw [e4] at h; simp at h
  have s0 : r0.dfa.states.length ≤ ERROR_DFA_STATE_REF := by rw [e0]; decide
  have s1 : r.dfa.states.length ≤ ERROR_DFA_STATE_REF := by rw [e1]; decide
  have s2 : r'.dfa.states.length ≤ ERROR_DFA_STATE_REF := by rw [e2]; decide
  have hd' : Filled exBack .LL id 2 0 r0.dfa := ⟨_, by decide +kernel, .step .refl (exBack_posed (by decide)) h0 s0⟩
  have hq := exBack_posed (l := [2, 4]) (by decide)
  refine ⟨r0, r, r', h0, h1, h2, e3, hf, ?_, C39_cache_partial exBack_small exBack_filled hd' hq h1 h2 s1 s2⟩
  refine C39_local_partial exBack_small exBack_filled hd' hq h1 h2 s1 s2 (fun m => (exSource_types (b := 4) (by decide) _).2) hf ?_
  intro hk
  have := hk.unique (knows_of_walk e5)
  simp at this

theorem exEnd_small : Small exEnd := small_of_all (by decide)

theorem exEnd_posed {t : Nat} (h : t ≤ 2) : Posed exEnd .LL id (exSource [t]) 0 exEndParams (exEndInput t) := by
  refine ⟨⟨_, .init⟩, fun n => ?_, by decide, rfl, rfl, rfl⟩
  have := exSource_types (ts := [t]) (b := 2) (by simpa using h) n
  omega

/-- On `a` three predictions look at the context, with one on `b` before the third. -/
example : ∃ r r1 r2 r3, adaptivePredict exEndParams 20 20 exEndDfa (exEndInput 1) = some r ∧
    adaptivePredict exEndParams 20 20 r.dfa (exEndInput 1) = some r1 ∧
    adaptivePredict exEndParams 20 20 r1.dfa (exEndInput 2) = some r2 ∧
    adaptivePredict exEndParams 20 20 r2.dfa (exEndInput 1) = some r3 ∧ WentFull r3 ∧
    (r3.out = r1.out ∧ r3.reports = r1.reports) ∧ ((r3.out = r.out ∧ r3.reports = r.reports) ∨ BothFull r r3) ∧
    (∃ bad, Knows .LL r2.dfa 0 (typesAhead (exSource [1]) 0 (exEndInput 1)) bad) := by
  have h : ((adaptivePredict exEndParams 20 20 exEndDfa (exEndInput 1)).bind fun r =>
      (adaptivePredict exEndParams 20 20 r.dfa (exEndInput 1)).bind fun r1 =>
      (adaptivePredict exEndParams 20 20 r1.dfa (exEndInput 2)).bind fun r2 =>
      (adaptivePredict exEndParams 20 20 r2.dfa (exEndInput 1)).map fun r3 =>
      (r.dfa.states.length, r1.dfa.states.length, r2.dfa.states.length, r3.dfa.states.length, r3.reports)) =
      some (3, 3, 4, 4, [.fullContext 0 0 [1, 2], .ambiguity 0 0 false [1, 2]]) := by decide +kernel
  rw [Option.bind_eq_some_iff] at h
  obtain ⟨r, h0, h⟩ := h
  rw [Option.bind_eq_some_iff] at h
  obtain ⟨r1, h1, h⟩ := h
  rw [Option.bind_eq_some_iff] at h
  obtain ⟨r2, h2, h⟩ := h
  rw [Option.map_eq_some_iff] at h
  obtain ⟨r3, h3, h⟩ := h
  simp only [Prod.mk.injEq] at h
  obtain ⟨e0, e1, e2, e3, e4⟩ := h
  have s0 : r.dfa.states.length ≤ ERROR_DFA_STATE_REF := by rw [e0]; decide
  have s1 : r1.dfa.states.length ≤ ERROR_DFA_STATE_REF := by rw [e1]; decide
  have s2 : r2.dfa.states.length ≤ ERROR_DFA_STATE_REF := by rw [e2]; decide
  have s3 : r3.dfa.states.length ≤ ERROR_DFA_STATE_REF := by rw [e3]; decide
  have hd : Filled exEnd .LL id 2 0 exEndDfa := ⟨_, by decide +kernel, .refl⟩
  have q1 := exEnd_posed (t := 1) (by decide)
  have q2 := exEnd_posed (t := 2) (by decide)
  have hmax : ∀ m, typesAhead (exSource [1]) 0 (exEndInput 1) m ≤ exEnd.maxTokenType := fun m =>
    (exSource_types (ts := [1]) (b := 2) (by simp) _).2
  have hl : After exEnd .LL id r.dfa r2.dfa := .step (.step .refl q1 h1 s1) q2 h2 s2
  exact ⟨r, r1, r2, r3, h0, h1, h2, h3, ⟨0, 0, [1, 2], by rw [e4]; simp⟩,
    C39_stable exEnd_small hd q1 h0 s0 .refl h1 s1 hl h3 s3 hmax, C39_again_partial exEnd_small hd q1 h0 s0 hl h3 hmax,
    C39_knows exEnd_small hd q1 h0 s0 hl hmax⟩

/-- Two caches that know the way of `a`, one of which has seen `b` first. -/
example : ∃ r0 r r0' r', adaptivePredict exEndParams 20 20 exEndDfa (exEndInput 1) = some r0 ∧
    adaptivePredict exEndParams 20 20 r0.dfa (exEndInput 1) = some r ∧
    ((adaptivePredict exEndParams 20 20 exEndDfa (exEndInput 2)).bind fun x =>
      adaptivePredict exEndParams 20 20 x.dfa (exEndInput 1)) = some r0' ∧
    adaptivePredict exEndParams 30 30 r0'.dfa (exEndInput 1) = some r' ∧ WentFull r ∧ r'.out = r.out ∧ r'.reports = r.reports := by
  have h : ((adaptivePredict exEndParams 20 20 exEndDfa (exEndInput 1)).bind fun r0 =>
      (adaptivePredict exEndParams 20 20 r0.dfa (exEndInput 1)).bind fun r =>
      (adaptivePredict exEndParams 20 20 exEndDfa (exEndInput 2)).bind fun x =>
      (adaptivePredict exEndParams 20 20 x.dfa (exEndInput 1)).bind fun r0' =>
      (adaptivePredict exEndParams 30 30 r0'.dfa (exEndInput 1)).map fun r' =>
      ([r0.dfa.states.length, r.dfa.states.length, x.dfa.states.length, r0'.dfa.states.length, r'.dfa.states.length], r.reports,
        (startRef r0.dfa 0).bind fun i => i.bind fun i => walk .LL r0.dfa (typesAhead (exSource [1]) 0 (exEndInput 1)) 5 i 0)) =
      some ([3, 3, 3, 4, 4], [.fullContext 0 0 [1, 2], .ambiguity 0 0 false [1, 2]], some false) := by decide +kernel
  rw [Option.bind_eq_some_iff] at h
  obtain ⟨r0, h0, h⟩ := h
  rw [Option.bind_eq_some_iff] at h
  obtain ⟨r, h1, h⟩ := h
  rw [Option.bind_eq_some_iff] at h
  obtain ⟨x, h2, h⟩ := h
  rw [Option.bind_eq_some_iff] at h
  obtain ⟨r0', h3, h⟩ := h
  rw [Option.map_eq_some_iff] at h
  obtain ⟨r', h4, h⟩ := h
  simp only [Prod.mk.injEq] at h
  obtain ⟨e, e5, e6⟩ := h
  simp only [List.cons.injEq, and_true] at e
  obtain ⟨e0, e1, e2, e3, e4⟩ := e
  have s0 : r0.dfa.states.length ≤ ERROR_DFA_STATE_REF := by rw [e0]; decide
  have s1 : r.dfa.states.length ≤ ERROR_DFA_STATE_REF := by rw [e1]; decide
  have s2 : x.dfa.states.length ≤ ERROR_DFA_STATE_REF := by rw [e2]; decide
  have s3 : r0'.dfa.states.length ≤ ERROR_DFA_STATE_REF := by rw [e3]; decide
  have s4 : r'.dfa.states.length ≤ ERROR_DFA_STATE_REF := by rw [e4]; decide
  have q1 := exEnd_posed (t := 1) (by decide)
  have q2 := exEnd_posed (t := 2) (by decide)
  have hmax : ∀ m, typesAhead (exSource [1]) 0 (exEndInput 1) m ≤ exEnd.maxTokenType := fun m =>
    (exSource_types (ts := [1]) (b := 2) (by simp) _).2
  have hx : Filled exEnd .LL id 2 0 x.dfa := ⟨_, by decide +kernel, .step .refl q2 h2 s2⟩
  have hd : Filled exEnd .LL id 2 0 r0.dfa := ⟨_, by decide +kernel, .step .refl q1 h0 s0⟩
  have hd' : Filled exEnd .LL id 2 0 r0'.dfa := ⟨_, by decide +kernel, .step (.step .refl q2 h2 s2) q1 h3 s3⟩
  refine ⟨r0, r, r0', r', h0, h1, by rw [h2]; exact h3, h4, ⟨0, 0, [1, 2], by rw [e5]; simp⟩, ?_⟩
  exact C39_known_partial exEnd_small hd hd' q1 h1 h4 s1 s4 (knows_of_walk e6) (C39_knows exEnd_small hx q1 h3 s3 .refl hmax) hmax

end Antlr.PredictionProps
