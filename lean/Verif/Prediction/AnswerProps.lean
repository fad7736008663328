import Verif.Prediction.Session
import Verif.Prediction.InterruptLemmas
import Verif.Prediction.Check
import Verif.Prediction.Props

/-!
# What the answers of prediction mean (C40)

On parser automata without predicates (`Plain`), for every common token stream, call stack and history of
predictions that filled the DFA of the decision.
-/

namespace Antlr.PredictionProps
open Antlr Prediction TokenSpec PredictionSpec LL1Spec StackProps

/-- The token types ahead of the stream: the one at its position, then those of the visible tokens after
it, EOF for ever. -/
def typesAhead (src : Source) (c : Int) (inp : CTS) (n : Nat) : Int :=
  (tok src (stepVis src c n inp.index.toNat)).ttype

/-- A prediction for the decision `dec`, asked at some state of a common token stream with any token types
an `isize` can hold that are not below EOF, by a parser with the call stack `σ`. -/
structure Asked (src : Source) (c : Int) (dec : ATNState) (P : Params CTS) (inp : CTS) (σ : List Nat) : Prop where
  stream : ∃ h, CommonProps.Reach src c inp h
  types : ∀ n, -1 ≤ (tok src n).ttype ∧ (tok src n).ttype < 2 ^ 63
  stack : Calls P.atn P.outer (ints σ)
  proper : Proper P.atn dec.ruleIndex σ

/-- The DFA `d'` is what any number of predictions made of `d`, each on its own input and in its own
context and mode; some were interrupted by a panic in their middle.  (The number of states stays below the greatest
`usize`, which marks errors.) -/
inductive Later (atn : ATN) (dec : ATNState) (d : DFA) : DFA → Prop
  | refl : Later atn dec d d
  | step {d1 : DFA} {src : Source} {c : Int} {P : Params CTS} {inp : CTS} {σ : List Nat} {cf n : Nat} {r : Res CTS} :
      Later atn dec d d1 → P.atn = atn → Asked src c dec P inp σ → adaptivePredict P cf n d1 inp = some r →
      r.dfa.states.length ≤ ERROR_DFA_STATE_REF → Later atn dec d r.dfa
  | cut {d1 d2 : DFA} {src : Source} {c : Int} {P : Params CTS} {inp : CTS} {σ : List Nat} {cf : Nat} :
      Later atn dec d d1 → P.atn = atn → Asked src c dec P inp σ → Interrupted P cf d1 inp d2 →
      d2.states.length ≤ ERROR_DFA_STATE_REF → Later atn dec d d2

/-- The DFA of the decision `dec`, at state `s`, after any number of predictions. -/
def Cached (atn : ATN) (s : Nat) (dec : ATNState) (d : DFA) : Prop :=
  ∃ d0 n, DFA.new atn s n = some d0 ∧ Later atn dec d0 d

/-! ### Helpers -/

theorem looks_asked {src : Source} {c : Int} {dec : ATNState} {P : Params CTS} {inp : CTS} {σ : List Nat}
    (h : Asked src c dec P inp σ) : ∃ At : Nat → CTS → Prop,
      Looks (TokStream.index inp) (typesAhead src c inp) At ∧ At 0 inp := by
  obtain ⟨hh, hr⟩ := h.stream
  obtain ⟨len, p, rfl, hok, -, hm, -⟩ := CommonProps.reach_inv hr
  have e : TokStream.index (cst src c len p) = (p : Int) := cst_index src c len p
  have e2 : typesAhead src c (cst src c len p) = fun n => (tok src (stepVis src c n p)).ttype := by
    funext n; simp [typesAhead, cst_index]
  rw [e, e2]
  exact ⟨_, looks_cts src c p, hh, hr, hm, cst_index src c len p⟩

theorem Asked.toks {src : Source} {c : Int} {dec : ATNState} {P : Params CTS} {inp : CTS} {σ : List Nat}
    (h : Asked src c dec P inp σ) (n : Nat) : TokOk (typesAhead src c inp n) := h.types _

/-- What one prediction does, and what it leaves behind. -/
theorem asked_spec {atn : ATN} (ha : Plain atn) {s : Nat} {dec : ATNState} (hdec : Decides atn s dec) {d : DFA}
    (hd : DInv atn s dec d) {src : Source} {c : Int} {P : Params CTS} {inp : CTS} {σ : List Nat} (hP : P.atn = atn)
    (hq : Asked src c dec P inp σ) {cf n : Nat} {r : Res CTS} (h : adaptivePredict P cf n d inp = some r)
    (hsz : r.dfa.states.length ≤ ERROR_DFA_STATE_REF) :
    DInv atn s dec r.dfa ∧
    (¬ WentFull r → LocalRight atn dec (typesAhead src c inp) P.mode r.out) ∧
    (WentFull r → P.mode ≠ .SLL ∧ FullRight atn dec σ (typesAhead src c inp)
      (∃ i, d.s0 = some i ∧ Warm d (typesAhead src c inp) i 0) r.out) ∧
    Grows d r.dfa ∧ Keeps d r.dfa ∧ (∀ i, d.s0 = some i → r.dfa.s0 = some i) ∧
    (WentFull r → (∀ n, typesAhead src c inp n ≤ atn.maxTokenType) →
      ∃ i, r.dfa.s0 = some i ∧ Warm r.dfa (typesAhead src c inp) i 0) ∧
    (∀ i, d.s0 = some i → Warm d (typesAhead src c inp) i 0 → P.mode ≠ .SLL → WentFull r) ∧
    (Humble atn dec d → Humble atn dec r.dfa ∧ BeginsWell atn dec (typesAhead src c inp 0) r.out) := by
  subst hP
  obtain ⟨At, h1, h2⟩ := looks_asked hq
  obtain rfl := hd.atnStart
  exact predict_spec ha hdec hq.proper hq.stack h1 hq.toks hd h2 h hsz

/-- What an interrupted prediction leaves behind. -/
theorem asked_cut {atn : ATN} (ha : Plain atn) {s : Nat} {dec : ATNState} (hdec : Decides atn s dec) {d d' : DFA}
    (hd : DInv atn s dec d) {src : Source} {c : Int} {P : Params CTS} {inp : CTS} {σ : List Nat} (hP : P.atn = atn)
    (hq : Asked src c dec P inp σ) {cf : Nat} (h : Interrupted P cf d inp d')
    (hsz : d'.states.length ≤ ERROR_DFA_STATE_REF) :
    DInv atn s dec d' ∧ Grows d d' ∧ Keeps d d' ∧ (∀ i, d.s0 = some i → d'.s0 = some i) ∧
    (Humble atn dec d → Humble atn dec d') := by
  subst hP
  obtain ⟨At, h1, h2⟩ := looks_asked hq
  obtain rfl := hd.atnStart
  exact interrupted_spec ha hdec h1 hq.toks hd h2 h hsz

theorem later_spec {atn : ATN} (ha : Plain atn) {s : Nat} {dec : ATNState} (hdec : Decides atn s dec) {d d' : DFA}
    (hd : DInv atn s dec d) (h : Later atn dec d d') : DInv atn s dec d' ∧ Grows d d' ∧ Keeps d d' ∧
    (∀ i, d.s0 = some i → d'.s0 = some i) ∧ (Humble atn dec d → Humble atn dec d') := by
  induction h with
  | refl => exact ⟨hd, Grows.refl _, Keeps.refl _, fun _ h => h, id⟩
  | step _ hP hq hp hsz ih =>
    obtain ⟨i1, i2, i3, i4, i5⟩ := ih
    obtain ⟨g1, -, -, g4, g5, g6, -, -, g9⟩ := asked_spec ha hdec i1 hP hq hp hsz
    exact ⟨g1, i2.trans g4, i3.trans g5, fun i hi => g6 i (i4 i hi), fun h => (g9 (i5 h)).1⟩
  | cut _ hP hq hp hsz ih =>
    obtain ⟨i1, i2, i3, i4, i5⟩ := ih
    obtain ⟨g1, g4, g5, g6, g9⟩ := asked_cut ha hdec i1 hP hq hp hsz
    exact ⟨g1, i2.trans g4, i3.trans g5, fun i hi => g6 i (i4 i hi), fun h => g9 (i5 h)⟩

theorem cached_dinv {atn : ATN} (ha : Plain atn) {s : Nat} {dec : ATNState} (hdec : Decides atn s dec) {d : DFA}
    (h : Cached atn s dec d) : DInv atn s dec d := by
  obtain ⟨d0, n, h1, h2⟩ := h
  exact (later_spec ha hdec (dinv_new ha hdec h1).1 h2).1

theorem humble_new {atn : ATN} {s : Nat} {n : Int} {dec : ATNState} {d : DFA}
    (h : DFA.new atn s n = some d) (hd : DInv atn s dec d ∧ d.s0 = none) : Humble atn dec d := by
  refine ⟨by simp [hd.2], fun _ D hD => ?_⟩
  rw [DFA.new, Option.map_eq_some_iff] at h
  obtain ⟨st, -, rfl⟩ := h
  split at hD
  · next hp =>
    have := hd.1.noPrec
    simp only [hp, if_true] at this
    cases this
  · simp only [List.mem_singleton] at hD
    subst hD
    intro c hc
    simp [DFAState.new, ConfigSet.newBase] at hc

theorem cached_humble {atn : ATN} (ha : Plain atn) {s : Nat} {dec : ATNState} (hdec : Decides atn s dec) {d : DFA}
    (h : Cached atn s dec d) : Humble atn dec d := by
  obtain ⟨d0, n, h1, h2⟩ := h
  exact (later_spec ha hdec (dinv_new ha hdec h1).1 h2).2.2.2.2 (humble_new h1 (dinv_new ha hdec h1))

section
variable {atn : ATN} {s : Nat} {dec : ATNState} {d : DFA} {src : Source} {c : Int} {P : Params CTS} {inp : CTS}
  {σ : List Nat} {cf n : Nat} {r : Res CTS}

/-! ### C40 -/

/-- **C40** A prediction that ends without a look at the context is right about the decision in all
contexts in which its rule can be called.  An alternative it answers matches the tokens examined in one of
them, and no other alternative does in any (in SLL mode: no lower one); or else no alternative matches the input,
and the answer matches a beginning of it.  If it reports an error, no alternative matches in any context.
Missing for the full claim: "matches in the current context", which is false (`C40_false`). -/
theorem C40_local_partial (ha : Plain atn) (hdec : Decides atn s dec) (hd : Cached atn s dec d)
    (hP : P.atn = atn) (hq : Asked src c dec P inp σ) (h : adaptivePredict P cf n d inp = some r)
    (hsz : r.dfa.states.length ≤ ERROR_DFA_STATE_REF) (hf : ¬ WentFull r) :
    LocalRight atn dec (typesAhead src c inp) P.mode r.out :=
  (asked_spec ha hdec (cached_dinv ha hdec hd) hP hq h hsz).2.1 hf

/-- **C40** An alternative answered after a look at the context matches the tokens examined in the
current context.  (Other alternatives may match more: `C39_false_meaning`.) -/
theorem C40_full_partial (ha : Plain atn) (hdec : Decides atn s dec) (hd : Cached atn s dec d)
    (hP : P.atn = atn) (hq : Asked src c dec P inp σ) (h : adaptivePredict P cf n d inp = some r)
    (hsz : r.dfa.states.length ≤ ERROR_DFA_STATE_REF) (hf : WentFull r) {k : Int} (hk : r.out = .alt k) :
    ∃ v, Ahead (typesAhead src c inp) v ∧ Matches atn dec (· = σ) v k := by
  have := ((asked_spec ha hdec (cached_dinv ha hdec hd) hP hq h hsz).2.2.1 hf).2
  rw [hk] at this
  obtain ⟨v, h1, h2, -⟩ := this
  exact ⟨v, h1, h2⟩

/-- **C40** An alternative answered, in whichever way, can begin with the next token, or can get to the end of
the rule of the decision without a token.  (So a parser that follows the answer makes progress or leaves the
rule.) -/
theorem C40_begins (ha : Plain atn) (hdec : Decides atn s dec) (hd : Cached atn s dec d)
    (hP : P.atn = atn) (hq : Asked src c dec P inp σ) (h : adaptivePredict P cf n d inp = some r)
    (hsz : r.dfa.states.length ≤ ERROR_DFA_STATE_REF) {k : Int} (hk : r.out = .alt k) :
    Begins atn dec (typesAhead src c inp 0) k :=
  ((asked_spec ha hdec (cached_dinv ha hdec hd) hP hq h hsz).2.2.2.2.2.2.2.2 (cached_humble ha hdec hd)).2 k hk

/-- **C40** Once a prediction has found that a conflict makes it look at the context, all later
predictions on the same token types — after any other predictions, in any contexts — look at the context too
and are exactly right in it: the alternative answered matches, and it is the only one that does, or the first
of those that match, which all go on alike; or else no alternative matches the input, and the answer matches a
beginning of it.  If an error is reported, no alternative matches. -/
theorem C40_again_partial (ha : Plain atn) (hdec : Decides atn s dec) (hd : Cached atn s dec d)
    {P1 : Params CTS} {src1 : Source} {c1 : Int} {inp1 : CTS} {σ1 : List Nat} {cf1 n1 : Nat} {r1 : Res CTS}
    (hP1 : P1.atn = atn) (hq1 : Asked src1 c1 dec P1 inp1 σ1) (h1 : adaptivePredict P1 cf1 n1 d inp1 = some r1)
    (hsz1 : r1.dfa.states.length ≤ ERROR_DFA_STATE_REF) (hf1 : WentFull r1)
    {d2 : DFA} (hl : Later atn dec r1.dfa d2)
    (hP : P.atn = atn) (hq : Asked src c dec P inp σ) (h : adaptivePredict P cf n d2 inp = some r)
    (hsz : r.dfa.states.length ≤ ERROR_DFA_STATE_REF) (hmode : P.mode ≠ .SLL)
    (hsame : ∀ m, typesAhead src1 c1 inp1 m = typesAhead src c inp m)
    (hmax : ∀ m, typesAhead src c inp m ≤ atn.maxTokenType) :
    WentFull r ∧ FullRight atn dec σ (typesAhead src c inp) True r.out := by
  have hd1 := cached_dinv ha hdec hd
  obtain ⟨g1, -, -, -, -, -, g7, -⟩ := asked_spec ha hdec hd1 hP1 hq1 h1 hsz1
  obtain ⟨l1, l2, l3, l4, -⟩ := later_spec ha hdec g1 hl
  have hs : typesAhead src1 c1 inp1 = typesAhead src c inp := funext hsame
  rw [hs] at g7
  obtain ⟨i, hi, hw⟩ := g7 hf1 hmax
  obtain ⟨-, -, k3, -, -, -, -, k8, -⟩ := asked_spec ha hdec l1 hP hq h hsz
  have hw2 := hw.mono hq.toks l3 l2
  have hf := k8 i (l4 i hi) hw2 hmode
  exact ⟨hf, (k3 hf).2.mono fun _ => ⟨i, l4 i hi, hw2⟩⟩

/-- At each place of the input some alternative matches in the context `σ` and can go on, or was at the end of the
outermost rule when EOF came. -/
def Passable (atn : ATN) (dec : ATNState) (σ : List Nat) (w : Nat → Int) : Prop :=
  ∀ v, Ahead w v → ∃ j p, Alive atn dec false σ j v p ∧ Counts atn false v p

/-- At each place of the input some alternative matches in the context `σ` and can go on. -/
def Valid (atn : ATN) (dec : ATNState) (σ : List Nat) (w : Nat → Int) : Prop :=
  ∀ v, Ahead w v → ∃ j p, Live atn dec σ j v p ∧ Counts atn false v p

theorem Valid.passable {atn : ATN} {dec : ATNState} {σ : List Nat} {w : Nat → Int} (h : Valid atn dec σ w) :
    Passable atn dec σ w := by
  intro v hv
  obtain ⟨j, p, h1, h2⟩ := h v hv
  exact ⟨j, p, .inl h1, h2⟩

theorem _root_.Antlr.PredictionSpec.Counts.full {v : List Int} {p : Pos} (h : Counts atn false v p) : Counts atn true v p := by
  obtain ⟨h1, h2⟩ := h
  refine ⟨?_, h2⟩
  rcases h1 with h1 | ⟨h1, -⟩
  · exact .inl h1
  · exact .inr ⟨h1, .inl rfl⟩

/-- **C40** On an input that the decision can match in the current context a prediction without a look
at the context gives an alternative that matches the tokens examined in the current context, and no other does. -/
theorem C40_valid_local (ha : Plain atn) (hdec : Decides atn s dec) (hd : Cached atn s dec d)
    (hP : P.atn = atn) (hq : Asked src c dec P inp σ) (h : adaptivePredict P cf n d inp = some r)
    (hsz : r.dfa.states.length ≤ ERROR_DFA_STATE_REF) (hmode : P.mode ≠ .SLL) (hf : ¬ WentFull r)
    (hv : Passable atn dec σ (typesAhead src c inp)) :
    ∃ k v p, r.out = .alt k ∧ Ahead (typesAhead src c inp) v ∧ Alive atn dec false σ k v p ∧ Counts atn false v p ∧
      ∀ j q, Alive atn dec false σ j v q → Counts atn false v q → j = k := by
  have hp : Proper atn dec.ruleIndex σ := hP ▸ hq.proper
  have := C40_local_partial ha hdec hd hP hq h hsz hf
  cases ho : r.out with
  | alt k =>
    rw [ho] at this
    obtain ⟨v, h1, h2, h3 | h3 | ⟨v', h3, -, h4⟩⟩ := this
    · obtain ⟨j, p, h5, h6⟩ := hv v h1
      obtain rfl := h3 σ hp j p h5 h6
      exact ⟨_, v, p, rfl, h1, h5, h6, fun j q a b => h3 σ hp j q a b⟩
    · exact absurd h3.1 hmode
    · obtain ⟨j, p, h5, h6⟩ := hv v' h3
      exact absurd h6 (h4 σ hp j p h5)
  | noAlt a b =>
    rw [ho] at this
    obtain ⟨v, h1, h2⟩ := this
    obtain ⟨j, p, h5, h6⟩ := hv v h1
    exact absurd h6 (h2 σ hp j p h5)

/-- **C40** On an input that the decision can match in the current context a prediction whose conflict was
found before gives an alternative that matches the tokens examined in the current context: the only one, or
the first of several that go on alike. -/
theorem C40_valid_again (ha : Plain atn) (hdec : Decides atn s dec) (hd : Cached atn s dec d)
    {P1 : Params CTS} {src1 : Source} {c1 : Int} {inp1 : CTS} {σ1 : List Nat} {cf1 n1 : Nat} {r1 : Res CTS}
    (hP1 : P1.atn = atn) (hq1 : Asked src1 c1 dec P1 inp1 σ1) (h1 : adaptivePredict P1 cf1 n1 d inp1 = some r1)
    (hsz1 : r1.dfa.states.length ≤ ERROR_DFA_STATE_REF) (hf1 : WentFull r1)
    {d2 : DFA} (hl : Later atn dec r1.dfa d2)
    (hP : P.atn = atn) (hq : Asked src c dec P inp σ) (h : adaptivePredict P cf n d2 inp = some r)
    (hsz : r.dfa.states.length ≤ ERROR_DFA_STATE_REF) (hmode : P.mode ≠ .SLL)
    (hsame : ∀ m, typesAhead src1 c1 inp1 m = typesAhead src c inp m)
    (hmax : ∀ m, typesAhead src c inp m ≤ atn.maxTokenType)
    (hv : Valid atn dec σ (typesAhead src c inp)) :
    ∃ k v, r.out = .alt k ∧ Ahead (typesAhead src c inp) v ∧ Matches atn dec (· = σ) v k ∧
      (Sole atn dec (· = σ) true v k ∨ Best atn dec (· = σ) v k) := by
  have := (C40_again_partial ha hdec hd hP1 hq1 h1 hsz1 hf1 hl hP hq h hsz hmode hsame hmax).2
  cases ho : r.out with
  | alt k =>
    rw [ho] at this
    obtain ⟨v, h1, h2, h3⟩ := this
    refine ⟨k, v, rfl, h1, h2, ?_⟩
    rcases h3 trivial with h3 | h3 | ⟨v', h3, -, h4⟩
    · exact .inl h3
    · exact .inr h3
    · obtain ⟨j, p, h5, h6⟩ := hv v' h3
      exact absurd h6.full (h4 σ rfl j p (alive_full.2 h5))
  | noAlt a b =>
    rw [ho] at this
    obtain ⟨v, h1, h2⟩ := this trivial
    obtain ⟨j, p, h5, h6⟩ := hv v h1
    exact absurd h6.full (h2 σ rfl j p (alive_full.2 h5))

/-- **C40** The answer is the number of an alternative. -/
theorem C40_range (ha : Plain atn) (hdec : Decides atn s dec) (hd : Cached atn s dec d)
    (hP : P.atn = atn) (hq : Asked src c dec P inp σ) (h : adaptivePredict P cf n d inp = some r)
    (hsz : r.dfa.states.length ≤ ERROR_DFA_STATE_REF) {k : Int} (hk : r.out = .alt k) :
    1 ≤ k ∧ k ≤ dec.transitions.length := by
  have key : ∀ {S v}, Matches atn dec S v k → 1 ≤ k ∧ k ≤ dec.transitions.length := by
    rintro S v ⟨σ, -, ⟨p, hp⟩ | ⟨u, p, -, hp, -⟩⟩ <;> exact hp.range
  by_cases hf : WentFull r
  · obtain ⟨v, -, hm⟩ := C40_full_partial ha hdec hd hP hq h hsz hf hk
    exact key hm
  · have := C40_local_partial ha hdec hd hP hq h hsz hf
    rw [hk] at this
    obtain ⟨v, -, hm, -⟩ := this
    exact key hm

end

/-! ### Cases that meet the hypotheses -/

theorem exSource_types {ts : List Nat} {b : Nat} (h : ∀ t ∈ ts, t ≤ b) (n : Nat) :
    -1 ≤ (tok (exSource ts) n).ttype ∧ (tok (exSource ts) n).ttype ≤ b := by
  simp only [tok, Source.next, exSource, List.getElem?_map, List.getElem?_zipIdx]
  cases e : ts[n]? with
  | none => simp only [exTok, TOKEN_EOF, Option.map_none, Option.getD_none]; omega
  | some t =>
    have := h t (List.mem_of_getElem? e)
    simp [exTok]
    omega

/-- The ATN of `s : ('a' | 'a' | 'b') EOF ;` with `'a'` = 1, `'b'` = 2. -/
def exEnd : ATN where
  grammarType := .parser
  maxTokenType := 2
  decisionToState := [2]
  ruleToStartState := [0]
  ruleToStopState := [1]
  states := [
    exState 0 (.ruleStart 1 false) [exEps 2],
    exState 1 .ruleStop [],
    exState 2 (.decision 0 false (.blockStart 6 .basic)) [exEps 3, exEps 4, exEps 5],
    exState 3 .basic [.atom 6 1],
    exState 4 .basic [.atom 6 1],
    exState 5 .basic [.atom 6 2],
    exState 6 (.blockEnd 2) [exEps 7],
    exState 7 .basic [.atom 1 (-1)]]

theorem exEnd_plain : Plain exEnd := plain_of_plainB (by decide +kernel)

/-- The decision `'a' | 'a' | 'b'`. -/
def exEndDec : ATNState := exState 2 (.decision 0 false (.blockStart 6 .basic)) [exEps 3, exEps 4, exEps 5]

theorem exEnd_decides : Decides exEnd 2 exEndDec := by
  refine ⟨rfl, by decide, ?_, by decide⟩
  intro tr h
  simp only [exEndDec, exState, List.mem_cons, List.not_mem_nil, or_false] at h
  rcases h with rfl | rfl | rfl <;> exact ⟨_, _, rfl⟩

/-- A parser in rule `s`, which nobody called. -/
def exEndParams : Params CTS := { exParams CTS with atn := exEnd }

/-- The empty DFA of the decision. -/
def exEndDfa : DFA := { exDfa with atnStartState := 2 }

/-- The input of one token of type `t`. -/
def exEndInput (t : Nat) : CTS := CTS.withChannel (exSource [t]) 0

theorem exEnd_asked {t : Nat} (ht : t ≤ 2) : Asked (exSource [t]) 0 exEndDec exEndParams (exEndInput t) [] := by
  refine ⟨⟨_, .init⟩, fun n => ?_, .root _, .nil⟩
  have := exSource_types (ts := [t]) (b := 2) (by simpa using ht) n
  omega

theorem exEnd_cached : Cached exEnd 2 exEndDec exEndDfa := ⟨_, 0, by decide +kernel, .refl⟩

theorem exEnd_ahead {t : Nat} (ht : t ≤ 2) (h0 : typesAhead (exSource [t]) 0 (exEndInput t) 0 = t)
    (h1 : typesAhead (exSource [t]) 0 (exEndInput t) 1 = -1) {v : List Int}
    (h : Ahead (typesAhead (exSource [t]) 0 (exEndInput t)) v) : v = [] ∨ v = [(t : Int)] ∨ v = [(t : Int), -1] := by
  obtain ⟨n, rfl, h⟩ := h
  match n with
  | 0 => exact .inl rfl
  | 1 => exact .inr (.inl (by simp [pre, h0]))
  | 2 => exact .inr (.inr (by simp [pre, List.range_succ, h0, h1]))
  | n + 3 => exact absurd h1 (h 1 (by omega))

/-- The input can be matched by alternative `i + 1`. -/
theorem exEnd_valid {t : Nat} (ht : t ≤ 2) (h0 : typesAhead (exSource [t]) 0 (exEndInput t) 0 = t)
    (h1 : typesAhead (exSource [t]) 0 (exEndInput t) 1 = -1) {i : Nat} {m : Nat}
    (hi : exEndDec.transitions[i]? = some (exEps m))
    (hm : exEnd.states[m]? = some (exState m .basic [.atom 6 t])) :
    Valid exEnd exEndDec [] (typesAhead (exSource [t]) 0 (exEndInput t)) := by
  have s0 := Live.start (atn := exEnd) (σ := []) hi
  have s1 := s0.read (t := t) (q := (6, [])) ⟨_, .atom 6 t, hm, by simp [exState], by simp [exState], rfl, rfl⟩
  have s2 := s1.silent (.free (s := 6) (tr := exEps 7) rfl (by decide) (by simp [exState]) trivial)
  have s3 := s2.read (t := -1) (q := (1, [])) ⟨_, .atom 1 (-1), rfl, by decide, by simp [exState], rfl, rfl⟩
  intro v hv
  rcases exEnd_ahead ht h0 h1 hv with rfl | rfl | rfl
  · exact ⟨_, _, s0, .inl ⟨_, hm, by simp [exState], .atom 6 t, by simp [exState], rfl⟩, by simp⟩
  · refine ⟨_, _, s2, .inl ⟨_, rfl, by decide, .atom 1 (-1), by simp [exState], rfl⟩, ?_⟩
    intro h
    simp [TOKEN_EOF] at h
  · refine ⟨_, _, s3, .inr ⟨⟨rfl, _, rfl, rfl⟩, .inr ?_⟩, fun _ => ⟨rfl, _, rfl, rfl⟩⟩
    intro st hst
    cases hst
    rfl

/-- On `b` alternative 3 is found without a look at the context … -/
example : ∃ r, adaptivePredict exEndParams 20 20 exEndDfa (exEndInput 2) = some r ∧ ¬ WentFull r ∧
    r.out = .alt 3 ∧ LocalRight exEnd exEndDec (typesAhead (exSource [2]) 0 (exEndInput 2)) .LL r.out ∧
    ∃ k v p, r.out = .alt k ∧ Alive exEnd exEndDec false [] k v p := by
  have h : ((adaptivePredict exEndParams 20 20 exEndDfa (exEndInput 2)).map fun r =>
      (r.out, r.reports, r.dfa.states.length)) = some (.alt 3, [], 3) := by decide +kernel
  rw [Option.map_eq_some_iff] at h
  obtain ⟨r, h1, h2⟩ := h
  simp only [Prod.mk.injEq] at h2
  obtain ⟨h2, h3, h4⟩ := h2
  have hf : ¬ WentFull r := by rintro ⟨a, b, l, h⟩; rw [h3] at h; simp at h
  have hsz : r.dfa.states.length ≤ ERROR_DFA_STATE_REF := by rw [h4]; decide
  refine ⟨r, h1, hf, h2, C40_local_partial exEnd_plain exEnd_decides exEnd_cached rfl (exEnd_asked (by decide)) h1 hsz hf, ?_⟩
  obtain ⟨k, v, p, g1, -, g2, -⟩ := C40_valid_local exEnd_plain exEnd_decides exEnd_cached rfl
    (exEnd_asked (by decide)) h1 hsz (by decide) hf
    (exEnd_valid (by decide) (by decide +kernel) (by decide +kernel) (i := 2) (m := 5) rfl rfl).passable
  exact ⟨k, v, p, g1, g2⟩

/-- … and it begins with `b` … -/
example : ∃ r, adaptivePredict exEndParams 20 20 exEndDfa (exEndInput 2) = some r ∧ r.out = .alt 3 ∧
    Begins exEnd exEndDec (typesAhead (exSource [2]) 0 (exEndInput 2) 0) 3 := by
  have h : ((adaptivePredict exEndParams 20 20 exEndDfa (exEndInput 2)).map fun r =>
      (r.out, r.dfa.states.length)) = some (.alt 3, 3) := by decide +kernel
  rw [Option.map_eq_some_iff] at h
  obtain ⟨r, h1, h2⟩ := h
  simp only [Prod.mk.injEq] at h2
  have hsz : r.dfa.states.length ≤ ERROR_DFA_STATE_REF := by rw [h2.2]; decide
  exact ⟨r, h1, h2.1, C40_begins exEnd_plain exEnd_decides exEnd_cached rfl (exEnd_asked (by decide)) h1 hsz h2.1⟩

/-- … and on `a` two predictions in a row look at the context, and the second is right. -/
example : ∃ r1 r, adaptivePredict exEndParams 20 20 exEndDfa (exEndInput 1) = some r1 ∧
    adaptivePredict exEndParams 20 20 r1.dfa (exEndInput 1) = some r ∧ WentFull r1 ∧ WentFull r ∧ r.out = .alt 1 ∧
    FullRight exEnd exEndDec [] (typesAhead (exSource [1]) 0 (exEndInput 1)) True r.out ∧
    ∃ k v, r.out = .alt k ∧ Matches exEnd exEndDec (· = []) v k ∧ Best exEnd exEndDec (· = []) v k := by
  have h : ((adaptivePredict exEndParams 20 20 exEndDfa (exEndInput 1)).bind fun r1 =>
      (adaptivePredict exEndParams 20 20 r1.dfa (exEndInput 1)).map fun r =>
      (r1.reports, r1.dfa.states.length, r.out, r.dfa.states.length)) =
      some ([.fullContext 0 0 [1, 2], .ambiguity 0 0 false [1, 2]], 3, .alt 1, 3) := by decide +kernel
  rw [Option.bind_eq_some_iff] at h
  obtain ⟨r1, h1, h⟩ := h
  rw [Option.map_eq_some_iff] at h
  obtain ⟨r, h2, h3⟩ := h
  simp only [Prod.mk.injEq] at h3
  obtain ⟨h3, h4, h5, h6⟩ := h3
  have hf : WentFull r1 := ⟨0, 0, [1, 2], by rw [h3]; simp⟩
  have hsz1 : r1.dfa.states.length ≤ ERROR_DFA_STATE_REF := by rw [h4]; decide
  have hsz : r.dfa.states.length ≤ ERROR_DFA_STATE_REF := by rw [h6]; decide
  have hmax : ∀ m, typesAhead (exSource [1]) 0 (exEndInput 1) m ≤ exEnd.maxTokenType := fun m =>
    (exSource_types (ts := [1]) (b := 2) (by simp) _).2
  have hv := exEnd_valid (t := 1) (by decide) (by decide +kernel) (by decide +kernel) (i := 0) (m := 3) rfl rfl
  obtain ⟨g1, g2⟩ := C40_again_partial exEnd_plain exEnd_decides exEnd_cached rfl (exEnd_asked (by decide)) h1 hsz1 hf
    .refl rfl (exEnd_asked (by decide)) h2 hsz (by decide) (fun _ => rfl) hmax
  obtain ⟨k, v, e1, e2, e3, e4⟩ := C40_valid_again exEnd_plain exEnd_decides exEnd_cached rfl (exEnd_asked (by decide)) h1 hsz1 hf
    .refl rfl (exEnd_asked (by decide)) h2 hsz (by decide) (fun _ => rfl) hmax hv
  refine ⟨r1, r, h1, h2, hf, g1, h5, g2, k, v, e1, e3, ?_⟩
  rcases e4 with e4 | e4
  · rw [h5] at e1
    cases e1
    intro σ hσ j p hj hc
    obtain rfl := e4 σ hσ j p (alive_full.2 hj) hc
    exact ⟨Int.le_refl _, .inl hj⟩
  · exact e4

/-! ## The alternative to fall back on -/

/-- **C40** The alternative to fall back on is the least one of which a configuration has finished the rule;
there is none exactly if no configuration has. -/
theorem C40_fallback_least (atn : ATN) (s : ConfigSet) (hw : ∀ c ∈ s.configs, StackSpec.WF c.ctx) :
    ((∃ c ∈ s.configs, Finished atn c) →
      (∃ c ∈ s.configs, Finished atn c ∧ c.alt = altThatFinished atn s) ∧
      ∀ c ∈ s.configs, Finished atn c → altThatFinished atn s ≤ c.alt) ∧
    ((∀ c ∈ s.configs, ¬ Finished atn c) → altThatFinished atn s = INVALID_ALT) := by
  have hf : ∀ c, (c ∈ s.configs.filter fun c => decide (0 < c.reaches) || (isStop atn c && c.ctx.hasEmptyPath)) ↔
      c ∈ s.configs ∧ Finished atn c := by
    intro c
    rw [List.mem_filter]
    refine and_congr_right fun hc => ?_
    rw [Bool.or_eq_true, decide_eq_true_eq, Bool.and_eq_true, (C29_has_empty_path c.ctx (hw c hc)).1]
    refine or_congr_right (and_congr_left fun _ => ?_)
    unfold isStop
    cases atn.states[c.state]? <;> simp
  unfold altThatFinished
  generalize (s.configs.filter fun c => decide (0 < c.reaches) || (isStop atn c && c.ctx.hasEmptyPath)) = l at hf ⊢
  have e : l.foldl (fun (a : IntervalSet) c => a.addOne c.alt) IntervalSet.new =
      IntervalProps.run ((l.map (·.alt)).map IntervalSpec.AddCall.one) := by
    simp only [IntervalProps.run, List.foldl_map, IntervalProps.perform]
  rw [e]
  have hm := IntervalProps.C01_add_one_history (l.map (·.alt))
  have hg := IntervalProps.C06_get_min _ (IntervalSpec.Canonical.sortedDisjoint (IntervalProps.C02_add_one_canonical (l.map (·.alt))))
  cases hmin : (IntervalProps.run ((l.map (·.alt)).map IntervalSpec.AddCall.one)).getMin with
  | none =>
    have h0 := hg.1.1 hmin
    refine ⟨fun ⟨c, hc, hfin⟩ => ?_, fun _ => rfl⟩
    have := (hm c.alt).2 (List.mem_map.2 ⟨c, (hf c).2 ⟨hc, hfin⟩, rfl⟩)
    rw [h0] at this; simp at this
  | some m =>
    obtain ⟨h1, h2⟩ := (hg.2 m).1 hmin
    obtain ⟨c, hc, rfl⟩ := List.mem_map.1 ((hm m).1 h1)
    obtain ⟨hc, hfin⟩ := (hf c).1 hc
    refine ⟨fun _ => ⟨⟨c, hc, hfin, rfl⟩, fun c' hc' hfin' => ?_⟩, fun hno => absurd hfin (hno c hc)⟩
    exact h2 _ ((hm _).2 (List.mem_map.2 ⟨c', (hf c').2 ⟨hc', hfin'⟩, rfl⟩))

/-- Alternative 3 has finished, 2 as well, 1 has not. -/
example : altThatFinished { grammarType := .parser, maxTokenType := 1 } { ConfigSet.newBase true with
    configs := [{ state := 1, alt := 3, ctx := PC.EMPTY, reaches := 1 }, { state := 2, alt := 1, ctx := PC.EMPTY },
      { state := 3, alt := 2, ctx := PC.EMPTY, reaches := 2 }] } = 2 := by decide +kernel

end Antlr.PredictionProps
