import Verif.Prediction.SemLocal
import Verif.Prediction.TotalProps
import Verif.Gen.Calc

/-!
# C70: prediction returns, with predicates

`C70_returns` speaks of automata without predicates.  Here: the same with predicates of the user, precedence
predicates and left-recursive rules.
-/

namespace Antlr.PredictionSpec
open Antlr LL1Spec IntervalSpec

/-- `loops` of `Tame` for one state. -/
def loopsB (atn : ATN) (st : ATNState) : Bool :=
  match st.stateType with
  | .decision _ _ (.starLoopEntry _ true) => ((st.transitions.head?).bind fun tr => atn.states[tr.target]?).any fun b =>
      match b.stateType with
      | .decision _ _ (.blockStart _ _) => true
      | _ => false
  | _ => true

/-- `Tame` for one state. -/
def tameStateB (atn : ATN) (st : ATNState) : Bool :=
  (st.transitions.all fun tr =>
    decide (tr.target < atn.states.length) &&
    (match tr with
     | .set _ s | .notSet _ s => decide (SortedDisjoint s.intervals)
     | _ => true) &&
    (match tr with
     | .rule _ f _ _ => decide (f < atn.states.length) && inRuleB atn f st.ruleIndex
     | tr => decide (st.stateType = .ruleStop) || inRuleB atn tr.target st.ruleIndex)) &&
  (st.epsilonOnly == (!st.transitions.isEmpty && st.transitions.all (·.isEpsilon))) &&
  (decide (st.stateType ≠ .ruleStop) || st.transitions.all fun e => match e with | .epsilon _ _ => true | _ => false) &&
  loopsB atn st &&
  (!(st.transitions.any fun tr => (match tr with | .rule .. => true | _ => false) || tr.getPredicate.isSome) ||
    st.transitions.all (·.isEpsilon))

/-- The automaton is `Tame`. -/
def tameB (atn : ATN) : Bool :=
  decide ((atn.states.length : Int) ≤ PC.EMPTY_RS) && atn.states.all (tameStateB atn)

theorem tame_of {atn : ATN} (h : tameB atn = true) : Tame atn := by
  simp only [tameB, Bool.and_eq_true, decide_eq_true_eq, List.all_eq_true] at h
  obtain ⟨h0, h⟩ := h
  have H : ∀ (s : Nat) (st : ATNState), atn.states[s]? = some st → tameStateB atn st = true :=
    fun s st hs => h st (List.mem_of_getElem? hs)
  have H1 : ∀ (s : Nat) (st : ATNState), atn.states[s]? = some st → ∀ tr ∈ st.transitions, _ := fun s st hs tr ht => by
    have := H s st hs
    simp only [tameStateB, Bool.and_eq_true, List.all_eq_true] at this
    exact this.1.1.1.1 tr ht
  have H2 : ∀ (s : Nat) (st : ATNState), atn.states[s]? = some st → _ := fun s st hs => by
    have := H s st hs
    simp only [tameStateB, Bool.and_eq_true] at this
    exact And.intro this.1.1.1.2 (And.intro this.1.1.2 (And.intro this.1.2 this.2))
  constructor
  · exact h0
  · intro s st hs t f r p ht
    have := (H1 s st hs _ ht).2
    simp only [Bool.and_eq_true, decide_eq_true_eq] at this
    exact this.1
  · intro s st hs
    have := (H2 s st hs).1
    rw [beq_iff_eq] at this
    rw [this]
    simp
  · intro s st hs tr ht
    have := (H1 s st hs tr ht).1.2
    cases tr <;> simp_all
  · intro s st hs hne tr ht hr st' hs'
    have := (H1 s st hs tr ht).2
    cases tr
    case rule t f r p => exact absurd rfl (hr _ _ _ _)
    all_goals
      simp only [Bool.or_eq_true, decide_eq_true_eq, hne, false_or] at this
      exact inRuleB_spec this hs'
  · intro s st hs t f r p ht st' hs'
    have := (H1 s st hs _ ht).2
    simp only [Bool.and_eq_true] at this
    exact inRuleB_spec this.2 hs'
  · intro s st hs he tr ht
    have := (H2 s st hs).2.1
    simp only [he, ne_eq, not_true_eq_false, decide_false, Bool.false_or, List.all_eq_true] at this
    have := this tr ht
    cases tr <;> simp only [reduceCtorEq, Bool.false_eq_true] at this
    exact ⟨_, _, rfl⟩
  · intro s st hs tr ht
    simpa using (H1 s st hs tr ht).1.1
  · intro s st hs n g l he
    have := (H2 s st hs).2.2.1
    simp only [loopsB, he, Option.any_eq_true] at this
    obtain ⟨b, h1, h2⟩ := this
    obtain ⟨tr, h3, h4⟩ := Option.bind_eq_some_iff.1 h1
    refine ⟨tr, b, h3, h4, ?_⟩
    split at h2
    · rename_i hb
      exact ⟨_, _, _, _, hb⟩
    · simp at h2
  · intro s st hs tr ht hc tr' ht'
    have := (H2 s st hs).2.2.2
    rw [Bool.or_eq_true] at this
    rcases this with this | this
    · exfalso
      rw [Bool.not_eq_true', List.any_eq_false] at this
      refine this tr ht ?_
      rcases hc with ⟨t, f, r, p, rfl⟩ | hc
      · rfl
      · rw [Bool.or_eq_true]
        exact .inr (Option.isSome_iff_ne_none.2 hc)
    · rw [List.all_eq_true] at this
      exact this tr' ht'

end Antlr.PredictionSpec

namespace Antlr.PredictionProps
open Antlr Prediction TokenSpec PredictionSpec LL1Spec StackProps

theorem looksB_cts (src : Source) (c : Int) (p0 : Nat) (hp0 : p0 ≤ eofIdx src) :
    Sem.LooksB (I := CTS) (p0 : Int) (fun n => (tok src (stepVis src c n p0)).ttype)
      (fun n i => ∃ h, CommonProps.Reach src c i h ∧ (p0 : Int) ∈ h ∧ i.index = (stepVis src c n p0 : Nat)) := by
  refine ⟨looksT_cts src c p0 hp0, ?_⟩
  rintro n i ⟨h, hr, hm, hi⟩
  have hin : i.index ∈ h := by
    obtain ⟨len, p, rfl, hok, -, hm', -⟩ := CommonProps.reach_inv hr
    rw [cst_index]
    exact hm'
  obtain ⟨i1, h1, -, h2⟩ := CommonProps.C19_seek_recorded src c i h hr _ hm
  obtain ⟨i2, h3, h4, h5⟩ := CommonProps.C19_seek_recorded src c i1 h h2 _ hin
  exact ⟨i1, h1, i2, h3, h, h5, hm, h4.trans hi⟩

/-- The DFA of the decision at state `s` after any number of predictions: each on its own input, in its own context,
mode and precedence, with its own answers to predicates.  (`ord` is the order in which a hash set lists its elements; there
are fewer states than the greatest `usize`, which marks errors.) -/
inductive Tried (atn : ATN) (s : Nat) (dec : ATNState) : DFA → Prop
  | new {n : Int} {d : DFA} : DFA.new atn s n = some d → atn.decisionToState[asUsize n]? = some s → Tried atn s dec d
  | after {d : DFA} {src : Source} {c : Int} {P : Params CTS} {inp : CTS} {σ : List Nat} {cf n : Nat} {r : Res CTS} :
      Tried atn s dec d → P.atn = atn → (∀ l, (P.ord l).Perm l) → Asked src c dec P inp σ →
      d.states.length + (eofIdx src + 2) ≤ ERROR_DFA_STATE_REF → adaptivePredict P cf n d inp = some r →
      Tried atn s dec r.dfa

section
variable {atn : ATN} {s : Nat} {dec : ATNState} {d : DFA} {src : Source} {c : Int} {P : Params CTS} {inp : CTS}
  {σ : List Nat} {N : Nat}

theorem sinv_returns (ha : Tame atn) (hN : NoLoop atn N) (h1 : OneStop atn)
    (hmax : 0 ≤ atn.maxTokenType ∧ atn.maxTokenType < 2 ^ 63) (hdec : Decides atn s dec)
    (hd : Sem.SInv atn s dec.transitions.length d)
    (hP : P.atn = atn) (hord : ∀ l, (P.ord l).Perm l) (hq : Asked src c dec P inp σ)
    (hroom : d.states.length + (eofIdx src + 2) ≤ ERROR_DFA_STATE_REF) :
    ∃ cf r, (∀ cf' n, cf ≤ cf' → 2 * eofIdx src + 2 ≤ n → adaptivePredict P cf' n d inp = some r) ∧
      r.dfa.states.length ≤ d.states.length + (eofIdx src + 2) ∧ Sem.SInv atn s dec.transitions.length r.dfa := by
  subst hP
  obtain ⟨h, hr⟩ := hq.stream
  obtain ⟨len, p, rfl, hok, -, hm, -⟩ := CommonProps.reach_inv hr
  have hp : p ≤ eofIdx src := by unfold COK at hok; omega
  have hi : TokStream.index (cst src c len p) = (p : Int) := cst_index src c len p
  obtain ⟨m, hm1, hm2, hm3⟩ := stepVis_end src c p hp
  obtain rfl := hd.atnStart
  obtain ⟨r, ⟨cf, h2⟩, -, h3, h4⟩ := Sem.predict_total (inp := cst src c len p)
    (w := fun n => (tok src (stepVis src c n p)).ttype)
    (At := fun n i => ∃ h, CommonProps.Reach src c i h ∧ (p : Int) ∈ h ∧ i.index = (stepVis src c n p : Nat))
    (n := 2 * eofIdx src + 2) ha hN h1 hmax hord hdec hq.proper
    hq.stack (by rw [hi]; exact looksB_cts src c p hp) (fun n => hq.types _) hd ⟨h, hr, hm, cst_index src c len p⟩ hm2 hm3 (by omega)
    (by omega)
  refine ⟨cf, r, fun cf' n hc hn => ?_, by omega, h4⟩
  exact predict_below hc P d (2 * eofIdx src + 2) n hn _ r (h2 cf (Nat.le_refl _))

theorem tried_sinv (ha : Tame atn) (hN : NoLoop atn N) (h1 : OneStop atn)
    (hmax : 0 ≤ atn.maxTokenType ∧ atn.maxTokenType < 2 ^ 63) (hdec : Decides atn s dec) (hd : Tried atn s dec d) :
    Sem.SInv atn s dec.transitions.length d := by
  induction hd with
  | new h hk => exact Sem.SInv.new h hk
  | @after d src c P inp σ cf n r _ hP hord hq hroom h ih =>
    obtain ⟨cf', r', g1, -, g2⟩ := sinv_returns ha hN h1 hmax hdec ih hP hord hq hroom
    have e1 := g1 (max cf cf') (max n (2 * eofIdx src + 2)) (by omega) (by omega)
    have e2 := predict_below (show cf ≤ max cf cf' by omega) P d n (max n (2 * eofIdx src + 2)) (by omega) _ r h
    rw [e1] at e2
    cases e2
    exact g2

/-- **C70** A prediction returns on automata with predicates, precedence predicates and left-recursive rules as well: on
an automaton as ANTLR makes it (`Tame`) without loops that need not read (`NoLoop`), whose rules have one end
each (`OneStop`), there is one result `r` such that every run with a large enough recursion stack ends with `r`,
after at most two rounds per token and two more in its loops.  Whatever the input, the context, the mode, the precedence, what
the predicates of the user answer, and the predictions made before.  No panic. -/
theorem C70_returns_pred (ha : Tame atn) (hN : NoLoop atn N) (h1 : OneStop atn)
    (hmax : 0 ≤ atn.maxTokenType ∧ atn.maxTokenType < 2 ^ 63) (hdec : Decides atn s dec) (hd : Tried atn s dec d)
    (hP : P.atn = atn) (hord : ∀ l, (P.ord l).Perm l) (hq : Asked src c dec P inp σ)
    (hroom : d.states.length + (eofIdx src + 2) ≤ ERROR_DFA_STATE_REF) :
    ∃ cf r, (∀ cf' n, cf ≤ cf' → 2 * eofIdx src + 2 ≤ n → adaptivePredict P cf' n d inp = some r) ∧
      r.dfa.states.length ≤ d.states.length + (eofIdx src + 2) := by
  obtain ⟨cf, r, g1, g2, -⟩ := sinv_returns ha hN h1 hmax hdec (tried_sinv ha hN h1 hmax hdec hd) hP hord hq hroom
  exact ⟨cf, r, g1, g2⟩

end

/-! ### A case that meets the hypotheses: the loop of the left-recursive rule of tests/gen/visitorcalcparser.rs -/

theorem calc_tame : Tame Antlr.Gen.Calc.atn := tame_of (by decide +kernel)

theorem calc_noLoop : NoLoop Antlr.Gen.Calc.atn 10 :=
  noLoop_of_ranked (ρ := [7, 0, 2, 0, 6, 2, 1, 1, 0, 4, 1, 0, 9, 1, 0, 9, 2, 5, 3, 1, 4, 0]) (by decide +kernel) (by decide) (by decide)

theorem calc_oneStop : OneStop Antlr.Gen.Calc.atn := oneStop_of (by decide +kernel)

/-- The state of the loop. -/
def calcEntry : ATNState where
  stateNumber := 18
  ruleIndex := 1
  stateType := .decision 1 false (.starLoopEntry 0 true)
  transitions := [.epsilon 16 0, .epsilon 19 0]
  epsilonOnly := true

theorem calc_decides : Decides Antlr.Gen.Calc.atn 18 calcEntry := by
  refine ⟨by decide +kernel, by decide, ?_, by decide⟩
  intro tr h
  simp only [calcEntry, List.mem_cons, List.not_mem_nil, or_false] at h
  rcases h with rfl | rfl <;> exact ⟨_, _, rfl⟩

/-- The state that calls `expr` in `s`. -/
def calcCaller : ATNState where
  stateNumber := 4
  ruleIndex := 0
  stateType := .basic
  transitions := [.rule 2 5 1 0]
  epsilonOnly := true

/-- The start of `expr`. -/
def calcExpr : ATNState where
  stateNumber := 2
  ruleIndex := 1
  stateType := .ruleStart 3 true
  transitions := [.epsilon 7 0]
  epsilonOnly := true

/-- In `s : expr EOF ;` the rule `expr` is called at state 4 and returns to state 5. -/
theorem calc_asked {P : Params CTS} (hP : P.atn = Antlr.Gen.Calc.atn) (ho : P.outer = [4, -1]) {ts : List Nat} (ht : ∀ t ∈ ts, t ≤ 5) :
    Asked (exSource ts) 0 calcEntry P (CTS.withChannel (exSource ts) 0) [5] := by
  refine ⟨⟨_, .init⟩, fun n => by have := exSource_types (ts := ts) (b := 5) ht n; omega, ?_, ?_⟩
  · rw [hP, ho]
    exact .call 4 calcCaller 2 5 1 0 [] (by simp) (by decide +kernel) rfl (.root _)
  · rw [hP]
    exact .call (s := 4) (st := calcCaller) (t := 2) (i := 1) (p := 0) (tst := calcExpr) (by decide +kernel) (by decide)
      (by decide +kernel) rfl .nil

/-- The loop of `expr` in `s`, at the start of any input, with any precedence, in any mode: the prediction ends; and so does
the next one, with another precedence and on another input. -/
example (ts ts' : List Nat) (ht : ∀ t ∈ ts, t ≤ 5) (ht' : ∀ t ∈ ts', t ≤ 5) (hl : ts.length < 2 ^ 32) (hl' : ts'.length < 2 ^ 32)
    (d : DFA) (hd : DFA.new Antlr.Gen.Calc.atn 18 1 = some d) (mode mode' : PredictionMode) (prec prec' : Int) :
    ∃ cf r r', (∀ cf', cf ≤ cf' → adaptivePredict (I := CTS) ⟨Antlr.Gen.Calc.atn, mode, fun _ _ _ _ => true, prec, [4, -1], id, fun _ => 0⟩
        cf' (2 * ts.length + 2) d (CTS.withChannel (exSource ts) 0) = some r) ∧
      ∀ cf', cf ≤ cf' → adaptivePredict (I := CTS) ⟨Antlr.Gen.Calc.atn, mode', fun _ _ _ _ => true, prec', [4, -1], id, fun _ => 0⟩
        cf' (2 * ts'.length + 2) r.dfa (CTS.withChannel (exSource ts') 0) = some r' := by
  have he : ∀ ts, eofIdx (exSource ts) = ts.length := by simp [eofIdx, exSource]
  have hd0 : Tried Antlr.Gen.Calc.atn 18 calcEntry d := .new hd (by decide +kernel)
  have hlen : d.states.length = 2 := by
    have : (DFA.new Antlr.Gen.Calc.atn 18 1).map (fun d => d.states.length) = some 2 := by decide +kernel
    rw [hd] at this
    simpa using this
  have hroom : d.states.length + (eofIdx (exSource ts) + 2) ≤ ERROR_DFA_STATE_REF := by
    rw [he, hlen]; simp only [ERROR_DFA_STATE_REF]; omega
  obtain ⟨cf, r, h1, h2⟩ := C70_returns_pred calc_tame calc_noLoop calc_oneStop (by decide +kernel) calc_decides hd0
    (P := ⟨Antlr.Gen.Calc.atn, mode, fun _ _ _ _ => true, prec, [4, -1], id, fun _ => 0⟩) rfl (fun l => .refl l) (calc_asked rfl rfl ht) hroom
  have hd1 : Tried Antlr.Gen.Calc.atn 18 calcEntry r.dfa := .after hd0 rfl (fun l => .refl l) (calc_asked rfl rfl ht) hroom
    (h1 cf _ (Nat.le_refl _) (Nat.le_refl _))
  obtain ⟨cf', r', h3, -⟩ := C70_returns_pred calc_tame calc_noLoop calc_oneStop (by decide +kernel) calc_decides hd1
    (P := ⟨Antlr.Gen.Calc.atn, mode', fun _ _ _ _ => true, prec', [4, -1], id, fun _ => 0⟩) rfl (fun l => .refl l) (calc_asked rfl rfl ht')
    (by rw [he] at h2 ⊢; simp only [ERROR_DFA_STATE_REF]; omega)
  refine ⟨max cf cf', r, r', fun k hk => h1 k _ (by omega) (by rw [he]; exact Nat.le_refl _), fun k hk => h3 k _ (by omega) (by rw [he]; exact Nat.le_refl _)⟩

end Antlr.PredictionProps
