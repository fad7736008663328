import Verif.Gen.Agree
import Verif.Gen.Bail
import Verif.Gen.Sim
import Verif.Prediction.Range
import Verif.Prediction.InputProps
import Verif.Prediction.Session

/-! # Generated parsers with `ParserATNSimulator` on `CommonTokenStream` -/

namespace Antlr.Gen
open Antlr ParserSpec ParserLemmas ParserProps ErrorProps GenSpec Prediction ParserView TokenSpec
  CommonProps PredictionProps

/-! ## The memory of the simulator -/

/-- The number of alternatives of a decision. -/
def widthOf (atn : ATN) (d : Nat) : Nat :=
  match atn.decisionToState[d]? with
  | none => 0
  | some s => match atn.states[s]? with
    | none => 0
    | some st => st.transitions.length

/-- What is in `_decision_to_DFA` after any number of predictions for the grammar: by parsers on
streams of type `I`, with any predicates, in any mode. -/
inductive Used {I : Type} [TokStream I] (atn : ATN) : SimState → Prop
  | new {ds rs} : emptyDfas atn = some ds → Used atn ⟨ds, rs⟩
  | predict {σ : SimState} {M : Sim I} {m d : Nat} {p : P I} {x} {i : I} {σ' : SimState} : Used atn σ → M.atn = atn →
      M.predict m d p σ = some (x, i, σ') → Used atn σ'

/-- Every DFA belongs to its decision and mentions only alternatives of it. -/
def Kept (atn : ATN) (σ : SimState) : Prop :=
  ∀ (d : Nat) (dfa : DFA), σ.dfas[d]? = some dfa → ∃ st, atn.decisionToState[d]? = some dfa.atnStartState ∧
    atn.states[dfa.atnStartState]? = some st ∧ GoodDfa (Upto st.transitions.length) dfa

theorem mapM_get {α β : Type} (f : α → Option β) (l : List α) {r : List β} (h : l.mapM f = some r) (i : Nat) {b : β}
    (hb : r[i]? = some b) : ∃ a, l[i]? = some a ∧ f a = some b := by
  induction l generalizing r i with
  | nil =>
    simp only [List.mapM_nil, Option.pure_def, Option.some.injEq] at h
    subst h; simp at hb
  | cons a l ih =>
    simp only [List.mapM_cons, Option.pure_def, Option.bind_eq_bind, Option.bind_eq_some_iff, Option.some.injEq] at h
    obtain ⟨y, hy, ys, hys, rfl⟩ := h
    cases i with
    | zero =>
      simp only [List.getElem?_cons_zero, Option.some.injEq] at hb
      subst hb
      exact ⟨a, rfl, hy⟩
    | succ i =>
      simp only [List.getElem?_cons_succ] at hb ⊢
      exact ih hys i hb

theorem kept_new {atn : ATN} {ds : List DFA} (h : emptyDfas atn = some ds) (rs : List Report) : Kept atn ⟨ds, rs⟩ := by
  intro d dfa hd
  obtain ⟨a, ha, hf⟩ := mapM_get _ _ h d hd
  obtain ⟨s, hs, hn⟩ := Option.bind_eq_some_iff.1 hf
  have had : a = d := by
    rw [List.getElem?_eq_some_iff] at ha
    obtain ⟨hl, e⟩ := ha
    simpa using e.symm
  subst had
  obtain ⟨st, hst⟩ : ∃ st, atn.states[s]? = some st := by
    unfold DFA.new at hn
    obtain ⟨x, hx, -⟩ := Option.map_eq_some_iff.1 hn
    exact ⟨x, hx⟩
  obtain ⟨g1, g2⟩ := goodDfa_new (A := Upto st.transitions.length) hn
  exact ⟨st, by rw [g2]; exact hs, by rw [g2]; exact hst, g1⟩

/-- Transitions are numbered by machine words. -/
def WordSized (atn : ATN) : Prop := ∀ st ∈ atn.states, st.transitions.length < 2 ^ 64

section
variable {I : Type} [TokStream I]

/-- What `Sim.predict` calls. -/
theorem predict_some {M : Sim I} {m d : Nat} {p : P I} {σ σ' : SimState} {x : Except PErr Int} {i : I}
    (h : M.predict m d p σ = some (x, i, σ')) : ∃ outer dfa r, σ.dfas[d]? = some dfa ∧
      adaptivePredict (M.params p outer) m m dfa p.input = some r ∧ σ'.dfas = σ.dfas.set d r.dfa ∧
      i = r.inp ∧ ∀ k, x = .ok k → r.out = .alt k := by
  simp only [Sim.predict, Option.bind_eq_some_iff] at h
  obtain ⟨c, -, outer, -, dfa, hd, r, hr, h⟩ := h
  refine ⟨outer, dfa, r, hd, hr, ?_⟩
  split at h
  · rename_i k ho
    simp only [Option.some.injEq, Prod.mk.injEq] at h
    obtain ⟨rfl, rfl, rfl⟩ := h
    exact ⟨rfl, rfl, fun k' e => by cases e; exact ho⟩
  · simp only [Option.map_eq_some_iff, Prod.mk.injEq] at h
    obtain ⟨e, -, rfl, rfl, rfl⟩ := h
    exact ⟨rfl, rfl, fun k' e => by cases e⟩

theorem kept_predict {M : Sim I} (hw : WordSized M.atn) {m d : Nat} {p : P I} {σ σ' : SimState} {x : Except PErr Int}
    {i : I} (hk : Kept M.atn σ) (h : M.predict m d p σ = some (x, i, σ')) :
    Kept M.atn σ' ∧ ∀ k, x = .ok k → 1 ≤ k ∧ k ≤ widthOf M.atn d := by
  obtain ⟨outer, dfa, r, hd, hr, e1, -, e3⟩ := predict_some h
  obtain ⟨st, a1, a2, a3⟩ := hk d dfa hd
  obtain ⟨b1, b2, b3⟩ := adaptivePredict_good (P := M.params p outer) a2 (hw _ (List.mem_of_getElem? a2)) a3 hr
  refine ⟨?_, ?_⟩
  · intro d' dfa' hd'
    rw [e1, List.getElem?_set] at hd'
    split at hd'
    · rename_i hdd
      subst hdd
      split at hd'
      · simp only [Option.some.injEq] at hd'
        subst hd'
        exact ⟨st, by rw [b3]; exact a1, by rw [b3]; exact a2, b2⟩
      · simp at hd'
    · exact hk d' dfa' hd'
  · intro k hx
    have := b1 k (e3 k hx)
    simp only [widthOf, a1, a2]
    exact this

theorem used_kept {atn : ATN} (hw : WordSized atn) {σ : SimState} (h : Used (I := I) atn σ) : Kept atn σ := by
  induction h with
  | new h => exact kept_new h _
  | predict _ e h ih => subst e; exact (kept_predict hw ih h).1

/-- A parser with the simulator. -/
theorem steady_sim {C : Cfg I SimState} {M : Sim I} (hC : C.predict = M.predict) (hw : WordSized M.atn) :
    Steady C (Used (I := I) M.atn) (widthOf M.atn) where
  range m d p σ k i' σ' hu h := by
    rw [hC] at h
    exact (kept_predict hw (used_kept hw hu) h).2 k rfl
  keeps m d p σ x i' σ' hu h := by
    rw [hC] at h
    exact .predict hu rfl h

end

/-! ## The token stream -/

/-- The stream stands at token `n` of those on channel `c`, after any operations of a client. -/
def CtsHas (src : Source) (c : Int) (s : CTS) (n : Nat) : Prop := CtsAt src c s n ∧ ∃ h, Reach src c s h

theorem view_has (src : Source) (c : Int) (hfirst : Visible src c 0) :
    IsView (I := CTS) (seen src c) (CtsHas src c) := by
  have hv := view_cts src c hfirst
  refine ⟨fun s n h => hv.current s n h.1, ?_, ?_, ?_, ?_, hv.eof_stays⟩
  · rintro s n ⟨h, x, hr⟩
    obtain ⟨s', h1, h2⟩ := hv.lt_one s n h
    exact ⟨s', h1, h2, x, hr.lt h1⟩
  · rintro s n ⟨h, x, hr⟩
    obtain ⟨s', h1, h2⟩ := hv.lt_prev s n h
    exact ⟨s', h1, h2, x, hr.lt h1⟩
  · rintro s n k ⟨h, x, hr⟩ hk
    obtain ⟨s', h1, h2⟩ := hv.la s n k h hk
    exact ⟨s', h1, h2, x, hr.la h1⟩
  · rintro s n ⟨h, x, hr⟩ hk
    obtain ⟨s', h1, h2⟩ := hv.consume s n h hk
    exact ⟨s', h1, h2, _, hr.consume h1⟩

theorem has_start (src : Source) (c : Int) (hfirst : Visible src c 0) :
    CtsHas src c (CTS.withChannel src c) 0 := ⟨cts_start src c hfirst, _, .init⟩

/-- Prediction leaves the stream where it was. -/
theorem has_predict {src : Source} {c : Int} {M : Sim CTS} {m d : Nat} {p : P CTS} {σ σ' : SimState}
    {x : Except PErr Int} {i : CTS} {n : Nat} (hv : CtsHas src c p.input n)
    (h : M.predict m d p σ = some (x, i, σ')) : CtsHas src c i n := by
  obtain ⟨outer, dfa, r, -, hr, -, rfl, -⟩ := predict_some h
  obtain ⟨⟨⟨len, e, hok⟩, hn⟩, h', hre⟩ := hv
  obtain ⟨h1, h2, h3⟩ := C38_input_restored _ m m dfa src c p.input h' hre r hr
  refine ⟨⟨?_, hn⟩, h2, h3⟩
  obtain ⟨len', q, e', hok', -⟩ := reach_inv h3
  rw [e, e', cst_index, cst_index] at h1
  obtain rfl : q = visPos src c n := by omega
  exact ⟨len', e', hok'⟩

end Antlr.Gen
