import Verif.Gen.ReturnSteps
import Verif.Gen.Choose
import Verif.Gen.PredictSpec
import Verif.Prediction.TotalProps
import Verif.Prediction.Offend
import Verif.ErrorStrategy.Props

/-! # Choices by `adaptive_predict` are made -/

namespace Antlr.Gen
open Antlr ParserSpec ErrorSpec ErrorProps GenSpec LL1Spec PredictionSpec StackProps Prediction
  ParserView TokenSpec CommonProps PredictionProps

/-! ## The stream -/

theorem indexed_has (src : Source) (c : Int) (hfirst : Visible src c 0) :
    IsIndexed (I := CTS) (seen src c) (CtsHas src c) (fun n => (visPos src c n : Int)) where
  toIsView := view_has src c hfirst
  index s n h := (indexed_cts src c hfirst).index s n h.1
  tokIndex := (indexed_cts src c hfirst).tokIndex
  mono := (indexed_cts src c hfirst).mono
  back s n h := (indexed_cts src c hfirst).back s n h.1

/-! ## The memory -/

/-- There is a DFA for each decision, and it is what predictions made of a new one. -/
structure Stocked (atn : ATN) (σ : SimState) : Prop where
  all : σ.dfas.length = atn.decisionToState.length
  learned : Learned atn σ

theorem learned_new {atn : ATN} {ds : List DFA} (h : emptyDfas atn = some ds) (rs : List Report) : Learned atn ⟨ds, rs⟩ := by
  intro d dfa hd
  obtain ⟨a, ha, hf⟩ := mapM_get _ _ h d hd
  obtain ⟨s, hs, hn⟩ := Option.bind_eq_some_iff.1 hf
  have had : a = d := by
    rw [List.getElem?_eq_some_iff] at ha
    obtain ⟨hl, e⟩ := ha
    simpa using e.symm
  subst had
  obtain ⟨st, hst⟩ : ∃ st, atn.states[s]? = some st := by
    unfold DFA.new at hn
    obtain ⟨x, hx, -⟩ := Option.map_eq_some_iff.1 hn
    exact ⟨x, hx⟩
  exact ⟨s, st, hs, hst, dfa, a, hn, .refl⟩

theorem stocked_new {atn : ATN} {ds : List DFA} (h : emptyDfas atn = some ds) (rs : List Report) : Stocked atn ⟨ds, rs⟩ := by
  refine ⟨?_, learned_new h rs⟩
  have : ∀ (l : List Nat) (f : Nat → Option DFA) (r : List DFA), l.mapM f = some r → r.length = l.length := by
    intro l f
    induction l with
    | nil => intro r hr; simp only [List.mapM_nil, Option.pure_def, Option.some.injEq] at hr; subst hr; rfl
    | cons a l ih =>
      intro r hr
      simp only [List.mapM_cons, Option.pure_def, Option.bind_eq_bind, Option.bind_eq_some_iff, Option.some.injEq] at hr
      obtain ⟨y, -, ys, hys, rfl⟩ := hr
      simp [ih ys hys]
  have := this _ _ _ h
  simpa using this

variable {C : Cfg CTS SimState} {M : Sim CTS} {src : Source} {c : Int} {N B : Nat}

/-- The memory `Inv` is kept by predictions, which come to an end and answer as `pr` says. -/
structure Keeps (M : Sim CTS) (src : Source) (c : Int) (B : Nat) (Inv : SimState → Prop) (pr : Nat → Int → Int → Prop) : Prop where
  all : ∀ σ, Inv σ → σ.dfas.length = M.atn.decisionToState.length
  step : ∀ (σ : SimState) (d a : Nat) (dec : ATNState) (dfa : DFA) (p : P CTS) (outer : List Int) (τ : List Nat),
    Inv σ → M.atn.decisionToState[d]? = some a → Decision M.atn a dec → σ.dfas[d]? = some dfa →
    Asked src c dec (M.params p outer) p.input τ → dfa.states.length ≤ B →
    ∃ cf res, (∀ cf' n, cf ≤ cf' → 2 * eofIdx src + 2 ≤ n → adaptivePredict (M.params p outer) cf' n dfa p.input = some res) ∧
      Inv ⟨σ.dfas.set d res.dfa, σ.reports ++ res.reports⟩ ∧ ∀ k, res.out = .alt k → pr d (typesAhead src c p.input 0) k

theorem keeps_decides {Inv : SimState → Prop} {pr : Nat → Int → Int → Prop} (hC : C.predict = M.predict)
    (hA : C.env.atn = M.atn)
    (hty : ∀ n, -1 ≤ (tok src n).ttype ∧ (tok src n).ttype < 2 ^ 63)
    (htext : C.env.rangeText = fun i a b => i.base.getText a b) (hk : Keeps M src c B Inv pr) :
    Decides (C.upto B) (seen src c) (CtsHas src c) (fun n => (visPos src c n : Int)) Inv N pr (IsPredict M.atn) := by
  rintro r ch ⟨d, a, dec, rfl, hda, hd, hr⟩ s n cs ⟨c0, l, rfl⟩ h
  obtain ⟨outer, hchain⟩ := h.chain
  have hctx : s.es.p.ctx = some c0 := h.ctx
  obtain ⟨x, hx, hxr⟩ := h.rules (c0, r) (by simp)
  dsimp only at hx hxr
  obtain ⟨τ, hcalls, hpr⟩ := SoundAt.proper hchain h.sound (by simp)
  have hproper : Proper M.atn dec.ruleIndex τ := by
    have := hpr c0 x rfl hx
    rw [hxr, ← hr] at this
    rw [← hA]; exact this
  have hcalls' : Calls M.atn outer (ints τ) := by rw [← hA]; exact hcalls
  have hfrom : P.chainFrom s.es.p.heap s.es.p.heap.length (some c0) = some outer :=
    hchain.from fun q hq => hchain.lt q (List.mem_of_mem_head? hq)
  have hl : d < s.sim.dfas.length := by
    rw [hk.all _ h.inv]
    exact (List.getElem?_eq_some_iff.1 hda).1
  obtain ⟨dfa, hdfa⟩ : ∃ dfa, s.sim.dfas[d]? = some dfa := ⟨_, List.getElem?_eq_getElem hl⟩
  by_cases hcap : dfa.states.length ≤ B
  case neg =>
    refine .now (x := .error (.other [])) (s' := s) (fun m => ?_) (.inr ⟨n, h, Nat.le_refl _, trivial⟩)
    simp only [choose, Cfg.upto, hdfa, Option.all_some, hcap, decide_false, Bool.false_eq_true, if_false, Option.map_some]
  have hq : Asked src c dec (M.params s.es.p outer) s.es.p.input τ :=
    ⟨h.view.2, hty, hcalls', hproper⟩
  obtain ⟨cf, res, hres, hstock, hans⟩ := hk.step s.sim d a dec dfa s.es.p outer τ h.inv hda hd hdfa hq hcap
  have hrun := hres cf (2 * eofIdx src + 2) (Nat.le_refl _) (Nat.le_refl _)
  obtain ⟨hh, hreach⟩ := h.view.2
  obtain ⟨g1, g2⟩ := C38_input_restored _ _ _ dfa src c s.es.p.input hh hreach res hrun
  have hview : CtsHas src c res.inp n := by
    obtain ⟨⟨⟨len, e, hok⟩, hn⟩, -⟩ := h.view
    obtain ⟨h2, h3⟩ := g2
    refine ⟨⟨?_, hn⟩, h2, h3⟩
    obtain ⟨len', q, e', hok', -⟩ := reach_inv h3
    rw [e, e', cst_index, cst_index] at g1
    obtain rfl : q = visPos src c n := by omega
    exact ⟨len', e', hok'⟩
  have hsane : Sane (C.upto B) (CtsHas src c) Inv N
      (⟨⟨s.es.eh, { s.es.p with input := res.inp }⟩, ⟨s.sim.dfas.set d res.dfa, s.sim.reports ++ res.reports⟩⟩ : GS CTS SimState)
      n ((c0, r) :: l) :=
    ⟨hview, h.le, h.ctx, h.chain, h.rules, h.sound, h.state, h.built, h.nt, hstock⟩
  have hhalt : ∀ (x : Except PErr Int), (∀ m, max cf (2 * eofIdx src + 2) ≤ m → M.predict m d s.es.p s.sim =
        some (x, res.inp, ⟨s.sim.dfas.set d res.dfa, s.sim.reports ++ res.reports⟩)) →
      ∀ m, max cf (2 * eofIdx src + 2) ≤ m → choose (C.upto B) m (.predict d) s = some (x,
        ⟨⟨s.es.eh, { s.es.p with input := res.inp }⟩, ⟨s.sim.dfas.set d res.dfa, s.sim.reports ++ res.reports⟩⟩) := by
    intro x hx m hm
    simp only [choose, Cfg.upto, hdfa, Option.all_some, hcap, decide_true, if_true, hC, hx m hm, Option.map_some]
  cases ho : res.out with
  | alt k =>
    refine ⟨_, .ok k, _, hhalt (.ok k) fun m hm => ?_, n, hsane, Nat.le_refl _, ?_⟩
    · simp only [Sim.predict, hctx, Option.bind_some, hfrom, hdfa, hres m m (by omega) (by omega), ho]
    · have := hans k ho
      rw [types_seen h.view, Nat.add_zero] at this
      exact this
  | noAlt st o =>
    obtain ⟨k1, k2, k3, k4⟩ := C38_offending _ _ _ dfa src c s.es.p.input hh hreach res hrun st o ho
    have hmem : c0 < s.es.p.heap.length := (List.getElem?_eq_some_iff.1 hx).1
    obtain ⟨stack, k, s1, -, -⟩ := statesStack_total (h.sound c0 (by simp))
    refine ⟨_, .error (.noAlt { message := [], token := o.toOwned, state := s.es.p.state, stack := stack } st.toOwned), _,
      hhalt _ fun m hm => ?_, .inr ⟨n, hsane, Nat.le_refl _, .inr ?_, o, k3⟩⟩
    · simp only [Sim.predict, hctx, Option.bind_some, hfrom, hdfa, hres m m (by omega) (by omega), ho, noAltNew, s1,
        Option.map_some]
    · show ∃ x, (C.upto B).env.rangeText res.inp st.toOwned.index o.toOwned.index = some x
      have : (C.upto B).env.rangeText = fun i a b => i.base.getText a b := htext
      rw [this]
      exact k4

theorem plain_keeps (ha : Plain M.atn) {L : Nat} (hL : NoLoop M.atn L) (h1 : OneStop M.atn) (hu : Unmixed M.atn)
    (hmax : 0 ≤ M.atn.maxTokenType ∧ M.atn.maxTokenType < 2 ^ 63)
    (hB : B + (eofIdx src + 2) ≤ ERROR_DFA_STATE_REF) : Keeps M src c B (Stocked M.atn) (Begun M.atn) := by
  refine ⟨fun σ h => h.all, fun σ d a dec dfa p outer τ hi hda hd hdfa hq hcap => ?_⟩
  obtain ⟨a', dec', b1, b2, b3⟩ := hi.learned d dfa hdfa
  rw [hda, Option.some.injEq] at b1
  subst b1
  rw [hd.state, Option.some.injEq] at b2
  subst b2
  have hdec : Prediction.Decides M.atn a dec := ⟨hd.state, hd.inner, hd.silent, hd.few⟩
  obtain ⟨cf, res, hres, hsz⟩ := C70_returns ha hL h1 hu hmax hdec b3 rfl hq (by omega)
  have hsz' : res.dfa.states.length ≤ ERROR_DFA_STATE_REF := by omega
  have hrun := hres cf (2 * eofIdx src + 2) (Nat.le_refl _) (Nat.le_refl _)
  refine ⟨cf, res, hres, ⟨by rw [List.length_set]; exact hi.all, ?_⟩, fun k ho =>
    ⟨a, dec, hda, hd.state, C40_begins ha hdec b3 rfl hq hrun hsz' ho⟩⟩
  intro d' dfa' hd'
  rw [List.getElem?_set] at hd'
  by_cases hdd : d = d'
  · subst hdd
    rw [if_pos rfl] at hd'
    rw [if_pos (List.getElem?_eq_some_iff.1 hdfa).1] at hd'
    rw [Option.some.injEq] at hd'
    subst hd'
    obtain ⟨d0, n0, c1, c2⟩ := b3
    exact ⟨a, dec, hda, hd.state, d0, n0, c1, .step c2 rfl hq hrun hsz'⟩
  · rw [if_neg hdd] at hd'
    exact hi.learned d' dfa' hd'

end Antlr.Gen
