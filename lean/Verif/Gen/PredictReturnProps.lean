import Verif.Gen.ReturnProps
import Verif.Gen.ReturnPredict
import Verif.Gen.PredictCheck
import Verif.Gen.Only
import Verif.Prediction.TotalCheck

/-!
# Generated parsers with predictions return: C77

The same as in `Gen/ReturnProps.lean` for parsers that call `adaptive_predict`.
-/

namespace Antlr.GenProps
open Antlr ParserSpec ParserProps GenSpec Gen ErrorSpec ErrorProps TokenSpec ParserView Prediction PredictionProps
  PredictionSpec LL1Spec LL1Props ParserLemmas CommonProps

/-- No DFA has more than `B` states. -/
def Small (B : Nat) (σ : SimState) : Bool := σ.dfas.all fun d => decide (d.states.length ≤ B)

/-- DFAs do not shrink. -/
theorem upto_heeds {C : Cfg CTS SimState} {M : Sim CTS} (hC : C.predict = M.predict) (B : Nat) :
    Heeds (C.upto B) C.predict (Small B) := by
  intro m d p σ x i' σ' h hf
  simp only [Cfg.upto] at h
  split at h
  case isFalse hn =>
    simp only [Option.some.injEq, Prod.mk.injEq] at h
    obtain ⟨-, -, rfl⟩ := h
    refine absurd ?_ hn
    cases hd : σ.dfas[d]? with
    | none => rfl
    | some dfa => exact List.all_eq_true.1 hf dfa (List.mem_of_getElem? hd)
  case isTrue hn =>
    refine ⟨h, ?_⟩
    rw [hC] at h
    simp only [Sim.predict, Option.bind_eq_some_iff] at h
    obtain ⟨c, -, outer, -, dfa, hd, r, hr, h⟩ := h
    have e : σ' = ⟨σ.dfas.set d r.dfa, σ.reports ++ r.reports⟩ := by
      split at h
      · simp only [Option.some.injEq, Prod.mk.injEq] at h
        exact h.2.2.symm
      · simp only [Option.map_eq_some_iff, Prod.mk.injEq] at h
        obtain ⟨e, -, -, -, e'⟩ := h
        exact e'.symm
    subst e
    simp only [Small, List.all_eq_true, decide_eq_true_eq] at hf ⊢
    intro d' hd'
    obtain ⟨j, hj⟩ := List.getElem?_of_mem hd'
    by_cases hjd : d = j
    · subst hjd
      rw [hd, Option.some.injEq] at hj
      subst hj
      rw [hd] at hn
      simpa using hn
    · exact hf d' (List.mem_of_getElem? (i := j) (by rw [List.getElem?_set_ne hjd]; exact hj))

theorem has_le {src : Source} {c : Int} {i : CTS} {n N : Nat} (h : CtsHas src c i n) (hN : visPos src c N = eofIdx src) :
    n ≤ N := by
  obtain ⟨⟨-, h0⟩, -⟩ := h
  by_contra hlt
  rcases h0 with h0 | h0
  · omega
  · have : ∀ j, visPos src c (N + j) = eofIdx src := by
      intro j
      induction j with
      | zero => exact hN
      | succ j ih =>
        rw [← Nat.add_assoc, visPos_succ, ih, if_neg (Nat.lt_irrefl _)]
    have := this (n - 1 - N)
    rw [show N + (n - 1 - N) = n - 1 by omega] at this
    omega

variable {src : Source} {c : Int} {C : Cfg CTS SimState} {M : Sim CTS} {B : Nat}

/-- Rule functions return if their predictions do. -/
theorem predicts_of (hfirst : Visible src c 0) (hC : C.predict = M.predict) (hA : C.env.atn = M.atn)
    (wf : WFAtn M.atn) (hl : RealLabels M.atn) (hnames : C.rules.length ≤ C.env.ruleNames.length)
    (htext : C.env.rangeText = fun i a b => i.base.getText a b)
    (hty : ∀ n, -1 ≤ (tok src n).ttype ∧ (tok src n).ttype < 2 ^ 63)
    {Inv : SimState → Prop} {pr : Nat → Int → Int → Prop} (hk : Keeps M src c B Inv pr)
    (hf : Fits M.atn (fun r ch => IsLook r ch ∨ IsPredict M.atn r ch) C.rules)
    {Ok : Int → Prop} (hok : ∀ n, Ok (seen src c n).ttype) {D : Nat} (hp : Prompt C.rules pr C.bail Ok D) :
    ∃ F, ∀ fuel, F ≤ fuel → ∀ (r : Nat) (q : Int) (s : GS CTS SimState) (n : Nat), r < C.rules.length →
      Idle C (CtsHas src c) s n → Inv s.sim →
      ∃ m0 x s', (∀ m, m0 ≤ m → runRule ((fueled C fuel).upto B) m r q s = some (x, s')) ∧
        (Small B s'.sim = true → ∀ m, m0 ≤ m → runRule (fueled C fuel) m r q s = some (x, s')) ∧
        ((∃ root n', x = .ok root ∧ (IsPlain C.rules r → Idle C (CtsHas src c) s' n') ∧ Inv s'.sim) ∨
          (C.bail = true ∧ ∃ e, x = .error (.fallThrough e))) := by
  obtain ⟨N, hN1, hN⟩ := eof_seen src c
  have hd : ∀ fuel K, World (fueled (C.upto B) fuel) (seen src c) (CtsHas src c) (fun n => (visPos src c n : Int)) N K →
      Gen.Decides (fueled (C.upto B) fuel) (seen src c) (CtsHas src c) (fun n => (visPos src c n : Int)) Inv N
        pr (fun r ch => IsLook r ch ∨ IsPredict M.atn r ch) := by
    intro fuel K W r ch hch
    rcases hch with hch | hch
    · exact look_decides W pr r ch hch
    · exact keeps_decides (C := fueled C fuel) (B := B) hC hA hty htext hk r ch hch
  obtain ⟨F, hF⟩ := returns_of (C := C.upto B) (indexed_has src c hfirst) (fun n => by omega) N hN
    (by show WFAtn C.env.atn; rw [hA]; exact wf) (by show RealLabels C.env.atn; rw [hA]; exact hl) hnames
    (fun i n hi _ => by
      have : (C.upto B).env.rangeText = fun i a b => i.base.getText a b := htext
      rw [this]; exact text_here hi.1) hd
    (by show Fits C.env.atn _ C.rules; rw [hA]; exact hf) hok hp
  refine ⟨F, fun fuel hfuel r q s n hr hs hst => ?_⟩
  obtain ⟨m0, x, s', g1, g2⟩ := hF fuel hfuel r q s n hr (has_le hs.view hN1)
    ⟨hs.view, hs.ctx, hs.state, hs.built, hs.nt⟩ hst
  refine ⟨m0, x, s', g1, fun hsm m hm => ?_, ?_⟩
  · exact ((via_all (C := (fueled C fuel).upto B) (f := C.predict) (upto_heeds (C := fueled C fuel) hC B) m).2.2.2.1 r q s x s'
      (g1 m hm) hsm).1
  · refine g2.imp ?_ id
    rintro ⟨root, n', rfl, -, h, h'⟩
    exact ⟨root, n', rfl, fun hpl => ⟨(h hpl).view, (h hpl).ctx, (h hpl).state, (h hpl).built, (h hpl).nt⟩, h'⟩

/-- **C77** Rule functions return, also if they call `adaptive_predict`.  For every token sequence, position, rule and state
that earlier parses can leave behind: the parser that gives up where a DFA has more than `B` states returns; and if at
the end no DFA has, the parser without that limit returns the same.  `B` may be as large as `usize` lets it. -/
theorem C77_predicts_partial (hfirst : Visible src c 0) (hC : C.predict = M.predict) (hA : C.env.atn = M.atn)
    (ha : Plain M.atn) (wf : WFAtn M.atn) (hl : RealLabels M.atn) {L : Nat} (hL : NoLoop M.atn L) (h1 : OneStop M.atn)
    (hu : Unmixed M.atn) (hmax : 0 ≤ M.atn.maxTokenType ∧ M.atn.maxTokenType < 2 ^ 63)
    (hnames : C.rules.length ≤ C.env.ruleNames.length)
    (htext : C.env.rangeText = fun i a b => i.base.getText a b)
    (hty : ∀ n, -1 ≤ (tok src n).ttype ∧ (tok src n).ttype < 2 ^ 63)
    (hf : Fits M.atn (fun r ch => IsLook r ch ∨ IsPredict M.atn r ch) C.rules)
    {Ok : Int → Prop} (hok : ∀ n, Ok (seen src c n).ttype) {D : Nat} (hp : Prompt C.rules (Begun M.atn) C.bail Ok D)
    (hB : B + (eofIdx src + 2) ≤ ERROR_DFA_STATE_REF) :
    ∃ F, ∀ fuel, F ≤ fuel → ∀ (r : Nat) (q : Int) (s : GS CTS SimState) (n : Nat), r < C.rules.length →
      Idle C (CtsHas src c) s n → Stocked M.atn s.sim →
      ∃ m0 x s', (∀ m, m0 ≤ m → runRule ((fueled C fuel).upto B) m r q s = some (x, s')) ∧
        (Small B s'.sim = true → ∀ m, m0 ≤ m → runRule (fueled C fuel) m r q s = some (x, s')) ∧
        ((∃ root n', x = .ok root ∧ (IsPlain C.rules r → Idle C (CtsHas src c) s' n') ∧ Stocked M.atn s'.sim) ∨
          (C.bail = true ∧ ∃ e, x = .error (.fallThrough e))) :=
  predicts_of hfirst hC hA wf hl hnames htext hty (plain_keeps ha hL h1 hu hmax hB) hf hok hp

/-- The same for a new parser. -/
theorem C77_predicts_new_partial (hfirst : Visible src c 0) (hC : C.predict = M.predict) (hA : C.env.atn = M.atn)
    (ha : Plain M.atn) (wf : WFAtn M.atn) (hl : RealLabels M.atn) {L : Nat} (hL : NoLoop M.atn L) (h1 : OneStop M.atn)
    (hu : Unmixed M.atn) (hmax : 0 ≤ M.atn.maxTokenType ∧ M.atn.maxTokenType < 2 ^ 63)
    (hnames : C.rules.length ≤ C.env.ruleNames.length)
    (htext : C.env.rangeText = fun i a b => i.base.getText a b)
    (hty : ∀ n, -1 ≤ (tok src n).ttype ∧ (tok src n).ttype < 2 ^ 63)
    (hf : Fits M.atn (fun r ch => IsLook r ch ∨ IsPredict M.atn r ch) C.rules)
    {Ok : Int → Prop} (hok : ∀ n, Ok (seen src c n).ttype) {D : Nat} (hp : Prompt C.rules (Begun M.atn) C.bail Ok D)
    (hB : B + (eofIdx src + 2) ≤ ERROR_DFA_STATE_REF) {ds : List DFA} (hds : emptyDfas M.atn = some ds) :
    ∃ F, ∀ fuel, F ≤ fuel → ∀ (r : Nat) (q : Int), r < C.rules.length →
      ∃ m0 x s', (∀ m, m0 ≤ m →
          runRule ((fueled C fuel).upto B) m r q ⟨⟨{}, P.new (CTS.withChannel src c)⟩, ⟨ds, []⟩⟩ = some (x, s')) ∧
        (Small B s'.sim = true → ∀ m, m0 ≤ m →
          runRule (fueled C fuel) m r q ⟨⟨{}, P.new (CTS.withChannel src c)⟩, ⟨ds, []⟩⟩ = some (x, s')) ∧
        ((∃ root n', x = .ok root ∧ (IsPlain C.rules r → Idle C (CtsHas src c) s' n') ∧ Stocked M.atn s'.sim) ∨
          (C.bail = true ∧ ∃ e, x = .error (.fallThrough e))) := by
  obtain ⟨F, hF⟩ := C77_predicts_partial hfirst hC hA ha wf hl hL h1 hu hmax hnames htext hty hf hok hp hB
  exact ⟨F, fun fuel hfuel r q hr => hF fuel hfuel r q _ 0 hr (idle_new C (has_start src c hfirst) _) (stocked_new hds [])⟩

/-! ## tests/gen/referencetoatnparser.rs -/

/-- The parser of `a : (ID|ATN)* ATN? {…} ;` with the text of token streams. -/
def refCfg (bail : Bool) : Cfg CTS SimState :=
  let C := RefAtn.cfg CTS bail 0
  { C with env := { C.env with rangeText := fun i a b => i.base.getText a b } }

def refFirsts : Firsts := GenSpec.firsts RefAtn.atn refTypes 14

theorem ref_fits : Fits RefAtn.atn (fun r ch => IsLook r ch ∨ IsPredict RefAtn.atn r ch) RefAtn.rules :=
  fits_of (fun _ _ => predict_of) (chB := predictB RefAtn.atn) (by decide +kernel)

theorem ref_prompt (bail : Bool) : Prompt RefAtn.rules (Begun RefAtn.atn) bail (· ∈ refTypes) 1 :=
  prompt_of (ans := answers RefAtn.atn refFirsts) (f := 20)
    (fun _ _ _ ht h => begun_answers (types := refTypes) (by decide +kernel) ht h) (by cases bail <;> decide +kernel)

theorem ref_noLoop : NoLoop RefAtn.atn 11 :=
  noLoop_of_ranked (ρ := [10, 0, 0, 1, 10, 8, 6, 9, 0, 4, 3, 2, 1, 0]) (by decide +kernel) (by decide) (by decide)

/-- This parser returns on every input, however wrong. -/
theorem C77_ref (bail : Bool) (src : Source) (c : Int) (hfirst : Visible src c 0)
    (hty : ∀ t ∈ src.pre, t.ttype ∈ refTypes ∧ t.ttype ≠ 0) (B : Nat) (hB : B + (eofIdx src + 2) ≤ ERROR_DFA_STATE_REF)
    {ds : List DFA} (hds : emptyDfas RefAtn.atn = some ds) :
    ∃ F, ∀ fuel, F ≤ fuel → ∀ q : Int, ∃ m0 x s',
      (∀ m, m0 ≤ m → runRule ((fueled (refCfg bail) fuel).upto B) m 0 q
        ⟨⟨{}, P.new (CTS.withChannel src c)⟩, ⟨ds, []⟩⟩ = some (x, s')) ∧
      (Small B s'.sim = true → ∀ m, m0 ≤ m → runRule (fueled (refCfg bail) fuel) m 0 q
        ⟨⟨{}, P.new (CTS.withChannel src c)⟩, ⟨ds, []⟩⟩ = some (x, s')) ∧
      ((∃ root n', x = .ok root ∧ Idle (refCfg bail) (CtsHas src c) s' n' ∧ Stocked RefAtn.atn s'.sim) ∨
        (bail = true ∧ ∃ e, x = .error (.fallThrough e))) := by
  have hlo : ∀ n, -1 ≤ (tok src n).ttype ∧ (tok src n).ttype < 2 ^ 63 := by
    intro n
    have e : (tok src n).ttype = (src.next n).ttype := rfl
    rw [e]
    unfold Source.next
    cases hp : src.pre[n]? with
    | none => simp only [Option.getD_none, Source.eof_eq]; decide
    | some t =>
      have := (hty t (List.mem_of_getElem? hp)).1
      simp only [refTypes, List.mem_cons, List.not_mem_nil, or_false, TOKEN_EOF] at this
      simp only [Option.getD_some]
      omega
  obtain ⟨F, hF⟩ := C77_predicts_new_partial (C := refCfg bail) (M := RefAtn.sim CTS) hfirst rfl rfl ref_plain
    (wf_of ref_plain (by decide +kernel)) (real_of (by decide +kernel)) ref_noLoop (oneStop_of (by decide +kernel))
    (unmixed_of (by decide +kernel)) (by decide +kernel) (by cases bail <;> decide) rfl hlo ref_fits
    (fun n => (ref_seen hty c n).1) (ref_prompt bail) hB hds
  refine ⟨F, fun fuel hfuel q => ?_⟩
  obtain ⟨m0, x, s', h1, h2, h3⟩ := hF fuel hfuel 0 q (by cases bail <;> decide)
  exact ⟨m0, x, s', h1, h2, h3.imp (fun ⟨root, n, h, h', h''⟩ =>
    ⟨root, n, h, h' (plain_of (rules := RefAtn.rules) (by decide) (by decide)), h''⟩) id⟩

/-- `ID WS ATN ATN ID` with the white space on the channel of the parser. -/
example : ∃ F, ∀ fuel, F ≤ fuel → ∃ m0 root s', ∀ m, m0 ≤ m →
    runRule ((fueled (refCfg false) fuel).upto (2 ^ 60)) m 0 0 (refStart [1, 3, 2, 2, 1]) = some (.ok root, s') := by
  obtain ⟨ds, hd⟩ := ref_dfas
  obtain ⟨F, hF⟩ := C77_ref false (exSource [1, 3, 2, 2, 1]) 0 (by decide) (ex_types (by decide)) (2 ^ 60) (by decide) hd
  refine ⟨F, fun fuel hf => ?_⟩
  obtain ⟨m0, x, s', h1, -, h2⟩ := hF fuel hf 0
  rcases h2 with ⟨root, n, rfl, -⟩ | ⟨h, -⟩
  · exact ⟨m0, root, s', by simpa only [refStart, hd, Option.getD_some] using h1⟩
  · cases h

end Antlr.GenProps
