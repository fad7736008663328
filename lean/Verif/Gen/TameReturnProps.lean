import Verif.Gen.PredictReturnProps
import Verif.Gen.ReturnTame
import Verif.Gen.Parsers

/-!
# Generated parsers with predicates and left-recursive rules return: C77

The same as in `Gen/PredictReturnProps.lean`, with less known about what predictions answer.
-/

namespace Antlr.GenProps
open Antlr ParserSpec ParserProps GenSpec Gen ErrorSpec ErrorProps TokenSpec ParserView Prediction PredictionProps
  PredictionSpec LL1Spec LL1Props ParserLemmas CommonProps

variable {src : Source} {c : Int} {C : Cfg CTS SimState} {M : Sim CTS} {B : Nat}

/-- **C77** Rule functions return, also if the grammar has predicates, and with the bail strategy also if it has
left-recursive rules (see `C77_false_leftrec` for the other strategy).  Predictions may answer any alternative of their
decision.  `B` as in `C77_predicts_partial`. -/
theorem C77_tame_partial (hfirst : Visible src c 0) (hC : C.predict = M.predict) (hA : C.env.atn = M.atn)
    (ha : Tame M.atn) (wf : WFAtn M.atn) (hl : RealLabels M.atn) {L : Nat} (hL : NoLoop M.atn L) (h1 : OneStop M.atn)
    (hmax : 0 ≤ M.atn.maxTokenType ∧ M.atn.maxTokenType < 2 ^ 63) (hord : ∀ l, (M.ord l).Perm l)
    (hnames : C.rules.length ≤ C.env.ruleNames.length)
    (htext : C.env.rangeText = fun i a b => i.base.getText a b)
    (hty : ∀ n, -1 ≤ (tok src n).ttype ∧ (tok src n).ttype < 2 ^ 63)
    (hf : Fits M.atn (fun r ch => IsLook r ch ∨ IsPredict M.atn r ch) C.rules)
    {Ok : Int → Prop} (hok : ∀ n, Ok (seen src c n).ttype) {D : Nat} (hp : Prompt C.rules (Ranged M.atn) C.bail Ok D)
    (hB : B + (eofIdx src + 2) ≤ ERROR_DFA_STATE_REF) :
    ∃ F, ∀ fuel, F ≤ fuel → ∀ (r : Nat) (q : Int) (s : GS CTS SimState) (n : Nat), r < C.rules.length →
      Idle C (CtsHas src c) s n → Versed M.atn s.sim →
      ∃ m0 x s', (∀ m, m0 ≤ m → runRule ((fueled C fuel).upto B) m r q s = some (x, s')) ∧
        (Small B s'.sim = true → ∀ m, m0 ≤ m → runRule (fueled C fuel) m r q s = some (x, s')) ∧
        ((∃ root n', x = .ok root ∧ (IsPlain C.rules r → Idle C (CtsHas src c) s' n') ∧ Versed M.atn s'.sim) ∨
          (C.bail = true ∧ ∃ e, x = .error (.fallThrough e))) :=
  predicts_of hfirst hC hA wf hl hnames htext hty (tame_keeps ha hL h1 hmax hord hB) hf hok hp

/-- The same for a new parser. -/
theorem C77_tame_new_partial (hfirst : Visible src c 0) (hC : C.predict = M.predict) (hA : C.env.atn = M.atn)
    (ha : Tame M.atn) (wf : WFAtn M.atn) (hl : RealLabels M.atn) {L : Nat} (hL : NoLoop M.atn L) (h1 : OneStop M.atn)
    (hmax : 0 ≤ M.atn.maxTokenType ∧ M.atn.maxTokenType < 2 ^ 63) (hord : ∀ l, (M.ord l).Perm l)
    (hnames : C.rules.length ≤ C.env.ruleNames.length)
    (htext : C.env.rangeText = fun i a b => i.base.getText a b)
    (hty : ∀ n, -1 ≤ (tok src n).ttype ∧ (tok src n).ttype < 2 ^ 63)
    (hf : Fits M.atn (fun r ch => IsLook r ch ∨ IsPredict M.atn r ch) C.rules)
    {Ok : Int → Prop} (hok : ∀ n, Ok (seen src c n).ttype) {D : Nat} (hp : Prompt C.rules (Ranged M.atn) C.bail Ok D)
    (hB : B + (eofIdx src + 2) ≤ ERROR_DFA_STATE_REF) (hdl : M.atn.decisionToState.length ≤ 2 ^ 63)
    {ds : List DFA} (hds : emptyDfas M.atn = some ds) :
    ∃ F, ∀ fuel, F ≤ fuel → ∀ (r : Nat) (q : Int), r < C.rules.length →
      ∃ m0 x s', (∀ m, m0 ≤ m →
          runRule ((fueled C fuel).upto B) m r q ⟨⟨{}, P.new (CTS.withChannel src c)⟩, ⟨ds, []⟩⟩ = some (x, s')) ∧
        (Small B s'.sim = true → ∀ m, m0 ≤ m →
          runRule (fueled C fuel) m r q ⟨⟨{}, P.new (CTS.withChannel src c)⟩, ⟨ds, []⟩⟩ = some (x, s')) ∧
        ((∃ root n', x = .ok root ∧ (IsPlain C.rules r → Idle C (CtsHas src c) s' n') ∧ Versed M.atn s'.sim) ∨
          (C.bail = true ∧ ∃ e, x = .error (.fallThrough e))) := by
  obtain ⟨F, hF⟩ := C77_tame_partial hfirst hC hA ha wf hl hL h1 hmax hord hnames htext hty hf hok hp hB
  exact ⟨F, fun fuel hfuel r q hr => hF fuel hfuel r q _ 0 hr (idle_new C (has_start src c hfirst) _) (versed_new hds [] hdl)⟩

/-! ## tests/gen/visitorcalcparser.rs -/

/-- The parser with the bail strategy and the text of token streams. -/
def calcCfg : Cfg CTS SimState :=
  let C := Calc.cfg CTS true
  { C with env := { C.env with rangeText := fun i a b => i.base.getText a b } }

/-- The token types of the grammar, and EOF. -/
def calcTypes : List Int := [-1, 1, 2, 3, 4, 5, 6]

theorem calc_fits : Fits Calc.atn (fun r ch => IsLook r ch ∨ IsPredict Calc.atn r ch) Calc.rules :=
  fits_of (fun _ _ => predict_of) (chB := predictB Calc.atn) (by decide +kernel)

theorem calc_prompt : Prompt Calc.rules (Ranged Calc.atn) true (· ∈ calcTypes) 1 :=
  prompt_of (ans := rangeOf Calc.atn) (f := 20) (fun _ _ _ _ h => ranged_answers h) (by decide +kernel)

theorem seen_types {src : Source} {types : List Int} (he : TOKEN_EOF ∈ types) (h : ∀ t ∈ src.pre, t.ttype ∈ types) (c : Int) (n : Nat) :
    (seen src c n).ttype ∈ types := by
  have h1 : (seen src c n).ttype = (src.next (visPos src c n)).ttype := rfl
  rw [h1]
  unfold Source.next
  cases hp : src.pre[visPos src c n]? with
  | none => simpa only [Option.getD_none, src.eof_eq] using he
  | some t => exact h t (List.mem_of_getElem? hp)

theorem tok_types {src : Source} {types : List Int} (he : TOKEN_EOF ∈ types) (hb : ∀ t ∈ types, -1 ≤ t ∧ t < 2 ^ 63)
    (h : ∀ t ∈ src.pre, t.ttype ∈ types) (n : Nat) : -1 ≤ (tok src n).ttype ∧ (tok src n).ttype < 2 ^ 63 := by
  have e : (tok src n).ttype = (src.next n).ttype := rfl
  rw [e]
  refine hb _ ?_
  unfold Source.next
  cases hp : src.pre[n]? with
  | none => simpa only [Option.getD_none, src.eof_eq] using he
  | some t => exact h t (List.mem_of_getElem? hp)

/-- With the bail strategy the calculator's parser returns on every input, however wrong; `s` and `expr` alike, with any
precedence. -/
theorem C77_calc (src : Source) (c : Int) (hfirst : Visible src c 0) (hty : ∀ t ∈ src.pre, t.ttype ∈ calcTypes)
    (B : Nat) (hB : B + (eofIdx src + 2) ≤ ERROR_DFA_STATE_REF) {ds : List DFA} (hds : emptyDfas Calc.atn = some ds) :
    ∃ F, ∀ fuel, F ≤ fuel → ∀ (r : Nat) (q : Int), r < 2 → ∃ m0 x s',
      (∀ m, m0 ≤ m → runRule ((fueled calcCfg fuel).upto B) m r q
        ⟨⟨{}, P.new (CTS.withChannel src c)⟩, ⟨ds, []⟩⟩ = some (x, s')) ∧
      (Small B s'.sim = true → ∀ m, m0 ≤ m → runRule (fueled calcCfg fuel) m r q
        ⟨⟨{}, P.new (CTS.withChannel src c)⟩, ⟨ds, []⟩⟩ = some (x, s')) ∧
      ((∃ root, x = .ok root) ∨ ∃ e, x = .error (.fallThrough e)) := by
  obtain ⟨F, hF⟩ := C77_tame_new_partial (C := calcCfg) (M := Calc.sim CTS) hfirst rfl rfl calc_tame
    (wf_of_check _ (by decide +kernel)) (real_of (by decide +kernel)) calc_noLoop calc_oneStop (by decide +kernel)
    (fun l => .refl l) (by decide) rfl (tok_types (types := calcTypes) (by decide) (by decide) hty) calc_fits
    (seen_types (by decide) hty c) calc_prompt hB (by decide +kernel) hds
  refine ⟨F, fun fuel hfuel r q hr => ?_⟩
  obtain ⟨m0, x, s', h1, h2, h3⟩ := hF fuel hfuel r q hr
  exact ⟨m0, x, s', h1, h2, h3.imp (fun ⟨root, _, h, _⟩ => ⟨root, h⟩) (fun ⟨_, e, h⟩ => ⟨e, h⟩)⟩

theorem calc_dfas : ∃ ds, emptyDfas Calc.atn = some ds := Option.isSome_iff_exists.1 (by decide +kernel)

/-- `1 + * 2` is wrong at `*`. -/
example : ∃ F, ∀ fuel, F ≤ fuel → ∃ m0 x s', (∀ m, m0 ≤ m →
    runRule ((fueled calcCfg fuel).upto (2 ^ 60)) m 0 0 (Calc.start [1, 4, 2, 1]) = some (x, s')) ∧
      ((∃ root, x = .ok root) ∨ ∃ e, x = .error (.fallThrough e)) := by
  obtain ⟨ds, hd⟩ := calc_dfas
  obtain ⟨F, hF⟩ := C77_calc (exSource [1, 4, 2, 1]) 0 (by decide) (by decide) (2 ^ 60) (by decide) hd
  refine ⟨F, fun fuel hf => ?_⟩
  obtain ⟨m0, x, s', h1, -, h2⟩ := hF fuel hf 0 0 (by decide)
  exact ⟨m0, x, s', by simpa only [Calc.start, hd, Option.getD_some] using h1, h2⟩

/-! ## tests/gen/labelsparser.rs -/

/-- The token types of the grammar, and EOF. -/
def labelsTypes : List Int := [-1, 1, 2, 3, 4, 5, 6, 7, 8, 9]

theorem labels_tame : Tame Labels.atn := tame_of (by decide +kernel)

theorem labels_noLoop : NoLoop Labels.atn 13 :=
  noLoop_of_ranked (ρ := [7, 0, 3, 0, 6, 1, 1, 0, 5, 0, 5, 0, 6, 5, 0, 5, 2, 4, 1, 0, 12, 7, 6, 1, 0, 12, 7, 6, 1, 0, 6, 1, 0, 6, 2, 5, 3, 1, 4, 0]) (by decide +kernel) (by decide) (by decide)

theorem labels_fits : Fits Labels.atn (fun r ch => IsLook r ch ∨ IsPredict Labels.atn r ch) Labels.rules :=
  fits_of (fun _ _ => predict_of) (chB := predictB Labels.atn) (by decide +kernel)

theorem labels_prompt : Prompt Labels.rules (Ranged Labels.atn) true (· ∈ labelsTypes) 1 :=
  prompt_of (ans := rangeOf Labels.atn) (f := 20) (fun _ _ _ _ h => ranged_answers h) (by decide +kernel)

/-- With the bail strategy this parser returns on every input. -/
theorem C77_labels (src : Source) (c : Int) (hfirst : Visible src c 0) (hty : ∀ t ∈ src.pre, t.ttype ∈ labelsTypes)
    (B : Nat) (hB : B + (eofIdx src + 2) ≤ ERROR_DFA_STATE_REF) {ds : List DFA} (hds : emptyDfas Labels.atn = some ds) :
    ∃ F, ∀ fuel, F ≤ fuel → ∀ (r : Nat) (q : Int), r < 2 → ∃ m0 x s',
      (∀ m, m0 ≤ m → runRule ((fueled (Labels.cfg true) fuel).upto B) m r q
        ⟨⟨{}, P.new (CTS.withChannel src c)⟩, ⟨ds, []⟩⟩ = some (x, s')) ∧
      (Small B s'.sim = true → ∀ m, m0 ≤ m → runRule (fueled (Labels.cfg true) fuel) m r q
        ⟨⟨{}, P.new (CTS.withChannel src c)⟩, ⟨ds, []⟩⟩ = some (x, s')) ∧
      ((∃ root, x = .ok root) ∨ ∃ e, x = .error (.fallThrough e)) := by
  obtain ⟨F, hF⟩ := C77_tame_new_partial (C := Labels.cfg true) (M := Labels.sim CTS) hfirst rfl rfl labels_tame
    (wf_of_check _ (by decide +kernel)) (real_of (by decide +kernel)) labels_noLoop (oneStop_of (by decide +kernel)) (by decide +kernel)
    (fun l => .refl l) (by decide) rfl (tok_types (types := labelsTypes) (by decide) (by decide) hty) labels_fits
    (seen_types (by decide) hty c) labels_prompt hB (by decide +kernel) hds
  refine ⟨F, fun fuel hfuel r q hr => ?_⟩
  obtain ⟨m0, x, s', h1, h2, h3⟩ := hF fuel hfuel r q hr
  exact ⟨m0, x, s', h1, h2, h3.imp (fun ⟨root, _, h, _⟩ => ⟨root, h⟩) (fun ⟨_, e, h⟩ => ⟨e, h⟩)⟩

theorem labels_dfas : ∃ ds, emptyDfas Labels.atn = some ds := Option.isSome_iff_exists.1 (by decide +kernel)

/-- `( 1 * x ++ ) )`: the last parenthesis is left over. -/
example : ∃ F, ∀ fuel, F ≤ fuel → ∃ m0 x s', (∀ m, m0 ≤ m →
    runRule ((fueled (Labels.cfg true) fuel).upto (2 ^ 60)) m 0 0 (Labels.start [3, 8, 1, 7, 5, 4, 4]) = some (x, s')) ∧
      ((∃ root, x = .ok root) ∨ ∃ e, x = .error (.fallThrough e)) := by
  obtain ⟨ds, hd⟩ := labels_dfas
  obtain ⟨F, hF⟩ := C77_labels (exSource [3, 8, 1, 7, 5, 4, 4]) 0 (by decide) (by decide) (2 ^ 60) (by decide) hd
  refine ⟨F, fun fuel hf => ?_⟩
  obtain ⟨m0, x, s', h1, -, h2⟩ := hF fuel hf 0 0 (by decide)
  exact ⟨m0, x, s', by simpa only [Labels.start, hd, Option.getD_some] using h1, h2⟩

/-! ## tests/gen/simplelrparser.rs -/

/-- The token types of the grammar, and EOF. -/
def slrTypes : List Int := [-1, 1, 2]

theorem slr_tame : Tame SimpleLR.atn := tame_of (by decide +kernel)

theorem slr_noLoop : NoLoop SimpleLR.atn 7 :=
  noLoop_of_ranked (ρ := [6, 0, 2, 0, 5, 1, 1, 0, 4, 1, 0, 2, 5, 3, 1, 4, 0]) (by decide +kernel) (by decide) (by decide)

theorem slr_fits : Fits SimpleLR.atn (fun r ch => IsLook r ch ∨ IsPredict SimpleLR.atn r ch) SimpleLR.rules :=
  fits_of (fun _ _ => predict_of) (chB := predictB SimpleLR.atn) (by decide +kernel)

theorem slr_prompt : Prompt SimpleLR.rules (Ranged SimpleLR.atn) true (· ∈ slrTypes) 1 :=
  prompt_of (ans := rangeOf SimpleLR.atn) (f := 20) (fun _ _ _ _ h => ranged_answers h) (by decide +kernel)

/-- With the bail strategy this parser returns on every input. -/
theorem C77_slr (src : Source) (c : Int) (hfirst : Visible src c 0) (hty : ∀ t ∈ src.pre, t.ttype ∈ slrTypes)
    (B : Nat) (hB : B + (eofIdx src + 2) ≤ ERROR_DFA_STATE_REF) {ds : List DFA} (hds : emptyDfas SimpleLR.atn = some ds) :
    ∃ F, ∀ fuel, F ≤ fuel → ∀ (r : Nat) (q : Int), r < 2 → ∃ m0 x s',
      (∀ m, m0 ≤ m → runRule ((fueled (SimpleLR.cfg true) fuel).upto B) m r q
        ⟨⟨{}, P.new (CTS.withChannel src c)⟩, ⟨ds, []⟩⟩ = some (x, s')) ∧
      (Small B s'.sim = true → ∀ m, m0 ≤ m → runRule (fueled (SimpleLR.cfg true) fuel) m r q
        ⟨⟨{}, P.new (CTS.withChannel src c)⟩, ⟨ds, []⟩⟩ = some (x, s')) ∧
      ((∃ root, x = .ok root) ∨ ∃ e, x = .error (.fallThrough e)) := by
  obtain ⟨F, hF⟩ := C77_tame_new_partial (C := SimpleLR.cfg true) (M := SimpleLR.sim CTS) hfirst rfl rfl slr_tame
    (wf_of_check _ (by decide +kernel)) (real_of (by decide +kernel)) slr_noLoop (oneStop_of (by decide +kernel)) (by decide +kernel)
    (fun l => .refl l) (by decide) rfl (tok_types (types := slrTypes) (by decide) (by decide) hty) slr_fits
    (seen_types (by decide) hty c) slr_prompt hB (by decide +kernel) hds
  refine ⟨F, fun fuel hfuel r q hr => ?_⟩
  obtain ⟨m0, x, s', h1, h2, h3⟩ := hF fuel hfuel r q hr
  exact ⟨m0, x, s', h1, h2, h3.imp (fun ⟨root, _, h, _⟩ => ⟨root, h⟩) (fun ⟨_, e, h⟩ => ⟨e, h⟩)⟩

theorem slr_dfas : ∃ ds, emptyDfas SimpleLR.atn = some ds := Option.isSome_iff_exists.1 (by decide +kernel)

/-- `x y`, white space, `z`. -/
example : ∃ F, ∀ fuel, F ≤ fuel → ∃ m0 x s', (∀ m, m0 ≤ m →
    runRule ((fueled (SimpleLR.cfg true) fuel).upto (2 ^ 60)) m 0 0 (SimpleLR.start [1, 1, 2, 1]) = some (x, s')) ∧
      ((∃ root, x = .ok root) ∨ ∃ e, x = .error (.fallThrough e)) := by
  obtain ⟨ds, hd⟩ := slr_dfas
  obtain ⟨F, hF⟩ := C77_slr (exSource [1, 1, 2, 1]) 0 (by decide) (by decide) (2 ^ 60) (by decide) hd
  refine ⟨F, fun fuel hf => ?_⟩
  obtain ⟨m0, x, s', h1, -, h2⟩ := hF fuel hf 0 0 (by decide)
  exact ⟨m0, x, s', by simpa only [SimpleLR.start, hd, Option.getD_some] using h1, h2⟩

/-! ## tests/gen/visitorbasicparser.rs -/

def basicTypes : List Int := [-1, 1]

/-- This parser returns on every input with either strategy. -/
theorem C77_basic (bail : Bool) (src : Source) (c : Int) (hfirst : Visible src c 0) (hty : ∀ t ∈ src.pre, t.ttype ∈ basicTypes) :
    ∃ F, ∀ fuel, F ≤ fuel → ∀ (q : Int) (σ : SimState),
      ∃ m0 x s', (∀ m, m0 ≤ m → runRule (fueled (Basic.cfg bail) fuel) m 0 q ⟨⟨{}, P.new (CTS.withChannel src c)⟩, σ⟩ = some (x, s')) ∧
        ((∃ root n, x = .ok root ∧ Idle (Basic.cfg bail) (CtsAt src c) s' n) ∨ (bail = true ∧ ∃ e, x = .error (.fallThrough e))) := by
  obtain ⟨F, hF⟩ := C77_parser_partial src c hfirst (Basic.cfg bail) (wf_of_check Basic.atn (by decide +kernel)) (real_of (atn := Basic.atn) (by decide +kernel))
    (by cases bail <;> decide) rfl (fits_of (atn := Basic.atn) (rules := Basic.rules) (fun _ _ => look_of) (chB := lookB) (by decide +kernel))
    (seen_types (types := basicTypes) (by decide) hty c)
    (prompt_of (rules := Basic.rules) (ans := fun _ _ => []) (f := 20) (D := 1) (fun _ _ _ _ h => h.elim) (by cases bail <;> decide +kernel))
  refine ⟨F, fun fuel hfuel q σ => ?_⟩
  obtain ⟨m0, x, s', h1, h2⟩ := hF fuel hfuel 0 q σ (by cases bail <;> decide)
  exact ⟨m0, x, s', h1, h2.imp (fun ⟨root, n, h, h'⟩ => ⟨root, n, h, h' (plain_of (rules := Basic.rules) (by decide) (by decide))⟩) id⟩

/-- `A A`. -/
example : ∃ F, ∀ fuel, F ≤ fuel → ∃ m0 root s', ∀ m, m0 ≤ m →
    runRule (fueled (Basic.cfg false) fuel) m 0 0 (Basic.start [1, 1]) = some (.ok root, s') := by
  obtain ⟨F, hF⟩ := C77_basic false (exSource [1, 1]) 0 (by decide) (by decide)
  refine ⟨F, fun fuel hf => ?_⟩
  obtain ⟨m0, x, s', h1, h2⟩ := hF fuel hf 0 _
  rcases h2 with ⟨root, n, rfl, -⟩ | ⟨h, -⟩
  · exact ⟨m0, root, s', h1⟩
  · cases h

end Antlr.GenProps
