import Verif.Gen.ReturnFuel
import Verif.Gen.ReturnCheck
import Verif.Gen.CompleteExamples

/-!
# Generated parsers return: C77

Whatever tokens there are, a rule function of a generated parser returns: with the default strategy `Ok`, after
it has recovered from all errors, and with the bail strategy `Ok` or the first error.  It does so if no piece of
its code can go round without reading (`Prompt`), which is checked token by token.
-/

namespace Antlr.GenProps
open Antlr ParserSpec ParserProps GenSpec Gen ErrorSpec ErrorProps TokenSpec ParserView Prediction PredictionProps
  PredictionSpec LL1Spec LL1Props ParserLemmas CommonProps

section
variable {I S : Type} [TokStream I]

/-- The parser with fuel for `LL1Analyzer`. -/
def fueled (C : Cfg I S) (fuel : Nat) : Cfg I S := { C with env := { C.env with fuel := fuel } }

/-- The parser is outside of all rules, at token `n`, in any state that parsing with and without errors can leave
behind: there may be contexts, `err_handler` may be in recovery mode. -/
structure Idle (C : Cfg I S) (V : I → Nat → Prop) (s : GS I S) (n : Nat) : Prop where
  view : V s.es.p.input n
  ctx : s.es.p.ctx = none
  state : s.es.p.state < 0
  built : ∃ vs, Built s.es.eh vs
  nt : ∀ c, s.es.eh.ntCtx = some c → C.bail = false ∧ SoundAt C.env.atn C.rules.length s.es.p.heap c ∧
    ∃ a : Nat, s.es.eh.ntState = a ∧ a < C.env.atn.states.length

/-- A new parser. -/
theorem idle_new (C : Cfg I S) {V : I → Nat → Prop} {i : I} {n : Nat} (h : V i n) (σ : S) :
    Idle C V (⟨⟨{}, P.new i⟩, σ⟩ : GS I S) n where
  view := h
  ctx := rfl
  state := by show (-1 : Int) < 0; decide
  built := ⟨[], .inl ⟨rfl, rfl⟩⟩
  nt := by intro c hc; cases hc

/-- The rule is not left-recursive. -/
def IsPlain (rules : List RuleFn) (r : Nat) : Prop := ∃ start sel alts, rules[r]? = some (.plain start sel alts)

def isPlainB : RuleFn → Bool
  | .plain .. => true
  | .recursive .. => false

theorem plain_of {rules : List RuleFn} (h : rules.all isPlainB = true) {r : Nat} (hr : r < rules.length) : IsPlain rules r := by
  have h1 := List.getElem?_eq_getElem hr
  have h2 := List.all_eq_true.1 h _ (List.getElem_mem hr)
  cases hfn : rules[r] with
  | plain a b d => exact ⟨a, b, d, by rw [h1, hfn]⟩
  | recursive => rw [hfn] at h2; cases h2

/-- Rule functions return if their choices are made. -/
theorem returns_of {T : Nat → Tok} {V : I → Nat → Prop} {ix : Nat → Int} (hv : IsIndexed T V ix) (hix : ∀ n, 0 ≤ ix n)
    (N : Nat) (hN : (T N).ttype = TOKEN_EOF) (C : Cfg I S) (wf : WFAtn C.env.atn) (hl : RealLabels C.env.atn)
    (hnames : C.rules.length ≤ C.env.ruleNames.length)
    (htext : ∀ i n, V i n → (T n).ttype ≠ TOKEN_EOF → ∃ x, C.env.rangeText i (ix n) (ix n) = some x)
    {Ch : Nat → Choice → Prop} {pr : Nat → Int → Int → Prop} {Inv : S → Prop}
    (hd : ∀ fuel K, World (fueled C fuel) T V ix N K → Gen.Decides (fueled C fuel) T V ix Inv N pr Ch)
    (hf : Fits C.env.atn Ch C.rules) {Ok : Int → Prop} (hok : ∀ n, Ok (T n).ttype) {D : Nat}
    (hp : Prompt C.rules pr C.bail Ok D) :
    ∃ F, ∀ fuel, F ≤ fuel → ∀ (r : Nat) (q : Int) (s : GS I S) (n : Nat), r < C.rules.length → n ≤ N → Idle C V s n → Inv s.sim →
      ∃ m0 x s', (∀ m, m0 ≤ m → runRule (fueled C fuel) m r q s = some (x, s')) ∧
        ((∃ root n', x = .ok root ∧ n' ≤ N ∧ (IsPlain C.rules r → Idle C V s' n') ∧ Inv s'.sim) ∨ (C.bail = true ∧ ∃ e, x = .error (.fallThrough e))) := by
  let R := (N + 1) * (C.env.atn.states.length + 2)
  obtain ⟨F, hF⟩ := enough wf (1 + D + D * R)
  refine ⟨F, fun fuel hfuel r q s n hr hn hs hi => ?_⟩
  have W : World (fueled C fuel) T V ix N (1 + D + D * R) :=
    ⟨hv, hix, hN, wf, hl, (hF fuel hfuel).1, (hF fuel hfuel).2, htext, hnames⟩
  have U : Setup (fueled C fuel) T V ix Inv N (1 + D + D * R) D pr Ch :=
    ⟨W, hd fuel _ W, hf, ⟨fun r c hc t ht => hp.piece r c hc t (by obtain ⟨n, -, rfl⟩ := ht; exact hok n),
      fun r start sel prims entry back ch opSel ops hr => ⟨(hp.loop r start sel prims entry back ch opSel ops hr).1, fun t ht =>
        (hp.loop r start sel prims entry back ch opSel ops hr).2 t (by obtain ⟨n, -, rfl⟩ := ht; exact hok n)⟩⟩⟩
  have h0 : Sane (fueled C fuel) V Inv N s n [] :=
    ⟨hs.view, hn, hs.ctx, ⟨[], .nil⟩, (fun x hx => by cases hx), (fun c hc => by cases hc), fun h => absurd rfl h, hs.built, hs.nt, hi⟩
  have hrank : rank (fueled C fuel) T ix N s.es.eh n ≤ R := by
    have h1 := left_le (C := fueled C fuel) (ix := ix) s.es.eh n
    have h2 : (N - n) * (C.env.atn.states.length + 2) ≤ N * (C.env.atn.states.length + 2) := Nat.mul_le_mul_right _ (by omega)
    have h3 : R = N * (C.env.atn.states.length + 2) + (C.env.atn.states.length + 2) := Nat.succ_mul ..
    have h4 : (fueled C fuel).env.atn = C.env.atn := rfl
    unfold rank
    rw [h4] at h1 ⊢
    split <;> omega
  have hD : D * rank (fueled C fuel) T ix N s.es.eh n ≤ D * R := Nat.mul_le_mul_left _ hrank
  obtain ⟨m0, x, s', h1, h2⟩ := call_returns U h0 (fun _ => hs.state) (fun r0 h => by obtain ⟨_, _, e⟩ := h; cases e) hr q
    (by rw [List.length_nil]; omega)
  have fit : ∀ n', Sane (fueled C fuel) V Inv N s' n' [] → s'.es.p.state < 0 → Idle C V s' n' :=
    fun n' h hst => ⟨h.view, h.ctx, hst, h.built, h.nt⟩
  refine ⟨m0, x, s', h1, ?_⟩
  cases x with
  | ok root =>
    obtain ⟨n', g1, -, g2⟩ := h2
    exact .inl ⟨root, n', rfl, g1.le, fun hpl => fit n' g1 (g2 hpl rfl), g1.inv⟩
  | error e =>
    rcases h2 with ⟨hb, e', rfl⟩ | ⟨n', g1, -, g2⟩
    · exact .inr ⟨hb, e', rfl⟩
    · obtain ⟨e', rfl⟩ := rule_error (h1 m0 (Nat.le_refl _))
      exact g2.elim

/-- **C77** Rule functions return.  For every token sequence, position, stream, rule and state that earlier parses can leave
behind, with enough fuel for `LL1Analyzer` and for the recursion: with the default strategy a call returns `Ok` and leaves
the parser fit for the next one; with the bail strategy it returns that or the error.  The choices are tests of the next
token; the rules are not left-recursive, or the strategy is the bail strategy (see `C77_false_leftrec`). -/
theorem C77_returns_partial {T : Nat → Tok} {V : I → Nat → Prop} {ix : Nat → Int} (hv : IsIndexed T V ix) (hix : ∀ n, 0 ≤ ix n)
    (N : Nat) (hN : (T N).ttype = TOKEN_EOF) (C : Cfg I S) (wf : WFAtn C.env.atn) (hl : RealLabels C.env.atn)
    (hnames : C.rules.length ≤ C.env.ruleNames.length)
    (htext : ∀ i n, V i n → (T n).ttype ≠ TOKEN_EOF → ∃ x, C.env.rangeText i (ix n) (ix n) = some x)
    (hf : Fits C.env.atn IsLook C.rules) {Ok : Int → Prop} (hok : ∀ n, Ok (T n).ttype) {D : Nat}
    (hp : Prompt C.rules (fun _ _ _ => False) C.bail Ok D) :
    ∃ F, ∀ fuel, F ≤ fuel → ∀ (r : Nat) (q : Int) (s : GS I S) (n : Nat), r < C.rules.length → n ≤ N → Idle C V s n →
      ∃ m0 x s', (∀ m, m0 ≤ m → runRule (fueled C fuel) m r q s = some (x, s')) ∧
        ((∃ root n', x = .ok root ∧ n' ≤ N ∧ (IsPlain C.rules r → Idle C V s' n')) ∨ (C.bail = true ∧ ∃ e, x = .error (.fallThrough e))) := by
  obtain ⟨F, hF⟩ := returns_of (Inv := fun _ : S => True) hv hix N hN C wf hl hnames htext
    (fun fuel K W => look_decides W _) hf hok hp
  refine ⟨F, fun fuel hfuel r q s n hr hn hs => ?_⟩
  obtain ⟨m0, x, s', h1, h2⟩ := hF fuel hfuel r q s n hr hn hs trivial
  exact ⟨m0, x, s', h1, h2.imp (fun ⟨root, n', a, b, c, _⟩ => ⟨root, n', a, b, c⟩) id⟩

/-- One call after the other. -/
def callAll (C : Cfg I S) (m : Nat) : List (Nat × Int) → GS I S → Option (List (Except PErr (Option Nat)) × GS I S)
  | [], s => some ([], s)
  | (r, q) :: cs, s => (runRule C m r q s).bind fun x => (callAll C m cs x.2).map fun y => (x.1 :: y.1, y.2)

/-- **C77** With the default strategy a parser can be used any number of times, for any rules: every call returns `Ok`. -/
theorem C77_session_partial {T : Nat → Tok} {V : I → Nat → Prop} {ix : Nat → Int} (hv : IsIndexed T V ix) (hix : ∀ n, 0 ≤ ix n)
    (N : Nat) (hN : (T N).ttype = TOKEN_EOF) (C : Cfg I S) (hb : C.bail = false) (wf : WFAtn C.env.atn)
    (hl : RealLabels C.env.atn) (hnames : C.rules.length ≤ C.env.ruleNames.length)
    (htext : ∀ i n, V i n → (T n).ttype ≠ TOKEN_EOF → ∃ x, C.env.rangeText i (ix n) (ix n) = some x)
    (hf : Fits C.env.atn IsLook C.rules) {Ok : Int → Prop} (hok : ∀ n, Ok (T n).ttype) {D : Nat}
    (hp : Prompt C.rules (fun _ _ _ => False) C.bail Ok D) :
    ∃ F, ∀ fuel, F ≤ fuel → ∀ (cs : List (Nat × Int)), (∀ c ∈ cs, c.1 < C.rules.length) →
      ∀ (s : GS I S) (n : Nat), n ≤ N → Idle C V s n →
        ∃ (m0 : Nat) (roots : List (Option Nat)) (s' : GS I S), (∀ m, m0 ≤ m → callAll (fueled C fuel) m cs s = some (roots.map .ok, s')) ∧
          roots.length = cs.length ∧ ∃ n', n' ≤ N ∧ Idle C V s' n' := by
  obtain ⟨F, hF⟩ := C77_returns_partial hv hix N hN C wf hl hnames htext hf hok hp
  refine ⟨F, fun fuel hfuel cs hcs => ?_⟩
  induction cs with
  | nil => exact fun s n hn hs => ⟨0, [], s, fun _ _ => rfl, rfl, n, hn, hs⟩
  | cons c cs ih =>
    intro s n hn hs
    obtain ⟨m1, x, s1, h1, h2⟩ := hF fuel hfuel c.1 c.2 s n (hcs c (by simp)) hn hs
    rcases h2 with ⟨root, n1, rfl, hn1, hs1⟩ | ⟨h, -⟩
    · have hpl : IsPlain C.rules c.1 := by
        have hc := List.getElem?_eq_getElem (hcs c (by simp))
        cases hfn : C.rules[c.1]'(hcs c (by simp)) with
        | plain a b d => exact ⟨a, b, d, by rw [hc, hfn]⟩
        | recursive =>
          rw [hfn] at hc
          have := (hp.loop _ _ _ _ _ _ _ _ _ hc).1
          rw [hb] at this; cases this
      obtain ⟨m2, roots, s', h3, h4, n', hn', hs'⟩ := ih (fun c hc => hcs c (by simp [hc])) s1 n1 hn1 (hs1 hpl)
      refine ⟨max m1 m2, root :: roots, s', fun m hm => ?_, by simp [h4], n', hn', hs'⟩
      rw [callAll, h1 m (by omega), Option.bind_some, h3 m (by omega)]
      rfl
    · rw [hb] at h; cases h

end

/-! ## `CommonTokenStream` -/

theorem eof_seen (src : Source) (c : Int) : ∃ N, visPos src c N = eofIdx src ∧ (seen src c N).ttype = TOKEN_EOF := by
  obtain ⟨N, h⟩ := visPos_complete src c (eofIdx src) (.inl rfl)
  refine ⟨N, h, ?_⟩
  show (tok src (visPos src c N)).ttype = TOKEN_EOF
  rw [tok_eof_iff, h]
  exact Nat.le_refl _

/-- `get_text_from_interval`, src/token_stream.rs:175-201, does not panic for the current token. -/
theorem text_here {src : Source} {c : Int} {i : CTS} {n : Nat} (h : CtsAt src c i n) :
    ∃ x, i.base.getText (visPos src c n) (visPos src c n) = some x := by
  obtain ⟨⟨len, rfl, hk⟩, -⟩ := h
  unfold COK at hk
  have hb : (cst src c len (visPos src c n)).base.bufferStart = 0 := by simp only [TS.bufferStart, cst, Antlr.st]; omega
  have hl : (cst src c len (visPos src c n)).base.tokens.length = len := window_length ..
  unfold TS.getText
  simp only [hb, hl]
  rw [if_neg (by omega)]
  exact ⟨_, rfl⟩

/-- **C77** The same for a new parser over a `CommonTokenStream`, whatever the lexer returns. -/
theorem C77_parser_partial {S : Type} (src : Source) (c : Int) (hfirst : Visible src c 0) (C : Cfg CTS S) (wf : WFAtn C.env.atn)
    (hl : RealLabels C.env.atn) (hnames : C.rules.length ≤ C.env.ruleNames.length)
    (htext : C.env.rangeText = fun i a b => i.base.getText a b)
    (hf : Fits C.env.atn IsLook C.rules) {Ok : Int → Prop} (hok : ∀ n, Ok (seen src c n).ttype) {D : Nat}
    (hp : Prompt C.rules (fun _ _ _ => False) C.bail Ok D) :
    ∃ F, ∀ fuel, F ≤ fuel → ∀ (r : Nat) (q : Int) (σ : S), r < C.rules.length →
      ∃ m0 x s', (∀ m, m0 ≤ m → runRule (fueled C fuel) m r q ⟨⟨{}, P.new (CTS.withChannel src c)⟩, σ⟩ = some (x, s')) ∧
        ((∃ root n, x = .ok root ∧ (IsPlain C.rules r → Idle C (CtsAt src c) s' n)) ∨ (C.bail = true ∧ ∃ e, x = .error (.fallThrough e))) := by
  obtain ⟨N, -, hN⟩ := eof_seen src c
  obtain ⟨F, hF⟩ := C77_returns_partial (indexed_cts src c hfirst) (fun n => by omega) N hN C wf hl hnames
    (fun i n hi _ => by rw [htext]; exact text_here hi) hf hok hp
  refine ⟨F, fun fuel hfuel r q σ hr => ?_⟩
  obtain ⟨m0, x, s', h1, h2⟩ := hF fuel hfuel r q _ 0 hr (Nat.zero_le _) (idle_new C (cts_start src c hfirst) σ)
  refine ⟨m0, x, s', h1, h2.imp ?_ id⟩
  rintro ⟨root, n, rfl, -, h⟩
  exact ⟨root, n, rfl, h⟩

/-! ## tests/gen/csvparser.rs -/

/-- The CSV parser with the text of token streams. -/
def csvCfg (bail : Bool) : Cfg CTS SimState :=
  let C := Csv.cfg CTS bail 0
  { C with env := { C.env with rangeText := fun i a b => i.base.getText a b } }

theorem csv_wf : WFAtn Csv.atn := wf_of csv_plain (by decide +kernel)

theorem csv_real : RealLabels Csv.atn := real_of (by decide +kernel)

theorem csv_fits : Fits Csv.atn IsLook Csv.rules := fits_of (fun _ _ => look_of) (chB := lookB) (by decide +kernel)

theorem csv_prompt (bail : Bool) : Prompt Csv.rules (fun _ _ _ => False) bail (· ∈ csvTypes) 3 :=
  prompt_of (ans := fun _ _ => []) (f := 20) (fun _ _ _ _ h => h.elim) (by cases bail <;> decide +kernel)

/-- The CSV parser returns on every input, however wrong. -/
theorem C77_csv (bail : Bool) (src : Source) (c : Int) (hfirst : Visible src c 0)
    (hty : ∀ t ∈ src.pre, t.ttype ∈ csvTypes ∧ t.ttype ≠ 0) :
    ∃ F, ∀ fuel, F ≤ fuel → ∀ (r : Nat) (q : Int) (σ : SimState), r < 4 →
      ∃ m0 x s', (∀ m, m0 ≤ m → runRule (fueled (csvCfg bail) fuel) m r q ⟨⟨{}, P.new (CTS.withChannel src c)⟩, σ⟩ = some (x, s')) ∧
        ((∃ root n, x = .ok root ∧ Idle (csvCfg bail) (CtsAt src c) s' n) ∨ (bail = true ∧ ∃ e, x = .error (.fallThrough e))) := by
  obtain ⟨F, hF⟩ := C77_parser_partial src c hfirst (csvCfg bail) csv_wf csv_real (by cases bail <;> decide) rfl csv_fits
    (fun n => (csv_seen hty c n).1) (csv_prompt bail)
  refine ⟨F, fun fuel hfuel r q σ hr => ?_⟩
  obtain ⟨m0, x, s', h1, h2⟩ := hF fuel hfuel r q σ hr
  exact ⟨m0, x, s', h1, h2.imp (fun ⟨root, n, h, h'⟩ => ⟨root, n, h, h' (plain_of (rules := Csv.rules) (by decide) hr)⟩) id⟩

/-! ## Without the condition -/

/-- The automaton of `a : (A | EOF)* B ;` with `A` = 1, `B` = 2. -/
def eofAtn : ATN where
  grammarType := .parser
  maxTokenType := 2
  decisionToState := [5]
  ruleToStartState := [0]
  ruleToStopState := [1]
  states := [
    exState 0 (.ruleStart 1 false) [exEps 5],
    exState 1 .ruleStop [],
    exState 2 .basic [.set 4 ⟨[⟨-1, -1⟩, ⟨1, 1⟩], false⟩],
    exState 3 (.decision (-1) false (.blockStart 4 .star)) [exEps 2],
    exState 4 (.blockEnd 3) [exEps 7],
    exState 5 (.decision 0 false (.starLoopEntry 7 false)) [exEps 3, exEps 6],
    exState 6 (.loopEnd 7) [exEps 8],
    exState 7 .starLoopback [exEps 5],
    exState 8 .basic [.atom 9 2],
    exState 9 .basic [exEps 1]]

def eofBody : Code := .set 2 [1, -1] false

/-- Its rule function. -/
def eofRules : List RuleFn :=
  [.plain 0 none [⟨none, .seq (.star 5 7 (.look [[1, -1]] (some 2)) 2 1 eofBody) (.tok 8 2)⟩]]

def eofCfg (bail : Bool) (fuel : Nat) : Cfg CTS Unit where
  env := { atn := eofAtn, fuel := fuel, display := fun _ => "x", ruleNames := ["a".toList],
           rangeText := fun i a b => i.base.getText a b }
  bail := bail
  guards := fun _ _ => true
  predict := fun _ _ _ _ => none
  rules := eofRules

/-- The parser is at EOF in context `c`, which has `k` children. -/
structure Stuck (T : Nat → Tok) (V : CTS → Nat → Prop) (s : GS CTS Unit) (n c k : Nat) : Prop where
  eof : (T n).ttype = TOKEN_EOF
  ready : ErrorSpec.Ready V s.es.p n c
  tree : s.es.p.buildTrees = true
  kids : (s.es.p.heap[c]?).map (·.children.length) = some k

theorem nextTokens_mono {atn : ATN} {f f' a : Nat} (hf : f ≤ f') {set : IntervalSet} (h : nextTokens atn f a = some set) :
    nextTokens atn f' a = some set := by
  simp only [nextTokens, nextTokensInCtx] at h ⊢
  obtain ⟨x, h1, h2⟩ := Option.map_eq_some_iff.1 h
  obtain ⟨st, h3, h4⟩ := Option.map_eq_some_iff.1 h1
  rw [LL1Lemmas.lookWork_mono atn hf _ _ _ _ h3]
  simp only [Option.map_some, h4, h2]

theorem eof_next {fuel : Nat} (hf : 60 ≤ fuel) {a : Nat} (ha : a = 5 ∨ a = 7) :
    ∃ set, nextTokens eofAtn fuel a = some set ∧ set.contains TOKEN_EOF = true := by
  have key : (nextTokens eofAtn 60 a).any (·.contains TOKEN_EOF) = true := by
    rcases ha with rfl | rfl <;> decide +kernel
  obtain ⟨set, h1, h2⟩ := Option.any_eq_true .. |>.1 key
  exact ⟨set, nextTokens_mono hf h1, h2⟩

section
variable {T : Nat → Tok} {V : CTS → Nat → Prop} {s : GS CTS Unit} {n c k : Nat}

theorem Stuck.setState (h : Stuck T V s n c k) (st : Int) : Stuck T V (s.setState st) n c k :=
  ⟨h.eof, ⟨h.ready.view, h.ready.ctx, h.ready.mem⟩, h.tree, h.kids⟩

theorem Stuck.head (hv : IsView T V) (h : Stuck T V s n c k) {bail : Bool} {fuel : Nat} (hf : 60 ≤ fuel) {a : Nat}
    (ha : a = 5 ∨ a = 7) : ∃ s', (∀ m, Gen.head (eofCfg bail fuel) m a (.look [[1, -1]] (some 2)) s = some (.ok 1, s')) ∧
      Stuck T V s' n c k := by
  have hsync : ∃ s1, (∀ m, Gen.sync (eofCfg bail fuel) m (s.setState a) = some (.ok (), s1)) ∧ Stuck T V s1 n c k := by
    have h0 := h.setState a
    cases bail with
    | true => exact ⟨s.setState a, fun m => rfl, h0⟩
    | false =>
      by_cases hm : s.es.eh.mode = true
      · refine ⟨s.setState a, fun m => ?_, h0⟩
        have : (s.setState a).es.eh.mode = true := hm
        simp [Gen.sync, eofCfg, ES.sync, this, GS.strat]
      · obtain ⟨i', e1, e2⟩ := la_ok hv h0.ready.view
        obtain ⟨set, e3, e4⟩ := eof_next hf ha
        have e5 : ∃ x, eofAtn.stateAt (a : Int) = some x := by rcases ha with rfl | rfl <;> exact ⟨_, rfl⟩
        obtain ⟨x, e5⟩ := e5
        have hm' : ¬ (s.setState a).es.eh.mode = true := hm
        refine ⟨{ s with es := ⟨{ s.es.eh with ntState := -1, ntCtx := none }, { (s.setState a).es.p with input := i' }⟩ },
          fun m => ?_, ⟨h.eof, ⟨e2, h.ready.ctx, h.ready.mem⟩, h.tree, h.kids⟩⟩
        have e6 : (s.setState a).es.p.state = (a : Int) := rfl
        simp only [Gen.sync, eofCfg, ES.sync, GS.strat, if_neg hm', e1, Option.bind_some, e5, e6, Int.toNat_natCast, e3, h.eof, e4,
          if_true, Bool.false_eq_true, if_false, Option.map_some]
        rfl
  obtain ⟨s1, h1, h2⟩ := hsync
  obtain ⟨i', e1, e2⟩ := la_ok hv h2.ready.view
  refine ⟨{ s1 with es := { s1.es with p := { s1.es.p with input := i' } } }, fun m => ?_,
    ⟨h.eof, ⟨e2, h2.ready.ctx, h2.ready.mem⟩, h2.tree, h2.kids⟩⟩
  rw [Gen.head, h1 m]
  simp only [andThen, Option.bind_some, choose, e1, h.eof]
  rfl

theorem Stuck.body (hv : IsView T V) (h : Stuck T V s n c k) {bail : Bool} {fuel : Nat} :
    ∃ s', (∀ m, run (eofCfg bail fuel) (m + 1) eofBody s = some (.ok (), s')) ∧ Stuck T V s' n c (k + 1) := by
  have h0 := h.setState 2
  obtain ⟨i1, e1, v1⟩ := la_ok hv h0.ready.view
  obtain ⟨i2, e2, v2⟩ := la_ok hv (p := { (s.setState 2).es.p with input := i1 }) v1
  have key : ∀ eh : EH, ∃ e', ES.consume (⟨eh, { (s.setState 2).es.p with input := i2, matchedEof := true }⟩ : ES CTS) = some e' ∧
      Stuck T V { s with es := e' } n c (k + 1) := by
    intro eh
    have hr : ErrorSpec.Ready V ({ (s.setState 2).es.p with input := i2, matchedEof := true } : P CTS) n c :=
      ⟨v2, h.ready.ctx, h.ready.mem⟩
    obtain ⟨i3, e3, v3⟩ := ErrorLemmas.consume_after hv hr eh.mode
    have hn : next T n = n := by simp [next, h.eof]
    rw [hn] at v3
    refine ⟨⟨eh, after { (s.setState 2).es.p with input := i2, matchedEof := true } i3 c [(T n, eh.mode)] []⟩,
      by rw [ES.consume, e3]; rfl, h.eof, ErrorLemmas.ready_after hr v3 _ _, h.tree, ?_⟩
    have hb : (s.setState 2).es.p.buildTrees = true := h.tree
    have hk := h.kids
    simp only [after, hb, true_or, if_true]
    obtain ⟨x, hx, hx'⟩ := Option.map_eq_some_iff.1 hk
    have : (s.setState 2).es.p.heap = s.es.p.heap := rfl
    simp [this, List.getElem?_modify, hx, hx']
  obtain ⟨e', h1, h2⟩ := key (if bail then s.es.eh else s.es.eh.end_)
  refine ⟨{ s with es := e' }, fun m => ?_, h2⟩
  rw [eofBody, run]
  unfold matchSet
  rw [e1]
  simp only [Option.bind_some, h.eof]
  rw [if_pos (by decide)]
  have e2' : P.la ({ (s.setState 2).es.p with input := i1 } : P CTS) 1 = some (TOKEN_EOF, { (s.setState 2).es.p with input := i2 }) := by
    rw [e2, h.eof]
  rw [e2']
  simp only [Option.bind_some]
  rw [if_pos trivial]
  cases bail <;> simp only [eofCfg, Bool.false_eq_true, if_false, if_true, ES.bailReportMatch, ES.reportMatch] at h1 ⊢ <;>
    · rw [show (s.setState 2).es.eh = s.es.eh from rfl, h1]
      rfl

/-- Round and round: each time another EOF goes into the tree. -/
theorem Stuck.rounds (hv : IsView T V) {bail : Bool} {fuel : Nat} (hf : 60 ≤ fuel) (j : Nat) (h : Stuck T V s n c k) :
    ∃ s', Stuck T V s' n c (k + j) ∧ ∀ m, loop (eofCfg bail fuel) (m + j) 7 (.look [[1, -1]] (some 2)) 2 1 eofBody 1 s =
      loop (eofCfg bail fuel) m 7 (.look [[1, -1]] (some 2)) 2 1 eofBody 1 s' := by
  induction j generalizing s k with
  | zero => exact ⟨s, h, fun _ => rfl⟩
  | succ j ih =>
    obtain ⟨s1, h1, g1⟩ := h.body hv (bail := bail) (fuel := fuel)
    obtain ⟨s2, h2, g2⟩ := g1.head hv (bail := bail) hf (.inr rfl)
    obtain ⟨s3, g3, h3⟩ := ih g2
    refine ⟨s3, by rwa [show k + (j + 1) = k + 1 + j by omega], fun m => ?_⟩
    rw [← h3 m, ← Nat.add_assoc, loop]
    cases hm : m + j with
    | zero => simp [run, loop, andThen]
    | succ m' =>
      have : Gen.head (eofCfg bail fuel) (m' + 1) 7 (.look [[1, -1]] (some 2)) s1 = some (.ok 1, s2) := h2 (m' + 1)
      simp [andThen, h1 m', this]

end

/-- **C77 does not hold without the condition**: the parser of `a : (A | EOF)* B ;` does not return if there is no
`B`, here for an empty file, with either strategy.  `Stuck.rounds` says that it is not a panic: the loop goes on and
the tree grows. -/
theorem C77_false_eof_loop (bail : Bool) (fuel : Nat) (hf : 60 ≤ fuel) (m : Nat) (q : Int) :
    runRule (eofCfg bail fuel) m 0 q ⟨⟨{}, P.new (CTS.withChannel (exSource []) 0)⟩, ()⟩ = none := by
  have hfirst : Visible (exSource []) 0 0 := by decide
  have hv := view_cts (exSource []) 0 hfirst
  cases m with
  | zero => rfl
  | succ m =>
    have ht : Track (CtsAt (exSource []) 0) (P.new (CTS.withChannel (exSource []) 0)) 0 [] [] :=
      .mk' (cts_start _ 0 hfirst) rfl .nil
    obtain ⟨p1, e1, t1, -⟩ := ht.enter hv 0 0
    obtain ⟨p2, r, e2, t2, -⟩ := t1.alt none
    have hc : ((P.enterRule ((P.new (CTS.withChannel (exSource []) 0)).alloc 0 none none (-1)).2 0 0).bind (enterAlt none 0)).map
        (fun p => (p.buildTrees, p.ctx, (p.heap[0]?).map (·.children.length))) = some (true, some 0, some 0) := by decide +kernel
    have e1' : P.enterRule ((P.new (CTS.withChannel (exSource []) 0)).alloc 0 none none (-1)).2 0 0 = some p1 := e1
    have e2' : enterAlt none 0 p1 = some p2 := e2
    rw [e1', Option.bind_some, e2', Option.map_some, Option.some.injEq, Prod.mk.injEq, Prod.mk.injEq] at hc
    have hs : ∀ eh : EH, Stuck (seen (exSource []) 0) (CtsAt (exSource []) 0) ⟨⟨eh, p2⟩, ()⟩ 0 0 0 := fun eh =>
      ⟨by decide, ⟨t2.view, hc.2.1, (List.getElem?_eq_some_iff.1 (Option.map_eq_some_iff.1 hc.2.2).choose_spec.1).1⟩, hc.1, hc.2.2⟩
    have hrun : ∀ m, run (eofCfg bail fuel) m (.seq (.star 5 7 (.look [[1, -1]] (some 2)) 2 1 eofBody) (.tok 8 2))
        ⟨⟨{}, p2⟩, ()⟩ = none := by
      intro m
      match m with
      | 0 => rfl
      | 1 => rfl
      | m + 2 =>
        obtain ⟨s1, h1, g1⟩ := (hs {}).head hv (bail := bail) hf (.inl rfl)
        obtain ⟨s2, -, h2⟩ := g1.rounds hv (bail := bail) hf m
        have h1' : Gen.head (eofCfg bail fuel) m 5 (.look [[1, -1]] (some 2)) ⟨⟨{}, p2⟩, ()⟩ = some (.ok 1, s1) := h1 m
        have h2' := h2 0
        rw [Nat.zero_add] at h2'
        simp [run, h1', andThen, h2', loop]
    have hrule : (eofCfg bail fuel).rules[0]? =
        some (.plain 0 none [⟨none, .seq (.star 5 7 (.look [[1, -1]] (some 2)) 2 1 eofBody) (.tok 8 2)⟩]) := rfl
    rw [runRule]
    simp only [hrule, GS.act]
    have e0 : (P.new (CTS.withChannel (exSource []) 0)).heap.length = 0 := rfl
    rw [e1, e0]
    simp only [Option.map_some, andThen, Option.bind_some, select, ret, List.head?_cons, e2', hrun, Option.bind_none]

/-- It is this condition that fails; all others hold. -/
theorem C77_eof_not_prompt (D : Nat) : ¬ Prompt eofRules (fun _ _ _ => False) false (fun _ => True) D := by
  intro hp
  obtain ⟨F, hF⟩ := C77_parser_partial (exSource []) 0 (by decide) (eofCfg false 0)
    (wf_of (plain_of_plainB (show plainB eofAtn = true by decide +kernel)) (show noEpsB eofAtn = true by decide +kernel))
    (real_of (show realB eofAtn = true by decide +kernel)) (by decide) rfl
    (fits_of (fun _ _ => look_of) (show fitsB eofAtn lookB eofRules = true by decide +kernel)) (fun _ => trivial) hp
  obtain ⟨m0, x, s', h, -⟩ := hF (max F 60) (by omega) 0 0 () (by decide)
  have h1 := h m0 (Nat.le_refl _)
  have h2 := C77_false_eof_loop false (max F 60) (by omega) m0 0
  have e : fueled (eofCfg false 0) (max F 60) = eofCfg false (max F 60) := rfl
  rw [e, h2] at h1
  cases h1

/-- A file with two texts in a row, a stray carriage return and no last line break is parsed to the end. -/
example : ∃ F, ∀ fuel, F ≤ fuel → ∃ m0 root s', ∀ m, m0 ≤ m → runRule (fueled (csvCfg false) fuel) m 0 0
    ⟨⟨{}, P.new (CTS.withChannel (exSource [5, 5, 2, 1, 4, 3, 6]) 0)⟩, ⟨[], []⟩⟩ = some (.ok root, s') := by
  obtain ⟨F, hF⟩ := C77_csv false (exSource [5, 5, 2, 1, 4, 3, 6]) 0 (by decide) (ex_types (by decide))
  refine ⟨F, fun fuel hf => ?_⟩
  obtain ⟨m0, x, s', h1, h2⟩ := hF fuel hf 0 0 ⟨[], []⟩ (by decide)
  rcases h2 with ⟨root, n, rfl, -⟩ | ⟨h, -⟩
  · exact ⟨m0, root, s', h1⟩
  · cases h

end Antlr.GenProps
