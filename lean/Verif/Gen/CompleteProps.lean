import Verif.Gen.Choose
import Verif.Gen.Derive
import Verif.Gen.Props
import Verif.LL1.Props

/-!
# Generated parsers accept all sentences of their grammar: C72

The converse of C71.  The parser is any program the templates produce without left-recursive rules and
predicates, whose code mirrors its automaton (`Mirror`).  A test of the next token has to name the alternative that
reads it (`Tells`).
-/

namespace Antlr.GenProps
open Antlr ParserSpec ParserProps GenSpec Gen ErrorProps TokenSpec ParserView Prediction PredictionProps
  PredictionSpec LL1Spec LL1Props ParserLemmas

/-- The tokens of the tree are those from `n` up to `n'`, in order and each once, and perhaps then the EOF
token, any number of times; at `n'` is EOF. -/
def Covers (T : Nat → Tok) (n : Nat) (node : Node) (n' : Nat) : Prop :=
  (∃ j, tokens node = (List.range' n (n' - n)).map T ++ List.replicate j (T n')) ∧
    n ≤ n' ∧ (∀ k, n ≤ k → k < n' → (T k).ttype ≠ TOKEN_EOF) ∧ (T n').ttype = TOKEN_EOF

/-- There is a tree of rule `r` for the tokens from `n` to EOF. -/
def Sentence (G : Grammar) (T : Nat → Tok) (r : Nat) (q : Int) (n : Nat) : Prop :=
  ∃ node n', Builds G r q node ∧ Covers T n node n'

theorem consumes_covers {T : Nat → Tok} {n n' : Nat} {node : Node} (h : Covers T n node n') :
    Consumes T n (tokens node) n' := by
  obtain ⟨⟨j, e⟩, hle, hne, he⟩ := h
  rw [e]
  have eofs : Consumes T n' (List.replicate j (T n')) n' := by
    clear e
    induction j with
    | zero => exact .nil
    | succ j ih => exact .eof he ih
  clear e
  obtain ⟨d, rfl⟩ : ∃ d, n' = n + d := ⟨n' - n, by omega⟩
  rw [Nat.add_sub_cancel_left]
  clear hle
  induction d generalizing n with
  | zero => exact eofs
  | succ d ih =>
    rw [List.range'_succ]
    refine .tok (hne n (Nat.le_refl _) (by omega)) ?_
    have h1 : n + (d + 1) = n + 1 + d := by omega
    rw [h1] at he eofs hne ⊢
    exact ih (fun k h1 h2 => hne k (by omega) h2) he eofs

theorem builds_lt {rules : List RuleFn} {r : Nat} {q : Int} {node : Node} (h : Builds (grammar rules) r q node) :
    r < rules.length := by
  have : ∀ {x}, grammar rules r = some x → r < rules.length := by
    intro x h
    obtain ⟨fn, h, -⟩ := Option.map_eq_some_iff.1 h
    exact (List.getElem?_eq_some_iff.1 h).1
  cases h <;> exact this ‹_›

section
set_option linter.unusedSectionVars false
variable {I S : Type} [TokStream I] {T : Nat → Tok} {V : I → Nat → Prop}

/-- What `sync` of the default strategy looks up is right in every state. -/
def SyncRight (C : Cfg I S) (atn : ATN) : Prop :=
  C.bail = true ∨ (C.env.atn = atn ∧ ∀ a st, atn.states[a]? = some st → Foresees atn C.env.fuel a)

/-- The stream stands at EOF. -/
def AtEof (p : P I) : Prop := ∃ p', p.la 1 = some (TOKEN_EOF, p')

theorem good_start {Inv : S → Prop} {s : GS I S} {n : Nat} (hp : Stands V s.es.p n) (hx : s.es.p.ctx = none)
    (hm : s.es.eh.mode = false) (hi : Inv s.sim) : Gen.Good V Inv s.es.p.syntaxErrors s n [] [] := by
  have h1 : Ready V s.es.p ⟨n, s.es.p.matchedEof, s.es.p.state⟩ (([] : List Nat).head?) := by
    have := hp.ready
    rw [hx] at this
    exact this
  exact ⟨⟨⟨_, h1, rfl⟩, .nil⟩, hm, rfl, hi⟩

theorem at_eof (hv : IsView T V) {p : P I} {n : Nat} (h : V p.input n) (he : (T n).ttype = TOKEN_EOF) : AtEof p := by
  obtain ⟨i', h1, -⟩ := la_ok hv h
  rw [he] at h1
  exact ⟨_, h1⟩

/-- **C72** A parser whose choices are all tests of the next token parses every sentence of its grammar:
with enough fuel it returns `Ok`, reports no error and stands at EOF.  For every grammar, sentence, position,
stream, and error-free state of the parser outside of rules; with the bail strategy, and with the default
strategy if the sets it looks up are right (`C72_sync`). -/
theorem C72_ll1 (hv : IsView T V) {C : Cfg I S} {atn : ATN} {Ok : Int → Prop} {r : Nat}
    (hok : ∀ n, Ok (T n).ttype ∧ (T n).ttype ≠ 0) (ha : Plain atn) (hs : SyncRight C atn)
    (hm : Mirror atn Ok (Tested atn (EndOf atn r) Ok) C.rules) (hl : C.rules.length = atn.ruleToStartState.length)
    (q : Int) (s : GS I S) (n : Nat) (hp : Stands V s.es.p n) (hx : s.es.p.ctx = none) (hmode : s.es.eh.mode = false)
    (h : Sentence (grammar C.rules) T r q n) :
    ∃ m0 root s', (∀ m, m0 ≤ m → runRule C m r q s = some (.ok root, s')) ∧
      s'.es.p.syntaxErrors = s.es.p.syntaxErrors ∧ AtEof s'.es.p := by
  obtain ⟨node, n', hb, hc⟩ := h
  have he := hc.2.2.2
  obtain ⟨start, hstart⟩ : ∃ start, atn.ruleToStartState[r]? = some start := by
    have := builds_lt hb
    rw [hl] at this
    exact ⟨_, List.getElem?_eq_getElem this⟩
  obtain ⟨k, hw⟩ := tree_wins (E := EndOf atn r) (w := fun n => (T n).ttype) (fun _ => rfl) (fun n => (hok n).1) hm
    hstart hb (consumes_covers hc) he (fun a st h1 h2 h3 => ⟨st, h1, h2, h3⟩)
  have H : Sure C T V atn (EndOf atn r) (fun n => (T n).ttype) Ok (Tested atn (EndOf atn r) Ok) (fun _ => True) true := by
    refine ⟨hv, fun _ => rfl, fun n => (hok n).1, fun n => (hok n).2, ha, hs, hm, hl, ?_⟩
    intro ch a dec hch hd e s n cs outer τ hg _ _ hpr k i tr hi hgo
    cases ch with
    | predict d => exact absurd hch id
    | look sets other => exact look_right hv (fun _ => rfl) (fun n => (hok n).1) ha hch hd hg hpr hi hgo
  obtain ⟨m0, root, s', ⟨n2, hg, he2⟩, h⟩ := root_ok H hstart q (good_start (Inv := fun _ => True) hp hx hmode trivial) hw
  exact ⟨m0, root, s', h, hg.errs, at_eof hv hg.view he2⟩

end

/-! ## The parser of the runtime -/

/-- **C72** A new parser of the runtime on a `CommonTokenStream`, whose choices are all tests of the next
token, accepts exactly the sentences of its grammar: it returns `Ok` without a syntax error and stands at EOF
if and only if there is a tree of the grammar for all the tokens on its channel. -/
theorem C72_ll1_iff {C : Cfg CTS SimState} {M : Sim CTS} (hg : Generated C M) (src : Source) (c : Int)
    (hfirst : Visible src c 0) (σ : SimState) (hσ : Used (I := CTS) M.atn σ) {Ok : Int → Prop} {r : Nat}
    (hok : ∀ n, Ok (seen src c n).ttype ∧ (seen src c n).ttype ≠ 0) (ha : Plain M.atn) (hs : SyncRight C M.atn)
    (hm : Mirror M.atn Ok (Tested M.atn (EndOf M.atn r) Ok) C.rules)
    (hl : C.rules.length = M.atn.ruleToStartState.length) (q : Int) :
    (∃ m root s', runRule C m r q ⟨⟨{}, P.new (CTS.withChannel src c)⟩, σ⟩ = some (.ok root, s') ∧
      s'.es.p.syntaxErrors = 0 ∧ AtEof s'.es.p) ↔ Sentence (grammar C.rules) (seen src c) r q 0 := by
  have hv := view_has src c hfirst
  constructor
  · rintro ⟨m, root, s', h, he, p', hp'⟩
    obtain ⟨i, node, n', j, -, -, h1, h2, h3, h4, h5, h6⟩ := C71_runtime hg src c hfirst σ hσ m r q root s' h (.inr he)
    refine ⟨node, n', h1, ⟨j, h2⟩, h3, h4, ?_⟩
    obtain ⟨i', h7, -⟩ := la_ok hv h6
    rw [h7] at hp'
    simp only [Option.some.injEq, Prod.mk.injEq] at hp'
    exact hp'.1
  · intro h
    obtain ⟨m0, root, s', h1, h2, h3⟩ := C72_ll1 hv hok ha hs hm hl q ⟨⟨{}, P.new (CTS.withChannel src c)⟩, σ⟩ 0
      (stands_new (has_start src c hfirst)) rfl rfl h
    exact ⟨m0, root, s', h1 m0 (Nat.le_refl _), h2, h3⟩

/-- **C72** With predictions: a parse of a sentence that returns, in whose predictions the context was not
needed, returns `Ok`, reports no error and stands at EOF, and leaves the DFAs fit for the next parse.  For every
grammar whose start rule is not called by other rules, all sentences, streams and DFAs filled by predictions for other
inputs; in the modes LL and LL with exact ambiguity detection.  Missing for the full claim: predictions that look at
the context, which can be wrong (`C39_false_meaning`), so that sentences are rejected. -/
theorem C72_predict_partial {C : Cfg CTS SimState} {M : Sim CTS} (hC : C.predict = M.predict) (hmode : M.mode ≠ .SLL)
    (src : Source) (c : Int) (hfirst : Visible src c 0)
    (hty : ∀ n, -1 ≤ (tok src n).ttype ∧ (tok src n).ttype < 2 ^ 63) {Ok : Int → Prop} {r : Nat}
    (hok : ∀ n, Ok (seen src c n).ttype ∧ (seen src c n).ttype ≠ 0) (ha : Plain M.atn) (hs : SyncRight C M.atn)
    (hm : Mirror M.atn Ok (Chosen M.atn (EndOf M.atn r) Ok) C.rules)
    (hl : C.rules.length = M.atn.ruleToStartState.length) (hu : Uncalled M.atn r)
    (q : Int) (s : GS CTS SimState) (n : Nat) (hp : Stands (CtsHas src c) s.es.p n) (hx : s.es.p.ctx = none)
    (hrec : s.es.eh.mode = false) (hσ : Learned M.atn s.sim)
    (h : Sentence (grammar C.rules) (seen src c) r q n)
    (m : Nat) (x : Except PErr (Option Nat)) (s' : GS CTS SimState) (hr : runRule C m r q s = some (x, s'))
    (hf : ∀ a b l, Report.fullContext a b l ∉ s'.sim.reports)
    (hsz : ∀ d ∈ s'.sim.dfas, d.states.length ≤ ERROR_DFA_STATE_REF) :
    ∃ root, x = .ok root ∧ s'.es.p.syntaxErrors = s.es.p.syntaxErrors ∧ AtEof s'.es.p ∧ Learned M.atn s'.sim := by
  have hv := view_has src c hfirst
  obtain ⟨node, n', hb, hc⟩ := h
  have he := hc.2.2.2
  obtain ⟨start, hstart⟩ : ∃ start, M.atn.ruleToStartState[r]? = some start := by
    have := builds_lt hb
    rw [hl] at this
    exact ⟨_, List.getElem?_eq_getElem this⟩
  obtain ⟨k, hw⟩ := tree_wins (E := EndOf M.atn r) (w := fun n => (seen src c n).ttype) (fun _ => rfl) (fun n => (hok n).1) hm
    hstart hb (consumes_covers hc) he (fun a st h1 h2 h3 => ⟨st, h1, h2, h3⟩)
  have hdead : ∀ a, EndOf M.atn r a → GenSpec.Dead M.atn a := by
    rintro a ⟨st, h1, h2, h3⟩ st' h4
    rw [h1, Option.some.injEq] at h4
    subst h4
    exact hu a st h1 h2 h3
  have H : Sure (C.only Local) (seen src c) (CtsHas src c) M.atn (EndOf M.atn r) (fun n => (seen src c n).ttype) Ok
      (Chosen M.atn (EndOf M.atn r) Ok) (fun σ => Learned M.atn σ) false := by
    refine ⟨hv, fun _ => rfl, fun n => (hok n).1, fun n => (hok n).2, ha, hs, hm, hl, ?_⟩
    intro ch a dec hch hd e s n cs outer τ hg hne hcalls hpr k i tr hi hgo
    cases ch with
    | predict d => exact predict_right hC ha hdead hmode (fun _ => rfl) hty hch hd hg hne hcalls hpr hi hgo
    | look sets other => exact look_right hv (fun _ => rfl) (fun n => (hok n).1) ha hch hd hg hpr hi hgo
  have hfine : Local s'.sim = true := by
    simp only [Gen.Local, Bool.and_eq_true, List.all_eq_true, decide_eq_true_eq]
    refine ⟨?_, hsz⟩
    intro rep hrep
    cases rep with
    | fullContext a b l => exact absurd hrep (hf a b l)
    | _ => rfl
  obtain ⟨h1, -⟩ := (only_all (plain_sim hC) m).2.2.2.1 r q s x s' hr hfine
  obtain ⟨root, rfl, n2, hg, he2⟩ := root_ok H hstart q (good_start (Inv := fun σ => Learned M.atn σ) hp hx hrec hσ) hw m x s' h1
  exact ⟨root, rfl, hg.errs, at_eof hv hg.view he2, hg.inv⟩

/-- New DFAs. -/
theorem C72_learned_new {atn : ATN} {ds : List DFA} (h : emptyDfas atn = some ds) (rs : List Report) :
    Learned atn ⟨ds, rs⟩ := by
  intro d dfa hd
  obtain ⟨a, ha, hf⟩ := mapM_get _ _ h d hd
  obtain ⟨s, hs, hn⟩ := Option.bind_eq_some_iff.1 hf
  have had : a = d := by
    rw [List.getElem?_eq_some_iff] at ha
    obtain ⟨hl, e⟩ := ha
    simpa using e.symm
  subst had
  obtain ⟨st, hst⟩ : ∃ st, atn.states[s]? = some st := by
    unfold DFA.new at hn
    obtain ⟨x, hx, -⟩ := Option.map_eq_some_iff.1 hn
    exact ⟨x, hx⟩
  exact ⟨s, st, hs, hst, dfa, _, hn, .refl⟩

/-- What `sync` looks up is right on automata without left recursion and wide labels, if the search for it
ends (with enough fuel it does: C42). -/
theorem C72_sync {atn : ATN} (wf : WFAtn atn) (hl : NoLeftRecursion atn) (hn : Narrow atn) :
    ∃ F, ∀ fuel, F ≤ fuel → ∀ a st, atn.states[a]? = some st → Foresees atn fuel a := by
  have main : ∀ n, ∃ F, ∀ fuel, F ≤ fuel → ∀ a, a < n → a < atn.states.length → Foresees atn fuel a := by
    intro n
    induction n with
    | zero => exact ⟨0, fun _ _ a h => by omega⟩
    | succ n ih =>
      obtain ⟨F, h⟩ := ih
      by_cases hlt : n < atn.states.length
      · obtain ⟨F', h'⟩ := C42_exact_partial atn wf hl hn n hlt
        refine ⟨max F F', fun fuel hf a ha hal => ?_⟩
        by_cases e : a = n
        · subst e
          obtain ⟨set, h1, -, h2⟩ := h' fuel (by omega)
          exact ⟨set, h1, fun x hx => (h2 x).2 (.inl hx), fun he => (h2 _).2 (.inr ⟨rfl, he⟩)⟩
        · exact h fuel (by omega) a (by omega) hal
      · exact ⟨F, fun fuel hf a ha hal => h fuel hf a (by omega) hal⟩
  obtain ⟨F, h⟩ := main atn.states.length
  exact ⟨F, fun fuel hf a st hst => h fuel hf a (List.getElem?_eq_some_iff.1 hst).1 (List.getElem?_eq_some_iff.1 hst).1⟩

end Antlr.GenProps
