import Verif.Gen.Real
import Verif.Gen.Calc

/-!
# Generated parsers: C71

The parser is any program the templates produce (`Code`, `RuleFn`), run with the error strategy, the
token stream and the predictor of the runtime.  The grammar it was made from is `grammar rules`, and
what trees belong to a grammar is said in `Verif/Gen/Spec.lean` without reference to the parser.
-/

namespace Antlr.GenProps
open Antlr ParserSpec ParserProps GenSpec Gen ErrorProps TokenSpec ParserView Prediction
  PredictionProps

/-- A parse of rule `r` with precedence `q` that began at token `n`: the context returned is the root
of a tree in the heap that belongs to the grammar (so it has no error node), its tokens are those
from `n` up to the place where the stream stands now, in order and each once, except that EOF, where
the stream stops, may have been matched several times. -/
def Parsed {I : Type} [TokStream I] (G : Grammar) (T : Nat → Tok) (V : I → Nat → Prop) (r : Nat) (q : Int)
    (n : Nat) (p p' : P I) (root : Option Nat) : Prop :=
  ∃ i node n' j, root = some i ∧
    Reads p'.heap (fun k => p.heap.length ≤ k ∧ k < p'.heap.length) p.ctx i node ∧
    Builds G r q node ∧
    tokens node = (List.range' n (n' - n)).map T ++ List.replicate j (T n') ∧
    n ≤ n' ∧ (∀ k, n ≤ k → k < n' → (T k).ttype ≠ TOKEN_EOF) ∧ (j ≠ 0 → (T n').ttype = TOKEN_EOF) ∧
    V p'.input n'

theorem consumes_shape {T : Nat → Tok} {n m : Nat} {l : List Tok} (h : Consumes T n l m) :
    n ≤ m ∧ ∃ j, l = (List.range' n (m - n)).map T ++ List.replicate j (T m) ∧
      (∀ k, n ≤ k → k < m → (T k).ttype ≠ TOKEN_EOF) ∧ (j ≠ 0 → (T m).ttype = TOKEN_EOF) := by
  induction h with
  | nil => exact ⟨Nat.le_refl _, 0, by simp, fun k h1 h2 => by omega, fun h => absurd rfl h⟩
  | @tok n l m hne _ ih =>
    obtain ⟨h1, j, h2, h3, h4⟩ := ih
    refine ⟨by omega, j, ?_, ?_, h4⟩
    · rw [h2, show m - n = (m - (n + 1)) + 1 by omega, List.range'_succ]
      rfl
    · intro k hk hk'
      by_cases e : k = n
      · rw [e]; exact hne
      · exact h3 k (by omega) hk'
  | @eof n l m he _ ih =>
    obtain ⟨h1, j, h2, h3, h4⟩ := ih
    have e : n = m := by
      apply Classical.byContradiction
      intro hc
      exact h3 n (Nat.le_refl _) (by omega) he
    subst e
    refine ⟨h1, j + 1, ?_, h3, fun _ => he⟩
    rw [h2]
    simp [List.replicate_succ]

section
set_option linter.unusedSectionVars false
variable {I S : Type} [TokStream I] {T : Nat → Tok} {V : I → Nat → Prop}

/-- What is needed of the predictor and of the code.  As long as the predictor's memory is in order
(`Inv`), it answers with alternatives that exist and keeps its memory in order; it leaves the stream
where it was; every block has an arm for every alternative of its decision. -/
structure Usable (C : Cfg I S) (V : I → Nat → Prop) (Inv : S → Prop) (width : Nat → Nat) : Prop where
  range : ∀ m d p σ k i' σ', Inv σ → C.predict m d p σ = some (.ok k, i', σ') → 1 ≤ k ∧ k ≤ width d
  keeps : ∀ m d p σ x i' σ', Inv σ → C.predict m d p σ = some (x, i', σ') → Inv σ'
  stays : ∀ m d p σ k i' σ' n, V p.input n → C.predict m d p σ = some (.ok k, i', σ') → V i' n
  rules : ∀ r ∈ C.rules, r.Fits width

theorem Usable.fair {C : Cfg I S} {Inv : S → Prop} {width : Nat → Nat} (h : Usable C V Inv width) :
    Fair (C.restrict width) V width where
  range m d p σ k i' σ' e := by
    simp only [Cfg.restrict, inRange, Option.bind_eq_some_iff] at e
    obtain ⟨⟨y, z⟩, -, e⟩ := e
    cases y with
    | error _ => simp at e
    | ok y =>
      dsimp only at e
      split at e
      · rename_i hy
        simp only [Option.some.injEq, Prod.mk.injEq, Except.ok.injEq] at e
        rw [← e.1]
        exact hy
      · simp at e
  keeps m d p σ k i' σ' n hv e := by
    simp only [Cfg.restrict, inRange, Option.bind_eq_some_iff] at e
    obtain ⟨x, e1, e⟩ := e
    have : x = (.ok k, i', σ') := by
      split at e
      · split at e
        · exact Option.some.inj e
        · simp at e
      · exact Option.some.inj e
    rw [this] at e1
    exact h.stays _ _ _ _ _ _ _ _ hv e1
  rules := h.rules

theorem parsed_of_called {C : Cfg I S} {p p' : P I} {n r i : Nat} {q : Int} (hb : p.buildTrees = true)
    (h : Called (grammar C.rules) T V r q p ⟨n, p.matchedEof, p.state⟩ p.ctx i p') :
    Parsed (grammar C.rules) T V r q n p p' (some i) := by
  obtain ⟨node, st', ⟨i', h', evs, rfl, h2, -, h4⟩, h5, h6⟩ := h
  obtain ⟨a1, j, a2, a3, a4⟩ := consumes_shape h6
  exact ⟨i, node, st'.pos, j, rfl, h4 hb, h5, a2, a1, a3, a4, h2⟩

/-- **C71** A parse that returns and has reported no error has built a tree of the grammar from the
tokens it passed: for every grammar, input, position, stream, prediction, user predicate and
error-free state of the parser. -/
theorem C71_tree (hv : IsView T V) {C : Cfg I S} {Inv : S → Prop} {width : Nat → Nat}
    (hu : Usable C V Inv width) (m r : Nat) (q : Int) (s s' : GS I S) (root : Option Nat) (n : Nat)
    (hi : Inv s.sim) (hp : Stands V s.es.p n) (hb : s.es.p.buildTrees = true) (hm : s.es.eh.mode = false)
    (h : runRule C m r q s = some (.ok root, s')) (he : s'.es.p.syntaxErrors = s.es.p.syntaxErrors) :
    Parsed (grammar C.rules) T V r q n s.es.p s'.es.p root := by
  have hs : Steady C Inv width := ⟨hu.range, hu.keeps⟩
  obtain ⟨e, -⟩ := (agree_all hs m).2.2.2.1 r q s hi
  rw [e] at h
  obtain ⟨i, rfl, hc⟩ := (all_ok hv hu.fair m).rule r q s s' _ _ root hp.ready hm he h
  exact parsed_of_called hb hc

/-- With the bail strategy every parse that returns `Ok` has. -/
theorem C71_bail (hv : IsView T V) {C : Cfg I S} {Inv : S → Prop} {width : Nat → Nat}
    (hu : Usable C V Inv width) (hbail : C.bail = true) (m r : Nat) (q : Int) (s s' : GS I S)
    (root : Option Nat) (n : Nat) (hi : Inv s.sim) (hp : Stands V s.es.p n)
    (hb : s.es.p.buildTrees = true) (hm : s.es.eh.mode = false)
    (h : runRule C m r q s = some (.ok root, s')) :
    Parsed (grammar C.rules) T V r q n s.es.p s'.es.p root :=
  C71_tree hv hu m r q s s' root n hi hp hb hm h ((still_all hbail m).2.2.2.1 r q s root s' h)

end

/-! ## The parser of the runtime -/

/-- The configuration of a generated parser: the simulator predicts. -/
structure Generated (C : Cfg CTS SimState) (M : Sim CTS) : Prop where
  predict : C.predict = M.predict
  sized : WordSized M.atn
  rules : ∀ r ∈ C.rules, r.Fits (widthOf M.atn)

theorem usable_real {C : Cfg CTS SimState} {M : Sim CTS} (h : Generated C M) (src : Source) (c : Int) :
    Usable C (CtsHas src c) (Used (I := CTS) M.atn) (widthOf M.atn) where
  range := (steady_sim h.predict h.sized).range
  keeps := (steady_sim h.predict h.sized).keeps
  stays m d p σ k i' σ' n hv e := by rw [h.predict] at e; exact has_predict hv e
  rules := h.rules

/-- **C71** The same for the whole runtime: a new parser on a `CommonTokenStream`, predicting with
`ParserATNSimulator` (predicates, precedence, all modes, DFA filled by any earlier parses), whose
first token is on the parser's channel.  If it counts no syntax error, the tree returned belongs to
the grammar and consists of the tokens on the channel from the first on.  In particular, if EOF is
among them, it consists of all of them. -/
theorem C71_runtime {C : Cfg CTS SimState} {M : Sim CTS} (hg : Generated C M) (src : Source) (c : Int)
    (hfirst : Visible src c 0) (σ : SimState) (hσ : Used (I := CTS) M.atn σ) (m r : Nat) (q : Int)
    (root : Option Nat) (s' : GS CTS SimState)
    (h : runRule C m r q ⟨⟨{}, P.new (CTS.withChannel src c)⟩, σ⟩ = some (.ok root, s'))
    (he : C.bail = true ∨ s'.es.p.syntaxErrors = 0) :
    Parsed (grammar C.rules) (seen src c) (CtsHas src c) r q 0 (P.new (CTS.withChannel src c)) s'.es.p root := by
  have hv := view_has src c hfirst
  have hu := usable_real hg src c
  have hp : Stands (CtsHas src c) (P.new (CTS.withChannel src c)) 0 := stands_new (has_start src c hfirst)
  rcases he with he | he
  · exact C71_bail hv hu he m r q _ s' root 0 hσ hp rfl rfl h
  · exact C71_tree hv hu m r q _ s' root 0 hσ hp rfl rfl h he

/-- Parsing leaves the shared DFAs in a state from which the next parse may start. -/
theorem C71_dfas {C : Cfg CTS SimState} {M : Sim CTS} (hg : Generated C M) (m r : Nat) (q : Int)
    (s s' : GS CTS SimState) (hσ : Used (I := CTS) M.atn s.sim) (x : Except PErr (Option Nat))
    (h : runRule C m r q s = some (x, s')) : Used (I := CTS) M.atn s'.sim :=
  ((agree_all (steady_sim hg.predict hg.sized) m).2.2.2.1 r q s hσ).2 x s' h

/-! ### Examples: tests/gen/visitorcalcparser.rs -/

open Calc

theorem calc_sized : WordSized Calc.atn := by
  have : Calc.atn.states.all (fun st => st.transitions.length < 2 ^ 64) = true := by decide +kernel
  intro st hst
  simpa using List.all_eq_true.1 this st hst

theorem calc_widths : widthOf Calc.atn 0 = 2 ∧ widthOf Calc.atn 1 = 2 := by decide +kernel

theorem calc_generated (bail : Bool) : Generated (cfg CTS bail) (sim CTS) := by
  refine ⟨rfl, calc_sized, ?_⟩
  intro r hr
  change r ∈ Calc.rules at hr
  show r.Fits (widthOf Calc.atn)
  simp only [Calc.rules, List.mem_cons, List.not_mem_nil, or_false] at hr
  rcases hr with rfl | rfl
  · simp [RuleFn.Fits, selFits, Code.Fits]
  · simp [RuleFn.Fits, selFits, Code.Fits]

theorem calc_used (rs : List Report) : Used (I := CTS) Calc.atn ⟨(emptyDfas Calc.atn).getD [], rs⟩ := by
  have : (emptyDfas Calc.atn).isSome = true := by decide +kernel
  obtain ⟨ds, hd⟩ := Option.isSome_iff_exists.1 this
  rw [hd]
  exact .new hd

/-- What a parse of these token types by the calculator returns: whether it is `Ok`, the number of
syntax errors, and rule, label, parent and number of children of the contexts. -/
def calcRun (bail : Bool) (ts : List Nat) :
    Option (Option (Option Nat) × Nat × List (Nat × Option Nat × Option Nat × Nat)) :=
  (runRule (cfg CTS bail) 60 0 0 (start ts)).map fun x =>
    (x.1.toOption, x.2.es.p.syntaxErrors, x.2.es.p.heap.map fun c => (c.rule, c.label, c.parent, c.children.length))

set_option synthInstance.maxSize 2000 in
/-- `1 + 1 * 1` is parsed without errors, by the default and by the bail strategy; the product
(context 6) is the right operand of the sum (context 3). -/
theorem calc_run : ∀ bail, calcRun bail [1, 4, 1, 2, 1] = some (some (some 0), 0,
    [(0, none, none, 2), (1, none, some 0, 0), (1, some 0, some 3, 1), (1, some 2, some 0, 3), (1, none, some 3, 0),
      (1, some 0, some 6, 1), (1, some 1, some 3, 3), (1, none, some 6, 0), (1, some 0, some 6, 1)]) := by
  intro bail
  cases bail <;> decide +kernel

/-- `1 * + 1`: the default strategy returns a tree and counts an error, the bail strategy returns
`Err`.  So the hypotheses of C71 do distinguish inputs. -/
theorem calc_wrong : (calcRun false [1, 2, 4, 1]).map (fun x => (x.1, x.2.1)) = some (some (some 0), 1) ∧
    (calcRun true [1, 2, 4, 1]).map (fun x => x.1) = some none := by
  decide +kernel

/-- C71 applied: the tree of `1 + 1 * 1` belongs to the grammar. -/
example (bail : Bool) : ∃ s', Parsed (grammar Calc.rules) (seen (exSource [1, 4, 1, 2, 1]) 0)
    (CtsHas (exSource [1, 4, 1, 2, 1]) 0) 0 0 0 (P.new (CTS.withChannel (exSource [1, 4, 1, 2, 1]) 0)) s' (some 0) := by
  have h := calc_run bail
  unfold calcRun at h
  obtain ⟨⟨x, s'⟩, h1, h2⟩ := Option.map_eq_some_iff.1 h
  simp only [Prod.mk.injEq] at h2
  obtain ⟨h2, h3, -⟩ := h2
  obtain rfl : x = .ok (some 0) := by
    cases x with
    | error e => simp [Except.toOption] at h2
    | ok x => simpa [Except.toOption] using h2
  have hv : Visible (exSource [1, 4, 1, 2, 1]) 0 0 := by decide
  exact ⟨_, C71_runtime (calc_generated bail) (exSource [1, 4, 1, 2, 1]) 0 hv (start [1, 4, 1, 2, 1]).sim (calc_used [])
    60 0 0 _ s' h1 (.inr h3)⟩

end Antlr.GenProps
