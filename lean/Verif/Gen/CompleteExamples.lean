import Verif.Gen.CompleteProps
import Verif.Gen.Csv
import Verif.Gen.Check
import Verif.Prediction.Check

/-! # C72 applied to parsers of the repository -/

namespace Antlr.GenProps
open Antlr ParserSpec ParserProps GenSpec Gen ErrorProps TokenSpec ParserView Prediction PredictionProps
  PredictionSpec LL1Spec LL1Props ParserLemmas

/-! ## Checks -/

def endB (atn : ATN) (r b : Nat) : Bool :=
  (atn.states[b]?).any fun st => decide (st.stateType = .ruleStop) && st.ruleIndex == r

theorem endB_iff {atn : ATN} {r : Nat} : (fun b => endB atn r b = true) = EndOf atn r := by
  funext b
  simp [endB, EndOf, Option.any_eq_true]

def uncalledB (atn : ATN) (r : Nat) : Bool :=
  atn.states.all fun st => decide (st.stateType ≠ .ruleStop) || st.ruleIndex != r || st.transitions.isEmpty

theorem uncalled_of {atn : ATN} {r : Nat} (h : uncalledB atn r = true) : Uncalled atn r := by
  intro a st h1 h2 h3
  have := List.all_eq_true.1 h st (List.mem_of_getElem? h1)
  simpa [h2, h3] using this

/-- No edge is labelled `EPSILON`. -/
def noEpsB (atn : ATN) : Bool :=
  atn.states.all fun st => st.transitions.all fun tr => match tr with
    | .atom _ l => l != TOKEN_EPSILON
    | .range _ a b => decide (TOKEN_EPSILON < a) || decide (b < TOKEN_EPSILON)
    | .set _ s => !decide (IntervalSpec.Mem s.intervals TOKEN_EPSILON)
    | _ => true

theorem wf_of {atn : ATN} (ha : Plain atn) (h : noEpsB atn = true) : WFAtn atn where
  small := ha.small
  target s st tr h1 h2 := ha.targets s st h1 tr h2
  follow s st t f r p h1 h2 := ha.follow s st h1 t f r p h2
  sorted s st t set h1 h2 := ha.sets s st h1 _ h2
  noEpsilon s st tr h1 h2 := by
    have := List.all_eq_true.1 (List.all_eq_true.1 h st (List.mem_of_getElem? h1)) tr h2
    cases tr with
    | atom t l =>
      simp only [bne_iff_ne, ne_eq] at this
      exact fun h => this h.symm
    | range t a b =>
      simp only [Bool.or_eq_true, decide_eq_true_eq] at this
      intro ⟨h3, h4⟩
      omega
    | set t l =>
      simp only [Bool.not_eq_true', decide_eq_false_iff_not] at this
      exact this
    | notSet t l => exact fun h => absurd h.1 (by decide)
    | wildcard t => exact fun h => absurd h.1 (by decide)
    | _ => exact id
  sameRule s st tr st' h1 h2 h3 h4 h5 := ha.sameRule s st h1 h2 tr h3 (by rintro _ _ _ _ rfl; exact h4) st' h5
  followRule s st t f r p st' h1 h2 h3 h4 := ha.followRule s st h1 t f r p h3 st' h4

/-- Calls lead to rules of lower rank. -/
def rankedB (atn : ATN) (rank : List Nat) : Bool :=
  atn.states.all fun st => st.transitions.all fun tr => match tr with
    | .rule t _ _ _ => (atn.states[t]?).all fun tst => decide (rank.getD tst.ruleIndex 0 < rank.getD st.ruleIndex 0)
    | _ => true

theorem noLeft_of {atn : ATN} (ha : Plain atn) {rank : List Nat} (h : rankedB atn rank = true) : NoLeftRecursion atn := by
  have hc : ∀ (s : Nat) (st : ATNState), atn.states[s]? = some st → ∀ t f r p, Trans.rule t f r p ∈ st.transitions →
      ∀ tst, atn.states[t]? = some tst → rank.getD tst.ruleIndex 0 < rank.getD st.ruleIndex 0 := by
    intro s st hs t f r p ht tst htst
    have := List.all_eq_true.1 (List.all_eq_true.1 h st (List.mem_of_getElem? hs)) _ ht
    simpa [htst] using this
  rintro ⟨e, est, s, st, k, t, f, r, p, tst, -, he, hr, hs, -, ht, htst, heq⟩
  have inv : ∀ q, Reach atn (e, []) q → ∀ x ∈ q.1 :: q.2, ∀ st, atn.states[x]? = some st →
      rank.getD st.ruleIndex 0 ≤ rank.getD est.ruleIndex 0 := by
    intro q hq
    induction hq with
    | refl =>
      intro x hx st hst
      simp only [List.mem_singleton] at hx
      subst hx
      rw [he, Option.some.injEq] at hst
      subst hst; exact Nat.le_refl _
    | tail _ hs ih =>
      intro x hx st' hst'
      cases hs with
      | @free s k st tr h1 h2 h3 h4 =>
        simp only [List.mem_cons] at hx
        rcases hx with rfl | hx
        · rw [ha.sameRule s st h1 h2 tr h3 (by rintro _ _ _ _ rfl; exact h4) st' hst']
          exact ih s (by simp) st h1
        · exact ih x (by simp [hx]) st' hst'
      | @call s k st t f r p h1 h2 h3 =>
        have hst := ih s (by simp) st h1
        simp only [List.mem_cons] at hx
        rcases hx with rfl | rfl | hx
        · have := hc s st h1 _ _ _ _ h3 st' hst'
          omega
        · rw [ha.followRule s st h1 _ _ _ _ h3 st' hst']
          exact hst
        · exact ih x (by simp [hx]) st' hst'
      | @ret s f k st h1 h2 => exact ih x (by simp only [List.mem_cons] at hx ⊢; exact .inr hx) st' hst'
  have h1 := inv _ hr s (by simp) st hs
  have h2 := hc s st hs t f r p ht tst htst
  rw [heq] at h2
  omega

def narrowB (atn : ATN) : Bool :=
  atn.states.all fun st => st.transitions.all fun tr => match tr with
    | .range _ a b => decide (b ≤ a + 1)
    | .set _ l => l.intervals.all fun r => decide (r.b ≤ r.a + 1)
    | .notSet .. => false
    | .wildcard _ => decide (atn.maxTokenType ≤ 2)
    | _ => true

theorem narrow_of {atn : ATN} (h : narrowB atn = true) : Narrow atn := by
  intro s st tr h1 h2
  have := List.all_eq_true.1 (List.all_eq_true.1 h st (List.mem_of_getElem? h1)) tr h2
  cases tr <;> simp_all

theorem sized_of {atn : ATN} (h : atn.states.all (fun st => st.transitions.length < 2 ^ 64) = true) : WordSized atn := by
  intro st hst
  simpa using List.all_eq_true.1 h st hst

/-! ## tests/gen/csvparser.rs -/

def csvTypes : List Int := [TOKEN_EOF, 1, 2, 3, 4, 5, 6]

theorem csv_plain : Plain Csv.atn := plain_of_plainB (by decide +kernel)

theorem csv_mirror : Mirror Csv.atn (· ∈ csvTypes) (Tested Csv.atn (EndOf Csv.atn 0) (· ∈ csvTypes)) Csv.rules := by
  have h : rulesB Csv.atn csvTypes (testedB Csv.atn (endB Csv.atn 0) csvTypes) 0 Csv.rules = true := by decide +kernel
  refine mirror_of_rulesB (fun x hx => hx) (fun ch a hc => ?_) h
  have := tested_of_testedB csv_plain hc
  rwa [endB_iff] at this

theorem csv_sync : ∃ F, ∀ fuel, F ≤ fuel → ∀ a st, Csv.atn.states[a]? = some st → Foresees Csv.atn fuel a :=
  C72_sync (wf_of csv_plain (by decide +kernel)) (noLeft_of csv_plain (rank := [3, 2, 1, 0]) (by decide +kernel))
    (narrow_of (by decide +kernel))

theorem csv_generated (bail : Bool) (fuel : Nat) : Generated (Csv.cfg CTS bail fuel) (Csv.sim CTS) := by
  refine ⟨rfl, sized_of (by decide +kernel), ?_⟩
  intro r hr
  change r ∈ Csv.rules at hr
  simp only [Csv.rules, List.mem_cons, List.not_mem_nil, or_false] at hr
  rcases hr with rfl | rfl | rfl | rfl <;> simp [RuleFn.Fits, selFits, Code.Fits, allFit, Choice.Fits]

theorem csv_used (rs : List Report) : Used (I := CTS) Csv.atn ⟨(emptyDfas Csv.atn).getD [], rs⟩ := by
  have : (emptyDfas Csv.atn).isSome = true := by decide +kernel
  obtain ⟨ds, hd⟩ := Option.isSome_iff_exists.1 this
  rw [hd]
  exact .new hd

theorem csv_seen {src : Source} (h : ∀ t ∈ src.pre, t.ttype ∈ csvTypes ∧ t.ttype ≠ 0) (c : Int) (n : Nat) :
    (seen src c n).ttype ∈ csvTypes ∧ (seen src c n).ttype ≠ 0 := by
  have h1 : (seen src c n).ttype = (src.next (visPos src c n)).ttype := rfl
  rw [h1]
  unfold Source.next
  cases hp : src.pre[visPos src c n]? with
  | none => simp only [Option.getD_none, src.eof_eq]; decide
  | some t => exact h t (List.mem_of_getElem? hp)

/-- C72 applied: the CSV parser with the bail strategy accepts exactly the sentences of the CSV grammar,
whatever the lexer returns. -/
theorem csv_bail (src : Source) (c : Int) (hfirst : Visible src c 0)
    (hty : ∀ t ∈ src.pre, t.ttype ∈ csvTypes ∧ t.ttype ≠ 0) (fuel : Nat) :
    (∃ m root s', runRule (Csv.cfg CTS true fuel) m 0 0
        ⟨⟨{}, P.new (CTS.withChannel src c)⟩, ⟨(emptyDfas Csv.atn).getD [], []⟩⟩ = some (.ok root, s') ∧
      s'.es.p.syntaxErrors = 0 ∧ AtEof s'.es.p) ↔ Sentence (grammar Csv.rules) (seen src c) 0 0 0 :=
  C72_ll1_iff (csv_generated true fuel) src c hfirst _ (csv_used []) (csv_seen hty c) csv_plain (.inl rfl) csv_mirror
    (by show Csv.rules.length = Csv.atn.ruleToStartState.length; decide +kernel) 0

/-- And with the default strategy, if `LL1Analyzer` has enough fuel. -/
theorem csv_default : ∃ F, ∀ fuel, F ≤ fuel → ∀ (src : Source) (c : Int), Visible src c 0 →
    (∀ t ∈ src.pre, t.ttype ∈ csvTypes ∧ t.ttype ≠ 0) →
    ((∃ m root s', runRule (Csv.cfg CTS false fuel) m 0 0
        ⟨⟨{}, P.new (CTS.withChannel src c)⟩, ⟨(emptyDfas Csv.atn).getD [], []⟩⟩ = some (.ok root, s') ∧
      s'.es.p.syntaxErrors = 0 ∧ AtEof s'.es.p) ↔ Sentence (grammar Csv.rules) (seen src c) 0 0 0) := by
  obtain ⟨F, hF⟩ := csv_sync
  refine ⟨F, fun fuel hf src c hfirst hty => ?_⟩
  exact C72_ll1_iff (csv_generated false fuel) src c hfirst _ (csv_used []) (csv_seen hty c) csv_plain
    (.inr ⟨rfl, hF fuel hf⟩) csv_mirror
    (by show Csv.rules.length = Csv.atn.ruleToStartState.length; decide +kernel) 0

def csvRun (bail : Bool) (ts : List Nat) : Option (Option (Option Nat) × Nat × Option Int) :=
  (runRule (Csv.cfg CTS bail 60) 60 0 0
      ⟨⟨{}, P.new (CTS.withChannel (exSource ts) 0)⟩, ⟨(emptyDfas Csv.atn).getD [], []⟩⟩).map fun x =>
    (x.1.toOption, x.2.es.p.syntaxErrors, (x.2.es.p.la 1).map (·.1))

set_option synthInstance.maxSize 2000 in
/-- Two lines with two fields each, the second field of the second line a string. -/
theorem csv_run : ∀ bail, csvRun bail [5, 1, 5, 3, 5, 1, 6, 2, 3] = some (some (some 0), 0, some TOKEN_EOF) := by
  intro bail
  cases bail <;> decide +kernel

set_option synthInstance.maxSize 2000 in
/-- Two texts in a row. -/
theorem csv_wrong : csvRun true [5, 1, 5, 3, 5, 5, 3] = some (none, 0, some 5) ∧
    (csvRun false [5, 1, 5, 3, 5, 5, 3]).map (fun x => (x.1, x.2.1)) = some (some (some 0), 1) := by
  decide +kernel

theorem ex_types {ts : List Nat} {toks : List Int} (h : ∀ t ∈ ts, (t : Int) ∈ toks ∧ t ≠ 0) :
    ∀ t ∈ (exSource ts).pre, t.ttype ∈ toks ∧ t.ttype ≠ 0 := by
  intro t ht
  simp only [exSource, List.mem_map] at ht
  obtain ⟨⟨a, i⟩, ha, rfl⟩ := ht
  have := h a (List.fst_mem_of_mem_zipIdx ha)
  exact ⟨this.1, by simpa [exTok] using this.2⟩

/-- So there are sentences, and by C72 every parse of these tokens with enough fuel accepts them. -/
theorem csv_sentence : Sentence (grammar Csv.rules) (seen (exSource [5, 1, 5, 3, 5, 1, 6, 2, 3]) 0) 0 0 0 := by
  refine (csv_bail (exSource [5, 1, 5, 3, 5, 1, 6, 2, 3]) 0 (by decide) (ex_types (by decide)) 60).1 ?_
  have h := csv_run true
  unfold csvRun at h
  obtain ⟨⟨x, s'⟩, h1, h2⟩ := Option.map_eq_some_iff.1 h
  simp only [Prod.mk.injEq] at h2
  obtain ⟨h2, h3, h4⟩ := h2
  obtain ⟨⟨_, p'⟩, h4, rfl⟩ := Option.map_eq_some_iff.1 h4
  obtain rfl : x = .ok (some 0) := by
    cases x with
    | error e => simp [Except.toOption] at h2
    | ok x => simpa [Except.toOption] using h2
  exact ⟨60, _, s', h1, h3, p', h4⟩

example (fuel : Nat) : ∃ m0 root s', (∀ m, m0 ≤ m → runRule (Csv.cfg CTS true fuel) m 0 0
      ⟨⟨{}, P.new (CTS.withChannel (exSource [5, 1, 5, 3, 5, 1, 6, 2, 3]) 0)⟩, ⟨(emptyDfas Csv.atn).getD [], []⟩⟩ =
        some (.ok root, s')) ∧ s'.es.p.syntaxErrors = 0 ∧ AtEof s'.es.p := by
  have hv : Visible (exSource [5, 1, 5, 3, 5, 1, 6, 2, 3]) 0 0 := by decide
  exact C72_ll1 (view_has _ 0 hv) (C := Csv.cfg CTS true fuel) (csv_seen (ex_types (by decide)) 0) csv_plain (.inl rfl)
    csv_mirror (by show Csv.rules.length = Csv.atn.ruleToStartState.length; decide +kernel) 0 _ 0
    (stands_new (has_start _ 0 hv)) rfl rfl csv_sentence

/-! ## tests/gen/referencetoatnparser.rs -/

def refTypes : List Int := [TOKEN_EOF, 1, 2, 3]

theorem ref_plain : Plain RefAtn.atn := plain_of_plainB (by decide +kernel)

theorem ref_mirror :
    Mirror RefAtn.atn (· ∈ refTypes) (Chosen RefAtn.atn (EndOf RefAtn.atn 0) (· ∈ refTypes)) RefAtn.rules := by
  have h : rulesB RefAtn.atn refTypes (chosenB RefAtn.atn (endB RefAtn.atn 0) refTypes) 0 RefAtn.rules = true := by
    decide +kernel
  refine mirror_of_rulesB (fun x hx => hx) (fun ch a hc => ?_) h
  have := chosen_of_chosenB ref_plain hc
  rwa [endB_iff] at this

def refStart (ts : List Nat) : GS CTS SimState :=
  ⟨⟨{}, P.new (CTS.withChannel (exSource ts) 0)⟩, ⟨(emptyDfas RefAtn.atn).getD [], []⟩⟩

def refRun (bail : Bool) (ts : List Nat) :
    Option (Option (Option Nat) × Nat × Option Int × List Bool × List Nat) :=
  (runRule (RefAtn.cfg CTS bail 60) 60 0 0 (refStart ts)).map fun x =>
    (x.1.toOption, x.2.es.p.syntaxErrors, (x.2.es.p.la 1).map (·.1), x.2.sim.reports.map (fun r => match r with
      | .fullContext .. => true | _ => false), x.2.sim.dfas.map fun d => d.states.length)

set_option synthInstance.maxSize 2000 in
theorem ref_run : ∀ bail, refRun bail [1, 2, 1] = some (some (some 0), 0, some TOKEN_EOF, [], [5, 1]) := by
  intro bail
  cases bail <;> decide +kernel

theorem ref_generated (bail : Bool) (fuel : Nat) : Generated (RefAtn.cfg CTS bail fuel) (RefAtn.sim CTS) := by
  refine ⟨rfl, sized_of (by decide +kernel), ?_⟩
  intro r hr
  change r ∈ RefAtn.rules at hr
  simp only [RefAtn.rules, List.mem_cons, List.not_mem_nil, or_false] at hr
  subst hr
  simp [RuleFn.Fits, selFits, Code.Fits, allFit]

theorem ref_dfas : ∃ ds, emptyDfas RefAtn.atn = some ds :=
  Option.isSome_iff_exists.1 (by decide +kernel)

theorem ref_seen {src : Source} (h : ∀ t ∈ src.pre, t.ttype ∈ refTypes ∧ t.ttype ≠ 0) (c : Int) (n : Nat) :
    (seen src c n).ttype ∈ refTypes ∧ (seen src c n).ttype ≠ 0 := by
  have h1 : (seen src c n).ttype = (src.next (visPos src c n)).ttype := rfl
  rw [h1]
  unfold Source.next
  cases hp : src.pre[visPos src c n]? with
  | none => simp only [Option.getD_none, src.eof_eq]; decide
  | some t => exact h t (List.mem_of_getElem? hp)

/-- C72 applied to `ID ATN ID`: the run gives a tree by C71; then the theorem tells what the run returns. -/
example : ∃ s', runRule (RefAtn.cfg CTS true 60) 60 0 0 (refStart [1, 2, 1]) = some (.ok (some 0), s') ∧
    Sentence (grammar RefAtn.rules) (seen (exSource [1, 2, 1]) 0) 0 0 0 ∧
    ∃ root, (Except.ok (some 0) : Except PErr (Option Nat)) = .ok root ∧ s'.es.p.syntaxErrors = 0 ∧ AtEof s'.es.p ∧
      Learned RefAtn.atn s'.sim := by
  obtain ⟨ds, hd⟩ := ref_dfas
  have h := ref_run true
  unfold refRun at h
  obtain ⟨⟨x, s'⟩, h1, h2⟩ := Option.map_eq_some_iff.1 h
  simp only [Prod.mk.injEq] at h2
  obtain ⟨h2, h3, h4, h5, h6⟩ := h2
  obtain ⟨⟨_, p'⟩, h4, rfl⟩ := Option.map_eq_some_iff.1 h4
  obtain rfl : x = .ok (some 0) := by
    cases x with
    | error e => simp [Except.toOption] at h2
    | ok x => simpa [Except.toOption] using h2
  have hv : Visible (exSource [1, 2, 1]) 0 0 := by decide
  have hu : Used (I := CTS) RefAtn.atn (refStart [1, 2, 1]).sim := by
    simp only [refStart, hd]
    exact .new hd
  have hs : Sentence (grammar RefAtn.rules) (seen (exSource [1, 2, 1]) 0) 0 0 0 := by
    obtain ⟨i, node, n', j, -, -, e1, e2, e3, e4, e5, e6⟩ :=
      C71_runtime (ref_generated true 60) (exSource [1, 2, 1]) 0 hv _ hu 60 0 0 _ s' h1 (.inr h3)
    refine ⟨node, n', e1, ⟨j, e2⟩, e3, e4, ?_⟩
    obtain ⟨i', e7, -⟩ := la_ok (view_has _ 0 hv) e6
    rw [e7] at h4
    simp only [Option.some.injEq, Prod.mk.injEq] at h4
    exact h4.1
  refine ⟨s', h1, hs, ?_⟩
  refine C72_predict_partial (C := RefAtn.cfg CTS true 60) (M := RefAtn.sim CTS) rfl (by decide) (exSource [1, 2, 1]) 0 hv
    ?_ (ref_seen (ex_types (by decide)) 0) ref_plain (.inl rfl) ref_mirror
    (by show RefAtn.rules.length = RefAtn.atn.ruleToStartState.length; decide +kernel) (uncalled_of (by decide +kernel)) 0
    (refStart [1, 2, 1]) 0 (stands_new (has_start _ 0 hv)) rfl rfl ?_ hs 60 _ s' h1 ?_ ?_
  · intro n
    have e : (tok (exSource [1, 2, 1]) n).ttype = ((exSource [1, 2, 1]).next n).ttype := rfl
    rw [e]
    unfold Source.next
    cases hp : (exSource [1, 2, 1]).pre[n]? with
    | none => simp only [Option.getD_none, Source.eof_eq]; decide
    | some t =>
      have : ∀ t ∈ (exSource [1, 2, 1]).pre, -1 ≤ t.ttype ∧ t.ttype < 2 ^ 63 := by decide
      exact this t (List.mem_of_getElem? hp)
  · simp only [refStart, hd]
    exact C72_learned_new hd []
  · intro a b l hm
    rw [List.map_eq_nil_iff.1 h5] at hm
    exact absurd hm (by simp)
  · intro d hd
    have : d.states.length ∈ s'.sim.dfas.map (fun d => d.states.length) := List.mem_map.2 ⟨d, hd, rfl⟩
    rw [h6] at this
    simp only [List.mem_cons, List.not_mem_nil, or_false] at this
    have h64 : ERROR_DFA_STATE_REF = 18446744073709551615 := rfl
    omega

end Antlr.GenProps
