import Verif.Deserializer.Edges

/-!
# C59, C60: a serialized automaton is read back; return edges of rules
-/

namespace Antlr.DeserialProps
open Antlr SerialSpec IntervalSpec Deserial

/-- What the deserializer makes of a well-formed automaton. -/
noncomputable def result (src : Src) : ATN where
  grammarType := src.grammarType
  maxTokenType := src.maxTokenType
  ruleToStartState := src.rules.map (·.1)
  ruleToTokenType := if src.grammarType = .lexer then src.rules.map (·.2) else []
  ruleToStopState := (List.range src.rules.length).map (stopOf src)
  modeToStartState := src.modes
  decisionToState := src.decisions
  lexerActions := src.actions
  states := build (state6 src) src.states

/-- The ATN between two phases. -/
def between (src : Src) (states : List ATNState) : ATN where
  grammarType := src.grammarType
  maxTokenType := src.maxTokenType
  ruleToStartState := src.rules.map (·.1)
  ruleToTokenType := if src.grammarType = .lexer then src.rules.map (·.2) else []
  ruleToStopState := (List.range src.rules.length).map (stopOf src)
  modeToStartState := src.modes
  states := states

theorem decode_serialize (src : Src) :
    decodeChars (serialize src) = 1 :: ((uuidWords ++ body src).map norm) := by
  simp only [serialize, decodeChars, List.map_cons, List.map_map]
  congr 1
  apply List.map_congr_left
  intro v _
  exact decode_charOf v

theorem reads_uuid (rest : List Int) : ∃ u, checkUuid (uuidWords.map norm ++ rest) = some (u, rest) := by
  have e1 : (uuidWords.map norm ++ rest).take 8 = uuidWords.map norm := List.take_left' (by decide)
  have e2 : (uuidWords.map norm ++ rest).drop 8 = rest := List.drop_left' (by decide)
  refine ⟨((uuidWords.map norm).flatMap u16Bytes).reverse, ?_⟩
  simp only [checkUuid, e1, e2]
  rw [if_pos (by decide +kernel)]

theorem reads_atn {src : Src} (h : WF src) :
    ReadsAs readAtn [grammarWord src.grammarType, (src.maxTokenType : Int)]
      { grammarType := src.grammarType, maxTokenType := src.maxTokenType } := by
  intro rest
  have h1 : Fits (src.maxTokenType : Int) := h.fits _ (by simp [front])
  cases hg : src.grammarType <;>
    simp [grammarWord, readAtn, next, norm_fits h1, norm_fits (v := 0) (by simp [Fits]), norm_fits (v := 1) (by simp [Fits])]

theorem deserialize_serialize {src : Src} (h : WF src) : deserialize (serialize src) = some (result src) := by
  have e : body src = [grammarWord src.grammarType, (src.maxTokenType : Int)] ++
      (statesWords src.states ++ (rulesWords src.grammarType src.rules ++ (counted src.modes ++
        (setsWords word16 (smallSets src) ++ (setsWords word32 (bigSets src) ++ (edgesWords src ++
          (counted src.decisions ++ actionsWords src))))))) := by
    simp [body, front, back]
  simp only [deserialize, decode_serialize, readAll, next, Option.bind_some]
  rw [show checkVersion (1 + 2) = some () from rfl]
  simp only [Option.bind_some, List.map_append]
  obtain ⟨u, hu⟩ := reads_uuid ((body src).map norm)
  rw [hu]
  simp only [Option.bind_some]
  rw [e]
  simp only [List.map_append]
  rw [reads_atn h]
  simp only [Option.bind_some]
  rw [reads_states fun v hv => h.fits v (by simp [front, hv])]
  simp only [Option.bind_some]
  rw [reads_rules h]
  simp only [Option.bind_some]
  have h1 := reads_counted src.modes fun v hv => h.fits v (by simp [front, hv])
  have h1' : ∀ rest, readModes ((counted src.modes).map norm ++ rest) = some (src.modes, rest) := h1
  rw [h1']
  simp only [Option.bind_some]
  rw [reads_small h]
  simp only [Option.bind_some]
  rw [reads_big h]
  simp only [Option.bind_some]
  have ht : ((smallSets src).map fun l => (⟨l, false⟩ : IntervalSet)) ++ ((bigSets src).map fun l => ⟨l, false⟩) =
      table src := by simp [table]
  rw [ht]
  obtain ⟨n, hn1, hn2⟩ := Option.bind_eq_some_iff.mp
    (reads_edges h (List.map norm (counted src.decisions) ++ List.map norm (actionsWords src)))
  have hr := returns_added h (atn := between src (build (state3 src) src.states)) rfl rfl rfl
  have hE : readEdges (between src (build (state2 src) src.states)) (table src)
      (List.map norm (edgesWords src) ++ (List.map norm (counted src.decisions) ++ List.map norm (actionsWords src))) =
      some (between src (build (state4 src) src.states),
        List.map norm (counted src.decisions) ++ List.map norm (actionsWords src)) := by
    simp only [readEdges]
    rw [hn1]
    simp only [Option.bind_some]
    rw [hn2]
    have e3 : ({ between src (build (state2 src) src.states) with states := build (state3 src) src.states } : ATN) =
      between src (build (state3 src) src.states) := rfl
    simp only [Option.bind_some]
    rw [show (between src (build (state2 src) src.states)).states = build (state2 src) src.states from rfl, edges_added h]
    simp only [Option.bind_some, e3, hr.1, hr.2, Option.map_some]
    rfl
  rw [show ({ grammarType := src.grammarType, maxTokenType := src.maxTokenType, ruleToStartState := src.rules.map (·.1), ruleToTokenType := if src.grammarType = .lexer then src.rules.map (·.2) else [], ruleToStopState := (List.range src.rules.length).map (stopOf src), modeToStartState := src.modes, states := build (state2 src) src.states } : ATN) = between src (build (state2 src) src.states) from rfl, hE]
  simp only [Option.bind_some]
  rw [reads_decisions h rfl]
  simp only [Option.bind_some]
  cases hg : src.grammarType with
  | lexer =>
    have ha : actionsWords src = (src.actions.length : Int) :: src.actions.flatMap actionWords := by
      simp [actionsWords, hg]
    have h2 := reads_actions (l := src.actions)
      (fun v hv => h.fits v (by simp only [back, ha, List.mem_append]; exact .inr (.inr hv))) h.actions []
    rw [List.append_nil] at h2
    simp only [show (between src (build (state4 src) src.states)).grammarType = .lexer from hg, if_true, ha, h2,
      Option.map_some, Option.bind_some]
    refine (precedence_marked h rfl rfl).trans ?_
    simp [result, between, hg]
  | parser =>
    have h3 := h.parserActions hg
    simp only [show (between src (build (state4 src) src.states)).grammarType = .parser from hg, reduceCtorEq,
      if_false, Option.bind_some]
    refine (precedence_marked h rfl rfl).trans ?_
    simp [result, between, hg, h3]

theorem result_get {src : Src} {i : Nat} {s : SState} {a : ATNState} (hs : src.states[i]? = some s)
    (ha : (result src).states[i]? = some a) : a = state6 src i s := by
  simp only [result, build_get, hs, Option.map_some, Option.some.injEq] at ha
  exact ha.symm

theorem result_described {src : Src} (h : WF src) : Described src (result src) where
  grammarType := rfl
  maxTokenType := rfl
  starts := rfl
  tokenTypes := rfl
  stops := rfl
  modes := rfl
  decisions := rfl
  actions := rfl
  length := build_length _ _
  states := by
    intro i s a hs ha
    rw [result_get hs ha]
    have hok : EpsOk (state4 src i s) := addAll_epsOk _ _ rfl
    obtain ⟨e, ts, hk⟩ := state4_keeps src i s
    refine ⟨?_, ?_, rfl, hok⟩
    · simp only [state6, withType, hk]; rfl
    · simp only [state6, withType, hk]; rfl
  edges := by
    intro i s a hs ha hk
    rw [result_get hs ha]
    simp only [state6, withType, state4_other h hs hk]
    rfl

theorem result_returns {src : Src} (h : WF src) : Returns src (result src) where
  silent := by
    intro i s a hs ha hk t ht
    rw [result_get hs ha] at ht
    have hmem := List.mem_of_getElem? hs
    have ht : t ∈ (addAll ((rets src).filter (·.1 == i)) (state3 src i s)).transitions := ht
    rcases mem_addAll ht with h1 | h1
    · have h1 : t ∈ s.edges := h1
      rw [h.stopEdges s hmem hk] at h1
      cases h1
    · obtain ⟨u, hu, rfl⟩ := List.mem_map.mp h1
      simp only [List.mem_filter, beq_iff_eq] at hu
      obtain ⟨hu, hi⟩ := hu
      obtain ⟨c, hc, target, follow, ri, p, hr, q, hq, rfl⟩ := mem_rets hu
      have hlt := call_rule h hc hr hq
      simp only at hi
      have hrn : ruleNumber q = ruleNumber s := by
        obtain ⟨x, hx, _, hxr⟩ := stopOf_spec h hlt
        rw [hi, hs] at hx; cases hx
        exact hxr.symm
      refine ⟨follow, p, ⟨c, hc, target, ri, hr, q, hq, hrn⟩, _, rfl, ?_, ?_⟩
      · rw [hrn, ← lrOf_iff]
        split
        · simp_all
        · rename_i hn
          simp only [hn, iff_false]
          omega
      · rw [hrn]
        split
        · exact .inl rfl
        · exact .inr rfl
  all := by
    intro i s a hs ha hk f p hc
    rw [result_get hs ha]
    obtain ⟨c, hc, target, ri, hr, q, hq, hrn⟩ := hc
    have h1 := mem_rets' hc hr hq
    have hi : stopOf src (ruleNumber q) = i := (stop_unique h hs hk hrn.symm).symm
    exact addAll_target (l := (rets src).filter (·.1 == i)) (state3 src i s)
      (List.mem_map.mpr ⟨_, List.mem_filter.mpr ⟨h1, by simpa using hi⟩, rfl⟩)
  once := by
    intro i s a hs ha hk
    rw [result_get hs ha]
    have he : (state3 src i s).transitions = [] := h.stopEdges s (List.mem_of_getElem? hs) hk
    refine addAll_nodup (state3 src i s) (by rw [he]; exact List.nodup_nil) (by rw [he]; simp) ?_
    intro u hu
    obtain ⟨c, hc, target, follow, ri, p, hr, q, hq, rfl⟩ := mem_rets (List.mem_filter.mp hu).1
    rfl

/-- **C59**: what the tool writes for a well-formed automaton is deserialized to an ATN that is the
automaton: the same states with the same kinds, rules, marks and edges in the same order, the same
rules, modes, decisions and lexer actions; the stop state of every rule, the operator loops of
left-recursive rules and `epsilonOnly` are filled in.  Partial: numbers `0xFFFE` and `0xFFFF` outside
the tables of sets are excluded (see the witnesses below). -/
theorem C59_round_trip_partial {src : Src} (h : WF src) :
    ∃ atn, deserialize (serialize src) = some atn ∧ Described src atn :=
  ⟨_, deserialize_serialize h, result_described h⟩

/-- **C60**: every rule stop state gets silent edges to exactly the states its callers continue in,
one each; the edge is marked with the rule if the rule is left recursive and called with precedence
0. -/
theorem C60_returns {src : Src} (h : WF src) :
    ∃ atn, deserialize (serialize src) = some atn ∧ Returns src atn :=
  ⟨_, deserialize_serialize h, result_returns h⟩

/-! ## Examples -/

/-- A test of well-formedness. -/
def goodEdge (src : Src) : Trans → Bool
  | .epsilon _ o => o == 0
  | .action _ _ _ _ p => p == 0
  | .set _ s | .notSet _ s =>
    !s.readOnly && decide (Canonical s.intervals) && s.intervals.all fun i => decide (-1 ≤ i.a) && decide (i.b ≤ 0x10FFFF)
  | .rule t _ _ _ => (src.states[t]?).any fun s => decide (ruleNumber s < src.rules.length)
  | _ => true

theorem goodEdge_sound {src : Src} {t : Trans} (h : goodEdge src t = true) : GoodEdge src t := by
  cases t <;> simp only [goodEdge, GoodEdge, beq_iff_eq, Bool.and_eq_true, Bool.not_eq_true', decide_eq_true_eq,
    List.all_eq_true, Option.any_eq_true _ _] at h ⊢ <;> first | exact h | exact ⟨h.1.1, h.1.2, h.2⟩

def fitsB (v : Int) : Bool := decide (-2 ≤ v) && decide (v < 0xFFFE)

def isStart (s : SState) : Bool :=
  match s.kind with
  | .ruleStart _ => true
  | _ => false

theorem isStart_iff {s : SState} : isStart s = true ↔ ∃ lr, s.kind = .ruleStart lr := by
  simp only [isStart]
  split
  · rename_i hk; simp [hk]
  · rename_i hk; simp only [Bool.false_eq_true, false_iff, not_exists]; exact hk

def notIndexed : LexerAction → Bool
  | .indexedCustom _ _ => false
  | _ => true

/-- All of it. -/
def wf (src : Src) : Bool :=
  ((front src ++ back src).all fitsB) && decide ((allSets src).length < 0xFFFE) &&
  ((allSets src).all fun l => decide (l.length < 0xFFFE)) &&
  (src.states.all fun s => s.edges.all fun t => decide (t.target < src.states.length)) &&
  (src.states.all fun s => s.edges.all (goodEdge src)) &&
  (src.states.all fun s => decide (s.edges.Pairwise fun t u => t.target = u.target →
    ¬ (t.isEpsilon = true ∧ u.isEpsilon = true) ∧ (t.label.isSome → t.label ≠ u.label))) &&
  (src.states.all fun s => decide (s.kind = .ruleStop → s.edges = [])) &&
  (src.states.all fun s => decide (s.nonGreedy = true → s.kind.isDecision = true)) &&
  (src.rules.zipIdx.all fun p => (src.states[p.1.1]?).any fun s => s.rule == some p.2 && isStart s) &&
  (src.states.zipIdx.all fun p => decide (isStart p.1 = true → p.2 ∈ src.rules.map (·.1))) &&
  ((List.range src.rules.length).all fun r => src.states.any fun s => s.rule == some r && s.kind == .ruleStop) &&
  (src.states.zipIdx.all fun p => src.states.zipIdx.all fun q =>
    decide (p.1.kind = .ruleStop → q.1.kind = .ruleStop → p.1.rule = q.1.rule → p.2 = q.2)) &&
  (src.states.all fun s => decide (s.kind = .ruleStop → ruleNumber s < src.rules.length)) &&
  (src.states.all fun s => decide (s.kind = .starLoopEntry → ruleNumber s < src.rules.length ∧ s.edges ≠ [])) &&
  decide src.decisions.Nodup && (src.decisions.all fun i => decide (i < src.states.length)) &&
  (src.actions.all notIndexed) && decide (src.grammarType = .parser → src.actions = [])

theorem wf_sound {src : Src} (h : wf src = true) : WF src := by
  simp only [wf, Bool.and_eq_true, List.all_eq_true, decide_eq_true_eq] at h
  obtain ⟨⟨⟨⟨⟨⟨⟨⟨⟨⟨⟨⟨⟨⟨⟨⟨⟨h1, h2⟩, h3⟩, h4⟩, h5⟩, h6⟩, h7⟩, h8⟩, h9⟩, h10⟩, h11⟩, h12⟩, h13⟩, h14⟩, h15⟩, h16⟩, h17⟩, h18⟩ := h
  refine ⟨?_, h2, h3, h4, fun s hs t ht => goodEdge_sound (h5 s hs t ht), h6, h7, h8, ?_, ?_, ?_, ?_, h13, h14, ⟨h15, h16⟩, ?_, h18⟩
  · intro v hv
    have := h1 v hv
    simpa [fitsB, Fits] using this
  · intro r hr
    have := h9 (src.rules[r], r) (List.mem_zipIdx_iff_getElem?.mpr (List.getElem?_eq_getElem hr))
    obtain ⟨s, hs, h⟩ := (Option.any_eq_true _ _).mp this
    simp only [Bool.and_eq_true, beq_iff_eq] at h
    exact ⟨s, hs, h.1, isStart_iff.mp h.2⟩
  · intro i s hs lr hk
    exact h10 (s, i) (List.mem_zipIdx_iff_getElem?.mpr hs) (isStart_iff.mpr ⟨lr, hk⟩)
  · intro r hr
    have := h11 r (List.mem_range.mpr hr)
    rw [List.any_eq_true] at this
    obtain ⟨s, hs, h⟩ := this
    simp only [Bool.and_eq_true, beq_iff_eq] at h
    obtain ⟨i, hi⟩ := List.getElem?_of_mem hs
    exact ⟨i, s, hi, h.1, h.2⟩
  · intro i j s t hs ht
    exact h12 (s, i) (List.mem_zipIdx_iff_getElem?.mpr hs) (t, j) (List.mem_zipIdx_iff_getElem?.mpr ht)
  · intro a ha o b e
    have := h17 a ha
    rw [e] at this
    cases this

/-- `s : e EOF ; e : e '*' e | A..{U+11170} ;` with the set as it might come from a lexer. -/
def exSrc : Src where
  grammarType := .parser
  maxTokenType := 3
  states := [
    { kind := .ruleStart false, rule := some 0, edges := [.epsilon 4 0] },
    { kind := .ruleStop, rule := some 0 },
    { kind := .ruleStart true, rule := some 1, edges := [.epsilon 6 0] },
    { kind := .ruleStop, rule := some 1 },
    { kind := .basic, rule := some 0, edges := [.rule 2 5 1 0] },
    { kind := .basic, rule := some 0, edges := [.atom 1 (-1)] },
    { kind := .basic, rule := some 1, edges := [.set 7 ⟨[⟨-1, 5⟩, ⟨0xFFFF, 70000⟩], false⟩] },
    { kind := .starLoopEntry, rule := some 1, edges := [.epsilon 8 0, .epsilon 10 0] },
    { kind := .starBlockStart 9, rule := some 1, nonGreedy := true, edges := [.precedence 12 2] },
    { kind := .blockEnd, rule := some 1, edges := [.epsilon 11 0] },
    { kind := .loopEnd 11, rule := some 1, edges := [.epsilon 3 0] },
    { kind := .starLoopBack, rule := some 1, edges := [.epsilon 7 0] },
    { kind := .basic, rule := some 1, edges := [.notSet 13 ⟨[⟨2, 0xFFFF⟩], false⟩, .range 13 (-1) 2] },
    { kind := .basic, rule := some 1, edges := [.rule 2 9 1 3] }]
  rules := [(0, 0), (2, 0)]
  decisions := [8, 7]

theorem exSrc_wf : WF exSrc := wf_sound (by decide +kernel)

example : ∃ atn, deserialize (serialize exSrc) = some atn ∧ Described exSrc atn := C59_round_trip_partial exSrc_wf

/-- The operator loop is found, decisions are numbered, the set is back, the two calls of rule 1 give
two return edges, the first of which is marked. -/
example : (deserialize (serialize exSrc)).map (fun atn => (atn.states[7]?.map (·.stateType),
    atn.states[6]?.map (·.transitions), atn.states[3]?.map (·.transitions), atn.ruleToStopState)) =
    some (some (.decision 1 false (.starLoopEntry 0 true)),
      some [.set 7 ⟨[⟨-1, 5⟩, ⟨0xFFFF, 70000⟩], false⟩], some [.epsilon 5 1, .epsilon 9 (-1)], [1, 3]) := by
  decide +kernel

/-- `T : 'x' -> skip, more ;` -/
def exLexer : Src where
  grammarType := .lexer
  maxTokenType := 1
  states := [
    { kind := .tokenStart, rule := none, edges := [.epsilon 1 0] },
    { kind := .ruleStart false, rule := some 0, edges := [.epsilon 3 0] },
    { kind := .ruleStop, rule := some 0 },
    { kind := .basic, rule := some 0, edges := [.atom 4 120] },
    { kind := .basic, rule := some 0, edges := [.action 2 false 0 0 0] }]
  rules := [(1, 1)]
  modes := [0]
  decisions := [0]
  actions := [.skip, .custom 0 (-1), .type 3]

example : ∃ atn, deserialize (serialize exLexer) = some atn ∧ Described exLexer atn :=
  C59_round_trip_partial (wf_sound (by decide +kernel))

example : ∃ atn, deserialize (serialize exSrc) = some atn ∧ Returns exSrc atn := C60_returns exSrc_wf

/-- The character `U+FFFF` as a label. -/
def exFFFF : Src where
  grammarType := .lexer
  maxTokenType := 1
  states := [
    { kind := .tokenStart, rule := none, edges := [.epsilon 1 0] },
    { kind := .ruleStart false, rule := some 0, edges := [.epsilon 3 0] },
    { kind := .ruleStop, rule := some 0 },
    { kind := .basic, rule := some 0, edges := [.atom 2 0xFFFF] }]
  rules := [(1, 1)]
  modes := [0]
  decisions := [0]

/-- **C59 does not hold for all automata**: the lexer rule `T : '￿' ;` is read back as
`T : EOF ;`. -/
theorem C59_label_FFFF_witness : (deserialize (serialize exFFFF)).map (fun atn => atn.states[3]?.map (·.transitions)) =
    some (some [.atom 2 (-1)]) := by
  decide +kernel

/-- The condition `distinct` is needed: a set and its complement with the same target. -/
def exNotSet : Src where
  grammarType := .lexer
  maxTokenType := 1
  states := [
    { kind := .tokenStart, rule := none, edges := [.epsilon 1 0] },
    { kind := .ruleStart false, rule := some 0, edges := [.epsilon 3 0] },
    { kind := .ruleStop, rule := some 0 },
    { kind := .basic, rule := some 0, edges := [.set 2 ⟨[⟨97, 99⟩], false⟩, .notSet 2 ⟨[⟨97, 99⟩], false⟩] }]
  rules := [(1, 1)]
  modes := [0]
  decisions := [0]

/-- **C59 does not hold for all automata**: of an edge for a set and one for its complement with the
same target the second is dropped, as `add_transition` compares labels but not kinds of edges. -/
theorem C59_complement_witness : (deserialize (serialize exNotSet)).map (fun atn => atn.states[3]?.map (·.transitions)) =
    some (some [.set 2 ⟨[⟨97, 99⟩], false⟩]) := by
  decide +kernel

end Antlr.DeserialProps
