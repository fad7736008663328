import Verif.Gen.XmlLexer
import Verif.Gen.EndProps
import Verif.Lexer.Quiet

/-!
# The XML lexer: C69, C79

Every text is lexed, and comments, CDATA sections and declarations end where they should.
-/

namespace Antlr.XmlProps
open Antlr Lexer LexCache LexSpec LexProps LexPaths LexCacheProps LexPathProps LexTotal LexTotalProps LexLazy LexExample
open Antlr.Gen (xmlLexer xmlEnv emptyDfas)

variable {D : Type} [InputData D] {d : D} {cs : List Int} {ix : Nat → Int} {sl : Nat → Nat → D}

seal Antlr.Gen.xmlLexer

def xmlHeights : List Nat :=
  [5, 5, 2, 1, 1, 1, 1, 1, 1, 1, 1, 2, 1, 4, 1, 1, 1, 1, 1, 1, 1, 2, 1, 1, 1, 1, 1, 1, 1, 1, 1, 1, 1, 2, 1, 4, 1, 1,
  1, 1, 1, 1, 1, 5, 1, 2, 1, 1, 1, 1, 1, 0, 0, 0, 0, 3, 0, 1, 4, 2, 1, 3, 0, 0, 0, 4, 3, 2, 0, 0, 0, 0, 0, 0, 0, 0,
  0, 3, 0, 1, 4, 2, 1, 3, 0, 0, 0, 2, 0, 0, 3, 0, 1, 4, 2, 1, 3, 0, 4, 3, 2, 0, 5, 0, 2, 0, 0, 4, 2, 3, 5, 4, 1, 0,
  3, 0, 0, 0, 4, 2, 3, 5, 4, 1, 0, 3, 1, 2, 0, 0, 2, 1, 0, 3, 2, 0, 4, 3, 2, 0, 0, 0, 0, 0, 3, 2, 4, 3, 2, 0, 0, 6,
  5, 5, 4, 3, 2, 0, 1, 4, 3, 2, 0, 3, 2, 0, 0, 4, 3, 2, 0, 0, 4, 3, 2, 0, 2, 0, 2, 0, 0, 1, 4, 2, 1, 3, 0, 0, 0, 1,
  4, 2, 1, 3, 0, 1, 2, 3, 6, 7, 10, 8, 2, 9, 0, 4, 3, 2, 0, 2, 0, 2, 3, 0, 2, 0, 4, 2, 0, 1, 2, 0, 0, 4, 3, 2, 0, 4,
  3, 2]
def xmlNulls : List Bool :=
  [false, false, false, false, true, false, true, false, true, false, true, false, true, false, true, false, true,
  false, true, false, true, false, true, false, true, false, true, false, true, false, true, false, true, false,
  true, false, true, false, true, false, true, false, true, false, true, false, true, false, true, false, true,
  false, false, false, false, false, false, false, false, false, false, false, false, false, false, true, true,
  true, false, false, false, false, false, false, false, false, false, false, false, false, false, false, false,
  false, false, false, false, true, false, false, false, false, false, false, false, false, false, false, true,
  true, true, false, false, false, true, false, false, false, false, false, false, false, false, false, true, false,
  false, false, false, false, false, false, false, false, false, true, false, true, false, false, false, false,
  false, false, true, false, true, true, true, false, false, false, false, false, false, false, true, true, true,
  false, false, false, false, true, true, true, true, false, false, true, true, true, false, true, true, false,
  false, true, true, true, false, false, true, true, true, false, true, false, true, false, false, false, false,
  false, false, false, false, false, false, false, false, false, false, false, false, false, true, false, false,
  false, true, true, true, true, false, true, true, true, false, true, false, true, false, false, false, false,
  false, true, false, false, true, false, false, true, true, true, false, true, true, true]

/-- `<!--` and `-->` -/
def commentOpen : List Int := [60, 33, 45, 45]
def commentClose : List Int := [45, 45, 62]
/-- `<![CDATA[` and `]]>` -/
def cdataOpen : List Int := [60, 33, 91, 67, 68, 65, 84, 65, 91]
def cdataClose : List Int := [93, 93, 62]
/-- `<!` and `>` -/
def dtdOpen : List Int := [60, 33]
def dtdClose : List Int := [62]

/-- The start state of the default mode. -/
def outside : ATNState where
  ruleIndex := 18446744073709551615
  stateType := .decision 0 false .tokenStart
  epsilonOnly := true
  transitions := [.epsilon 3 0, .epsilon 5 0, .epsilon 7 0, .epsilon 9 0, .epsilon 11 0, .epsilon 13 0, .epsilon 15 0,
    .epsilon 17 0, .epsilon 19 0, .epsilon 21 0]

/-- The states of a rule. -/
def statesOf (atn : ATN) (r : Nat) : List Nat :=
  (List.range atn.states.length).filter fun s => (atn.states[s]?).any fun st => st.ruleIndex == r

def isSkip : LexerAction → Bool
  | .skip => true
  | _ => false

theorem isSkip_ok (a : LexerAction) (h : isSkip a = true) : a = .skip := by
  cases a <;> first | rfl | cases h

/-- Only `COMMENT`, `CDATA` and `DTD` go on after `<!`, and these have the types 1, 2, 3; the first two have no
actions, the third one skips. -/
def deadChecks (atn : ATN) : Bool :=
  ([9, 11, 13, 15, 17, 19, 21].all fun s => deadB atn s [60, 33]) &&
  ((List.range 3).all fun i => decide (((atn.states[3 + 2 * i]?).bind fun t0 => atn.ruleToTokenType[t0.ruleIndex]?) =
    some ((i + 1 : Nat) : Int))) &&
  ((List.range 2).all fun i => quietB atn (statesOf atn i) && (statesOf atn i).contains (3 + 2 * i)) &&
  (endsB atn ((statesOf atn 2).filter fun s => s != 8 && s != 100) [8, 100] isSkip && (statesOf atn 2).contains 7)

/-- All that is asked of the automaton, computed at once. -/
def xmlChecks (atn : ATN) (ds : Option (List DFA)) : Bool :=
  loopCheck atn xmlHeights xmlNulls && emptyCheck atn xmlNulls && wholeCheck atn && tidyCheck atn && ruleWiseCheck atn &&
  lazyCheck atn (fun _ _ => true) 3 commentOpen (.wildcard 58) commentClose 59 56 4 &&
  lazyCheck atn (fun _ _ => true) 5 cdataOpen (.wildcard 80) cdataClose 81 78 6 &&
  lazyCheck atn (fun _ _ => true) 7 dtdOpen (.wildcard 93) dtdClose 94 91 8 &&
  decide (atn.modeToStartState[0]? = some 0) && decide (atn.states[0]? = some outside) &&
  (outside.transitions.zipIdx.all fun p => (List.range 3).all fun i => !decide (((atn.states[p.1.target]?).bind fun t0 =>
    atn.ruleToTokenType[t0.ruleIndex]?) = some ((i + 1 : Nat) : Int)) || p.2 == i) &&
  deadChecks atn &&
  match ds with
  | none => false
  | some ds => !ds.isEmpty && ds.all fun d => !d.isPrecedence && d.states.length == 1

theorem xml_checks : xmlChecks xmlLexer (emptyDfas xmlLexer) = true := by decide +kernel

theorem xml_all : loopCheck xmlLexer xmlHeights xmlNulls = true ∧ emptyCheck xmlLexer xmlNulls = true ∧
    wholeCheck xmlLexer = true ∧ tidyCheck xmlLexer = true ∧ ruleWiseCheck xmlLexer = true ∧
    lazyCheck xmlLexer (fun _ _ => true) 3 commentOpen (.wildcard 58) commentClose 59 56 4 = true ∧
    lazyCheck xmlLexer (fun _ _ => true) 5 cdataOpen (.wildcard 80) cdataClose 81 78 6 = true ∧
    lazyCheck xmlLexer (fun _ _ => true) 7 dtdOpen (.wildcard 93) dtdClose 94 91 8 = true ∧
    xmlLexer.modeToStartState[0]? = some 0 ∧ xmlLexer.states[0]? = some outside ∧
    (∀ p ∈ outside.transitions.zipIdx, ∀ i < 3, ((xmlLexer.states[p.1.target]?).bind fun t0 =>
      xmlLexer.ruleToTokenType[t0.ruleIndex]?) = some ((i + 1 : Nat) : Int) → p.2 = i) ∧ deadChecks xmlLexer = true ∧
    ∃ ds, emptyDfas xmlLexer = some ds ∧ ds ≠ [] ∧ (ds.all fun d => !d.isPrecedence && d.states.length == 1) = true := by
  have h := xml_checks
  simp only [xmlChecks, Bool.and_eq_true] at h
  obtain ⟨⟨⟨⟨⟨⟨⟨⟨⟨⟨⟨⟨h1, h2⟩, h3⟩, h4⟩, h5⟩, h6⟩, h7⟩, h8⟩, h9⟩, h10⟩, h11⟩, hdead⟩, h12⟩ := h
  refine ⟨h1, h2, h3, h4, h5, h6, h7, h8, of_decide_eq_true h9, of_decide_eq_true h10, ?_, hdead, ?_⟩
  · intro p hp i hi e
    have := List.all_eq_true.1 (List.all_eq_true.1 h11 p hp) i (List.mem_range.2 hi)
    rw [decide_eq_true e] at this
    simpa using this
  · cases hd : emptyDfas xmlLexer with
    | none => rw [hd] at h12; cases h12
    | some ds =>
      rw [hd] at h12
      simp only [Bool.and_eq_true, Bool.not_eq_true', List.isEmpty_eq_false_iff] at h12
      exact ⟨ds, rfl, h12.1, h12.2⟩

theorem xml_loops : loopCheck xmlLexer xmlHeights xmlNulls = true := xml_all.1
theorem xml_empty : emptyCheck xmlLexer xmlNulls = true := xml_all.2.1
theorem xml_whole : Whole xmlLexer := wholeCheck_ok xml_all.2.2.1
theorem xml_tidy : Tidy xmlLexer := tidyCheck_ok xml_all.2.2.2.1
theorem xml_ruleWise : RuleWise xmlLexer := ruleWiseCheck_ok xml_all.2.2.2.2.1

theorem xml_tame (hash : List Config → Nat) (toChars : D → List Char) : Tame (xmlEnv hash toChars) where
  action := fun r a L => by
    simp only [xmlEnv]
    split
    · simp only [Lex.popMode]
      split <;> constructor <;> rfl
    · exact Untouched.refl L
  before := fun L => Untouched.refl L
  beforeType := fun _ => rfl

/-- **C69** for the XML lexer: every request for a token returns, and after the text there are EOF tokens. -/
theorem C69_xml {hash : List Config → Nat} {toChars : D → List Char} (hh : TellsApart hash) (R : Reads d cs ix sl) (hs : Sane d)
    {fc fe fn : Nat} (hfc : 133 * (cs.length + 1) ≤ fc) (hfe : 133 * (cs.length + 1) ≤ fe) (hfn : 2 * cs.length + 3 ≤ fn)
    {dfas : List DFA} (hr : Reached xmlLexer hash fc dfas) (hroom : Room ((cs.length + 1) * (fe + 1)) dfas) (k : Nat) :
    ∃ ts L dfas', LexSpec.nextTokens (xmlEnv hash toChars) fc fe fn k (Lex.new (InputStream.new d)) dfas = some (ts, L, dfas') ∧
      ts.length = k ∧ ∀ (i : Nat) (t : Tok), cs.length + 1 ≤ i → ts[i]? = some t → t = eofToken cs ix :=
  C69_lexing_returns (env := xmlEnv hash toChars) xml_whole (N := 11)
    (loopCheck_ok xml_loops (by decide +kernel) (by decide)) (emptyCheck_ok xml_loops xml_empty) hh (xml_tame hash toChars)
    R hs hfc hfe hfn hr hroom k

/-! ## Comments, CDATA sections, declarations -/

theorem xml_comment (hash : List Config → Nat) (toChars : D → List Char) :
    LazyRule (xmlEnv hash toChars) 3 commentOpen (.wildcard 58) commentClose :=
  lazyCheck_ok (always := fun _ _ => true) (fun _ _ _ _ => rfl) (e := 59) (d := 56) (z := 4)
    xml_all.2.2.2.2.2.1

theorem xml_cdata (hash : List Config → Nat) (toChars : D → List Char) :
    LazyRule (xmlEnv hash toChars) 5 cdataOpen (.wildcard 80) cdataClose :=
  lazyCheck_ok (always := fun _ _ => true) (fun _ _ _ _ => rfl) (e := 81) (d := 78) (z := 6)
    xml_all.2.2.2.2.2.2.1

theorem xml_dtd (hash : List Config → Nat) (toChars : D → List Char) :
    LazyRule (xmlEnv hash toChars) 7 dtdOpen (.wildcard 93) dtdClose :=
  lazyCheck_ok (always := fun _ _ => true) (fun _ _ _ _ => rfl) (e := 94) (d := 91) (z := 8)
    xml_all.2.2.2.2.2.2.2.1

theorem outside_eq : xmlLexer.states[0]? = some outside := xml_all.2.2.2.2.2.2.2.2.2.1

/-- Each type belongs to one rule of the mode. -/
theorem xml_owns {i : Nat} (hi : i < 3) : Owns xmlLexer outside i ((i + 1 : Nat) : Int) := by
  intro j tr t0 h1 h2 h3
  exact xml_all.2.2.2.2.2.2.2.2.2.2.1 (tr, j) (List.mk_mem_zipIdx_iff_getElem?.2 h1) i hi (by simp only [h2, Option.bind_some, h3])

/-- **C79** for the XML lexer (partial: the hash of the DFA cache must not collide): outside of tags, wherever the match
begins and whatever was cached before, a `COMMENT` is `<!--`, a body and the first `-->` after it, a `CDATA` section is
`<![CDATA[`, a body and the first `]]>`, and a `DTD` piece is `<!`, a body and the first `>`. -/
theorem C79_xml_partial {hash : List Config → Nat} {toChars : D → List Char} (hh : TellsApart hash) (R : Reads d cs ix sl)
    (hs : Sane d) {fc fe : Nat} {dfas : List DFA} (hr : Reached xmlLexer hash fc dfas) (hroom : Room (fe + 1) dfas)
    {L : Lex D} (hm : L.mode = 0) (hl : 0 < dfas.length) {n : Nat} (hn : n ≤ cs.length) (hc : L.cur = at_ d cs ix n)
    {tt : Int} {L' : Lex D} {dfas' : List DFA} (h : matchToken (xmlEnv hash toChars) fc fe L dfas = some (.ok tt, L', dfas')) :
    (tt = 1 → ∃ k, ClosedAt cs n commentOpen commentClose k ∧ L'.cur = at_ d cs ix (n + k)) ∧
    (tt = 2 → ∃ k, ClosedAt cs n cdataOpen cdataClose k ∧ L'.cur = at_ d cs ix (n + k)) ∧
    (tt = 3 → ∃ k, ClosedAt cs n dtdOpen dtdClose k ∧ L'.cur = at_ d cs ix (n + k)) := by
  have h0 : (xmlEnv (D := D) hash toChars).atn.modeToStartState[L.mode]? = some 0 := by
    rw [hm]
    exact xml_all.2.2.2.2.2.2.2.2.1
  refine ⟨?_, ?_, ?_⟩
  · rintro rfl
    exact C79_lazy_ends_partial (i := 0) (tr0 := .epsilon 3 0) (xml_tame hash toChars) xml_tidy xml_ruleWise hh hr hroom (by omega) hs R
      hn hc h0 outside_eq rfl (xml_comment hash toChars) (xml_owns (i := 0) (by omega)) (by decide) h
  · rintro rfl
    exact C79_lazy_ends_partial (i := 1) (tr0 := .epsilon 5 0) (xml_tame hash toChars) xml_tidy xml_ruleWise hh hr hroom (by omega) hs R
      hn hc h0 outside_eq rfl (xml_cdata hash toChars) (xml_owns (i := 1) (by omega)) (by decide) h
  · rintro rfl
    exact C79_lazy_ends_partial (i := 2) (tr0 := .epsilon 7 0) (xml_tame hash toChars) xml_tidy xml_ruleWise hh hr hroom (by omega) hs R
      hn hc h0 outside_eq rfl (xml_dtd hash toChars) (xml_owns (i := 2) (by omega)) (by decide) h

/-! ## The other rules stay behind -/

theorem edges_cases {i : Nat} {tr : Trans} (h : outside.transitions[i]? = some tr) : tr = .epsilon (3 + 2 * i) 0 ∧ i < 10 := by
  rcases i with _ | _ | _ | _ | _ | _ | _ | _ | _ | _ | i <;> simp [outside] at h
  all_goals subst h; simp

theorem reached_rule {env : Env D} {L : Lex D} {n : Nat} {st : ATNState} {k : Nat} : ∀ {w : LexOrder.Way},
    LexOrder.Reached env L cs ix n st k w → ∃ i tr, st.transitions[i]? = some tr ∧ w.rule = ((i + 1 : Nat) : Int) := by
  induction k with
  | zero => rintro w ⟨i, tr, h1, h2⟩; exact ⟨i, tr, h1, (LexOrder.choices_same h2).1⟩
  | succ k ih =>
    rintro w ⟨u, h1, -, -, h4⟩
    obtain ⟨i, tr, g1, g2⟩ := ih h1
    exact ⟨i, tr, g1, (takes_rule h4).trans g2⟩

section
variable {hash : List Config → Nat} {toChars : D → List Char} {L : Lex D} {n k : Nat} {w : LexOrder.Way}

/-- After `<!` a match of two symbols or more is one of the three rules, and is closed by its first closing word. -/
theorem xml_hits (hn : n ≤ cs.length) (ht : Stands cs n dtdOpen)
    (h : LexOrder.Hit (xmlEnv hash toChars) L cs ix n outside k w) :
    k < 2 ∧ 3 < w.rule ∨ w.rule = 1 ∧ ClosedAt cs n commentOpen commentClose k ∨
      w.rule = 2 ∧ ClosedAt cs n cdataOpen cdataClose k ∨ w.rule = 3 ∧ ClosedAt cs n dtdOpen dtdClose k := by
  obtain ⟨i, tr, h1, h2⟩ := reached_rule h.1
  obtain ⟨rfl, hi⟩ := edges_cases h1
  by_cases h3 : 3 ≤ i
  · left
    refine ⟨dead (word := dtdOpen) hn h1 ?_ ht h.1 h2, by omega⟩
    have hd := xml_all.2.2.2.2.2.2.2.2.2.2.2.1
    simp only [deadChecks, Bool.and_eq_true, List.all_eq_true] at hd
    exact hd.1.1.1 _ (by simp [Trans.target]; omega)
  · right
    obtain rfl | rfl | rfl : i = 0 ∨ i = 1 ∨ i = 2 := by omega
    · exact .inl ⟨h2, hit_closed xml_tidy hn h1 (xml_comment hash toChars) h h2⟩
    · exact .inr (.inl ⟨h2, hit_closed xml_tidy hn h1 (xml_cdata hash toChars) h h2⟩)
    · exact .inr (.inr ⟨h2, hit_closed xml_tidy hn h1 (xml_dtd hash toChars) h h2⟩)

end

/-- Two beginnings of one text agree. -/
theorem stands_both {n : Nat} {a b : List Int} (h : Stands cs n a) (h' : Stands cs n b) : a <+: b ∨ b <+: a :=
  List.prefix_or_prefix_of_prefix h h'

/-- `CLOSE` ends with `>`, so a declaration would end there too. -/
theorem dtd_short {n k : Nat} {w c : List Int} (h : ClosedAt cs n dtdOpen dtdClose k) (ht : Stands cs n (w ++ c ++ [62]))
    (hw : 2 ≤ w.length) : k ≤ (w ++ c ++ [62]).length := by
  obtain ⟨-, -, -, h⟩ := h
  rw [stands_append] at ht
  have := h (w ++ c).length (by simp [dtdOpen]; omega) ht.2
  simp only [dtdClose, List.length_append, List.length_cons, List.length_nil] at this ⊢
  omega

/-- **C79** for the XML lexer (partial: the hash of the DFA cache must not collide), conversely: outside of tags, where
`<!--`, a body and the first `-->` after it stand, a `COMMENT` is matched up to there; for `<![CDATA[` and the first
`]]>` a `CDATA` section; and where neither `<!--` nor `<![CDATA[` stands, for `<!` and the first `>` a `DTD` piece. -/
theorem C79_xml_found_partial {hash : List Config → Nat} {toChars : D → List Char} (hh : TellsApart hash) (R : Reads d cs ix sl)
    (hs : Sane d) {fc fe : Nat} (hfc : 133 * (cs.length + 1) ≤ fc) (hfe : 133 * (cs.length + 1) ≤ fe)
    {dfas : List DFA} (hr : Reached xmlLexer hash fc dfas) (hroom : Room (fe + 1) dfas)
    {L : Lex D} (hm : L.mode = 0) (hl : 0 < dfas.length) {n : Nat} (hn : n ≤ cs.length) (hc : L.cur = at_ d cs ix n)
    {body : List Int} (hbody : ∀ c ∈ body, 0 < c ∧ c < 0x10FFFF) {op cl : List Int} {tt : Int}
    (hkind : (op = commentOpen ∧ cl = commentClose ∧ tt = 1) ∨ (op = cdataOpen ∧ cl = cdataClose ∧ tt = 2) ∨
      (op = dtdOpen ∧ cl = dtdClose ∧ tt = 3 ∧ ¬ Stands cs n commentOpen ∧ ¬ Stands cs n cdataOpen))
    (ht : Stands cs n (op ++ body ++ cl))
    (hfirst : ∀ q, op.length ≤ q → Stands cs (n + q) cl → (op ++ body ++ cl).length ≤ q + cl.length) :
    ∃ L' dfas', matchToken (xmlEnv hash toChars) fc fe L dfas = some (.ok tt, L', dfas') ∧
      L'.cur = at_ d cs ix (n + (op ++ body ++ cl).length) := by
  have h0 : (xmlEnv (D := D) hash toChars).atn.modeToStartState[L.mode]? = some 0 := by
    rw [hm]
    exact xml_all.2.2.2.2.2.2.2.2.1
  obtain ⟨⟨r, L', dfas'⟩, h⟩ := C69_match_returns (env := xmlEnv hash toChars) xml_whole (N := 11)
    (loopCheck_ok xml_loops (by decide +kernel) (by decide)) hh R hs hfc hfe hn hc hr hroom
  have hopen : Stands cs n dtdOpen := by
    have : dtdOpen <+: op := by rcases hkind with ⟨rfl, -⟩ | ⟨rfl, -⟩ | ⟨rfl, -⟩ <;> decide
    exact this.trans (((List.prefix_append op body).trans (List.prefix_append _ cl)).trans ht)
  have htype : ∀ (i : Nat) (t0 : ATNState) (t : Int), i < 3 → xmlLexer.states[3 + 2 * i]? = some t0 →
      xmlLexer.ruleToTokenType[t0.ruleIndex]? = some t → t = ((i + 1 : Nat) : Int) := by
    intro i t0 t hi e1 e2
    have hd := xml_all.2.2.2.2.2.2.2.2.2.2.2.1
    simp only [deadChecks, Bool.and_eq_true, List.all_eq_true, List.mem_range, decide_eq_true_eq] at hd
    have := hd.1.1.2 i hi
    rw [e1, Option.bind_some, e2] at this
    exact Option.some.inj this
  rcases hkind with ⟨rfl, rfl, rfl⟩ | ⟨rfl, rfl, rfl⟩ | ⟨rfl, rfl, rfl, hno⟩
  · obtain ⟨t, t0, e1, e2, rfl, e3⟩ := C79_lazy_found_partial (i := 0) (tr0 := .epsilon 3 0) (xml_tame hash toChars) xml_tidy
      xml_ruleWise hh hr hroom (by omega) hs R hn hc h0 outside_eq rfl (xml_comment hash toChars) ht hbody hfirst (by
        intro k u hu hne
        rcases xml_hits hn hopen hu with ⟨g1, g2⟩ | ⟨g1, -⟩ | ⟨g1, b, -, g2, -⟩ | ⟨g1, g2⟩
        · refine ⟨?_, fun g => by omega⟩
          simp only [List.length_append, commentOpen, List.length_cons]; omega
        · exact absurd g1 hne
        · exfalso
          have a1 : Stands cs n commentOpen := ((List.prefix_append commentOpen body).trans (List.prefix_append _ _)).trans ht
          have a2 : Stands cs n cdataOpen := ((List.prefix_append cdataOpen b).trans (List.prefix_append _ _)).trans g2
          rcases stands_both a1 a2 with a3 | a3 <;> revert a3 <;> decide
        · refine ⟨?_, fun g => by omega⟩
          have := dtd_short (w := commentOpen) (c := body ++ [45, 45]) g2 (by simpa [commentClose] using ht) (by decide)
          simpa [commentClose] using this) h
    exact ⟨L', dfas', by rw [h, htype 0 t0 t (by omega) e1 e2]; rfl, e3⟩
  · obtain ⟨t, t0, e1, e2, rfl, e3⟩ := C79_lazy_found_partial (i := 1) (tr0 := .epsilon 5 0) (xml_tame hash toChars) xml_tidy
      xml_ruleWise hh hr hroom (by omega) hs R hn hc h0 outside_eq rfl (xml_cdata hash toChars) ht hbody hfirst (by
        intro k u hu hne
        rcases xml_hits hn hopen hu with ⟨g1, g2⟩ | ⟨g1, b, -, g2, -⟩ | ⟨g1, -⟩ | ⟨g1, g2⟩
        · refine ⟨?_, fun g => by omega⟩
          simp only [List.length_append, cdataOpen, List.length_cons]; omega
        · exfalso
          have a1 : Stands cs n cdataOpen := ((List.prefix_append cdataOpen body).trans (List.prefix_append _ _)).trans ht
          have a2 : Stands cs n commentOpen := ((List.prefix_append commentOpen b).trans (List.prefix_append _ _)).trans g2
          rcases stands_both a1 a2 with a3 | a3 <;> revert a3 <;> decide
        · exact absurd g1 hne
        · refine ⟨?_, fun g => by omega⟩
          have := dtd_short (w := cdataOpen) (c := body ++ [93, 93]) g2 (by simpa [cdataClose] using ht) (by decide)
          simpa [cdataClose] using this) h
    exact ⟨L', dfas', by rw [h, htype 1 t0 t (by omega) e1 e2]; rfl, e3⟩
  · obtain ⟨t, t0, e1, e2, rfl, e3⟩ := C79_lazy_found_partial (i := 2) (tr0 := .epsilon 7 0) (xml_tame hash toChars) xml_tidy
      xml_ruleWise hh hr hroom (by omega) hs R hn hc h0 outside_eq rfl (xml_dtd hash toChars) ht hbody hfirst (by
        intro k u hu hne
        rcases xml_hits hn hopen hu with ⟨g1, g2⟩ | ⟨g1, b, -, g2, -⟩ | ⟨g1, b, -, g2, -⟩ | ⟨g1, -⟩
        · refine ⟨?_, fun g => by omega⟩
          simp only [List.length_append, dtdOpen, List.length_cons]; omega
        · exact absurd (((List.prefix_append commentOpen b).trans (List.prefix_append _ _)).trans g2) hno.1
        · exact absurd (((List.prefix_append cdataOpen b).trans (List.prefix_append _ _)).trans g2) hno.2
        · exact absurd g1 hne) h
    exact ⟨L', dfas', by rw [h, htype 2 t0 t (by omega) e1 e2]; rfl, e3⟩

theorem xml_quiet {i : Nat} (hi : i < 2) : quietB xmlLexer (statesOf xmlLexer i) = true ∧ 3 + 2 * i ∈ statesOf xmlLexer i := by
  have hd := xml_all.2.2.2.2.2.2.2.2.2.2.2.1
  simp only [deadChecks, Bool.and_eq_true, List.all_eq_true, List.mem_range] at hd
  obtain ⟨h1, h2⟩ := hd.1.2 i hi
  exact ⟨h1, by simpa using h2⟩

theorem match_length {env : Env D} {fc fe : Nat} {L L' : Lex D} {r : MatchRes} {dfas dfas' : List DFA}
    (h : matchToken env fc fe L dfas = some (r, L', dfas')) : dfas'.length = dfas.length := by
  unfold matchToken at h
  split at h
  · cases h; rfl
  · obtain ⟨x, -, h⟩ := Option.map_eq_some_iff.1 h
    cases h
    simp

/-- The cache after a match. -/
theorem xml_after {hash : List Config → Nat} {toChars : D → List Char} (hh : TellsApart hash) (R : Reads d cs ix sl)
    (hs : Sane d) {fc fe b : Nat} (hfc : 133 * (cs.length + 1) ≤ fc) (hfe : 133 * (cs.length + 1) ≤ fe)
    {L L' : Lex D} {n : Nat} (hn : n ≤ cs.length) (hc : L.cur = at_ d cs ix n) {dfas dfas' : List DFA}
    (hr : Reached xmlLexer hash fc dfas) (hroom : Room (b + (fe + 1)) dfas) {r : MatchRes}
    (h : matchToken (xmlEnv hash toChars) fc fe L dfas = some (r, L', dfas')) :
    Reached xmlLexer hash fc dfas' ∧ Room b dfas' ∧ dfas'.length = dfas.length := by
  obtain ⟨res, L1, dfas1, h1, h2, h3, -⟩ := match_ok (env := xmlEnv hash toChars) xml_whole (N := 11)
    (loopCheck_ok xml_loops (by decide +kernel) (by decide)) hh R hs hfc hfe hn hc hr hroom
  rw [h] at h1
  cases h1
  exact ⟨h2, h3, match_length h⟩

/-- **C79** for the XML lexer, tokens (partial: the hash of the DFA cache must not collide): outside of tags, where
`<!--`, a body and the first `-->` after it stand, the next token is a `COMMENT` with just this text, and the lexer stands
after it, still outside of tags; likewise for `<![CDATA[` and `]]>`. -/
theorem C79_xml_token_partial {hash : List Config → Nat} {toChars : D → List Char} (hh : TellsActionsApart hash)
    (R : Reads d cs ix sl) (hs : Sane d) {fc fe fn : Nat} (hfc : 133 * (cs.length + 1) ≤ fc) (hfe : 133 * (cs.length + 1) ≤ fe)
    (hfn : 2 ≤ fn) {dfas : List DFA} (hr : Reached xmlLexer hash fc dfas) {b : Nat} (hroom : Room (b + (fe + 1)) dfas)
    {L : Lex D} (hm : L.mode = 0) (he : L.hitEof = false) (hl : 0 < dfas.length) {n : Nat} (hn : n ≤ cs.length)
    (hc : L.cur = at_ d cs ix n) {body : List Int} (hbody : ∀ c ∈ body, 0 < c ∧ c < 0x10FFFF) {op cl : List Int} {tt : Int}
    (hkind : (op = commentOpen ∧ cl = commentClose ∧ tt = 1) ∨ (op = cdataOpen ∧ cl = cdataClose ∧ tt = 2))
    (ht : Stands cs n (op ++ body ++ cl))
    (hfirst : ∀ q, op.length ≤ q → Stands cs (n + q) cl → (op ++ body ++ cl).length ≤ q + cl.length) {m : Nat}
    (hend : m = n + (op ++ body ++ cl).length) :
    ∃ L' dfas', nextToken (xmlEnv hash toChars) fc fe fn L dfas = some (
        { ttype := tt, channel := 0, start := ix n, stop := ix m - 1, line := lineOf cs n, column := colOf cs n, index := -1,
          text := toChars (sl n m) }, L', dfas') ∧
      L'.cur = at_ d cs ix m ∧ L'.mode = 0 ∧ (L'.hitEof = true ↔ m = cs.length) ∧
      Reached xmlLexer hash fc dfas' ∧ Room b dfas' ∧ dfas'.length = dfas.length := by
  have hroomb := hroom
  replace hroom : Room (fe + 1) dfas := hroom.le (by omega)
  obtain ⟨f, rfl⟩ : ∃ f, fn = f + 2 := ⟨fn - 2, by omega⟩
  have hfit := word_fits ht hn
  have hpos : 0 < (op ++ body ++ cl).length := by
    rcases hkind with ⟨rfl, -⟩ | ⟨rfl, -⟩ <;> simp [commentOpen, cdataOpen]
  let L0 : Lex D := { beginToken L with ttype := TOKEN_INVALID_TYPE }
  obtain ⟨L', dfas', h1, h2⟩ := C79_xml_found_partial (toChars := toChars) (tells_less hh) R hs hfc hfe hr hroom (L := L0) hm hl hn hc
    hbody (by rcases hkind with h | h; exacts [.inl h, .inr (.inl h)]) ht hfirst
  have h0 : (xmlEnv (D := D) hash toChars).atn.modeToStartState[L0.mode]? = some 0 := by
    show xmlLexer.modeToStartState[L.mode]? = some 0
    rw [hm]
    exact xml_all.2.2.2.2.2.2.2.2.1
  have hm0 : L0.mode < dfas.length := by show L.mode < _; omega
  have hq : L' = { L0 with cur := L'.cur } := by
    rcases hkind with ⟨-, -, rfl⟩ | ⟨-, -, rfl⟩
    · exact quiet_match (i := 0) (tr0 := .epsilon 3 0) (xml_tame hash toChars) xml_tidy xml_ruleWise hh hr hroom hm0 hs R
        hn hc h0 outside_eq rfl (xml_quiet (i := 0) (by omega)).1 (xml_quiet (i := 0) (by omega)).2
        (xml_owns (i := 0) (by omega)) (by decide) h1
    · exact quiet_match (i := 1) (tr0 := .epsilon 5 0) (xml_tame hash toChars) xml_tidy xml_ruleWise hh hr hroom hm0 hs R
        hn hc h0 outside_eq rfl (xml_quiet (i := 1) (by omega)).1 (xml_quiet (i := 1) (by omega)).2
        (xml_owns (i := 1) (by omega)) (by decide) h1
  rw [h2] at hq
  have hsm : tt ≠ LEXER_SKIP ∧ tt ≠ LEXER_MORE := by
    rcases hkind with ⟨-, -, rfl⟩ | ⟨-, -, rfl⟩ <;> decide
  rw [← hend] at hq
  obtain ⟨L2, g1, g2, g3, g4⟩ := token_of_match (env := xmlEnv hash toChars) (fn := f) rfl R (by omega) (by omega) hc he hsm.1 hsm.2 h1 hq
  exact ⟨L2, dfas', g1, g2, g3.trans hm, by rw [g4]; simp, xml_after (L := L0) (tells_less hh) R hs hfc hfe hn hc hr hroomb h1⟩

theorem xml_skips : ∃ S, endsB xmlLexer S [8, 100] isSkip = true ∧ 7 ∈ S := by
  have hd := xml_all.2.2.2.2.2.2.2.2.2.2.2.1
  simp only [deadChecks, Bool.and_eq_true] at hd
  exact ⟨_, hd.2.1, by simpa using hd.2.2⟩

/-- **C79** for the XML lexer, declarations (partial: the hash of the DFA cache must not collide): outside of tags, where
`<!`, a body and the first `>` after it stand, but neither `<!--` nor `<![CDATA[`, there is no token for it: the next
token is what the lexer returns from after this `>`. -/
theorem C79_xml_skip_partial {hash : List Config → Nat} {toChars : D → List Char} (hh : TellsActionsApart hash)
    (R : Reads d cs ix sl) (hs : Sane d) {fc fe fn : Nat} (hfc : 133 * (cs.length + 1) ≤ fc) (hfe : 133 * (cs.length + 1) ≤ fe)
    {dfas : List DFA} (hr : Reached xmlLexer hash fc dfas) {b : Nat} (hroom : Room (b + (fe + 1)) dfas)
    {L : Lex D} (hm : L.mode = 0) (he : L.hitEof = false) (hl : 0 < dfas.length) {n : Nat} (hn : n ≤ cs.length)
    (hc : L.cur = at_ d cs ix n) {body : List Int} (hbody : ∀ c ∈ body, 0 < c ∧ c < 0x10FFFF)
    (hno : ¬ Stands cs n commentOpen ∧ ¬ Stands cs n cdataOpen) (ht : Stands cs n (dtdOpen ++ body ++ dtdClose))
    (hfirst : ∀ q, dtdOpen.length ≤ q → Stands cs (n + q) dtdClose → (dtdOpen ++ body ++ dtdClose).length ≤ q + dtdClose.length)
    {m : Nat} (hend : m = n + (dtdOpen ++ body ++ dtdClose).length) :
    ∃ L' dfas', nextToken (xmlEnv hash toChars) fc fe (fn + 2) L dfas = nextToken (xmlEnv hash toChars) fc fe fn L' dfas' ∧
      L'.cur = at_ d cs ix m ∧ L'.mode = 0 ∧ L'.modeStack = L.modeStack ∧ (L'.hitEof = true ↔ m = cs.length) ∧
      Reached xmlLexer hash fc dfas' ∧ Room b dfas' ∧ dfas'.length = dfas.length := by
  have hroomb := hroom
  replace hroom : Room (fe + 1) dfas := hroom.le (by omega)
  have hfit := word_fits ht hn
  let L0 : Lex D := { beginToken L with ttype := TOKEN_INVALID_TYPE }
  obtain ⟨L', dfas', h1, h2⟩ := C79_xml_found_partial (toChars := toChars) (tells_less hh) R hs hfc hfe hr hroom (L := L0) hm hl hn hc
    hbody (.inr (.inr ⟨rfl, rfl, rfl, hno⟩)) ht hfirst
  have h0 : (xmlEnv (D := D) hash toChars).atn.modeToStartState[L0.mode]? = some 0 := by
    show xmlLexer.modeToStartState[L.mode]? = some 0
    rw [hm]
    exact xml_all.2.2.2.2.2.2.2.2.1
  have hm0 : L0.mode < dfas.length := by show L.mode < _; omega
  obtain ⟨S, s1, s2⟩ := xml_skips
  obtain ⟨k, p, q1, q2⟩ := ends_match (i := 2) (tr0 := .epsilon 7 0) (xml_tame hash toChars) xml_tidy xml_ruleWise hh hr hroom hm0 hs R
    hn hc h0 outside_eq rfl s1 isSkip_ok s2 (xml_owns (i := 2) (by omega)) (by decide) h1
  have e : min (n + k) cs.length = m := by
    rw [q1, ← hend] at h2
    exact LexProps.ix_inj R (Nat.min_le_right ..) (by omega) (congrArg (fun c => c.input.index) h2)
  rw [e] at q2
  obtain ⟨L2, g1, g2, g3, g4, g5⟩ := skip_of_match (env := xmlEnv hash toChars) (fn := fn) R (m := m) (by omega) he h1 (by rw [q2]; rfl)
  exact ⟨L2, dfas', g1, g2, g3.trans hm, g4, by rw [g5]; simp, xml_after (L := L0) (tells_less hh) R hs hfc hfe hn hc hr hroomb h1⟩

/-! ## A concrete case -/

def xmlDfas : List DFA := (emptyDfas xmlLexer).getD []

theorem xml_new (hash : List Config → Nat) (fc : Nat) : Reached xmlLexer hash fc xmlDfas ∧
    (∀ m, m + 1 ≤ ERROR_DFA_STATE_REF → Room m xmlDfas) ∧ 0 < xmlDfas.length := by
  obtain ⟨ds, h1, h2, h3⟩ := xml_all.2.2.2.2.2.2.2.2.2.2.2.2
  have e : xmlDfas = ds := by rw [xmlDfas, h1]; rfl
  rw [e]
  obtain ⟨g1, g2⟩ := EndProps.new_dfas h1 h3 (hash := hash) (fc := fc)
  exact ⟨g1, g2, List.length_pos_iff.2 h2⟩

/-- A comment with `--` in it, and another `-->` after it. -/
def xmlText : List Char := ['<', '!', '-', '-', '-', 'a', '-', '-', '-', '>', '-', '-', '>']

example : (matchToken (xmlEnv blindHash Str.chars) 60 60 (Lex.new (InputStream.new (Str.mk xmlText))) xmlDfas).map
    (fun r => (r.1, r.2.1.cur.input.index)) = some (.ok 1, 10) := by decide +kernel

example {L' : Lex Str} {dfas' : List DFA} (h : matchToken (xmlEnv blindHash Str.chars) 60 60
    (Lex.new (InputStream.new (Str.mk xmlText))) xmlDfas = some (.ok 1, L', dfas')) :
    ∃ k, ClosedAt (xmlText.map fun c => (c.toNat : Int)) 0 commentOpen commentClose k ∧
      L'.cur.input.index = (bytes (xmlText.take k) : Nat) := by
  obtain ⟨hr, hroom, hl⟩ := xml_new blindHash 60
  obtain ⟨k, h1, h2⟩ := (C79_xml_partial blindHash_ok (reads_str xmlText) (sane_str _) hr (hroom 61 (by decide)) rfl
    hl (n := 0) (by decide) (by simp [Lex.new, at_, InputStream.new, lineOf, colOf, bytes]) h).1 rfl
  exact ⟨k, h1, by rw [h2]; simp [at_]⟩

/-- The comment is found without running the lexer. -/
example : ∃ L' dfas', matchToken (xmlEnv blindHash Str.chars) 1862 1862 (Lex.new (InputStream.new (Str.mk xmlText))) xmlDfas =
    some (.ok 1, L', dfas') ∧ L'.cur.input.index = 10 := by
  obtain ⟨hr, hroom, hl⟩ := xml_new blindHash 1862
  obtain ⟨L', dfas', h1, h2⟩ := C79_xml_found_partial (toChars := Str.chars) (body := [45, 97, 45]) (tt := 1) blindHash_ok
    (reads_str xmlText) (sane_str _) (fc := 1862) (fe := 1862) (by decide) (by decide) hr (hroom _ (by decide))
    (L := Lex.new (InputStream.new (Str.mk xmlText))) rfl hl (n := 0) (by decide)
    (by simp [Lex.new, at_, InputStream.new, lineOf, colOf, bytes]) (by decide) (.inl ⟨rfl, rfl, rfl⟩) (by simp only [Stands]; decide) (by
      intro q hq h
      by_contra hlt
      have hq' : q < 7 := by simp only [commentOpen, commentClose, List.length_append, List.length_cons, List.length_nil] at hlt; omega
      have hq4 : 4 ≤ q := hq
      obtain rfl | rfl | rfl : q = 4 ∨ q = 5 ∨ q = 6 := by omega
      all_goals revert h; simp only [Stands]; decide)
  exact ⟨L', dfas', h1, by rw [h2]; decide⟩

/-- Its token. -/
example : ∃ L' dfas', nextToken (xmlEnv Encode.configs Str.chars) 1862 1862 2 (Lex.new (InputStream.new (Str.mk xmlText))) xmlDfas =
    some ({ ttype := 1, channel := 0, start := 0, stop := 9, line := 1, column := 0, index := -1,
            text := ['<', '!', '-', '-', '-', 'a', '-', '-', '-', '>'] }, L', dfas') := by
  obtain ⟨hr, hroom, hl⟩ := xml_new Encode.configs 1862
  obtain ⟨L', dfas', h1, -⟩ := C79_xml_token_partial (toChars := Str.chars) (body := [45, 97, 45]) (tt := 1) fullHash_ok
    (reads_str xmlText) (sane_str _) (fc := 1862) (fe := 1862) (fn := 2) (by decide) (by decide) (by decide) hr (b := 0) (hroom _ (by decide))
    (L := Lex.new (InputStream.new (Str.mk xmlText))) rfl rfl hl (n := 0) (by decide)
    (by simp [Lex.new, at_, InputStream.new, lineOf, colOf, bytes]) (by decide) (.inl ⟨rfl, rfl, rfl⟩) (by simp only [Stands]; decide) (by
      intro q hq h
      by_contra hlt
      have hq' : q < 7 := by simp only [commentOpen, commentClose, List.length_append, List.length_cons, List.length_nil] at hlt; omega
      have hq4 : 4 ≤ q := hq
      obtain rfl | rfl | rfl : q = 4 ∨ q = 5 ∨ q = 6 := by omega
      all_goals revert h; simp only [Stands]; decide) rfl
  exact ⟨L', dfas', h1⟩

example : ∃ ts L dfas', LexSpec.nextTokens (xmlEnv blindHash Str.chars) 1862 1862 29 4
    (Lex.new (InputStream.new (Str.mk xmlText))) xmlDfas = some (ts, L, dfas') ∧ ts.length = 4 := by
  obtain ⟨hr, hroom, -⟩ := xml_new blindHash 1862
  obtain ⟨ts, L, dfas', h1, h2, -⟩ := C69_xml (toChars := Str.chars) blindHash_ok (reads_str xmlText) (sane_str _)
    (fc := 1862) (fe := 1862) (fn := 29) (by decide) (by decide) (by decide) hr (hroom _ (by decide)) 4
  exact ⟨ts, L, dfas', h1, h2⟩

end Antlr.XmlProps
