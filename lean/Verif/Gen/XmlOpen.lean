import Verif.Gen.XmlText

/-!
# Where a tag begins in the XML lexer: C81
-/

namespace Antlr.LexLazy
open Antlr Lexer LexSpec LexPaths LexOrder LexCache LexCacheProps LexPathProps IntervalSpec

set_option linter.unusedSectionVars false

variable {D : Type} [InputData D] {d : D} {cs : List Int} {ix : Nat → Int} {sl : Nat → Nat → D} {env : Env D} {L : Lex D} {n : Nat}
  {st : ATNState}

/-- The symbol a rule reads after a given word. -/
theorem reads_next {i : Nat} {tr : Trans} {word : List Int} (hn : n ≤ cs.length) (hi : st.transitions[i]? = some tr)
    (hc : ∀ j ≤ word.length, closeB env.atn (after env.atn tr.target (word.take j)) = true) (ht : Stands cs n word)
    {test : Trans → Bool} (htest : testB env.atn (after env.atn tr.target word) test = true) {ok : Int → Prop}
    (hok : ∀ tr c, test tr = true → ReadsSym tr c → ok c) {k : Nat} :
    ∀ {w : Way}, LexOrder.Reached env L cs ix n st (word.length + k + 1) w → w.rule = ((i + 1 : Nat) : Int) →
      ok ((cs[n + word.length]?).getD EOF) := by
  induction k with
  | zero =>
    rintro u ⟨v, h1, -, -, h4⟩ hu
    have := (after_mem hn hi hc ht word.length (Nat.le_refl _) v h1 ((takes_rule h4).symm.trans hu)).2
    rw [List.take_length] at this
    obtain ⟨sv, tr', e1, e2, e3, -⟩ := h4
    exact hok tr' _ (testB_ok htest this e1 e2) e3
  | succ k ih =>
    rintro u ⟨v, h1, -, -, h4⟩ hu
    exact ih h1 ((takes_rule h4).symm.trans hu)

/-- What `next_token` returns when the first match moves the lexer and changes its mode. -/
theorem token_of_mode (hid : env.beforeEmit = id) (R : Reads d cs ix sl) {m : Nat} (hnm : n < m) (hm : m ≤ cs.length)
    (hc : L.cur = at_ d cs ix n) (he : L.hitEof = false) {tt : Int} (h0 : tt ≠ LEXER_SKIP) (h1 : tt ≠ LEXER_MORE)
    {fc fe fn : Nat} {dfas dfas' : List DFA} {L' : Lex D} {mode : Nat} {stack : List Nat}
    (h : matchToken env fc fe { beginToken L with ttype := TOKEN_INVALID_TYPE } dfas = some (.ok tt, L', dfas'))
    (hL : L' = { { beginToken L with ttype := TOKEN_INVALID_TYPE } with cur := at_ d cs ix m, mode := mode, modeStack := stack }) :
    ∃ L2, nextToken env fc fe (fn + 2) L dfas = some (⟨tt, 0, ix n, ix m - 1, lineOf cs n, colOf cs n, -1, env.toChars (sl n m)⟩,
      L2, dfas') ∧ L2.cur = at_ d cs ix m ∧ L2.mode = mode ∧ L2.modeStack = stack ∧ L2.hitEof = decide (m = cs.length) := by
  subst hL
  have hla := R.la m hm
  have hix := LexProps.ix_lt R (show n < cs.length by omega) (Nat.le_refl _)
  have hix2 := LexProps.ix_le R hm (Nat.le_refl _)
  have hsz : (InputStream.mk d (ix m)).size = ix cs.length := R.size
  have heof : decide ((cs[m]?).getD EOF = EOF) = decide (m = cs.length) := by
    by_cases e : m = cs.length
    · subst e; simp
    · rw [List.getElem?_eq_getElem (show m < cs.length by omega), Option.getD_some]
      have := R.chars _ (List.getElem_mem (show m < cs.length by omega))
      rw [decide_eq_false e, decide_eq_false_iff_not]
      intro hx
      rw [hx] at this
      revert this
      decide
  have step : matchStep env fc fe (beginToken L) dfas = some (
      { { beginToken L with ttype := tt, cur := at_ d cs ix m, mode := mode, modeStack := stack } with
        hitEof := decide (m = cs.length)
        pieces := L.pieces ++ [Piece.mk (ix n) (ix m) tt false] }, dfas') := by
    unfold matchStep
    rw [h]
    simp only [Option.bind_some]
    rw [show (at_ d cs ix m).input = ⟨d, ix m⟩ from rfl, hla]
    simp only [Option.map_some, heof, beginToken, he, Bool.false_or, hc, ↓reduceIte]
    rfl
  have text : Lexer.createText env.toChars (some (at_ d cs ix m).input) none (at_ d cs ix n).input.index
      ((at_ d cs ix m).input.index - 1) = some (env.toChars (sl n m)) := by
    show (if ix m - 1 ≥ (InputStream.mk d (ix m)).size ∨ ix n ≥ (InputStream.mk d (ix m)).size then some eofText
      else ((InputStream.mk d (ix m)).getText (ix n) (ix m - 1)).map env.toChars) = _
    rw [hsz, if_neg (by omega), R.text n m _ (by omega) hm]
    rfl
  unfold nextToken
  rw [outerLoop, he]
  simp only [Bool.false_eq_true, ↓reduceIte]
  rw [innerLoop, step]
  simp only [Option.bind_some, if_neg h0, if_neg h1]
  simp only [beginToken, Option.isNone_none, ↓reduceIte, emit, hid, id, hc, text, Option.map_some, Option.bind_some]
  exact ⟨_, rfl, rfl, rfl, rfl, rfl⟩

end Antlr.LexLazy

namespace Antlr.XmlProps
open Antlr Lexer LexCache LexSpec LexProps LexPaths LexCacheProps LexPathProps LexTotal LexTotalProps LexLazy LexExample IntervalSpec
open Antlr.Gen (xmlLexer xmlEnv emptyDfas)

variable {D : Type} [InputData D] {d : D} {cs : List Int} {ix : Nat → Int} {sl : Nat → Nat → D}

seal Antlr.Gen.xmlLexer

/-- `!` and `?` -/
def secondTest : Trans → Bool
  | .atom _ l => decide (l = 33 ∨ l = 63)
  | .epsilon _ _ => true
  | .action _ _ _ _ _ => true
  | _ => false

/-- The action `pushMode(INSIDE)` -/
def isPush : LexerAction → Bool
  | .pushMode m => decide (m = 1)
  | _ => false

theorem isPush_ok (a : LexerAction) (h : isPush a = true) : a = .pushMode 1 := by
  cases a <;> simp [isPush] at h
  rw [h]

/-- There is an edge with lexer action 1 from `a` to `b`. -/
def pushB (atn : ATN) (a b : Nat) : Bool :=
  calmB atn b && (atn.states[a]?).any fun st => !decide (st.stateType = .ruleStop) && st.transitions.any fun tr => match tr with
    | .action t _ _ x _ => t == b && decide (x = 1)
    | _ => false

/-- What C81 needs of the automaton. -/
def openChecks (atn : ATN) : Bool :=
  ((List.range 10).all fun i => closeB atn (after atn (3 + 2 * i) []) && closeB atn (after atn (3 + 2 * i) [60]) &&
    testB atn (after atn (3 + 2 * i) [60]) secondTest && (i == 6 || !(after atn (3 + 2 * i) [60]).any (stopB atn))) &&
  (endsB atn ((statesOf atn 6).filter fun s => s != 138 && s != 16) [138, 16] isPush &&
    ((statesOf atn 6).filter fun s => s != 138 && s != 16).contains 15) &&
  (hopB atn 15 135 && eatB atn 135 136 (isAtom 60) && hopB atn 136 137 && pushB atn 137 138 && hopB atn 138 16) &&
  decide (atn.lexerActions[1]? = some (.pushMode 1)) && stopB atn 16 &&
  outside.transitions.zipIdx.all fun q => decide (((atn.states[q.1.target]?).bind fun t0 =>
    atn.ruleToTokenType[t0.ruleIndex]?) = some 7) == (q.2 == 6)

theorem open_checks : openChecks xmlLexer = true := by decide +kernel

theorem open_all :
    (∀ i < 10, closeB xmlLexer (after xmlLexer (3 + 2 * i) []) = true ∧ closeB xmlLexer (after xmlLexer (3 + 2 * i) [60]) = true ∧
      testB xmlLexer (after xmlLexer (3 + 2 * i) [60]) secondTest = true ∧
      (i ≠ 6 → ∀ s ∈ after xmlLexer (3 + 2 * i) [60], stopB xmlLexer s ≠ true)) ∧
    (∃ S, endsB xmlLexer S [138, 16] isPush = true ∧ 15 ∈ S) ∧
    (hopB xmlLexer 15 135 = true ∧ eatB xmlLexer 135 136 (isAtom 60) = true ∧ hopB xmlLexer 136 137 = true ∧
      pushB xmlLexer 137 138 = true ∧ hopB xmlLexer 138 16 = true) ∧
    xmlLexer.lexerActions[1]? = some (.pushMode 1) ∧ stopB xmlLexer 16 = true ∧
    ∀ q ∈ outside.transitions.zipIdx, ((xmlLexer.states[q.1.target]?).bind fun t0 =>
      xmlLexer.ruleToTokenType[t0.ruleIndex]?) = some 7 ↔ q.2 = 6 := by
  have h := open_checks
  generalize xmlLexer = atn at h
  simp only [openChecks, Bool.and_eq_true] at h
  obtain ⟨⟨⟨⟨⟨h1, h2⟩, h3⟩, h4⟩, h5⟩, h6⟩ := h
  refine ⟨?_, ⟨_, h2.1, List.contains_iff_mem.1 h2.2⟩, ⟨h3.1.1.1.1, h3.1.1.1.2, h3.1.1.2, h3.1.2, h3.2⟩, of_decide_eq_true h4, h5, ?_⟩
  · intro i hi
    have := List.all_eq_true.1 h1 i (List.mem_range.2 hi)
    rw [Bool.and_eq_true, Bool.and_eq_true, Bool.and_eq_true, Bool.or_eq_true, Bool.not_eq_true', beq_iff_eq] at this
    refine ⟨this.1.1.1, this.1.1.2, this.1.2, fun hne s hs hstop => ?_⟩
    rcases this.2 with e | e
    · exact hne e
    · rw [List.any_eq_true.2 ⟨s, hs, hstop⟩] at e; cases e
  · intro q hq
    have := List.all_eq_true.1 h6 q hq
    rw [beq_iff_eq] at this
    rw [← decide_eq_true_iff (p := _ = some _), this, beq_iff_eq]

section
variable {hash : List Config → Nat} {toChars : D → List Char} {L : Lex D} {n : Nat}

theorem open_push {v : Nat} {r : Int} (hx : Eager (xmlEnv hash toChars) L cs ix n outside r v ⟨137, [], []⟩) :
    Eager (xmlEnv hash toChars) L cs ix n outside r v ⟨138, [], [.pushMode 1]⟩ := by
  have h := open_all.2.2.1.2.2.2.1
  simp only [pushB, Bool.and_eq_true, Option.any_eq_true, Bool.not_eq_true', decide_eq_false_iff_not, List.any_eq_true] at h
  obtain ⟨h1, sa, h2, h3, tr, h4, h5⟩ := h
  refine .silent hx (.edge h2 h3 h4 ?_) (calmB_ok h1)
  cases tr <;> simp at h5
  obtain ⟨rfl, rfl⟩ := h5
  exact ⟨.pushMode 1, by decide, open_all.2.2.2.1, rfl⟩

/-- `OPEN` matches `<`. -/
theorem open_matches (hn : n < cs.length) (h : cs[n] = 60) : EagerMatch (xmlEnv hash toChars) L cs ix n outside 7 (n + 1) := by
  obtain ⟨k1, k2, k3, -, k5⟩ := open_all.2.2.1
  have e1 : Eager (xmlEnv hash toChars) L cs ix n outside 7 n ⟨135, [], []⟩ :=
    hop (env := xmlEnv hash toChars) k1 (.start (i := 6) (tr := .epsilon 15 0) rfl)
  have e2 : Eager (xmlEnv hash toChars) L cs ix n outside 7 (n + 1) ⟨136, [], []⟩ := by
    refine eat (env := xmlEnv hash toChars) k2 hn ?_ e1
    intro tr ht
    cases tr <;> simp only [isAtom, decide_eq_true_eq, Bool.false_eq_true] at ht
    rw [ht, h]; rfl
  have e3 := hop (env := xmlEnv hash toChars) k5 (open_push (hop (env := xmlEnv hash toChars) k3 e2))
  have hs := open_all.2.2.2.2.1
  simp only [stopB, Option.any_eq_true, decide_eq_true_eq] at hs
  obtain ⟨st, s1, s2⟩ := hs
  exact ⟨16, _, st, e3, s1, s2⟩

/-- What matches at `<` without `!` or `?` after it is `OPEN`. -/
theorem open_hit (hn : n < cs.length) (h : cs[n] = 60) (hnext : ∀ c, cs[n + 1]? = some c → c ≠ 33 ∧ c ≠ 63) {k : Nat} {w : LexOrder.Way}
    (hw : LexOrder.Hit (xmlEnv hash toChars) L cs ix n outside (k + 1) w) : k = 0 ∧ w.rule = 7 := by
  obtain ⟨i, tr, h1, h2⟩ := reached_rule hw.1
  obtain ⟨rfl, hi⟩ := edges_cases h1
  obtain ⟨c1, c2, c3, c4⟩ := open_all.1 i (by omega)
  have ht : Stands cs n [60] := by
    refine ⟨cs.drop (n + 1), ?_⟩
    rw [List.drop_eq_getElem_cons hn, h]; rfl
  have hc : ∀ j ≤ [(60 : Int)].length, closeB xmlLexer (after xmlLexer (3 + 2 * i) ([60].take j)) = true := by
    intro j hj
    match j, hj with
    | 0, _ => exact c1
    | 1, _ => exact c2
  have hk : k = 0 := by
    match k, hw with
    | 0, _ => rfl
    | k + 1, hw =>
      have := reads_next (env := xmlEnv hash toChars) (tr := .epsilon (3 + 2 * i) 0) (word := [60]) (k := k) (Nat.le_of_lt hn) h1 hc ht c3
        (ok := fun c => c = 33 ∨ c = 63) (by
        intro tr c e1 e2
        cases tr <;> simp [secondTest, ReadsSym] at e1 e2
        subst e2; exact e1) (w := w) (by
        have := hw.1
        rwa [show k + 1 + 1 = [(60 : Int)].length + k + 1 by simp; omega] at this) h2
      simp only [List.length_cons, List.length_nil, Nat.zero_add] at this
      cases hx : cs[n + 1]? with
      | none => rw [hx] at this; exact absurd this (by decide)
      | some c =>
        rw [hx] at this
        have := hnext c hx
        simp only [Option.getD_some] at *
        omega
  subst hk
  refine ⟨rfl, ?_⟩
  by_contra hne
  have hi6 : i ≠ 6 := by rintro rfl; exact hne (by simp [h2])
  have hin := (after_mem (env := xmlEnv hash toChars) (tr := .epsilon (3 + 2 * i) 0) (word := [60]) (Nat.le_of_lt hn) h1 hc ht 1 (by simp) w
    hw.1 h2).2
  obtain ⟨z, z1, z2, -⟩ := hw.2
  refine c4 hi6 _ hin ?_
  unfold stopB
  rw [show xmlLexer.states[w.thread.state]? = some z from z1]
  exact decide_eq_true z2

end

theorem open_owns : Owns xmlLexer outside 6 7 := by
  intro j tr t0 h1 h2 h3
  exact (open_all.2.2.2.2.2 (tr, j) (List.mk_mem_zipIdx_iff_getElem?.2 h1)).1 (by simp only [h2, Option.bind_some, h3])

/-- The match of `<`. -/
theorem open_found {hash : List Config → Nat} {toChars : D → List Char} (hh : TellsApart hash) (R : Reads d cs ix sl)
    (hs : Sane d) {fc fe : Nat} (hfc : 133 * (cs.length + 1) ≤ fc) (hfe : 133 * (cs.length + 1) ≤ fe)
    {dfas : List DFA} (hr : Reached xmlLexer hash fc dfas) (hroom : Room (fe + 1) dfas)
    {L : Lex D} (hm : L.mode = 0) (hl : 0 < dfas.length) {n : Nat} (hn : n < cs.length) (hc : L.cur = at_ d cs ix n)
    (hx : cs[n] = 60) (hnext : ∀ c, cs[n + 1]? = some c → c ≠ 33 ∧ c ≠ 63) :
    ∃ L' dfas', matchToken (xmlEnv hash toChars) fc fe L dfas = some (.ok 7, L', dfas') ∧ L'.cur = at_ d cs ix (n + 1) := by
  have hn' := Nat.le_of_lt hn
  have h0 : (xmlEnv (D := D) hash toChars).atn.modeToStartState[L.mode]? = some 0 := by
    rw [hm]
    exact xml_all.2.2.2.2.2.2.2.2.1
  obtain ⟨⟨r, L', dfas'⟩, h⟩ := C69_match_returns (env := xmlEnv hash toChars) xml_whole (N := 11)
    (loopCheck_ok xml_loops (by decide +kernel) (by decide)) hh R hs hfc hfe hn' hc hr hroom
  have hM : EagerMatch (xmlEnv hash toChars) L cs ix n outside 7 (n + 1) := open_matches hn hx
  have hE := C25_eager_partial (xml_tame hash toChars) xml_tidy hh hr hroom (by omega) hs R hn' hc h0 outside_eq h
  have hP := LexOrder.C25_preferred_partial (xml_tame hash toChars) xml_tidy hh hr hroom (by omega) hs R hn' hc h0 outside_eq h
  cases r with
  | illegalMode => exact hE.elim
  | noAlt i => exact absurd hM (hE.2.1 _ _)
  | ok tt =>
    rcases hE with ⟨a, v, s, t, acts, f1, f2, f3, f4⟩ | ⟨f1, -⟩
    rotate_left
    · exact absurd hM (f1 _ _)
    rcases hP with ⟨k, w, t', p1, -, p2, p3, p4⟩ | ⟨-, p2, -, -⟩
    rotate_left
    · omega
    have hmin : min v cs.length = min (n + k) cs.length := by
      rw [f4] at p4
      exact LexProps.ix_inj R (Nat.min_le_right ..) (Nat.min_le_right ..) (congrArg (fun c => c.input.index) p4)
    have hge := f1.longest _ _ hM
    obtain ⟨k', rfl⟩ : ∃ k', k = k' + 1 := ⟨k - 1, by omega⟩
    obtain ⟨rfl, hrule⟩ := open_hit hn hx hnext p1.hit
    obtain ⟨j, tr, e1, e2, t0, e3, e4⟩ := C25_type_of_rule xml_tidy xml_ruleWise outside_eq (LexOrder.hit_matches p1.hit) p2
    have hjt : ((xmlLexer.states[tr.target]?).bind fun t0 => xmlLexer.ruleToTokenType[t0.ruleIndex]?) = some tt := by
      rw [show xmlLexer.states[tr.target]? = some t0 from e3, Option.bind_some, ← e4]
      exact p3
    obtain rfl : j = 6 := by omega
    have := (open_all.2.2.2.2.2 (tr, 6) (List.mk_mem_zipIdx_iff_getElem?.2 e2)).2 rfl
    rw [hjt] at this
    obtain rfl := Option.some.inj this
    exact ⟨L', dfas', h, by rw [p4, Nat.min_eq_left (by omega)]⟩

/-- **C81** (partial: the hash of the DFA cache must not collide): outside of tags, where `<` stands and neither `!` nor `?`
after it, the next token is `OPEN`, this one character; the lexer is then inside the tag (mode 1) and has noted on its stack
that it comes from outside. -/
theorem C81_xml_open_partial {hash : List Config → Nat} {toChars : D → List Char} (hh : TellsActionsApart hash)
    (R : Reads d cs ix sl) (hs : Sane d) {fc fe fn : Nat} (hfc : 133 * (cs.length + 1) ≤ fc) (hfe : 133 * (cs.length + 1) ≤ fe)
    (hfn : 2 ≤ fn) {dfas : List DFA} (hr : Reached xmlLexer hash fc dfas) {b : Nat} (hroom : Room (b + (fe + 1)) dfas)
    {L : Lex D} (hm : L.mode = 0) (he : L.hitEof = false) (hl : 0 < dfas.length) {n : Nat} (hn : n < cs.length)
    (hc : L.cur = at_ d cs ix n) (hx : cs[n] = 60) (hnext : ∀ c, cs[n + 1]? = some c → c ≠ 33 ∧ c ≠ 63) :
    ∃ L' dfas', nextToken (xmlEnv hash toChars) fc fe fn L dfas = some (
        { ttype := 7, channel := 0, start := ix n, stop := ix (n + 1) - 1, line := lineOf cs n, column := colOf cs n, index := -1,
          text := toChars (sl n (n + 1)) }, L', dfas') ∧
      L'.cur = at_ d cs ix (n + 1) ∧ L'.mode = 1 ∧ L'.modeStack = 0 :: L.modeStack ∧ (L'.hitEof = true ↔ n + 1 = cs.length) ∧
      Reached xmlLexer hash fc dfas' ∧ Room b dfas' ∧ dfas'.length = dfas.length := by
  have hroomb := hroom
  replace hroom : Room (fe + 1) dfas := hroom.le (by omega)
  obtain ⟨f, rfl⟩ : ∃ f, fn = f + 2 := ⟨fn - 2, by omega⟩
  let L0 : Lex D := { beginToken L with ttype := TOKEN_INVALID_TYPE }
  obtain ⟨L', dfas', h1, h2⟩ := open_found (toChars := toChars) (tells_less hh) R hs hfc hfe hr hroom (L := L0) hm hl hn hc hx hnext
  have h0 : (xmlEnv (D := D) hash toChars).atn.modeToStartState[L0.mode]? = some 0 := by
    show xmlLexer.modeToStartState[L.mode]? = some 0
    rw [hm]
    exact xml_all.2.2.2.2.2.2.2.2.1
  have hm0 : L0.mode < dfas.length := by show L.mode < _; omega
  obtain ⟨S, s1, s2⟩ := open_all.2.1
  obtain ⟨k, p, q1, q2⟩ := ends_match (env := xmlEnv hash toChars) (i := 6) (tr0 := .epsilon 15 0) (xml_tame hash toChars) xml_tidy
    xml_ruleWise hh hr hroom hm0 hs R (Nat.le_of_lt hn) hc h0 outside_eq rfl s1 isPush_ok s2 open_owns (by decide) h1
  have e : min (n + k) cs.length = n + 1 := by
    rw [q1] at h2
    exact LexProps.ix_inj R (Nat.min_le_right ..) (by omega) (congrArg (fun c => c.input.index) h2)
  rw [e] at q2
  obtain ⟨L2, g1, g2, g3, g4, g5⟩ := token_of_mode (env := xmlEnv hash toChars) (fn := f) (m := n + 1) (mode := 1)
    (stack := 0 :: L.modeStack) rfl R (by omega) (by omega) hc he
    (by decide) (by decide) h1 (by rw [q2, ← hm]; rfl)
  exact ⟨L2, dfas', g1, g2, g3, g4, by rw [g5]; simp, xml_after (L := L0) (tells_less hh) R hs hfc hfe (Nat.le_of_lt hn) hc hr hroomb h1⟩

/-- In `<a` the tag begins with `<`. -/
example : ∃ L' dfas', nextToken (xmlEnv Encode.configs Str.chars) 1000 1000 2 (Lex.new (InputStream.new (Str.mk ['<', 'a']))) xmlDfas =
    some ({ ttype := 7, channel := 0, start := 0, stop := 0, line := 1, column := 0, index := -1, text := ['<'] }, L', dfas') ∧
    L'.mode = 1 ∧ L'.modeStack = [0] := by
  obtain ⟨hr, hroom, hl⟩ := xml_new Encode.configs 1000
  obtain ⟨L', dfas', h, -, h2, h3, -⟩ := C81_xml_open_partial (toChars := Str.chars) (b := 0) (n := 0)
    (L := Lex.new (InputStream.new (Str.mk ['<', 'a']))) fullHash_ok
    (reads_str ['<', 'a']) (sane_str _) (fc := 1000) (fe := 1000) (fn := 2) (by decide) (by decide) (by decide) hr
    (hroom _ (by decide)) rfl rfl hl (by decide) rfl (by decide) (by intro c e; simp at e; subst e; decide)
  exact ⟨L', dfas', h, h2, h3⟩

end Antlr.XmlProps
