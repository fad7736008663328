import Verif.Gen.XmlProps

/-!
# Character data in the XML lexer: TEXT and SEA_WS
-/

namespace Antlr.LexLazy
open Antlr Lexer LexSpec LexPaths LexOrder LexCache LexCacheProps LexPathProps IntervalSpec

set_option linter.unusedSectionVars false

/-- All edges that leave `S` pass the test. -/
def testB (atn : ATN) (S : List Nat) (test : Trans → Bool) : Bool :=
  S.all fun s => (atn.states[s]?).all fun st => st.transitions.all test

theorem testB_ok {atn : ATN} {S : List Nat} {test : Trans → Bool} (h : testB atn S test = true) {s : Nat} {st : ATNState} {tr : Trans}
    (hs : s ∈ S) (hst : atn.states[s]? = some st) (htr : tr ∈ st.transitions) : test tr = true := by
  simp only [testB, List.all_eq_true] at h
  have := h s hs
  rw [hst] at this
  exact List.all_eq_true.1 this tr htr

variable {D : Type} [InputData D] {d : D} {cs : List Int} {ix : Nat → Int} {sl : Nat → Nat → D} {env : Env D} {L : Lex D} {n : Nat}
  {st : ATNState}

/-- All symbols read by a rule without actions and calls are symbols its edges read. -/
theorem reads_within {i : Nat} {tr : Trans} {S : List Nat} (hq : quietB env.atn S = true) {test : Trans → Bool}
    (ht : testB env.atn S test = true) {ok : Int → Prop} (hok : ∀ tr c, test tr = true → ReadsSym tr c → ok c)
    (hi : st.transitions[i]? = some tr) (hS : tr.target ∈ S) {k : Nat} :
    ∀ {w : Way}, LexOrder.Reached env L cs ix n st k w → w.rule = ((i + 1 : Nat) : Int) → ∀ j < k, ok ((cs[n + j]?).getD EOF) := by
  induction k with
  | zero => intro _ _ _ j hj; omega
  | succ k ih =>
    rintro u ⟨v, h1, -, -, h4⟩ hu j hj
    have hv := (takes_rule h4).symm.trans hu
    rcases Nat.lt_or_ge j k with hlt | hge
    · exact ih h1 hv j hlt
    · obtain rfl : j = k := by omega
      obtain ⟨sv, tr', e1, e2, e3, -⟩ := h4
      exact hok tr' _ (testB_ok ht (quiet_reached hq hi hS h1 hv).2.2 e1 e2) e3

/-- The first symbol a rule reads. -/
theorem reads_first {i : Nat} {tr : Trans} (hn : n ≤ cs.length) {S : List Nat} (hS : tr.target ∈ S) (hc : closeB env.atn S = true)
    {test : Trans → Bool} (ht : testB env.atn S test = true) {ok : Int → Prop}
    (hok : ∀ tr c, test tr = true → ReadsSym tr c → ok c) (hi : st.transitions[i]? = some tr) {k : Nat} :
    ∀ {w : Way}, LexOrder.Reached env L cs ix n st (k + 1) w → w.rule = ((i + 1 : Nat) : Int) → ok ((cs[n]?).getD EOF) := by
  induction k with
  | zero =>
    rintro u ⟨v, ⟨i', tr', h1, h2⟩, -, -, h4⟩ hu
    have hv := (takes_rule h4).symm.trans hu
    obtain rfl : i' = i := by
      have := (choices_same h2).1
      simp only [first] at this
      omega
    rw [hi] at h1; injection h1 with h1; subst h1
    obtain ⟨sv, tr', e1, e2, e3, -⟩ := h4
    exact hok tr' _ (testB_ok ht (close_choices (by omega) hc h2 rfl hS).2 e1 e2) e3
  | succ k ih =>
    rintro u ⟨v, h1, -, -, h4⟩ hu
    exact ih h1 ((takes_rule h4).symm.trans hu)

/-- Where a word leads: `after` holds all states the rule can be in. -/
theorem after_mem {i : Nat} {tr : Trans} {word : List Int} (hn : n ≤ cs.length) (hi : st.transitions[i]? = some tr)
    (hc : ∀ j ≤ word.length, closeB env.atn (after env.atn tr.target (word.take j)) = true) (ht : Stands cs n word) :
    ∀ j, j ≤ word.length → ∀ u, LexOrder.Reached env L cs ix n st j u → u.rule = ((i + 1 : Nat) : Int) →
      u.thread.stack = [] ∧ u.thread.state ∈ after env.atn tr.target (word.take j) := by
  have hfit := word_fits ht hn
  intro j
  induction j with
  | zero =>
    rintro - u ⟨i', tr', h1, h2⟩ hu
    obtain rfl : i' = i := by
      have := (choices_same h2).1
      simp only [first] at this
      omega
    rw [hi] at h1; injection h1 with h1; subst h1
    exact close_choices (by omega) (hc 0 (by omega)) h2 rfl (grow_sub _ (by simp [first]))
  | succ j ih =>
    rintro hj u ⟨v, h1, -, h3, h4⟩ hu
    obtain ⟨g1, g2⟩ := ih (by omega) v h1 ((takes_rule h4).symm.trans hu)
    obtain ⟨sv, tr', e1, e2, e3, e4⟩ := h4
    have hsym : cs[n + j]? = word[j]? := by
      obtain ⟨rest, hrest⟩ := ht
      rw [← List.getElem?_drop, ← hrest, List.getElem?_append_left (by omega)]
    have hwj : word[j]? = some word[j] := List.getElem?_eq_getElem (by omega)
    rw [hsym, hwj, Option.getD_some] at e3
    refine close_choices (by omega) (hc (j + 1) (by omega)) e4 g1 ?_
    have e : word.take (j + 1) = word.take j ++ [word[j]] := by rw [List.take_add_one, hwj]; rfl
    rw [e, after, List.foldl_append]
    simp only [List.foldl_cons, List.foldl_nil, Way.eat]
    refine grow_sub _ ?_
    simp only [targets, List.mem_flatMap, List.mem_filterMap]
    exact ⟨v.thread.state, g2, tr', ⟨sv, by simp [e1], e2⟩, by rw [if_pos (readsB_iff.2 e3)]⟩

/-! ## Ways along given states -/

def calmB (atn : ATN) (s : Nat) : Bool :=
  (atn.states[s]?).all fun st => match st.stateType with
    | .decision _ true _ => false
    | _ => true

theorem calmB_ok {atn : ATN} {s : Nat} (h : calmB atn s = true) : Calm atn s := by
  intro st hst n k e
  rw [calmB, hst] at h
  simp [e] at h

/-- There is a jump from `a` to `b`, and no non-greedy decision at `b`. -/
def hopB (atn : ATN) (a b : Nat) : Bool :=
  calmB atn b && (atn.states[a]?).any fun st => !decide (st.stateType = .ruleStop) && st.transitions.any fun tr => match tr with
    | .epsilon t _ => t == b
    | _ => false

theorem hop {a b v : Nat} {r : Int} {acts : List LexerAction} (h : hopB env.atn a b = true)
    (hx : Eager env L cs ix n st r v ⟨a, [], acts⟩) : Eager env L cs ix n st r v ⟨b, [], acts⟩ := by
  simp only [hopB, Bool.and_eq_true, Option.any_eq_true, Bool.not_eq_true', decide_eq_false_iff_not, List.any_eq_true] at h
  obtain ⟨h1, sa, h2, h3, tr, h4, h5⟩ := h
  refine .silent hx (.edge h2 h3 h4 ?_) (calmB_ok h1)
  cases tr <;> simp at h5
  subst h5
  rfl

/-- `b` is reached from `a` by an edge that passes the test. -/
def eatB (atn : ATN) (a b : Nat) (test : Trans → Bool) : Bool :=
  calmB atn b && (atn.states[a]?).any fun st => st.transitions.any fun tr => test tr && tr.target == b

theorem eat {a b v : Nat} {r : Int} {test : Trans → Bool} (h : eatB env.atn a b test = true) (hv : v < cs.length)
    (hr : ∀ tr, test tr = true → ReadsSym tr cs[v]) (hx : Eager env L cs ix n st r v ⟨a, [], []⟩) :
    Eager env L cs ix n st r (v + 1) ⟨b, [], []⟩ := by
  simp only [eatB, Bool.and_eq_true, Option.any_eq_true, List.any_eq_true, beq_iff_eq] at h
  obtain ⟨h1, sa, h2, tr, h3, h4, rfl⟩ := h
  exact .read hx (by omega) h2 h3 (by rw [List.getElem?_eq_getElem hv, Option.getD_some]; exact hr tr h4) (calmB_ok h1)

def noEofB (atn : ATN) : Bool := atn.states.all fun st => st.transitions.all fun tr => !readsB tr EOF

/-- No rule reads past the end. -/
theorem live_inside (h : noEofB env.atn = true) (hn : n ≤ cs.length) {a : Int} {v : Nat} {x : Thread} (hx : Live env L cs ix n st a v x) :
    v ≤ cs.length := by
  induction hx with
  | start _ => exact hn
  | silent _ _ ih => exact ih
  | @read a v x s tr _ h1 h2 h3 h4 ih =>
    by_contra hlt
    rw [List.getElem?_eq_none (by omega), Option.getD_none] at h4
    have := List.all_eq_true.1 (List.all_eq_true.1 h s (List.mem_of_getElem? h2)) tr h3
    rw [readsB_iff.2 h4] at this
    cases this

end Antlr.LexLazy

namespace Antlr.XmlProps
open Antlr Lexer LexCache LexSpec LexProps LexPaths LexCacheProps LexPathProps LexTotal LexTotalProps LexLazy LexExample IntervalSpec
open Antlr.Gen (xmlLexer xmlEnv emptyDfas)

variable {D : Type} [InputData D] {d : D} {cs : List Int} {ix : Nat → Int} {sl : Nat → Nat → D}

seal Antlr.Gen.xmlLexer

/-- The edges of `TEXT`: all but `&` and `<`. -/
def textTest : Trans → Bool
  | .notSet _ s => decide (s.intervals = [⟨38, 38⟩, ⟨60, 60⟩])
  | .epsilon _ _ => true
  | _ => false

/-- The edges of `SEA_WS`. -/
def blankTest : Trans → Bool
  | .set _ s => decide (s.intervals = [⟨9, 9⟩, ⟨32, 32⟩])
  | .atom _ l => decide (l = 10 ∨ l = 13)
  | .epsilon _ _ => true
  | _ => false

/-- `&` and `<` -/
def markTest : Trans → Bool
  | .atom _ l => decide (l = 38 ∨ l = 60)
  | .epsilon _ _ => true
  | _ => false

def isNotSet : Trans → Bool
  | .notSet _ s => decide (s.intervals = [⟨38, 38⟩, ⟨60, 60⟩])
  | _ => false

def isSet : Trans → Bool
  | .set _ s => decide (s.intervals = [⟨9, 9⟩, ⟨32, 32⟩])
  | _ => false

def isAtom (x : Int) : Trans → Bool
  | .atom _ l => decide (l = x)
  | _ => false

def spaces : List Int := [9, 10, 13, 32]

/-- The texts of `SEA_WS`. -/
def blanks : List (List Int) := [[32], [9], [10], [13, 10]]

def stopB (atn : ATN) (s : Nat) : Bool := (atn.states[s]?).any fun st => decide (st.stateType = .ruleStop)

/-- The words of up to two blanks end the rule only if they are in `blanks`, and three are too many. -/
def blankWords (atn : ATN) : Bool :=
  spaces.all fun a => (!(after atn 13 [a]).any (stopB atn) || blanks.contains [a]) && closeB atn (after atn 13 [a]) &&
    spaces.all fun b => (!(after atn 13 [a, b]).any (stopB atn) || blanks.contains [a, b]) && closeB atn (after atn 13 [a, b]) &&
      spaces.all fun c => deadB atn 13 [a, b, c]

theorem blankWords_ok {atn : ATN} (h : blankWords atn = true) {a : Int} (ha : a ∈ spaces) :
    ((∃ s ∈ after atn 13 [a], stopB atn s = true) → [a] ∈ blanks) ∧ closeB atn (after atn 13 [a]) = true ∧
    ∀ b ∈ spaces, ((∃ s ∈ after atn 13 [a, b], stopB atn s = true) → [a, b] ∈ blanks) ∧ closeB atn (after atn 13 [a, b]) = true ∧
      ∀ c ∈ spaces, deadB atn 13 [a, b, c] = true := by
  unfold blankWords at h
  have h1 := List.all_eq_true.1 h a ha
  rw [Bool.and_eq_true, Bool.and_eq_true, Bool.or_eq_true, Bool.not_eq_true'] at h1
  refine ⟨fun hs => ?_, h1.1.2, fun b hb => ?_⟩
  · rcases h1.1.1 with e | e
    · rw [List.any_eq_true.2 hs] at e; cases e
    · exact List.contains_iff_mem.1 e
  · have h2 := List.all_eq_true.1 h1.2 b hb
    rw [Bool.and_eq_true, Bool.and_eq_true, Bool.or_eq_true, Bool.not_eq_true'] at h2
    refine ⟨fun hs => ?_, h2.1.2, fun c hc => List.all_eq_true.1 h2.2 c hc⟩
    rcases h2.1.1 with e | e
    · rw [List.any_eq_true.2 hs] at e; cases e
    · exact List.contains_iff_mem.1 e

def textChecks (atn : ATN) : Bool :=
  ([3, 5, 7, 9, 11, 15, 17, 19].all fun s => closeB atn (grow atn 50 [s]) && testB atn (grow atn 50 [s]) markTest) &&
  (quietB atn (statesOf atn 5) && testB atn (statesOf atn 5) blankTest && (statesOf atn 5).contains 13) &&
  (quietB atn (statesOf atn 9) && testB atn (statesOf atn 9) textTest && (statesOf atn 9).contains 21) &&
  ([(21, 158), (158, 157), (159, 160), (160, 158), (160, 161), (161, 22), (13, 133), (133, 128), (134, 14), (133, 130), (130, 131),
    (130, 129), (131, 132)].all fun p => hopB atn p.1 p.2) &&
  (eatB atn 157 159 isNotSet && eatB atn 128 134 isSet && eatB atn 129 131 (isAtom 13) && eatB atn 132 134 (isAtom 10)) &&
  ([14, 22].all fun s => (atn.states[s]?).any fun st => decide (st.stateType = .ruleStop)) &&
  (([(5, 6), (9, 9)] : List (Nat × Int)).all fun p => outside.transitions.zipIdx.all fun q => decide (((atn.states[q.1.target]?).bind fun t0 =>
    atn.ruleToTokenType[t0.ruleIndex]?) = some p.2) == (q.2 == p.1)) &&
  (blankWords atn && noEofB atn)

theorem text_checks : textChecks xmlLexer = true := by decide +kernel

/-- One fact at a time. -/
theorem text_all :
    (∀ s ∈ [3, 5, 7, 9, 11, 15, 17, 19], closeB xmlLexer (grow xmlLexer 50 [s]) = true ∧
      testB xmlLexer (grow xmlLexer 50 [s]) markTest = true) ∧
    (quietB xmlLexer (statesOf xmlLexer 5) = true ∧ testB xmlLexer (statesOf xmlLexer 5) blankTest = true ∧ 13 ∈ statesOf xmlLexer 5) ∧
    (quietB xmlLexer (statesOf xmlLexer 9) = true ∧ testB xmlLexer (statesOf xmlLexer 9) textTest = true ∧ 21 ∈ statesOf xmlLexer 9) ∧
    (∀ p ∈ [(21, 158), (158, 157), (159, 160), (160, 158), (160, 161), (161, 22), (13, 133), (133, 128), (134, 14), (133, 130), (130, 131),
      (130, 129), (131, 132)], hopB xmlLexer p.1 p.2 = true) ∧
    (eatB xmlLexer 157 159 isNotSet = true ∧ eatB xmlLexer 128 134 isSet = true ∧ eatB xmlLexer 129 131 (isAtom 13) = true ∧
      eatB xmlLexer 132 134 (isAtom 10) = true) ∧
    (∀ s ∈ [14, 22], ∃ st, xmlLexer.states[s]? = some st ∧ st.stateType = .ruleStop) ∧
    (∀ p ∈ ([(5, 6), (9, 9)] : List (Nat × Int)), ∀ q ∈ outside.transitions.zipIdx, ((xmlLexer.states[q.1.target]?).bind fun t0 =>
      xmlLexer.ruleToTokenType[t0.ruleIndex]?) = some p.2 ↔ q.2 = p.1) ∧
    blankWords xmlLexer = true ∧ noEofB xmlLexer = true := by
  have h := text_checks
  generalize xmlLexer = atn at h
  simp only [textChecks, Bool.and_eq_true] at h
  obtain ⟨⟨⟨⟨⟨⟨⟨h1, h2⟩, h3⟩, h4⟩, h5⟩, h6⟩, h7⟩, h8⟩ := h
  refine ⟨?_, ⟨h2.1.1, h2.1.2, by simpa using h2.2⟩, ⟨h3.1.1, h3.1.2, by simpa using h3.2⟩, fun p hp => List.all_eq_true.1 h4 p hp,
    ⟨h5.1.1.1, h5.1.1.2, h5.1.2, h5.2⟩, ?_, ?_, h8.1, h8.2⟩
  · intro s hs
    have := List.all_eq_true.1 h1 s hs
    rwa [Bool.and_eq_true] at this
  · intro s hs
    have := List.all_eq_true.1 h6 s hs
    obtain ⟨st, e1, e2⟩ := (Option.any_eq_true _ _).1 this
    exact ⟨st, e1, of_decide_eq_true e2⟩
  · intro p hp q hq
    have := List.all_eq_true.1 (List.all_eq_true.1 h7 p hp) q hq
    rw [beq_iff_eq] at this
    rw [← decide_eq_true_iff (p := _ = some _), this, beq_iff_eq]

section
variable {hash : List Config → Nat} {toChars : D → List Char} {L : Lex D} {n k : Nat} {w : LexOrder.Way}

/-- A rule of the mode that reads something other than `&` and `<` first is `SEA_WS` or `TEXT`. -/
theorem run_rule (hn : n ≤ cs.length) (h : LexOrder.Reached (xmlEnv hash toChars) L cs ix n outside (k + 1) w)
    (hc : (cs[n]?).getD EOF ≠ 38 ∧ (cs[n]?).getD EOF ≠ 60) : w.rule = 6 ∨ w.rule = 10 := by
  obtain ⟨i, tr, h1, h2⟩ := reached_rule h
  obtain ⟨rfl, hi⟩ := edges_cases h1
  by_contra hne
  have hi' : i ≠ 5 ∧ i ≠ 9 := by constructor <;> rintro rfl <;> exact hne (by simp [h2])
  obtain ⟨c1, c2⟩ := text_all.1 (3 + 2 * i) (by simp; omega)
  have := reads_first (env := xmlEnv hash toChars) (tr := .epsilon (3 + 2 * i) 0) (ok := fun c => c = 38 ∨ c = 60) hn
    (grow_sub (atn := xmlLexer) 50 (S := [3 + 2 * i]) (List.mem_singleton.2 rfl)) c1 c2 (by
    intro tr c e1 e2
    cases tr <;> simp [markTest, ReadsSym] at e1 e2
    subst e2; exact e1) h1 h h2
  rcases this with e | e
  · exact hc.1 e
  · exact hc.2 e

/-- `TEXT` reads no `&`, no `<` and not EOF. -/
theorem text_reads (h : LexOrder.Reached (xmlEnv hash toChars) L cs ix n outside k w) (hw : w.rule = 10) :
    ∀ j < k, (cs[n + j]?).getD EOF ≠ 38 ∧ (cs[n + j]?).getD EOF ≠ 60 ∧ 0 ≤ (cs[n + j]?).getD EOF := by
  obtain ⟨c1, c2, c3⟩ := text_all.2.2.1
  exact reads_within (i := 9) (tr := .epsilon 21 0) (env := xmlEnv hash toChars) c1 c2 (ok := fun c => c ≠ 38 ∧ c ≠ 60 ∧ 0 ≤ c) (by
    intro tr c e1 e2
    cases tr <;> simp only [textTest, ReadsSym, decide_eq_true_eq, Bool.false_eq_true] at e1 e2
    obtain ⟨e3, -, e4⟩ := e2
    rw [e1] at e4
    simp only [Mem, InIv, List.mem_cons, List.not_mem_nil, or_false, exists_eq_or_imp, exists_eq_left, not_or] at e4
    exact ⟨by omega, by omega, e3⟩) rfl (c3) h hw

/-- `SEA_WS` reads blanks. -/
theorem blank_reads (h : LexOrder.Reached (xmlEnv hash toChars) L cs ix n outside k w) (hw : w.rule = 6) :
    ∀ j < k, (cs[n + j]?).getD EOF ∈ spaces := by
  obtain ⟨c1, c2, c3⟩ := text_all.2.1
  exact reads_within (i := 5) (tr := .epsilon 13 0) (env := xmlEnv hash toChars) c1 c2 (ok := fun c => c ∈ spaces) (by
    intro tr c e1 e2
    cases tr <;> simp only [blankTest, ReadsSym, decide_eq_true_eq, Bool.false_eq_true] at e1 e2
    · subst e2; rcases e1 with rfl | rfl <;> decide
    · rw [e1] at e2
      simp only [Mem, InIv, List.mem_cons, List.not_mem_nil, or_false, exists_eq_or_imp, exists_eq_left] at e2
      obtain rfl | rfl : c = 9 ∨ c = 32 := by omega
      all_goals decide) rfl (c3) h hw

/-- A match of `SEA_WS` is one of its texts. -/
theorem blank_hit (hn : n ≤ cs.length) {body : List Int} (ht : Stands cs n body) (hb : body ≠ [])
    (h : LexOrder.Hit (xmlEnv hash toChars) L cs ix n outside body.length w) (hw : w.rule = 6) : body ∈ blanks := by
  have hsp : ∀ c ∈ body, c ∈ spaces := by
    intro c hc
    obtain ⟨j, hj, rfl⟩ := List.getElem_of_mem hc
    have := blank_reads h.1 hw j hj
    obtain ⟨rest, hrest⟩ := ht
    rwa [← List.getElem?_drop, ← hrest, List.getElem?_append_left hj, List.getElem?_eq_getElem hj, Option.getD_some] at this
  have hB := text_all.2.2.2.2.2.2.2.1
  have h0 : closeB xmlLexer (after xmlLexer 13 []) = true := by
    have := (blankWords_ok hB (a := 9) (by decide)).2.2 9 (by decide)
    have := this.2.2 9 (by decide)
    unfold deadB at this
    rw [Bool.and_eq_true] at this
    exact List.all_eq_true.1 this.1 0 (by simp)
  obtain ⟨z, z1, z2, -⟩ := h.2
  have hz : stopB xmlLexer w.thread.state = true := by
    unfold stopB
    rw [show xmlLexer.states[w.thread.state]? = some z from z1]
    exact decide_eq_true z2
  have hi : outside.transitions[5]? = some (.epsilon 13 0) := rfl
  match body, hb with
  | [a], _ =>
    obtain ⟨k1, k2, k3⟩ := blankWords_ok hB (hsp a (by simp))
    refine k1 ⟨_, (after_mem (env := xmlEnv hash toChars) (i := 5) (word := [a]) hn hi ?_ ht 1 (by simp) w h.1 hw).2, hz⟩
    intro j hj
    match j, hj with
    | 0, _ => exact h0
    | 1, _ => exact k2
  | [a, b], _ =>
    obtain ⟨k1, k2, k3⟩ := blankWords_ok hB (hsp a (by simp))
    obtain ⟨g1, g2, g3⟩ := k3 b (hsp b (by simp))
    refine g1 ⟨_, (after_mem (env := xmlEnv hash toChars) (i := 5) (word := [a, b]) hn hi ?_ ht 2 (by simp) w h.1 hw).2, hz⟩
    intro j hj
    match j, hj with
    | 0, _ => exact h0
    | 1, _ => exact k2
    | 2, _ => exact g2
  | a :: b :: c :: rest, _ =>
    have := dead (env := xmlEnv hash toChars) (i := 5) (word := [a, b, c]) hn hi
      (((blankWords_ok hB (hsp a (by simp))).2.2 b (hsp b (by simp))).2.2 c (hsp c (by simp)))
      ((List.prefix_append [a, b, c] rest).trans ht) h.1 hw
    simp only [List.length_cons, List.length_nil] at this
    omega

theorem eager_hop {a b v : Nat} {r : Int} (hp : (a, b) ∈ [(21, 158), (158, 157), (159, 160), (160, 158), (160, 161), (161, 22), (13, 133),
      (133, 128), (134, 14), (133, 130), (130, 131), (130, 129), (131, 132)])
    (hx : Eager (xmlEnv hash toChars) L cs ix n outside r v ⟨a, [], []⟩) :
    Eager (xmlEnv hash toChars) L cs ix n outside r v ⟨b, [], []⟩ :=
  hop (env := xmlEnv hash toChars) (text_all.2.2.2.1 (a, b) hp) hx

/-- `TEXT` matches every run. -/
theorem text_matches (R : Reads d cs ix sl) {m : Nat} (hnm : n < m) (hm : m ≤ cs.length)
    (hrun : ∀ j (hj : j < cs.length), n ≤ j → j < m → cs[j] ≠ 38 ∧ cs[j] ≠ 60 ∧ cs[j] ≤ 0x10FFFF) :
    EagerMatch (xmlEnv hash toChars) L cs ix n outside 10 m := by
  have start : Eager (xmlEnv hash toChars) L cs ix n outside 10 n ⟨157, [], []⟩ :=
    eager_hop (a := 158) (by simp) (eager_hop (a := 21) (by simp) (.start (i := 9) (tr := .epsilon 21 0) rfl))
  have step : ∀ v, n ≤ v → v < m → Eager (xmlEnv hash toChars) L cs ix n outside 10 v ⟨157, [], []⟩ →
      Eager (xmlEnv hash toChars) L cs ix n outside 10 (v + 1) ⟨160, [], []⟩ := by
    intro v h1 h2 h3
    refine eager_hop (a := 159) (by simp) (eat (env := xmlEnv hash toChars) text_all.2.2.2.2.1.1 (by omega) ?_ h3)
    intro tr ht
    cases tr <;> simp only [isNotSet, decide_eq_true_eq, Bool.false_eq_true] at ht
    have hv : v < cs.length := by omega
    obtain ⟨e1, e2, e3⟩ := hrun v hv h1 h2
    refine ⟨R.chars _ (List.getElem_mem hv), e3, ?_⟩
    rw [ht]
    simp only [Mem, InIv, List.mem_cons, List.not_mem_nil, or_false, exists_eq_or_imp, exists_eq_left, not_or]
    omega
  have all : ∀ k, n + k < m → Eager (xmlEnv hash toChars) L cs ix n outside 10 (n + k) ⟨157, [], []⟩ := by
    intro k
    induction k with
    | zero => exact fun _ => start
    | succ k ih => exact fun h => eager_hop (a := 158) (by simp) (eager_hop (a := 160) (by simp) (step (n + k) (by omega) (by omega)
        (ih (by omega))))
  have last := step (m - 1) (by omega) (by omega) (by
    have := all (m - 1 - n) (by omega)
    rwa [show n + (m - 1 - n) = m - 1 by omega] at this)
  rw [show m - 1 + 1 = m by omega] at last
  obtain ⟨st, e1, e2⟩ := text_all.2.2.2.2.2.1 22 (by simp)
  exact ⟨22, [], st, eager_hop (a := 161) (by simp) (eager_hop (a := 160) (by simp) last), e1, e2⟩

/-- `SEA_WS` matches its texts. -/
theorem blank_matches (hn : n ≤ cs.length) {body : List Int} (ht : Stands cs n body) (hb : body ∈ blanks) :
    EagerMatch (xmlEnv hash toChars) L cs ix n outside 6 (n + body.length) := by
  have start : Eager (xmlEnv hash toChars) L cs ix n outside 6 n ⟨133, [], []⟩ :=
    eager_hop (a := 13) (by simp) (.start (i := 5) (tr := .epsilon 13 0) rfl)
  have hfit := word_fits ht hn
  have hget : ∀ j (hj : j < body.length), cs[n + j]'(by omega) = body[j] := by
    intro j hj
    obtain ⟨rest, hrest⟩ := ht
    have : cs[n + j]? = body[j]? := by rw [← List.getElem?_drop, ← hrest, List.getElem?_append_left hj]
    rw [List.getElem?_eq_getElem (by omega), List.getElem?_eq_getElem hj] at this
    exact Option.some.inj this
  obtain ⟨s14, e1, e2⟩ := text_all.2.2.2.2.2.1 14 (by simp)
  have fin : ∀ {v}, Eager (xmlEnv hash toChars) L cs ix n outside 6 v ⟨134, [], []⟩ →
      EagerMatch (xmlEnv hash toChars) L cs ix n outside 6 v := fun h =>
    ⟨14, [], s14, eager_hop (a := 134) (by simp) h, e1, e2⟩
  obtain ⟨-, k1, k2, k3⟩ := text_all.2.2.2.2.1
  simp only [blanks, List.mem_cons, List.not_mem_nil, or_false] at hb
  have one : ∀ x : Int, x = 9 ∨ x = 32 → body = [x] → EagerMatch (xmlEnv hash toChars) L cs ix n outside 6 (n + body.length) := by
    rintro x hx rfl
    have h0 := hget 0 (by simp)
    refine fin (eat (env := xmlEnv hash toChars) k1 (by simp at hfit; omega) ?_ (eager_hop (a := 133) (by simp) start))
    intro tr ht
    cases tr <;> simp only [isSet, decide_eq_true_eq, Bool.false_eq_true] at ht
    simp only [Nat.add_zero] at h0
    simp only [ReadsSym, ht, h0, List.getElem_cons_zero, Mem, InIv, List.mem_cons, List.not_mem_nil, or_false, exists_eq_or_imp,
      exists_eq_left]
    omega
  have nl : ∀ {v} (hv : v < cs.length), cs[v] = 10 → Eager (xmlEnv hash toChars) L cs ix n outside 6 v ⟨131, [], []⟩ →
      EagerMatch (xmlEnv hash toChars) L cs ix n outside 6 (v + 1) := by
    intro v hv hx h
    refine fin (eat (env := xmlEnv hash toChars) k3 hv ?_ (eager_hop (a := 131) (by simp) h))
    intro tr ht
    cases tr <;> simp only [isAtom, decide_eq_true_eq, Bool.false_eq_true] at ht
    rw [ht, hx]; rfl
  rcases hb with rfl | rfl | rfl | rfl
  · exact one 32 (.inr rfl) rfl
  · exact one 9 (.inl rfl) rfl
  · exact nl (by simp at hfit; omega) (hget 0 (by simp)) (eager_hop (a := 130) (by simp) (eager_hop (a := 133) (by simp) start))
  · have h0 := hget 0 (by simp)
    simp only [List.length_cons, List.length_nil] at hfit
    refine nl (v := n + 1) (by omega) (hget 1 (by simp)) (eat (env := xmlEnv hash toChars) k2 (by omega) ?_ (eager_hop (a := 130) (by simp)
      (eager_hop (a := 133) (by simp) start)))
    intro tr ht
    cases tr <;> simp only [isAtom, decide_eq_true_eq, Bool.false_eq_true] at ht
    rw [ht]; exact h0

end

/-- The type of a run of characters: single blanks and line ends are `SEA_WS`, all else is `TEXT`. -/
def runType (body : List Int) : Int := if body ∈ blanks then 6 else 9

theorem run_owns {i : Nat} {tt : Int} (h : (i, tt) ∈ ([(5, 6), (9, 9)] : List (Nat × Int))) : Owns xmlLexer outside i tt := by
  intro j tr t0 h1 h2 h3
  exact (text_all.2.2.2.2.2.2.1 (i, tt) h (tr, j) (List.mk_mem_zipIdx_iff_getElem?.2 h1)).1 (by simp only [h2, Option.bind_some, h3])

/-- The match of a run. -/
theorem run_found {hash : List Config → Nat} {toChars : D → List Char} (hh : TellsApart hash) (R : Reads d cs ix sl)
    (hs : Sane d) {fc fe : Nat} (hfc : 133 * (cs.length + 1) ≤ fc) (hfe : 133 * (cs.length + 1) ≤ fe)
    {dfas : List DFA} (hr : Reached xmlLexer hash fc dfas) (hroom : Room (fe + 1) dfas)
    {L : Lex D} (hm : L.mode = 0) (hl : 0 < dfas.length) {n : Nat} (hn : n ≤ cs.length) (hc : L.cur = at_ d cs ix n)
    {body : List Int} (hb : body ≠ []) (hbody : ∀ c ∈ body, c ≠ 38 ∧ c ≠ 60 ∧ c ≤ 0x10FFFF) (ht : Stands cs n body)
    (hend : ∀ c, cs[n + body.length]? = some c → c = 38 ∨ c = 60) :
    ∃ L' dfas', matchToken (xmlEnv hash toChars) fc fe L dfas = some (.ok (runType body), L', dfas') ∧
      L'.cur = at_ d cs ix (n + body.length) := by
  have h0 : (xmlEnv (D := D) hash toChars).atn.modeToStartState[L.mode]? = some 0 := by
    rw [hm]
    exact xml_all.2.2.2.2.2.2.2.2.1
  obtain ⟨⟨r, L', dfas'⟩, h⟩ := C69_match_returns (env := xmlEnv hash toChars) xml_whole (N := 11)
    (loopCheck_ok xml_loops (by decide +kernel) (by decide)) hh R hs hfc hfe hn hc hr hroom
  have hfit := word_fits ht hn
  have hpos : 0 < body.length := List.length_pos_iff.2 hb
  have hget : ∀ j, j < body.length → cs[n + j]? = body[j]? := by
    intro j hj
    obtain ⟨rest, hrest⟩ := ht
    rw [← List.getElem?_drop, ← hrest, List.getElem?_append_left hj]
  have hM : EagerMatch (xmlEnv hash toChars) L cs ix n outside 10 (n + body.length) := by
    refine text_matches R (by omega) hfit ?_
    intro j hj h1 h2
    have := hget (j - n) (by omega)
    rw [show n + (j - n) = j by omega, List.getElem?_eq_getElem hj, List.getElem?_eq_getElem (by omega)] at this
    rw [Option.some.inj this]
    exact hbody _ (List.getElem_mem _)
  have hE := C25_eager_partial (xml_tame hash toChars) xml_tidy hh hr hroom (by omega) hs R hn hc h0 outside_eq h
  have hP := LexOrder.C25_preferred_partial (xml_tame hash toChars) xml_tidy hh hr hroom (by omega) hs R hn hc h0 outside_eq h
  cases r with
  | illegalMode => exact hE.elim
  | noAlt i => exact absurd hM (hE.2.1 _ _)
  | ok tt =>
    rcases hE with ⟨a, v, s, t, acts, f1, f2, f3, f4⟩ | ⟨f1, -⟩
    rotate_left
    · exact absurd hM (f1 _ _)
    rcases hP with ⟨k, w, t', p1, -, p2, p3, p4⟩ | ⟨-, p2, -, -⟩
    rotate_left
    · omega
    have hmin : min v cs.length = min (n + k) cs.length := by
      rw [f4] at p4
      exact LexProps.ix_inj R (Nat.min_le_right ..) (Nat.min_le_right ..) (congrArg (fun c => c.input.index) p4)
    have hge := f1.longest _ _ hM
    have hk1 : body.length ≤ k := by omega
    obtain ⟨k', rfl⟩ : ∃ k', k = k' + 1 := ⟨k - 1, by omega⟩
    have hfirst : (cs[n]?).getD EOF ≠ 38 ∧ (cs[n]?).getD EOF ≠ 60 := by
      have := hget 0 hpos
      rw [Nat.add_zero, List.getElem?_eq_getElem hpos] at this
      rw [this]
      have := hbody _ (List.getElem_mem hpos)
      exact ⟨this.1, this.2.1⟩
    have hrule := run_rule hn p1.hit.1 hfirst
    have hok : ∀ j < k' + 1, (cs[n + j]?).getD EOF ≠ 38 ∧ (cs[n + j]?).getD EOF ≠ 60 ∧ 0 ≤ (cs[n + j]?).getD EOF := by
      rcases hrule with e | e
      · intro j hj
        have := blank_reads p1.hit.1 e j hj
        generalize (cs[n + j]?).getD EOF = c at this
        simp only [spaces, List.mem_cons, List.not_mem_nil, or_false] at this
        omega
      · exact text_reads p1.hit.1 e
    have hk : k' + 1 = body.length := by
      by_contra hne
      have := hok body.length (by omega)
      cases hx : cs[n + body.length]? with
      | none => rw [hx] at this; exact absurd this.2.2 (by decide)
      | some c =>
        rw [hx] at this
        rcases hend c hx with rfl | rfl
        · exact this.1 rfl
        · exact this.2.1 rfl
    rw [hk] at p1 p4
    have hv : v = n + body.length := by
      have := live_inside (env := xmlEnv hash toChars) text_all.2.2.2.2.2.2.2.2 hn f1.matched.1
      omega
    obtain ⟨j, tr, e1, e2, t0, e3, e4⟩ := C25_type_of_rule xml_tidy xml_ruleWise outside_eq (LexOrder.hit_matches p1.hit) p2
    have htt : tt = runType body := by
      have hjt : ((xmlLexer.states[tr.target]?).bind fun t0 => xmlLexer.ruleToTokenType[t0.ruleIndex]?) = some tt := by
        rw [show xmlLexer.states[tr.target]? = some t0 from e3, Option.bind_some, ← e4]
        exact p3
      have hq := List.mk_mem_zipIdx_iff_getElem?.2 e2
      unfold runType
      split
      · rename_i hbl
        have h6 := f1.first 6 (by rw [hv]; exact blank_matches hn ht hbl)
        obtain ⟨j2, tr2, e5, e6, t2, e7, e8⟩ := C25_type_of_rule xml_tidy xml_ruleWise outside_eq f1.matched f2
        rcases hrule with e | e
        · obtain rfl : j = 5 := by omega
          have := (text_all.2.2.2.2.2.2.1 (5, 6) (by simp) (tr, 5) hq).2 rfl
          rw [hjt] at this
          exact Option.some.inj this
        · obtain rfl : j = 9 := by omega
          have := (text_all.2.2.2.2.2.2.1 (9, 9) (by simp) (tr, 9) hq).2 rfl
          rw [hjt] at this
          have h9 := run_owns (i := 9) (tt := 9) (by simp) j2 tr2 t2 e6 e7 (by rw [← e8]; exact f3.trans this)
          omega
      · rename_i hbl
        obtain rfl : j = 9 := by
          rcases hrule with e | e
          · exact absurd (blank_hit hn ht hb p1.hit e) hbl
          · omega
        have := (text_all.2.2.2.2.2.2.1 (9, 9) (by simp) (tr, 9) hq).2 rfl
        rw [hjt] at this
        exact Option.some.inj this
    subst htt
    exact ⟨L', dfas', h, by rw [p4, Nat.min_eq_left hfit]⟩

/-- **C79** for the XML lexer, character data (partial: the hash of the DFA cache must not collide): outside of tags, where
characters other than `&` and `<` stand and then `&`, `<` or the end, the next token is all of them: `SEA_WS` for a single
space, tab or line end, `TEXT` otherwise. -/
theorem C79_xml_run_partial {hash : List Config → Nat} {toChars : D → List Char} (hh : TellsActionsApart hash)
    (R : Reads d cs ix sl) (hs : Sane d) {fc fe fn : Nat} (hfc : 133 * (cs.length + 1) ≤ fc) (hfe : 133 * (cs.length + 1) ≤ fe)
    (hfn : 2 ≤ fn) {dfas : List DFA} (hr : Reached xmlLexer hash fc dfas) {b : Nat} (hroom : Room (b + (fe + 1)) dfas)
    {L : Lex D} (hm : L.mode = 0) (he : L.hitEof = false) (hl : 0 < dfas.length) {n : Nat} (hn : n ≤ cs.length)
    (hc : L.cur = at_ d cs ix n) {body : List Int} (hb : body ≠ []) (hbody : ∀ c ∈ body, c ≠ 38 ∧ c ≠ 60 ∧ c ≤ 0x10FFFF)
    (ht : Stands cs n body) {m : Nat} (hend : m = n + body.length) (hstop : ∀ c, cs[m]? = some c → c = 38 ∨ c = 60) :
    ∃ L' dfas', nextToken (xmlEnv hash toChars) fc fe fn L dfas = some (
        { ttype := if body ∈ blanks then 6 else 9, channel := 0, start := ix n, stop := ix m - 1, line := lineOf cs n,
          column := colOf cs n, index := -1, text := toChars (sl n m) }, L', dfas') ∧
      L'.cur = at_ d cs ix m ∧ L'.mode = 0 ∧ (L'.hitEof = true ↔ m = cs.length) ∧
      Reached xmlLexer hash fc dfas' ∧ Room b dfas' ∧ dfas'.length = dfas.length := by
  have hroomb := hroom
  replace hroom : Room (fe + 1) dfas := hroom.le (by omega)
  obtain ⟨f, rfl⟩ : ∃ f, fn = f + 2 := ⟨fn - 2, by omega⟩
  have hfit := word_fits ht hn
  have hpos : 0 < body.length := List.length_pos_iff.2 hb
  let L0 : Lex D := { beginToken L with ttype := TOKEN_INVALID_TYPE }
  obtain ⟨L', dfas', h1, h2⟩ := run_found (toChars := toChars) (tells_less hh) R hs hfc hfe hr hroom (L := L0) hm hl hn hc
    hb hbody ht (by rw [← hend]; exact hstop)
  have h0 : (xmlEnv (D := D) hash toChars).atn.modeToStartState[L0.mode]? = some 0 := by
    show xmlLexer.modeToStartState[L.mode]? = some 0
    rw [hm]
    exact xml_all.2.2.2.2.2.2.2.2.1
  have hm0 : L0.mode < dfas.length := by show L.mode < _; omega
  obtain ⟨a1, -, a3⟩ := text_all.2.1
  obtain ⟨b1, -, b3⟩ := text_all.2.2.1
  have hty : runType body = 6 ∨ runType body = 9 := by unfold runType; split <;> simp
  have hq : L' = { L0 with cur := L'.cur } := by
    rcases hty with e | e
    · rw [e] at h1
      exact quiet_match (env := xmlEnv hash toChars) (i := 5) (tr0 := .epsilon 13 0) (xml_tame hash toChars) xml_tidy xml_ruleWise hh hr
        hroom hm0 hs R hn hc h0 outside_eq rfl a1 a3 (run_owns (by simp)) (by decide) h1
    · rw [e] at h1
      exact quiet_match (env := xmlEnv hash toChars) (i := 9) (tr0 := .epsilon 21 0) (xml_tame hash toChars) xml_tidy xml_ruleWise hh hr
        hroom hm0 hs R hn hc h0 outside_eq rfl b1 b3 (run_owns (by simp)) (by decide) h1
  rw [h2] at hq
  have hsm : runType body ≠ LEXER_SKIP ∧ runType body ≠ LEXER_MORE := by
    rcases hty with e | e <;> rw [e] <;> decide
  rw [← hend] at hq
  obtain ⟨L2, g1, g2, g3, g4⟩ := token_of_match (env := xmlEnv hash toChars) (fn := f) rfl R (by omega) (by omega) hc he hsm.1 hsm.2 h1 hq
  exact ⟨L2, dfas', g1, g2, g3.trans hm, by rw [g4]; simp, xml_after (L := L0) (tells_less hh) R hs hfc hfe hn hc hr hroomb h1⟩

/-- In `a b&` the characters before `&` are one `TEXT`. -/
example : ∃ L' dfas', nextToken (xmlEnv Encode.configs Str.chars) 1000 1000 2 (Lex.new (InputStream.new (Str.mk ['a', ' ', 'b', '&']))) xmlDfas =
    some ({ ttype := 9, channel := 0, start := 0, stop := 2, line := 1, column := 0, index := -1, text := ['a', ' ', 'b'] }, L', dfas') ∧
    L'.hitEof = false := by
  obtain ⟨hr, hroom, hl⟩ := xml_new Encode.configs 1000
  obtain ⟨L', dfas', h, -, -, he, -⟩ := C79_xml_run_partial (toChars := Str.chars) (b := 0) (n := 0) (m := 3) (body := [97, 32, 98])
    (L := Lex.new (InputStream.new (Str.mk ['a', ' ', 'b', '&']))) fullHash_ok
    (reads_str ['a', ' ', 'b', '&']) (sane_str _) (fc := 1000) (fe := 1000) (fn := 2) (by decide) (by decide) (by decide) hr
    (hroom _ (by decide)) rfl rfl hl (by decide) rfl (by decide) (by decide)
    (by simp only [Stands]; decide) rfl (by intro c e; simp at e; exact .inl e.symm)
  refine ⟨L', dfas', h, ?_⟩
  cases e : L'.hitEof with
  | false => rfl
  | true => exact absurd (he.1 e) (by decide)

end Antlr.XmlProps
