import Verif.Gen.XmlClose

/-!
# Attribute values in the XML lexer: C83
-/

namespace Antlr.XmlProps
open Antlr Lexer LexCache LexSpec LexProps LexPaths LexCacheProps LexPathProps LexTotal LexTotalProps LexLazy LexExample IntervalSpec
open Antlr.Gen (xmlLexer xmlEnv emptyDfas)

variable {D : Type} [InputData D] {d : D} {cs : List Int} {ix : Nat → Int} {sl : Nat → Nat → D}

set_option linter.unusedSectionVars false

seal Antlr.Gen.xmlLexer

/-- The quotes, and the state of `STRING` that reads the opening one -/
def quotes : List (Int × Nat) := [(34, 179), (39, 187)]

/-- The states between the quotes -/
def between (o : Nat) : List Nat := (List.range 7).map fun k => o + 1 + k

/-- The edges between the quotes -/
def betweenTest (q : Int) (o : Nat) : Trans → Bool
  | .epsilon _ _ => true
  | .notSet t s => (between o).contains t && decide (s.intervals = [⟨q, q⟩, ⟨60, 60⟩])
  | .atom t l => decide (l = q) && [196, 34].contains t
  | _ => false

/-- The edges that read the opening quote -/
def beginTest : Trans → Bool
  | .epsilon _ _ => true
  | .atom t l => quotes.any fun r => decide (l = r.1) && t == r.2 + 4
  | _ => false

/-- All but the quote and `<` -/
def isOther (q : Int) : Trans → Bool
  | .notSet _ s => decide (s.intervals = [⟨q, q⟩, ⟨60, 60⟩])
  | _ => false

/-- Edges that read no quotes -/
def unquoted (tr : Trans) : Bool := [34, 39].all fun c => !readsB tr c

/-- The states of the other rules of the mode and of the rules they call -/
def otherStates (atn : ATN) : List Nat := [10, 11, 12, 13, 14, 16, 17, 19, 20, 21].flatMap (statesOf atn)

/-- What C83 needs of the automaton. -/
def stringChecks (atn : ATN) : Bool :=
  (quotes.all fun r => closeB atn (between r.2) && testB atn (between r.2) (betweenTest r.1 r.2) && !(between r.2).any (stopB atn) &&
    ([(195, r.2), (r.2 + 4, r.2 + 2), (r.2 + 2, r.2 + 1), (r.2 + 3, r.2 + 6), (r.2 + 6, r.2 + 4), (r.2 + 4, r.2 + 5),
      (r.2 + 5, r.2 + 7)].all fun p => hopB atn p.1 p.2) &&
    (eatB atn r.2 (r.2 + 4) (isAtom r.1) && eatB atn (r.2 + 1) (r.2 + 3) (isOther r.1) && eatB atn (r.2 + 7) 196 (isAtom r.1))) &&
  (hopB atn 33 195 && hopB atn 196 34 && stopB atn 34) &&
  (closeB atn [33, 195, 179, 187] && testB atn [33, 195, 179, 187] beginTest) &&
  (closeB atn [196, 34] && testB atn [196, 34] noRead) &&
  (quietB atn (statesOf atn 15) && (statesOf atn 15).contains 33) &&
  (callsB atn (otherStates atn) && testB atn (otherStates atn) unquoted &&
    (List.range 8).all fun j => j == 5 || (otherStates atn).contains (23 + 2 * j)) &&
  inside.transitions.zipIdx.all fun q => decide (((atn.states[q.1.target]?).bind fun t0 =>
    atn.ruleToTokenType[t0.ruleIndex]?) = some 15) == (q.2 == 5)

theorem string_checks : stringChecks xmlLexer = true := by decide +kernel

theorem string_all :
    (∀ r ∈ quotes, closeB xmlLexer (between r.2) = true ∧ testB xmlLexer (between r.2) (betweenTest r.1 r.2) = true ∧
      (∀ s ∈ between r.2, stopB xmlLexer s ≠ true) ∧
      (∀ p ∈ [(195, r.2), (r.2 + 4, r.2 + 2), (r.2 + 2, r.2 + 1), (r.2 + 3, r.2 + 6), (r.2 + 6, r.2 + 4), (r.2 + 4, r.2 + 5),
        (r.2 + 5, r.2 + 7)], hopB xmlLexer p.1 p.2 = true) ∧
      eatB xmlLexer r.2 (r.2 + 4) (isAtom r.1) = true ∧ eatB xmlLexer (r.2 + 1) (r.2 + 3) (isOther r.1) = true ∧
      eatB xmlLexer (r.2 + 7) 196 (isAtom r.1) = true) ∧
    (hopB xmlLexer 33 195 = true ∧ hopB xmlLexer 196 34 = true ∧ stopB xmlLexer 34 = true) ∧
    (closeB xmlLexer [33, 195, 179, 187] = true ∧ testB xmlLexer [33, 195, 179, 187] beginTest = true) ∧
    (closeB xmlLexer [196, 34] = true ∧ testB xmlLexer [196, 34] noRead = true) ∧
    (∃ S, quietB xmlLexer S = true ∧ 33 ∈ S) ∧
    (∃ S, callsB xmlLexer S = true ∧ testB xmlLexer S unquoted = true ∧ ∀ j < 8, j ≠ 5 → 23 + 2 * j ∈ S) ∧
    ∀ q ∈ inside.transitions.zipIdx, ((xmlLexer.states[q.1.target]?).bind fun t0 =>
      xmlLexer.ruleToTokenType[t0.ruleIndex]?) = some 15 ↔ q.2 = 5 := by
  have h := string_checks
  generalize xmlLexer = atn at h
  simp only [stringChecks, Bool.and_eq_true] at h
  obtain ⟨⟨⟨⟨⟨⟨h1, h2⟩, h3⟩, h4⟩, h5⟩, h6⟩, h7⟩ := h
  refine ⟨?_, ⟨h2.1.1, h2.1.2, h2.2⟩, h3, h4, ⟨_, h5.1, List.contains_iff_mem.1 h5.2⟩, ⟨_, h6.1.1, h6.1.2, ?_⟩, ?_⟩
  · intro r hr
    have := List.all_eq_true.1 h1 r hr
    simp only [Bool.and_eq_true] at this
    obtain ⟨⟨⟨⟨a1, a2⟩, a3⟩, a4⟩, ⟨a5, a6⟩, a7⟩ := this
    refine ⟨a1, a2, fun s hs hstop => ?_, List.all_eq_true.1 a4, a5, a6, a7⟩
    rw [Bool.not_eq_true', List.any_eq_false] at a3
    exact a3 s hs hstop
  · intro j hj hne
    have := List.all_eq_true.1 h6.2 j (List.mem_range.2 hj)
    rw [Bool.or_eq_true, beq_iff_eq] at this
    exact List.contains_iff_mem.1 (this.resolve_left hne)
  · intro q hq
    have := List.all_eq_true.1 h7 q hq
    rw [beq_iff_eq] at this
    rw [← decide_eq_true_iff (p := _ = some _), this, beq_iff_eq]

section
variable {hash : List Config → Nat} {toChars : D → List Char} {L : Lex D} {n : Nat} {q : Int} {o : Nat}

/-- Where `STRING` is after the opening quote. -/
theorem string_reached (hq : (q, o) ∈ quotes) (h0 : cs[n]? = some q) {k : Nat} : ∀ {w : LexOrder.Way},
    LexOrder.Reached (xmlEnv hash toChars) L cs ix n inside (k + 1) w → w.rule = 6 →
    w.thread.stack = [] ∧ ((w.thread.state ∈ between o ∧ ∀ j, 0 < j → j < k + 1 → cs[n + j]? ≠ some q) ∨
      (w.thread.state ∈ [196, 34] ∧ 0 < k ∧ ∀ j, 0 < j → j < k → cs[n + j]? ≠ some q)) := by
  have hn : n < cs.length := (List.getElem?_eq_some_iff.1 h0).1
  obtain ⟨c1, c2, -⟩ := string_all.1 _ hq
  induction k with
  | zero =>
    rintro u ⟨v, ⟨i', tr', h1, h2⟩, -, -, h4⟩ hu
    have hv := (takes_rule h4).symm.trans hu
    obtain rfl : i' = 5 := by
      have := (LexOrder.choices_same h2).1
      simp only [LexOrder.first] at this
      omega
    obtain ⟨rfl, -⟩ := inside_cases h1
    obtain ⟨b1, b2⟩ := string_all.2.2.1
    obtain ⟨g1, g2⟩ := close_choices (atn := xmlLexer) (by omega) b1 h2 rfl (by simp [LexOrder.first, Trans.target])
    obtain ⟨sv, tr, e1, e2, e3, e4⟩ := h4
    have ht := testB_ok b2 g2 e1 e2
    rw [Nat.add_zero, h0, Option.getD_some] at e3
    have htar : tr.target ∈ between o := by
      cases tr <;> simp [beginTest, ReadsSym, quotes] at ht e3
      subst e3
      simp only [quotes, List.mem_cons, List.not_mem_nil, or_false, Prod.mk.injEq] at hq
      rcases hq with ⟨rfl, rfl⟩ | ⟨rfl, rfl⟩ <;> rcases ht with ⟨t1, rfl⟩ | ⟨t1, rfl⟩ <;> first | omega | decide
    obtain ⟨f1, f2⟩ := close_choices (atn := xmlLexer) (by simp only [Nat.add_zero]; omega) c1 e4 g1 htar
    exact ⟨f1, .inl ⟨f2, fun j _ _ => by omega⟩⟩
  | succ k ih =>
    rintro u ⟨v, h1, -, -, h4⟩ hu
    obtain ⟨g1, g2⟩ := ih h1 ((takes_rule h4).symm.trans hu)
    obtain ⟨sv, tr, e1, e2, e3, e4⟩ := h4
    rcases g2 with ⟨g2, g3⟩ | ⟨g2, -⟩
    · have ht := testB_ok c2 g2 e1 e2
      have hq0 : 0 ≤ q := by
        simp only [quotes, List.mem_cons, List.not_mem_nil, or_false, Prod.mk.injEq] at hq
        omega
      have hc0 : 0 ≤ (cs[n + (k + 1)]?).getD EOF := by
        cases tr <;> simp only [betweenTest, ReadsSym, Bool.and_eq_true, decide_eq_true_eq, Bool.false_eq_true] at ht e3
        · omega
        · exact e3.1
      have hlt : n + (k + 1) < cs.length := by
        by_contra hge
        rw [List.getElem?_eq_none (by omega)] at hc0
        exact absurd hc0 (by decide)
      cases tr <;> simp only [betweenTest, ReadsSym, Bool.and_eq_true, decide_eq_true_eq, Bool.false_eq_true] at ht e3
      · obtain ⟨f1, f2⟩ := close_choices (atn := xmlLexer) (by omega) string_all.2.2.2.1.1 e4 g1 (List.contains_iff_mem.1 ht.2)
        exact ⟨f1, .inr ⟨f2, by omega, g3⟩⟩
      · obtain ⟨f1, f2⟩ := close_choices (atn := xmlLexer) (by omega) c1 e4 g1 (List.contains_iff_mem.1 ht.1)
        refine ⟨f1, .inl ⟨f2, fun j j1 j2 hjq => ?_⟩⟩
        rcases Nat.lt_or_ge j (k + 1) with hlt | hge
        · exact g3 j j1 hlt hjq
        · obtain rfl : j = k + 1 := by omega
          rw [hjq, ht.2, Option.getD_some] at e3
          exact e3.2.2 ⟨⟨q, q⟩, by simp, by simp [InIv]⟩
    · have ht := testB_ok string_all.2.2.2.1.2 g2 e1 e2
      cases tr <;> simp [noRead, ReadsSym] at ht e3

/-- `STRING` matches a quoted text. -/
theorem string_matches (R : Reads d cs ix sl) (hq : (q, o) ∈ quotes) {body : List Int} (ht : Stands cs n ([q] ++ body ++ [q]))
    (hbody : ∀ c ∈ body, c ≠ q ∧ c ≠ 60 ∧ c ≤ 0x10FFFF) :
    EagerMatch (xmlEnv hash toChars) L cs ix n inside 6 (n + body.length + 2) := by
  obtain ⟨-, -, -, hh, a5, a6, a7⟩ := string_all.1 _ hq
  obtain ⟨k1, k2, k3⟩ := string_all.2.1
  have rd : ∀ {a b v}, eatB xmlLexer a b (isAtom q) = true → cs[v]? = some q →
      Eager (xmlEnv hash toChars) L cs ix n inside 6 v ⟨a, [], []⟩ → Eager (xmlEnv hash toChars) L cs ix n inside 6 (v + 1) ⟨b, [], []⟩ := by
    intro a b v h1 h2 h3
    obtain ⟨l1, l2⟩ := List.getElem?_eq_some_iff.1 h2
    refine eat (env := xmlEnv hash toChars) h1 l1 ?_ h3
    intro tr ht
    cases tr <;> simp only [isAtom, decide_eq_true_eq, Bool.false_eq_true] at ht
    rw [ht, l2]; rfl
  have hp : ∀ {a b v}, (a, b) ∈ [(195, o), (o + 4, o + 2), (o + 2, o + 1), (o + 3, o + 6), (o + 6, o + 4), (o + 4, o + 5), (o + 5, o + 7)] →
      Eager (xmlEnv hash toChars) L cs ix n inside 6 v ⟨a, [], []⟩ → Eager (xmlEnv hash toChars) L cs ix n inside 6 v ⟨b, [], []⟩ :=
    fun h1 h2 => hop (env := xmlEnv hash toChars) (hh (_, _) h1) h2
  have start : Eager (xmlEnv hash toChars) L cs ix n inside 6 (n + 1) ⟨o + 4, [], []⟩ :=
    rd a5 (by simpa using stands_get ht (j := 0) (by simp)) (hp (a := 195) (by simp) (hop (env := xmlEnv hash toChars) k1
      (.start (i := 5) (tr := .epsilon 33 0) rfl)))
  have loop : ∀ k, k ≤ body.length → Eager (xmlEnv hash toChars) L cs ix n inside 6 (n + 1 + k) ⟨o + 4, [], []⟩ := by
    intro k
    induction k with
    | zero => exact fun _ => start
    | succ k ih =>
      intro hk
      have hg := stands_get ht (j := k + 1) (by simp; omega)
      rw [show ([q] ++ body ++ [q])[k + 1]'(by simp; omega) = body[k] by
        simp only [List.cons_append, List.nil_append, List.getElem_cons_succ]
        exact List.getElem_append_left (by omega)] at hg
      rw [show n + (k + 1) = n + 1 + k by omega] at hg
      obtain ⟨l1, l2⟩ := List.getElem?_eq_some_iff.1 hg
      obtain ⟨y1, y2, y3⟩ := hbody _ (List.getElem_mem (l := body) (n := k) (by omega))
      refine hp (a := o + 6) (by simp) (hp (a := o + 3) (by simp) (eat (env := xmlEnv hash toChars) a6 l1 ?_
        (hp (a := o + 2) (by simp) (hp (a := o + 4) (by simp) (ih (by omega))))))
      intro tr ht
      cases tr <;> simp only [isOther, decide_eq_true_eq, Bool.false_eq_true] at ht
      show ReadsSym (.notSet _ _) (cs[n + 1 + k])
      rw [l2]
      refine ⟨l2 ▸ R.chars _ (List.getElem_mem l1), y3, ?_⟩
      rw [ht]
      simp only [Mem, InIv, List.mem_cons, List.not_mem_nil, or_false, exists_eq_or_imp, exists_eq_left, not_or]
      omega
  have last := rd a7 (v := n + 1 + body.length) (by
    have hg := stands_get ht (j := body.length + 1) (by simp)
    rw [show ([q] ++ body ++ [q])[body.length + 1]'(by simp) = q by simp] at hg
    rwa [show n + (body.length + 1) = n + 1 + body.length by omega] at hg) (hp (a := o + 5) (by simp) (hp (a := o + 4) (by simp)
      (loop body.length (Nat.le_refl _))))
  rw [show n + 1 + body.length + 1 = n + body.length + 2 by omega] at last
  simp only [stopB, Option.any_eq_true, decide_eq_true_eq] at k3
  obtain ⟨st, s1, s2⟩ := k3
  exact ⟨34, [], st, hop (env := xmlEnv hash toChars) k2 last, s1, s2⟩

/-- What matches this much is the quoted text. -/
theorem string_hit (hq : (q, o) ∈ quotes) {body : List Int} (ht : Stands cs n ([q] ++ body ++ [q])) (hn : n ≤ cs.length) {k : Nat}
    {w : LexOrder.Way} (hw : LexOrder.Hit (xmlEnv hash toChars) L cs ix n inside (body.length + 2 + k) w) : k = 0 ∧ w.rule = 6 := by
  have h0 : cs[n]? = some q := by simpa using stands_get ht (j := 0) (by simp)
  obtain ⟨j, tr, h1, h2⟩ := reached_rule hw.1
  obtain ⟨rfl, hj⟩ := inside_cases h1
  have hr := hw.1
  rw [show body.length + 2 + k = (body.length + 1 + k) + 1 by omega] at hr
  have hj5 : j = 5 := by
    by_contra hne
    obtain ⟨S, n1, n2, n3⟩ := string_all.2.2.2.2.2.1
    refine reads_first_calls (env := xmlEnv hash toChars) (tr := .epsilon (23 + 2 * j) 0) (ok := fun c => c ∉ [34, 39]) hn (n3 j hj hne) n1 n2 ?_ h1
      hr h2 ?_
    · intro tr c e1 e2 e3
      have := List.all_eq_true.1 e1 c e3
      rw [readsB_iff.2 e2] at this
      cases this
    · rw [h0]
      simp only [quotes, List.mem_cons, List.not_mem_nil, or_false, Prod.mk.injEq] at hq
      rcases hq with ⟨rfl, -⟩ | ⟨rfl, -⟩ <;> simp
  subst hj5
  refine ⟨?_, h2⟩
  obtain ⟨z, z1, z2, -⟩ := hw.2
  have hend : cs[n + (body.length + 1)]? = some q := by
    have hg := stands_get ht (j := body.length + 1) (by simp)
    rwa [show ([q] ++ body ++ [q])[body.length + 1]'(by simp) = q by simp] at hg
  rcases (string_reached hq h0 hr h2).2 with ⟨g1, -⟩ | ⟨-, -, g3⟩
  · refine absurd ?_ ((string_all.1 _ hq).2.2.1 _ g1)
    unfold stopB
    rw [show xmlLexer.states[w.thread.state]? = some z from z1]
    exact decide_eq_true z2
  · by_contra hk
    exact g3 (body.length + 1) (by omega) (by omega) hend

end

theorem string_owns : Owns xmlLexer inside 5 15 := by
  intro j tr t0 h1 h2 h3
  exact (string_all.2.2.2.2.2.2 (tr, j) (List.mk_mem_zipIdx_iff_getElem?.2 h1)).1 (by simp only [h2, Option.bind_some, h3])

theorem string_found {hash : List Config → Nat} {toChars : D → List Char} (hh : TellsApart hash) (R : Reads d cs ix sl)
    (hs : Sane d) {fc fe : Nat} (hfc : 133 * (cs.length + 1) ≤ fc) (hfe : 133 * (cs.length + 1) ≤ fe)
    {dfas : List DFA} (hr : Reached xmlLexer hash fc dfas) (hroom : Room (fe + 1) dfas)
    {L : Lex D} (hm : L.mode = 1) (hl : 1 < dfas.length) {n : Nat} (hn : n ≤ cs.length) (hc : L.cur = at_ d cs ix n)
    {q : Int} {o : Nat} (hq : (q, o) ∈ quotes) {body : List Int} (ht : Stands cs n ([q] ++ body ++ [q]))
    (hbody : ∀ c ∈ body, c ≠ q ∧ c ≠ 60 ∧ c ≤ 0x10FFFF) :
    ∃ L' dfas', matchToken (xmlEnv hash toChars) fc fe L dfas = some (.ok 15, L', dfas') ∧ L'.cur = at_ d cs ix (n + body.length + 2) := by
  have hfit := word_fits ht hn
  simp only [List.length_append, List.length_cons, List.length_nil] at hfit
  have h0 : (xmlEnv (D := D) hash toChars).atn.modeToStartState[L.mode]? = some 1 := by
    rw [hm]
    exact close_all.1
  obtain ⟨⟨r, L', dfas'⟩, h⟩ := C69_match_returns (env := xmlEnv hash toChars) xml_whole (N := 11)
    (loopCheck_ok xml_loops (by decide +kernel) (by decide)) hh R hs hfc hfe hn hc hr hroom
  have hM : EagerMatch (xmlEnv hash toChars) L cs ix n inside 6 (n + body.length + 2) := string_matches R hq ht hbody
  have hE := C25_eager_partial (xml_tame hash toChars) xml_tidy hh hr hroom (by omega) hs R hn hc h0 close_all.2.1 h
  have hP := LexOrder.C25_preferred_partial (xml_tame hash toChars) xml_tidy hh hr hroom (by omega) hs R hn hc h0 close_all.2.1 h
  cases r with
  | illegalMode => exact hE.elim
  | noAlt i => exact absurd hM (hE.2.1 _ _)
  | ok tt =>
    rcases hE with ⟨a, v, s, t, acts, f1, f2, f3, f4⟩ | ⟨f1, -⟩
    rotate_left
    · exact absurd hM (f1 _ _)
    rcases hP with ⟨k, x, t', p1, -, p2, p3, p4⟩ | ⟨-, p2, -, -⟩
    rotate_left
    · omega
    have hmin : min v cs.length = min (n + k) cs.length := by
      rw [f4] at p4
      exact LexProps.ix_inj R (Nat.min_le_right ..) (Nat.min_le_right ..) (congrArg (fun c => c.input.index) p4)
    have hge := f1.longest _ _ hM
    obtain ⟨k', rfl⟩ : ∃ k', k = body.length + 2 + k' := ⟨k - (body.length + 2), by omega⟩
    obtain ⟨rfl, hrule⟩ := string_hit hq ht hn p1.hit
    obtain ⟨j, tr, e1, e2, t0, e3, e4⟩ := C25_type_of_rule xml_tidy xml_ruleWise close_all.2.1 (LexOrder.hit_matches p1.hit) p2
    have hjt : ((xmlLexer.states[tr.target]?).bind fun t0 => xmlLexer.ruleToTokenType[t0.ruleIndex]?) = some tt := by
      rw [show xmlLexer.states[tr.target]? = some t0 from e3, Option.bind_some, ← e4]
      exact p3
    obtain rfl : j = 5 := by omega
    have := (string_all.2.2.2.2.2.2 (tr, 5) (List.mk_mem_zipIdx_iff_getElem?.2 e2)).2 rfl
    rw [hjt] at this
    obtain rfl := Option.some.inj this
    exact ⟨L', dfas', h, by rw [p4, Nat.min_eq_left (by omega)]; rfl⟩

/-- **C83** (partial: the hash of the DFA cache must not collide): inside of a tag, where a quote, characters other than this
quote and `<`, and the same quote stand, the next token is all of this, `STRING`; the other quote may occur in it. -/
theorem C83_xml_string_partial {hash : List Config → Nat} {toChars : D → List Char} (hh : TellsActionsApart hash)
    (R : Reads d cs ix sl) (hs : Sane d) {fc fe fn : Nat} (hfc : 133 * (cs.length + 1) ≤ fc) (hfe : 133 * (cs.length + 1) ≤ fe)
    (hfn : 2 ≤ fn) {dfas : List DFA} (hr : Reached xmlLexer hash fc dfas) {b : Nat} (hroom : Room (b + (fe + 1)) dfas)
    {L : Lex D} (hm : L.mode = 1) (he : L.hitEof = false) (hl : 1 < dfas.length) {n : Nat} (hn : n ≤ cs.length)
    (hc : L.cur = at_ d cs ix n) {quote : Int} (hquote : quote = 34 ∨ quote = 39) {body : List Int}
    (hbody : ∀ c ∈ body, c ≠ quote ∧ c ≠ 60 ∧ c ≤ 0x10FFFF) (ht : Stands cs n ([quote] ++ body ++ [quote]))
    {m : Nat} (hend : m = n + body.length + 2) :
    ∃ L' dfas', nextToken (xmlEnv hash toChars) fc fe fn L dfas = some (
        { ttype := 15, channel := 0, start := ix n, stop := ix m - 1, line := lineOf cs n, column := colOf cs n, index := -1,
          text := toChars (sl n m) }, L', dfas') ∧
      L'.cur = at_ d cs ix m ∧ L'.mode = 1 ∧ L'.modeStack = L.modeStack ∧ (L'.hitEof = true ↔ m = cs.length) ∧
      Reached xmlLexer hash fc dfas' ∧ Room b dfas' ∧ dfas'.length = dfas.length := by
  have hroomb := hroom
  replace hroom : Room (fe + 1) dfas := hroom.le (by omega)
  obtain ⟨f, rfl⟩ : ∃ f, fn = f + 2 := ⟨fn - 2, by omega⟩
  have hfit := word_fits ht hn
  simp only [List.length_append, List.length_cons, List.length_nil] at hfit
  obtain ⟨o, hq⟩ : ∃ o, (quote, o) ∈ quotes := by
    rcases hquote with rfl | rfl
    · exact ⟨179, by simp [quotes]⟩
    · exact ⟨187, by simp [quotes]⟩
  let L0 : Lex D := { beginToken L with ttype := TOKEN_INVALID_TYPE }
  obtain ⟨L', dfas', h1, h2⟩ := string_found (toChars := toChars) (tells_less hh) R hs hfc hfe hr hroom (L := L0) hm hl hn hc hq ht hbody
  have h0 : (xmlEnv (D := D) hash toChars).atn.modeToStartState[L0.mode]? = some 1 := by
    show xmlLexer.modeToStartState[L.mode]? = some 1
    rw [hm]
    exact close_all.1
  have hm0 : L0.mode < dfas.length := by show L.mode < _; omega
  obtain ⟨S, s1, s2⟩ := string_all.2.2.2.2.1
  have hL : L' = { L0 with cur := L'.cur } :=
    quiet_match (env := xmlEnv hash toChars) (i := 5) (tr0 := .epsilon 33 0) (xml_tame hash toChars) xml_tidy xml_ruleWise hh hr
      hroom hm0 hs R hn hc h0 close_all.2.1 rfl s1 s2 string_owns (by decide) h1
  rw [h2, ← hend] at hL
  obtain ⟨L2, g1, g2, g3, g4, g5⟩ := token_of_mode (env := xmlEnv hash toChars) (fn := f) (m := m) (mode := L.mode)
    (stack := L.modeStack) rfl R (by omega) (by omega) hc he (by decide) (by decide) h1 (by rw [hL]; rfl)
  exact ⟨L2, dfas', g1, g2, g3.trans hm, g4, by rw [g5]; simp, xml_after (L := L0) (tells_less hh) R hs hfc hfe hn hc hr hroomb h1⟩

/-- In a tag, `"'"` is one `STRING`, also if more quotes follow. -/
example : ∃ L' dfas', nextToken (xmlEnv Encode.configs Str.chars) 1000 1000 2
    { Lex.new (InputStream.new (Str.mk ['"', '\'', '"', '"'])) with mode := 1, modeStack := [0] } xmlDfas =
    some ({ ttype := 15, channel := 0, start := 0, stop := 2, line := 1, column := 0, index := -1, text := ['"', '\'', '"'] }, L', dfas') ∧
    L'.modeStack = [0] := by
  obtain ⟨hr, hroom, hl⟩ := xml_new Encode.configs 1000
  obtain ⟨L', dfas', h, -, -, h3, -⟩ := C83_xml_string_partial (toChars := Str.chars) (b := 0) (n := 0) (m := 3) (quote := 34) (body := [39])
    (L := { Lex.new (InputStream.new (Str.mk ['"', '\'', '"', '"'])) with mode := 1, modeStack := [0] }) fullHash_ok
    (reads_str ['"', '\'', '"', '"']) (sane_str _) (fc := 1000) (fe := 1000) (fn := 2) (by decide) (by decide) (by decide) hr
    (hroom _ (by decide)) rfl rfl (by decide +kernel) (by decide) rfl (.inl rfl) (by decide)
    (by simp only [Stands]; decide) rfl
  exact ⟨L', dfas', h, h3⟩

end Antlr.XmlProps
