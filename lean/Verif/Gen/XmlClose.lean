import Verif.Gen.XmlOpen

/-!
# Where a tag ends in the XML lexer: C82
-/

namespace Antlr.LexLazy
open Antlr Lexer LexSpec LexPaths LexOrder LexCache LexCacheProps LexPathProps IntervalSpec

set_option linter.unusedSectionVars false

/-- The set is closed under steps without reading; where a rule is called, it holds the start of the rule and the state
after the call. -/
def callsB (atn : ATN) (S : List Nat) : Bool :=
  S.all fun s => match atn.states[s]? with
    | none => true
    | some st => decide (st.stateType = .ruleStop) || st.transitions.all fun tr => match tr with
      | .epsilon t _ | .predicate t _ _ _ | .action t _ _ _ _ => S.contains t
      | .rule t f _ _ => S.contains t && S.contains f
      | _ => true

theorem calls_choices {atn : ATN} {holds : Int → Int → Prop} {past : Prop} (hp : ¬ past) {S : List Nat} (hc : callsB atn S = true)
    {w u : Way} (h : Relation.ReflTransGen (Choice atn holds past) w u) (h1 : ∀ f ∈ w.thread.stack, f ∈ S) (h2 : w.thread.state ∈ S) :
    (∀ f ∈ u.thread.stack, f ∈ S) ∧ u.thread.state ∈ S := by
  induction h with
  | refl => exact ⟨h1, h2⟩
  | tail _ hx ih =>
    obtain ⟨g1, g2⟩ := ih
    simp only [callsB, List.all_eq_true] at hc
    have hs := hc _ g2
    cases hx with
    | @edge y st tr i e1 e2 e3 e4 =>
      rw [e1] at hs
      simp only [Bool.or_eq_true, decide_eq_true_eq, e2, false_or, List.all_eq_true] at hs
      have ht := hs tr (List.mem_of_getElem? e3)
      simp only [Way.move]
      cases tr <;> simp only [Free] at e4
      case rule =>
        simp only [Bool.and_eq_true, List.contains_iff_mem] at ht
        subst e4
        exact ⟨fun f hf => (List.mem_cons.1 hf).elim (fun e => e ▸ ht.2) (g1 f), ht.1⟩
      case action =>
        split at e4
        · obtain ⟨act, -, -, rfl⟩ := e4
          exact ⟨g1, by simpa using ht⟩
        · subst e4; exact ⟨g1, by simpa using ht⟩
      case epsilon => subst e4; exact ⟨g1, by simpa using ht⟩
      case predicate => obtain ⟨-, rfl⟩ := e4; exact ⟨g1, by simpa using ht⟩
      all_goals exact absurd e4.1 hp
    | ret e1 e2 e3 =>
      simp only [Way.move]
      exact ⟨fun f hf => g1 f (by rw [e3]; exact List.mem_cons_of_mem _ hf), g1 _ (by rw [e3]; exact List.mem_cons_self)⟩

variable {D : Type} [InputData D] {d : D} {cs : List Int} {ix : Nat → Int} {sl : Nat → Nat → D} {env : Env D} {L : Lex D} {n : Nat}
  {st : ATNState}

/-- The first symbol read by a rule that calls others. -/
theorem reads_first_calls {i : Nat} {tr : Trans} (hn : n ≤ cs.length) {S : List Nat} (hS : tr.target ∈ S) (hc : callsB env.atn S = true)
    {test : Trans → Bool} (ht : testB env.atn S test = true) {ok : Int → Prop}
    (hok : ∀ tr c, test tr = true → ReadsSym tr c → ok c) (hi : st.transitions[i]? = some tr) {k : Nat} :
    ∀ {w : Way}, LexOrder.Reached env L cs ix n st (k + 1) w → w.rule = ((i + 1 : Nat) : Int) → ok ((cs[n]?).getD EOF) := by
  induction k with
  | zero =>
    rintro u ⟨v, ⟨i', tr', h1, h2⟩, -, -, h4⟩ hu
    have hv := (takes_rule h4).symm.trans hu
    obtain rfl : i' = i := by
      have := (choices_same h2).1
      simp only [first] at this
      omega
    rw [hi] at h1; injection h1 with h1; subst h1
    obtain ⟨sv, tr', e1, e2, e3, -⟩ := h4
    exact hok tr' _ (testB_ok ht (calls_choices (by omega) hc h2 (by simp [first]) hS).2 e1 e2) e3
  | succ k ih =>
    rintro u ⟨v, h1, -, -, h4⟩ hu
    exact ih h1 ((takes_rule h4).symm.trans hu)

end Antlr.LexLazy

namespace Antlr.XmlProps
open Antlr Lexer LexCache LexSpec LexProps LexPaths LexCacheProps LexPathProps LexTotal LexTotalProps LexLazy LexExample IntervalSpec
open Antlr.Gen (xmlLexer xmlEnv emptyDfas)

variable {D : Type} [InputData D] {d : D} {cs : List Int} {ix : Nat → Int} {sl : Nat → Nat → D}

set_option linter.unusedSectionVars false

seal Antlr.Gen.xmlLexer

/-- The start state of mode `INSIDE`, tests/gen/xmllexer.rs:293-295 -/
def inside : ATNState where
  ruleIndex := 18446744073709551615
  stateNumber := 1
  stateType := .decision 1 false .tokenStart
  epsilonOnly := true
  transitions := [.epsilon 23 0, .epsilon 25 0, .epsilon 27 0, .epsilon 29 0, .epsilon 31 0, .epsilon 33 0, .epsilon 35 0,
    .epsilon 37 0]

theorem inside_cases {i : Nat} {tr : Trans} (h : inside.transitions[i]? = some tr) : tr = .epsilon (23 + 2 * i) 0 ∧ i < 8 := by
  rcases i with _ | _ | _ | _ | _ | _ | _ | _ | i <;> simp [inside] at h
  all_goals subst h; simp

/-- Edges that read nothing -/
def noRead : Trans → Bool
  | .epsilon _ _ => true
  | .action _ _ _ _ _ => true
  | _ => false

/-- Edges that read neither `>` nor `?` nor `/` -/
def nameTest (tr : Trans) : Bool := [62, 63, 47].all fun c => !readsB tr c

/-- The states of `Name` and of the rules it calls -/
def nameStates (atn : ATN) : List Nat := [16, 19, 20, 21].flatMap (statesOf atn)

/-- There is an edge with lexer action `x` from `a` to `b`. -/
def actB (atn : ATN) (a b x : Nat) : Bool :=
  calmB atn b && (atn.states[a]?).any fun st => !decide (st.stateType = .ruleStop) && st.transitions.any fun tr => match tr with
    | .action t _ _ y _ => t == b && decide (y = (x : Int))
    | _ => false

/-- The words that end a tag: the rule in the mode, the states after its action, the action. -/
def closers : List (List Int × Nat × List Nat × LexerAction) :=
  [([62], 0, [164, 24], .custom 10 0), ([63, 62], 1, [169, 26], .popMode), ([47, 62], 2, [174, 28], .popMode)]

/-- After the word no rule reads on, and only rule `i` has matched; its only action is at the end. -/
def rowB (atn : ATN) (w : List Int) (i : Nat) (T : List Nat) (act : LexerAction) : Bool :=
  ((List.range 8).all fun j => j == 6 || ((List.range (w.length + 1)).all fun k => closeB atn (after atn (23 + 2 * j) (w.take k))) &&
    testB atn (after atn (23 + 2 * j) w) noRead && (j == i || !(after atn (23 + 2 * j) w).any (stopB atn))) &&
  (endsB atn ((statesOf atn (10 + i)).filter fun s => !T.contains s) T (fun a => decide (a = act)) &&
    ((statesOf atn (10 + i)).filter fun s => !T.contains s).contains (23 + 2 * i)) &&
  inside.transitions.zipIdx.all fun q => decide (((atn.states[q.1.target]?).bind fun t0 =>
    atn.ruleToTokenType[t0.ruleIndex]?) = some ((10 + i : Nat) : Int)) == (q.2 == i)

/-- What C82 needs of the automaton. -/
def closeChecks (atn : ATN) : Bool :=
  decide (atn.modeToStartState[1]? = some 1) && decide (atn.states[1]? = some inside) &&
  (closers.all fun q => rowB atn q.1 q.2.1 q.2.2.1 q.2.2.2) &&
  ([(23, 162), (164, 24), (25, 165), (167, 168), (169, 26), (27, 170), (172, 173), (174, 28)].all fun p => hopB atn p.1 p.2) &&
  ([(162, 163, 62), (165, 166, 63), (166, 167, 62), (170, 171, 47), (171, 172, 62)].all fun p => eatB atn p.1 p.2.1 (isAtom p.2.2)) &&
  ([(163, 164, 4), (168, 169, 5), (173, 174, 5)].all fun p => actB atn p.1 p.2.1 p.2.2 && (atn.lexerActions[p.2.2]?).isSome) &&
  [24, 26, 28].all (stopB atn) &&
  ((nameStates atn).contains 35 && callsB atn (nameStates atn) && testB atn (nameStates atn) nameTest)

theorem close_checks : closeChecks xmlLexer = true := by decide +kernel

theorem close_all :
    xmlLexer.modeToStartState[1]? = some 1 ∧ xmlLexer.states[1]? = some inside ∧
    (∀ q ∈ closers, rowB xmlLexer q.1 q.2.1 q.2.2.1 q.2.2.2 = true) ∧
    (∀ p ∈ [(23, 162), (164, 24), (25, 165), (167, 168), (169, 26), (27, 170), (172, 173), (174, 28)], hopB xmlLexer p.1 p.2 = true) ∧
    (∀ p ∈ ([(162, 163, 62), (165, 166, 63), (166, 167, 62), (170, 171, 47), (171, 172, 62)] : List (Nat × Nat × Int)),
      eatB xmlLexer p.1 p.2.1 (isAtom p.2.2) = true) ∧
    (∀ p ∈ [(163, 164, 4), (168, 169, 5), (173, 174, 5)], actB xmlLexer p.1 p.2.1 p.2.2 = true ∧
      ∃ act, xmlLexer.lexerActions[p.2.2]? = some act) ∧
    (∀ s ∈ [24, 26, 28], stopB xmlLexer s = true) ∧
    ∃ S, 35 ∈ S ∧ callsB xmlLexer S = true ∧ testB xmlLexer S nameTest = true := by
  have h := close_checks
  generalize xmlLexer = atn at h
  simp only [closeChecks, Bool.and_eq_true] at h
  obtain ⟨⟨⟨⟨⟨⟨⟨h1, h2⟩, h3⟩, h4⟩, h5⟩, h6⟩, h7⟩, h8⟩ := h
  refine ⟨of_decide_eq_true h1, of_decide_eq_true h2, List.all_eq_true.1 h3, List.all_eq_true.1 h4, List.all_eq_true.1 h5, ?_,
    List.all_eq_true.1 h7, _, List.contains_iff_mem.1 h8.1.1, h8.1.2, h8.2⟩
  intro p hp
  have := List.all_eq_true.1 h6 p hp
  rw [Bool.and_eq_true, Option.isSome_iff_exists] at this
  exact this

theorem row_all {w : List Int} {i : Nat} {T : List Nat} {act : LexerAction} (hq : (w, i, T, act) ∈ closers) :
    (∀ j < 8, j ≠ 6 → (∀ k ≤ w.length, closeB xmlLexer (after xmlLexer (23 + 2 * j) (w.take k)) = true) ∧
      testB xmlLexer (after xmlLexer (23 + 2 * j) w) noRead = true ∧
      (j ≠ i → ∀ s ∈ after xmlLexer (23 + 2 * j) w, stopB xmlLexer s ≠ true)) ∧
    (∃ S, endsB xmlLexer S T (fun a => decide (a = act)) = true ∧ 23 + 2 * i ∈ S) ∧
    ∀ q ∈ inside.transitions.zipIdx, ((xmlLexer.states[q.1.target]?).bind fun t0 =>
      xmlLexer.ruleToTokenType[t0.ruleIndex]?) = some ((10 + i : Nat) : Int) ↔ q.2 = i := by
  have h := close_all.2.2.1 _ hq
  generalize xmlLexer = atn at h
  simp only [rowB, Bool.and_eq_true] at h
  obtain ⟨⟨h1, h2⟩, h3⟩ := h
  refine ⟨?_, ⟨_, h2.1, List.contains_iff_mem.1 h2.2⟩, ?_⟩
  · intro j hj hj6
    have := List.all_eq_true.1 h1 j (List.mem_range.2 hj)
    rw [Bool.or_eq_true, beq_iff_eq] at this
    replace this := this.resolve_left hj6
    rw [Bool.and_eq_true, Bool.and_eq_true, Bool.or_eq_true, Bool.not_eq_true', beq_iff_eq] at this
    refine ⟨fun k hk => List.all_eq_true.1 this.1.1 k (List.mem_range.2 (by omega)), this.1.2, fun hne s hs hstop => ?_⟩
    rcases this.2 with e | e
    · exact hne e
    · rw [List.any_eq_true.2 ⟨s, hs, hstop⟩] at e; cases e
  · intro q hq
    have := List.all_eq_true.1 h3 q hq
    rw [beq_iff_eq] at this
    rw [← decide_eq_true_iff (p := _ = some _), this, beq_iff_eq]

section
variable {hash : List Config → Nat} {toChars : D → List Char} {L : Lex D} {n : Nat}

theorem in_hop {a b v : Nat} {r : Int} {acts : List LexerAction}
    (hp : (a, b) ∈ [(23, 162), (164, 24), (25, 165), (167, 168), (169, 26), (27, 170), (172, 173), (174, 28)])
    (hx : Eager (xmlEnv hash toChars) L cs ix n inside r v ⟨a, [], acts⟩) :
    Eager (xmlEnv hash toChars) L cs ix n inside r v ⟨b, [], acts⟩ :=
  hop (env := xmlEnv hash toChars) (close_all.2.2.2.1 (a, b) hp) hx

theorem in_eat {a b v : Nat} {c : Int} {r : Int}
    (hp : (a, b, c) ∈ ([(162, 163, 62), (165, 166, 63), (166, 167, 62), (170, 171, 47), (171, 172, 62)] : List (Nat × Nat × Int)))
    (hv : cs[v]? = some c) (hx : Eager (xmlEnv hash toChars) L cs ix n inside r v ⟨a, [], []⟩) :
    Eager (xmlEnv hash toChars) L cs ix n inside r (v + 1) ⟨b, [], []⟩ := by
  obtain ⟨h1, h2⟩ := List.getElem?_eq_some_iff.1 hv
  refine eat (env := xmlEnv hash toChars) (close_all.2.2.2.2.1 (a, b, c) hp) h1 ?_ hx
  intro tr ht
  cases tr <;> simp only [isAtom, decide_eq_true_eq, Bool.false_eq_true] at ht
  rw [ht, h2]; rfl

theorem in_act {a b x v : Nat} {r : Int} (hp : (a, b, x) ∈ [(163, 164, 4), (168, 169, 5), (173, 174, 5)])
    (hx : Eager (xmlEnv hash toChars) L cs ix n inside r v ⟨a, [], []⟩) :
    ∃ acts, Eager (xmlEnv hash toChars) L cs ix n inside r v ⟨b, [], acts⟩ := by
  obtain ⟨h, act, hact⟩ := close_all.2.2.2.2.2.1 (a, b, x) hp
  simp only [actB, Bool.and_eq_true, Option.any_eq_true, Bool.not_eq_true', decide_eq_false_iff_not, List.any_eq_true] at h
  obtain ⟨h1, sa, h2, h3, tr, h4, h5⟩ := h
  refine ⟨[act], .silent hx (.edge h2 h3 h4 ?_) (calmB_ok h1)⟩
  cases tr <;> simp at h5
  obtain ⟨rfl, rfl⟩ := h5
  exact ⟨act, by omega, hact, rfl⟩

theorem in_stop {s v : Nat} {r : Int} {acts : List LexerAction} (hs : s ∈ [24, 26, 28])
    (hx : Eager (xmlEnv hash toChars) L cs ix n inside r v ⟨s, [], acts⟩) : EagerMatch (xmlEnv hash toChars) L cs ix n inside r v := by
  have h := close_all.2.2.2.2.2.2.1 s hs
  simp only [stopB, Option.any_eq_true, decide_eq_true_eq] at h
  obtain ⟨st, s1, s2⟩ := h
  exact ⟨s, acts, st, hx, s1, s2⟩

theorem stands_get {w : List Int} (ht : Stands cs n w) {j : Nat} (hj : j < w.length) : cs[n + j]? = some w[j] := by
  obtain ⟨rest, hrest⟩ := ht
  rw [← List.getElem?_drop, ← hrest, List.getElem?_append_left hj, List.getElem?_eq_getElem hj]

/-- The rules match their words. -/
theorem close_matches {w : List Int} {i : Nat} {T : List Nat} {act : LexerAction} (hq : (w, i, T, act) ∈ closers)
    (ht : Stands cs n w) : EagerMatch (xmlEnv hash toChars) L cs ix n inside ((i + 1 : Nat) : Int) (n + w.length) := by
  simp only [closers, List.mem_cons, List.not_mem_nil, or_false, Prod.mk.injEq] at hq
  rcases hq with ⟨rfl, rfl, -⟩ | ⟨rfl, rfl, -⟩ | ⟨rfl, rfl, -⟩
  · obtain ⟨acts, h⟩ := in_act (hash := hash) (toChars := toChars) (L := L) (cs := cs) (ix := ix) (n := n) (a := 163) (b := 164) (x := 4) (by simp)
      (in_eat (a := 162) (c := 62) (by simp) (stands_get ht (j := 0) (by simp))
        (in_hop (a := 23) (by simp) (.start (i := 0) (tr := .epsilon 23 0) rfl)))
    exact in_stop (s := 24) (by simp) (in_hop (a := 164) (by simp) h)
  · obtain ⟨acts, h⟩ := in_act (hash := hash) (toChars := toChars) (L := L) (cs := cs) (ix := ix) (n := n) (a := 168) (b := 169) (x := 5) (by simp)
      (in_hop (a := 167) (by simp) (in_eat (a := 166) (c := 62) (by simp) (stands_get ht (j := 1) (by simp))
        (in_eat (a := 165) (c := 63) (by simp) (stands_get ht (j := 0) (by simp))
        (in_hop (a := 25) (by simp) (.start (i := 1) (tr := .epsilon 25 0) rfl)))))
    exact in_stop (s := 26) (by simp) (in_hop (a := 169) (by simp) h)
  · obtain ⟨acts, h⟩ := in_act (hash := hash) (toChars := toChars) (L := L) (cs := cs) (ix := ix) (n := n) (a := 173) (b := 174) (x := 5) (by simp)
      (in_hop (a := 172) (by simp) (in_eat (a := 171) (c := 62) (by simp) (stands_get ht (j := 1) (by simp))
        (in_eat (a := 170) (c := 47) (by simp) (stands_get ht (j := 0) (by simp))
        (in_hop (a := 27) (by simp) (.start (i := 2) (tr := .epsilon 27 0) rfl)))))
    exact in_stop (s := 28) (by simp) (in_hop (a := 174) (by simp) h)

/-- What matches this much is the word, and the rule is its. -/
theorem close_hit {w : List Int} {i : Nat} {T : List Nat} {act : LexerAction} (hq : (w, i, T, act) ∈ closers) (hn : n ≤ cs.length)
    (ht : Stands cs n w) {k : Nat} {x : LexOrder.Way} (hw : LexOrder.Hit (xmlEnv hash toChars) L cs ix n inside (w.length + k) x) :
    k = 0 ∧ x.rule = ((i + 1 : Nat) : Int) := by
  obtain ⟨j, tr, h1, h2⟩ := reached_rule hw.1
  obtain ⟨rfl, hj⟩ := inside_cases h1
  have hj6 : j ≠ 6 := by
    rintro rfl
    obtain ⟨S, n1, n2, n3⟩ := close_all.2.2.2.2.2.2.2
    have hfst : (cs[n]?).getD EOF ∈ [62, 63, 47] := by
      simp only [closers, List.mem_cons, List.not_mem_nil, or_false, Prod.mk.injEq] at hq
      have := stands_get ht (j := 0) (by rcases hq with ⟨rfl, -⟩ | ⟨rfl, -⟩ | ⟨rfl, -⟩ <;> simp)
      rw [Nat.add_zero] at this
      rw [this]
      rcases hq with ⟨rfl, -⟩ | ⟨rfl, -⟩ | ⟨rfl, -⟩ <;> simp
    obtain ⟨k', hk'⟩ : ∃ k', w.length + k = k' + 1 := by
      simp only [closers, List.mem_cons, List.not_mem_nil, or_false, Prod.mk.injEq] at hq
      rcases hq with ⟨rfl, -⟩ | ⟨rfl, -⟩ | ⟨rfl, -⟩ <;> exact ⟨_, Nat.add_comm _ _ |>.trans rfl⟩
    have h3 := hw.1
    rw [hk'] at h3
    refine reads_first_calls (env := xmlEnv hash toChars) (tr := .epsilon (23 + 2 * 6) 0) (ok := fun c => c ∉ [62, 63, 47]) hn n1 n2 n3 ?_ h1
      h3 h2 hfst
    intro tr c e1 e2 e3
    have := List.all_eq_true.1 e1 c e3
    rw [readsB_iff.2 e2] at this
    cases this
  obtain ⟨c1, c2, c3⟩ := (row_all hq).1 j hj hj6
  have hk : k = 0 := by
    match k, hw with
    | 0, _ => rfl
    | k + 1, hw =>
      exact (reads_next (env := xmlEnv hash toChars) (tr := .epsilon (23 + 2 * j) 0) (k := k) hn h1 c1 ht c2
        (ok := fun _ => False) (by
        intro tr c e1 e2
        cases tr <;> simp [noRead, ReadsSym] at e1 e2) (w := x) hw.1 h2).elim
  subst hk
  refine ⟨rfl, ?_⟩
  by_contra hne
  have hji : j ≠ i := by rintro rfl; exact hne h2
  have hin := (after_mem (env := xmlEnv hash toChars) (tr := .epsilon (23 + 2 * j) 0) hn h1 c1 ht w.length (Nat.le_refl _) x hw.1 h2).2
  rw [List.take_length] at hin
  obtain ⟨z, z1, z2, -⟩ := hw.2
  refine c3 hji _ hin ?_
  unfold stopB
  rw [show xmlLexer.states[x.thread.state]? = some z from z1]
  exact decide_eq_true z2

end

theorem close_found {hash : List Config → Nat} {toChars : D → List Char} (hh : TellsApart hash) (R : Reads d cs ix sl)
    (hs : Sane d) {fc fe : Nat} (hfc : 133 * (cs.length + 1) ≤ fc) (hfe : 133 * (cs.length + 1) ≤ fe)
    {dfas : List DFA} (hr : Reached xmlLexer hash fc dfas) (hroom : Room (fe + 1) dfas)
    {L : Lex D} (hm : L.mode = 1) (hl : 1 < dfas.length) {n : Nat} (hn : n ≤ cs.length) (hc : L.cur = at_ d cs ix n)
    {w : List Int} {i : Nat} {T : List Nat} {act : LexerAction} (hq : (w, i, T, act) ∈ closers) (ht : Stands cs n w) :
    ∃ L' dfas', matchToken (xmlEnv hash toChars) fc fe L dfas = some (.ok ((10 + i : Nat) : Int), L', dfas') ∧
      L'.cur = at_ d cs ix (n + w.length) := by
  have hfit := word_fits ht hn
  have hpos : 0 < w.length := by
    simp only [closers, List.mem_cons, List.not_mem_nil, or_false, Prod.mk.injEq] at hq
    rcases hq with ⟨rfl, -⟩ | ⟨rfl, -⟩ | ⟨rfl, -⟩ <;> simp
  have h0 : (xmlEnv (D := D) hash toChars).atn.modeToStartState[L.mode]? = some 1 := by
    rw [hm]
    exact close_all.1
  obtain ⟨⟨r, L', dfas'⟩, h⟩ := C69_match_returns (env := xmlEnv hash toChars) xml_whole (N := 11)
    (loopCheck_ok xml_loops (by decide +kernel) (by decide)) hh R hs hfc hfe hn hc hr hroom
  have hM : EagerMatch (xmlEnv hash toChars) L cs ix n inside ((i + 1 : Nat) : Int) (n + w.length) := close_matches hq ht
  have hE := C25_eager_partial (xml_tame hash toChars) xml_tidy hh hr hroom (by omega) hs R hn hc h0 close_all.2.1 h
  have hP := LexOrder.C25_preferred_partial (xml_tame hash toChars) xml_tidy hh hr hroom (by omega) hs R hn hc h0 close_all.2.1 h
  cases r with
  | illegalMode => exact hE.elim
  | noAlt i => exact absurd hM (hE.2.1 _ _)
  | ok tt =>
    rcases hE with ⟨a, v, s, t, acts, f1, f2, f3, f4⟩ | ⟨f1, -⟩
    rotate_left
    · exact absurd hM (f1 _ _)
    rcases hP with ⟨k, x, t', p1, -, p2, p3, p4⟩ | ⟨-, p2, -, -⟩
    rotate_left
    · omega
    have hmin : min v cs.length = min (n + k) cs.length := by
      rw [f4] at p4
      exact LexProps.ix_inj R (Nat.min_le_right ..) (Nat.min_le_right ..) (congrArg (fun c => c.input.index) p4)
    have hge := f1.longest _ _ hM
    obtain ⟨k', rfl⟩ : ∃ k', k = w.length + k' := ⟨k - w.length, by omega⟩
    obtain ⟨rfl, hrule⟩ := close_hit hq hn ht p1.hit
    obtain ⟨j, tr, e1, e2, t0, e3, e4⟩ := C25_type_of_rule xml_tidy xml_ruleWise close_all.2.1 (LexOrder.hit_matches p1.hit) p2
    have hjt : ((xmlLexer.states[tr.target]?).bind fun t0 => xmlLexer.ruleToTokenType[t0.ruleIndex]?) = some tt := by
      rw [show xmlLexer.states[tr.target]? = some t0 from e3, Option.bind_some, ← e4]
      exact p3
    obtain rfl : j = i := by omega
    have := ((row_all hq).2.2 (tr, j) (List.mk_mem_zipIdx_iff_getElem?.2 e2)).2 rfl
    rw [hjt] at this
    obtain rfl := Option.some.inj this
    exact ⟨L', dfas', h, by rw [p4, Nat.add_zero, Nat.min_eq_left hfit]⟩

theorem close_owns {w : List Int} {i : Nat} {T : List Nat} {act : LexerAction} (hq : (w, i, T, act) ∈ closers) :
    Owns xmlLexer inside i ((10 + i : Nat) : Int) := by
  intro j tr t0 h1 h2 h3
  exact ((row_all hq).2.2 (tr, j) (List.mk_mem_zipIdx_iff_getElem?.2 h1)).1 (by simp only [h2, Option.bind_some, h3])

/-- **C82** (partial: the hash of the DFA cache must not collide): inside of a tag, where `>`, `?>` or `/>` stands, the next
token is this word, `CLOSE`, `SPECIAL_CLOSE` or `SLASH_CLOSE`; the lexer is then in the mode noted on top of its stack, which
is taken off, and stays in its mode if none is. -/
theorem C82_xml_close_partial {hash : List Config → Nat} {toChars : D → List Char} (hh : TellsActionsApart hash)
    (R : Reads d cs ix sl) (hs : Sane d) {fc fe fn : Nat} (hfc : 133 * (cs.length + 1) ≤ fc) (hfe : 133 * (cs.length + 1) ≤ fe)
    (hfn : 2 ≤ fn) {dfas : List DFA} (hr : Reached xmlLexer hash fc dfas) {b : Nat} (hroom : Room (b + (fe + 1)) dfas)
    {L : Lex D} (hm : L.mode = 1) (he : L.hitEof = false) (hl : 1 < dfas.length) {n : Nat} (hn : n ≤ cs.length)
    (hc : L.cur = at_ d cs ix n) {word : List Int} {tt : Int}
    (hword : word = [62] ∧ tt = 10 ∨ word = [63, 62] ∧ tt = 11 ∨ word = [47, 62] ∧ tt = 12) (ht : Stands cs n word)
    {m : Nat} (hend : m = n + word.length) :
    ∃ L' dfas', nextToken (xmlEnv hash toChars) fc fe fn L dfas = some (
        { ttype := tt, channel := 0, start := ix n, stop := ix m - 1, line := lineOf cs n, column := colOf cs n, index := -1,
          text := toChars (sl n m) }, L', dfas') ∧
      L'.cur = at_ d cs ix m ∧ (L.modeStack = [] → L'.mode = 1 ∧ L'.modeStack = []) ∧
      (∀ top rest, L.modeStack = top :: rest → L'.mode = top ∧ L'.modeStack = rest) ∧ (L'.hitEof = true ↔ m = cs.length) ∧
      Reached xmlLexer hash fc dfas' ∧ Room b dfas' ∧ dfas'.length = dfas.length := by
  have hroomb := hroom
  replace hroom : Room (fe + 1) dfas := hroom.le (by omega)
  obtain ⟨f, rfl⟩ : ∃ f, fn = f + 2 := ⟨fn - 2, by omega⟩
  have hfit := word_fits ht hn
  obtain ⟨i, T, act, hq, rfl, hact⟩ : ∃ i T act, (word, i, T, act) ∈ closers ∧ tt = ((10 + i : Nat) : Int) ∧
      (act = .custom 10 0 ∨ act = .popMode) := by
    rcases hword with ⟨rfl, rfl⟩ | ⟨rfl, rfl⟩ | ⟨rfl, rfl⟩
    · exact ⟨0, [164, 24], .custom 10 0, by simp [closers], rfl, .inl rfl⟩
    · exact ⟨1, [169, 26], .popMode, by simp [closers], rfl, .inr rfl⟩
    · exact ⟨2, [174, 28], .popMode, by simp [closers], rfl, .inr rfl⟩
  have hpos : 0 < word.length := by rcases hword with ⟨rfl, -⟩ | ⟨rfl, -⟩ | ⟨rfl, -⟩ <;> simp
  have hi : inside.transitions[i]? = some (.epsilon (23 + 2 * i) 0) := by
    simp only [closers, List.mem_cons, List.not_mem_nil, or_false, Prod.mk.injEq] at hq
    rcases hq with ⟨-, rfl, -⟩ | ⟨-, rfl, -⟩ | ⟨-, rfl, -⟩ <;> rfl
  let L0 : Lex D := { beginToken L with ttype := TOKEN_INVALID_TYPE }
  obtain ⟨L', dfas', h1, h2⟩ := close_found (toChars := toChars) (tells_less hh) R hs hfc hfe hr hroom (L := L0) hm hl hn hc hq ht
  have h0 : (xmlEnv (D := D) hash toChars).atn.modeToStartState[L0.mode]? = some 1 := by
    show xmlLexer.modeToStartState[L.mode]? = some 1
    rw [hm]
    exact close_all.1
  have hm0 : L0.mode < dfas.length := by show L.mode < _; omega
  obtain ⟨S, s1, s2⟩ := (row_all hq).2.1
  obtain ⟨k, p, q1, q2⟩ := ends_match (env := xmlEnv hash toChars) (tr0 := .epsilon (23 + 2 * i) 0) (xml_tame hash toChars) xml_tidy
    xml_ruleWise hh hr hroom hm0 hs R hn hc h0 close_all.2.1 hi s1 (fun a h => of_decide_eq_true h) s2 (close_owns hq)
    (by simp only [TOKEN_EOF]; omega) h1
  have e : min (n + k) cs.length = m := by
    rw [q1, ← hend] at h2
    exact LexProps.ix_inj R (Nat.min_le_right ..) (by omega) (congrArg (fun c => c.input.index) h2)
  rw [e] at q2
  have q3 : L' = (Lex.popMode (Lex.seek { L0 with cur := at_ d cs ix m } p)).2.seek (ix m) := by
    rcases hact with rfl | rfl
    · exact q2
    · exact q2
  have t1 : ((10 + i : Nat) : Int) ≠ LEXER_SKIP := by simp only [LEXER_SKIP]; omega
  have t2 : ((10 + i : Nat) : Int) ≠ LEXER_MORE := by simp only [LEXER_MORE]; omega
  have after := xml_after (L := L0) (tells_less hh) R hs hfc hfe hn hc hr hroomb h1
  have hst : L0.modeStack = L.modeStack := rfl
  cases hstack : L.modeStack with
  | nil =>
    obtain ⟨L2, g1, g2, g3, g4, g5⟩ := token_of_mode (env := xmlEnv hash toChars) (fn := f) (m := m) (mode := 1) (stack := [])
      rfl R (by omega) (by omega) hc he t1 t2 h1 (by
        rw [q3]; simp only [Lex.popMode, Lex.seek, hst, hstack]; rw [← hm, ← hstack]; rfl)
    exact ⟨L2, dfas', g1, g2, fun _ => ⟨g3, g4⟩, fun _ _ h => by simp at h, by rw [g5]; simp, after⟩
  | cons top rest =>
    obtain ⟨L2, g1, g2, g3, g4, g5⟩ := token_of_mode (env := xmlEnv hash toChars) (fn := f) (m := m) (mode := top) (stack := rest)
      rfl R (by omega) (by omega) hc he t1 t2 h1 (by
        rw [q3]; simp only [Lex.popMode, Lex.seek, hst, hstack]; rfl)
    refine ⟨L2, dfas', g1, g2, fun h => by simp at h, fun _ _ h => ?_, by rw [g5]; simp, after⟩
    obtain ⟨rfl, rfl⟩ := List.cons.inj h
    exact ⟨g3, g4⟩

/-- In `</>` the tag ends with `/>`, and the lexer is outside again. -/
example : ∃ L1 d1 L2 d2, nextToken (xmlEnv Encode.configs Str.chars) 1000 1000 2 (Lex.new (InputStream.new (Str.mk ['<', '/', '>']))) xmlDfas =
    some ({ ttype := 7, channel := 0, start := 0, stop := 0, line := 1, column := 0, index := -1, text := ['<'] }, L1, d1) ∧
    nextToken (xmlEnv Encode.configs Str.chars) 1000 1000 2 L1 d1 =
    some ({ ttype := 12, channel := 0, start := 1, stop := 2, line := 1, column := 1, index := -1, text := ['/', '>'] }, L2, d2) ∧
    L2.mode = 0 ∧ L2.modeStack = [] := by
  obtain ⟨hr, hroom, hl⟩ := xml_new Encode.configs 1000
  obtain ⟨L1, d1, h, h1, h2, h3, h4, h5, h6, h7⟩ := C81_xml_open_partial (toChars := Str.chars) (b := 1001) (n := 0)
    (L := Lex.new (InputStream.new (Str.mk ['<', '/', '>']))) fullHash_ok
    (reads_str ['<', '/', '>']) (sane_str _) (fc := 1000) (fe := 1000) (fn := 2) (by decide) (by decide) (by decide) hr
    (hroom _ (by decide)) rfl rfl hl (by decide) rfl (by decide) (by intro c e; simp at e; subst e; decide)
  obtain ⟨L2, d2, g, -, -, g2, -⟩ := C82_xml_close_partial (toChars := Str.chars) (b := 0) (n := 1) (m := 3) (word := [47, 62]) (tt := 12) fullHash_ok
    (reads_str ['<', '/', '>']) (sane_str _) (fc := 1000) (fe := 1000) (fn := 2) (by decide) (by decide) (by decide) h5
    (by simpa using h6) h2 (by
      cases e : L1.hitEof with
      | false => rfl
      | true => exact absurd (h4.1 e) (by decide)) (by rw [h7]; decide +kernel) (by decide) h1 (.inr (.inr ⟨rfl, rfl⟩))
    (by simp only [Stands]; decide) rfl
  exact ⟨L1, d1, L2, d2, h, g, g2 _ _ h3⟩

end Antlr.XmlProps
