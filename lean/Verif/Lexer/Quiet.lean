import Verif.Lexer.Dead

/-!
# Rules without actions

A check that no way of a token rule comes to an action or a call, and what follows for the lexer after the match.
-/

namespace Antlr.LexLazy
open Antlr Lexer LexSpec LexPaths LexOrder LexCache LexCacheProps LexPathProps

set_option linter.unusedSectionVars false

/-- The set is closed under all edges, and none of them is an action or a call. -/
def quietB (atn : ATN) (S : List Nat) : Bool :=
  S.all fun s => match atn.states[s]? with
    | none => true
    | some st => st.transitions.all fun tr => match tr with
      | .rule _ _ _ _ | .action _ _ _ _ _ => false
      | tr => S.contains tr.target

/-- Nothing was done on the way. -/
def Still (S : List Nat) (x : Thread) : Prop := x.stack = [] ∧ x.acts = [] ∧ x.state ∈ S

theorem quiet_edge {atn : ATN} {S : List Nat} (hq : quietB atn S = true) {s : Nat} {st : ATNState} (hs : s ∈ S)
    (hst : atn.states[s]? = some st) {tr : Trans} (htr : tr ∈ st.transitions) :
    tr.target ∈ S ∧ (∀ a b c d, tr ≠ .rule a b c d) ∧ ∀ a b c d e, tr ≠ .action a b c d e := by
  simp only [quietB, List.all_eq_true] at hq
  have h := hq s hs
  rw [hst] at h
  simp only [List.all_eq_true] at h
  have h := h tr htr
  cases tr <;> simp at h ⊢ <;> exact h

theorem quiet_choices {atn : ATN} {holds : Int → Int → Prop} {past : Prop} {S : List Nat} (hq : quietB atn S = true)
    {w u : Way} (h : Relation.ReflTransGen (Choice atn holds past) w u) (h1 : Still S w.thread) : Still S u.thread := by
  induction h with
  | refl => exact h1
  | tail _ hx ih =>
    obtain ⟨g1, g2, g3⟩ := ih
    cases hx with
    | @edge y st tr i e1 e2 e3 e4 =>
      obtain ⟨k1, k2, k3⟩ := quiet_edge hq g3 e1 (List.mem_of_getElem? e3)
      simp only [Way.move]
      cases tr <;> simp only [Free] at e4
      case rule => exact absurd rfl (k2 _ _ _ _)
      case action => exact absurd rfl (k3 _ _ _ _ _)
      case epsilon => subst e4; exact ⟨g1, g2, k1⟩
      case predicate => obtain ⟨-, rfl⟩ := e4; exact ⟨g1, g2, k1⟩
      all_goals obtain ⟨-, -, rfl⟩ := e4; exact ⟨g1, g2, k1⟩
    | ret e1 e2 e3 => rw [g1] at e3; cases e3

variable {D : Type} [InputData D] {d : D} {cs : List Int} {ix : Nat → Int} {sl : Nat → Nat → D} {env : Env D} {L : Lex D} {n : Nat}
  {st : ATNState}

theorem quiet_reached {i : Nat} {tr : Trans} {S : List Nat} (hq : quietB env.atn S = true) (hi : st.transitions[i]? = some tr)
    (hS : tr.target ∈ S) {k : Nat} : ∀ {w : Way}, LexOrder.Reached env L cs ix n st k w → w.rule = ((i + 1 : Nat) : Int) →
      Still S w.thread := by
  induction k with
  | zero =>
    rintro u ⟨i', tr', h1, h2⟩ hu
    obtain rfl : i' = i := by
      have := (choices_same h2).1
      simp only [first] at this
      omega
    rw [hi] at h1; injection h1 with h1; subst h1
    exact quiet_choices hq h2 ⟨rfl, rfl, hS⟩
  | succ k ih =>
    rintro u ⟨v, h1, -, -, h4⟩ hu
    obtain ⟨g1, g2, g3⟩ := ih h1 ((takes_rule h4).symm.trans hu)
    obtain ⟨sv, tr', e1, e2, -, e4⟩ := h4
    exact quiet_choices hq e4 ⟨g1, g2, (quiet_edge hq g3 e1 e2).1⟩

theorem tells_less {hash : List Config → Nat} (h : TellsActionsApart hash) : TellsApart hash := by
  intro l l' e
  have := congrArg (List.map (er nothing)) (h l l' e)
  have c : ∀ x : Config, er nothing (er noOffsets x) = er nothing x := by
    intro x
    unfold er
    cases x.kind <;> rfl
  simpa [List.map_map, Function.comp_def, c] using this

/-- A match of a rule without actions only moves the lexer. -/
theorem quiet_match (ht : Tame env) (hg : Tidy env.atn) (hw : RuleWise env.atn) (hh : TellsActionsApart env.hash)
    {fc fe : Nat} {dfas : List DFA} (hr : LexCacheProps.Reached env.atn env.hash fc dfas) (hroom : Room (fe + 1) dfas)
    (hm : L.mode < dfas.length) (hs : Sane d) (R : Reads d cs ix sl) (hn : n ≤ cs.length)
    (hc : L.cur = at_ d cs ix n) {ss : Nat} (hss : env.atn.modeToStartState[L.mode]? = some ss)
    (hst : env.atn.states[ss]? = some st) {i : Nat} {tr0 : Trans} (hi : st.transitions[i]? = some tr0)
    {S : List Nat} (hq : quietB env.atn S = true) (hS : tr0.target ∈ S)
    {tt : Int} (hty : Owns env.atn st i tt) (hne : tt ≠ TOKEN_EOF) {L' : Lex D} {dfas' : List DFA}
    (h : matchToken env fc fe L dfas = some (.ok tt, L', dfas')) : L' = { L with cur := L'.cur } := by
  rcases C25_preferred_partial ht hg (tells_less hh) hr hroom hm hs R hn hc hss hst h with ⟨k, w, t, h1, hu, h2, h3, h4⟩ | ⟨-, -, h3, -⟩
  · obtain ⟨j, tr, e1, e2, t0, e3, e4⟩ := C25_type_of_rule hg hw hst (hit_matches h1.hit) h2
    obtain rfl := hty j tr t0 e2 e3 (by rw [← e4]; exact h3)
    rcases C27_preferred_actions_partial ht hg hh hr hroom hm hs R hn hc hss hst h with ⟨k', w', done, p1, p2, p3⟩ | ⟨p1, -⟩
    · obtain ⟨rfl, rfl⟩ := hu k' w' p1
      have q := (quiet_reached hq hi hS h1.hit.1 e1).2.1
      rw [q, List.map_nil, List.map_eq_nil_iff] at p2
      subst p2
      rw [p3]
      rfl
    · exact absurd h1.hit (p1 _ _)
  · exact absurd h3 hne

/-- What `next_token` returns when the first match only moves the lexer: one token for the matched text. -/
theorem token_of_match (hid : env.beforeEmit = id) (R : Reads d cs ix sl) {m : Nat} (hnm : n < m) (hm : m ≤ cs.length)
    (hc : L.cur = at_ d cs ix n) (he : L.hitEof = false) {tt : Int} (h0 : tt ≠ LEXER_SKIP) (h1 : tt ≠ LEXER_MORE)
    {fc fe fn : Nat} {dfas dfas' : List DFA} {L' : Lex D}
    (h : matchToken env fc fe { beginToken L with ttype := TOKEN_INVALID_TYPE } dfas = some (.ok tt, L', dfas'))
    (hL : L' = { { beginToken L with ttype := TOKEN_INVALID_TYPE } with cur := at_ d cs ix m }) :
    ∃ L2, nextToken env fc fe (fn + 2) L dfas = some (⟨tt, 0, ix n, ix m - 1, lineOf cs n, colOf cs n, -1, env.toChars (sl n m)⟩,
      L2, dfas') ∧ L2.cur = at_ d cs ix m ∧ L2.mode = L.mode ∧ L2.hitEof = decide (m = cs.length) := by
  subst hL
  have hla := R.la m hm
  have hix := LexProps.ix_lt R (show n < cs.length by omega) (Nat.le_refl _)
  have hix2 := LexProps.ix_le R hm (Nat.le_refl _)
  have hsz : (InputStream.mk d (ix m)).size = ix cs.length := R.size
  have heof : decide ((cs[m]?).getD EOF = EOF) = decide (m = cs.length) := by
    by_cases e : m = cs.length
    · subst e; simp
    · rw [List.getElem?_eq_getElem (show m < cs.length by omega), Option.getD_some]
      have := R.chars _ (List.getElem_mem (show m < cs.length by omega))
      rw [decide_eq_false e, decide_eq_false_iff_not]
      intro hx
      rw [hx] at this
      revert this
      decide
  have step : matchStep env fc fe (beginToken L) dfas = some (
      { { beginToken L with ttype := tt, cur := at_ d cs ix m } with
        hitEof := decide (m = cs.length)
        pieces := L.pieces ++ [Piece.mk (ix n) (ix m) tt false] }, dfas') := by
    unfold matchStep
    rw [h]
    simp only [Option.bind_some]
    rw [show (at_ d cs ix m).input = ⟨d, ix m⟩ from rfl, hla]
    simp only [Option.map_some, heof, beginToken, he, Bool.false_or, hc, ↓reduceIte]
    rfl
  have text : Lexer.createText env.toChars (some (at_ d cs ix m).input) none (at_ d cs ix n).input.index
      ((at_ d cs ix m).input.index - 1) = some (env.toChars (sl n m)) := by
    show (if ix m - 1 ≥ (InputStream.mk d (ix m)).size ∨ ix n ≥ (InputStream.mk d (ix m)).size then some eofText
      else ((InputStream.mk d (ix m)).getText (ix n) (ix m - 1)).map env.toChars) = _
    rw [hsz, if_neg (by omega), R.text n m _ (by omega) hm]
    rfl
  unfold nextToken
  rw [outerLoop, he]
  simp only [Bool.false_eq_true, ↓reduceIte]
  rw [innerLoop, step]
  simp only [Option.bind_some, if_neg h0, if_neg h1]
  simp only [beginToken, Option.isNone_none, ↓reduceIte, emit, hid, id, hc, text, Option.map_some, Option.bind_some]
  exact ⟨_, rfl, rfl, rfl, rfl⟩

/-! ## Rules with one action at the end -/

/-- All edges from `S` stay in `S` but for actions; these pass the test and lead to `T`, from where there are no more. No rule
ends in `S`. -/
def endsB (atn : ATN) (S T : List Nat) (test : LexerAction → Bool) : Bool :=
  (S.all fun s => match atn.states[s]? with
    | none => true
    | some st => !decide (st.stateType = .ruleStop) && st.transitions.all fun tr => match tr with
      | .rule _ _ _ _ => false
      | .action t _ _ a _ => T.contains t && (atn.lexerActions[a.toNat]?).any test
      | tr => S.contains tr.target) &&
  quietB atn T

/-- The action was met at the end. -/
def Ends (S T : List Nat) (act : LexerAction) (x : Thread) : Prop :=
  x.stack = [] ∧ (x.acts = [] ∧ x.state ∈ S ∨ x.acts = [act] ∧ x.state ∈ T)

section
variable {atn : ATN} {S T : List Nat} {act : LexerAction} {test : LexerAction → Bool}

theorem ends_edge (hq : endsB atn S T test = true) (htest : ∀ a, test a = true → a = act) {s : Nat} {st : ATNState} (hs : s ∈ S)
    (hst : atn.states[s]? = some st) : st.stateType ≠ .ruleStop ∧ ∀ tr ∈ st.transitions, (∀ a b c d, tr ≠ .rule a b c d) ∧
      (tr.target ∈ S ∧ (∀ a b c d e, tr ≠ .action a b c d e) ∨
        ∃ a b c e t, tr = .action t b c a e ∧ t ∈ T ∧ atn.lexerActions[a.toNat]? = some act) := by
  simp only [endsB, Bool.and_eq_true, List.all_eq_true] at hq
  have h := hq.1 s hs
  rw [hst] at h
  simp only [Bool.and_eq_true, Bool.not_eq_true', decide_eq_false_iff_not, List.all_eq_true] at h
  refine ⟨h.1, fun tr htr => ?_⟩
  have h := h.2 tr htr
  cases tr with
  | rule => simp at h
  | action t b c a e =>
    simp only [Bool.and_eq_true, List.contains_iff_mem, Option.any_eq_true] at h
    obtain ⟨h1, x, h2, h3⟩ := h
    exact ⟨by simp, .inr ⟨a, b, c, e, t, rfl, h1, by rw [h2, htest x h3]⟩⟩
  | _ => exact ⟨by simp, .inl ⟨by simpa using h, by simp⟩⟩

theorem ends_quiet (hq : endsB atn S T test = true) : quietB atn T = true := by
  simp only [endsB, Bool.and_eq_true] at hq
  exact hq.2

theorem ends_choices {holds : Int → Int → Prop} {past : Prop} (hq : endsB atn S T test = true) (htest : ∀ a, test a = true → a = act)
    {w u : Way} (h : Relation.ReflTransGen (Choice atn holds past) w u) (h1 : Ends S T act w.thread) : Ends S T act u.thread := by
  induction h with
  | refl => exact h1
  | tail _ hx ih =>
    obtain ⟨g1, g⟩ := ih
    cases hx with
    | @edge y st tr i e1 e2 e3 e4 =>
      rcases g with ⟨g2, g3⟩ | ⟨g2, g3⟩
      · obtain ⟨k1, k2⟩ := (ends_edge hq htest g3 e1).2 tr (List.mem_of_getElem? e3)
        simp only [Way.move]
        rcases k2 with ⟨k2, k3⟩ | ⟨a, b, c, e, t, rfl, k2, k3⟩
        · cases tr <;> simp only [Free] at e4
          case rule => exact absurd rfl (k1 _ _ _ _)
          case action => exact absurd rfl (k3 _ _ _ _ _)
          case epsilon => subst e4; exact ⟨g1, .inl ⟨g2, k2⟩⟩
          case predicate => obtain ⟨-, rfl⟩ := e4; exact ⟨g1, .inl ⟨g2, k2⟩⟩
          all_goals obtain ⟨-, -, rfl⟩ := e4; exact ⟨g1, .inl ⟨g2, k2⟩⟩
        · simp only [Free] at e4
          rw [if_pos g1] at e4
          obtain ⟨act', -, e5, rfl⟩ := e4
          rw [k3] at e5
          cases e5
          exact ⟨g1, .inr ⟨by simp [g2], k2⟩⟩
      · obtain ⟨k1, k2, k3⟩ := quiet_edge (ends_quiet hq) g3 e1 (List.mem_of_getElem? e3)
        simp only [Way.move]
        cases tr <;> simp only [Free] at e4
        case rule => exact absurd rfl (k2 _ _ _ _)
        case action => exact absurd rfl (k3 _ _ _ _ _)
        case epsilon => subst e4; exact ⟨g1, .inr ⟨g2, k1⟩⟩
        case predicate => obtain ⟨-, rfl⟩ := e4; exact ⟨g1, .inr ⟨g2, k1⟩⟩
        all_goals obtain ⟨-, -, rfl⟩ := e4; exact ⟨g1, .inr ⟨g2, k1⟩⟩
    | ret e1 e2 e3 => rw [g1] at e3; cases e3

end

theorem ends_reached {i : Nat} {tr : Trans} {S T : List Nat} {act : LexerAction} {test : LexerAction → Bool}
    (hq : endsB env.atn S T test = true) (htest : ∀ a, test a = true → a = act)
    (hi : st.transitions[i]? = some tr) (hS : tr.target ∈ S) {k : Nat} :
    ∀ {w : Way}, LexOrder.Reached env L cs ix n st k w → w.rule = ((i + 1 : Nat) : Int) → Ends S T act w.thread := by
  induction k with
  | zero =>
    rintro u ⟨i', tr', h1, h2⟩ hu
    obtain rfl : i' = i := by
      have := (choices_same h2).1
      simp only [first] at this
      omega
    rw [hi] at h1; injection h1 with h1; subst h1
    exact ends_choices hq htest h2 ⟨rfl, .inl ⟨rfl, hS⟩⟩
  | succ k ih =>
    rintro u ⟨v, h1, -, -, h4⟩ hu
    obtain ⟨g1, g⟩ := ih h1 ((takes_rule h4).symm.trans hu)
    obtain ⟨sv, tr', e1, e2, e3, e4⟩ := h4
    rcases g with ⟨g2, g3⟩ | ⟨g2, g3⟩
    · rcases ((ends_edge hq htest g3 e1).2 tr' e2).2 with ⟨k1, -⟩ | ⟨a, b, c, e, t, rfl, -, -⟩
      · exact ends_choices hq htest e4 ⟨g1, .inl ⟨g2, k1⟩⟩
      · exact absurd e3 (by simp [ReadsSym])
    · exact ends_choices hq htest e4 ⟨g1, .inr ⟨g2, (quiet_edge (ends_quiet hq) g3 e1 e2).1⟩⟩

theorem exec_noOffset (action : Int → Int → Lex D → Lex D) (x : LexerAction) (L : Lex D) :
    executeAction action x L = executeAction action (noOffset x) L := by
  induction x with
  | indexedCustom o a ih => exact ih
  | _ => rfl

/-- A match of a rule with one action at the end moves the lexer and performs the action. -/
theorem ends_match (ht : Tame env) (hg : Tidy env.atn) (hw : RuleWise env.atn) (hh : TellsActionsApart env.hash)
    {fc fe : Nat} {dfas : List DFA} (hr : LexCacheProps.Reached env.atn env.hash fc dfas) (hroom : Room (fe + 1) dfas)
    (hm : L.mode < dfas.length) (hs : Sane d) (R : Reads d cs ix sl) (hn : n ≤ cs.length)
    (hc : L.cur = at_ d cs ix n) {ss : Nat} (hss : env.atn.modeToStartState[L.mode]? = some ss)
    (hst : env.atn.states[ss]? = some st) {i : Nat} {tr0 : Trans} (hi : st.transitions[i]? = some tr0)
    {S T : List Nat} {act : LexerAction} {test : LexerAction → Bool}
    (hq : endsB env.atn S T test = true) (htest : ∀ a, test a = true → a = act) (hS : tr0.target ∈ S)
    {tt : Int} (hty : Owns env.atn st i tt) (hne : tt ≠ TOKEN_EOF) {L' : Lex D} {dfas' : List DFA}
    (h : matchToken env fc fe L dfas = some (.ok tt, L', dfas')) : ∃ k p, L'.cur = at_ d cs ix (min (n + k) cs.length) ∧
      L' = (executeAction env.action (noOffset act) (Lex.seek { L with cur := at_ d cs ix (min (n + k) cs.length) } p)).seek
        (ix (min (n + k) cs.length)) := by
  rcases C25_preferred_partial ht hg (tells_less hh) hr hroom hm hs R hn hc hss hst h with ⟨k, w, t, h1, hu, h2, h3, h4⟩ | ⟨-, -, h3, -⟩
  · obtain ⟨j, tr, e1, e2, t0, e3, e4⟩ := C25_type_of_rule hg hw hst (hit_matches h1.hit) h2
    obtain rfl := hty j tr t0 e2 e3 (by rw [← e4]; exact h3)
    rcases C27_preferred_actions_partial ht hg hh hr hroom hm hs R hn hc hss hst h with ⟨k', w', done, p1, p2, p3⟩ | ⟨p1, -⟩
    · obtain ⟨rfl, rfl⟩ := hu k' w' p1
      have q := ends_reached hq htest hi hS h1.hit.1 e1
      obtain ⟨z, z1, z2, -⟩ := h1.hit.2
      rcases q.2 with ⟨-, q2⟩ | ⟨q1, -⟩
      · exact absurd z2 (ends_edge hq htest q2 z1).1
      · rw [q1, List.map_cons, List.map_nil, List.map_eq_cons_iff] at p2
        obtain ⟨x, l, rfl, p4, p5⟩ := p2
        rw [List.map_eq_nil_iff] at p5
        subst p5
        refine ⟨k', actionPos (ix n) (ix (min (n + k') cs.length)) x, h4, ?_⟩
        rw [p3]
        simp only [performAll]
        rw [exec_noOffset, p4]
    · exact absurd h1.hit (p1 _ _)
  · exact absurd h3 hne

/-- A match that skips leaves `next_token` to go on after the matched text. -/
theorem skip_of_match (R : Reads d cs ix sl) {m : Nat} (hm : m ≤ cs.length) (he : L.hitEof = false) {tt : Int}
    {fc fe fn : Nat} {dfas dfas' : List DFA} {L' : Lex D}
    (h : matchToken env fc fe { beginToken L with ttype := TOKEN_INVALID_TYPE } dfas = some (.ok tt, L', dfas'))
    (hL : L' = { beginToken L with ttype := LEXER_SKIP, cur := at_ d cs ix m }) :
    ∃ L2, nextToken env fc fe (fn + 2) L dfas = nextToken env fc fe fn L2 dfas' ∧ L2.cur = at_ d cs ix m ∧ L2.mode = L.mode ∧
      L2.modeStack = L.modeStack ∧ L2.hitEof = decide (m = cs.length) := by
  subst hL
  have hla := R.la m hm
  have heof : decide ((cs[m]?).getD EOF = EOF) = decide (m = cs.length) := by
    by_cases e : m = cs.length
    · subst e; simp
    · rw [List.getElem?_eq_getElem (show m < cs.length by omega), Option.getD_some]
      have := R.chars _ (List.getElem_mem (show m < cs.length by omega))
      rw [decide_eq_false e, decide_eq_false_iff_not]
      intro hx
      rw [hx] at this
      revert this
      decide
  have step : matchStep env fc fe (beginToken L) dfas = some (
      { beginToken L with
        ttype := LEXER_SKIP
        cur := at_ d cs ix m
        hitEof := decide (m = cs.length)
        pieces := L.pieces ++ [Piece.mk L.cur.input.index (ix m) LEXER_SKIP false] }, dfas') := by
    unfold matchStep
    rw [h]
    simp only [Option.bind_some]
    rw [show (at_ d cs ix m).input = ⟨d, ix m⟩ from rfl, hla]
    simp only [Option.map_some, heof, beginToken, he, Bool.false_or]
    rw [if_neg (by decide)]
  refine ⟨{ beginToken L with
        ttype := LEXER_SKIP
        cur := at_ d cs ix m
        hitEof := decide (m = cs.length)
        pieces := L.pieces ++ [Piece.mk L.cur.input.index (ix m) LEXER_SKIP false] }, ?_, rfl, rfl, rfl, rfl⟩
  unfold nextToken
  rw [outerLoop, he]
  simp only [Bool.false_eq_true, ↓reduceIte]
  rw [innerLoop, step]
  simp only [Option.bind_some, ↓reduceIte]

end Antlr.LexLazy
