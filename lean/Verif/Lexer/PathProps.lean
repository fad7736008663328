import Verif.Lexer.Longest
import Verif.Lexer.CacheProps

/-!
# C25: longest match, then rule order; C27: the actions of the matched path

For grammars without non-greedy operators, a lexer whose DFA cache came about by earlier matches of any
lexers for the grammar, and a hash without collisions.
-/

namespace Antlr.LexPathProps
open Antlr Lexer LexCache LexSpec LexProps LexPaths LexCacheProps LexExample IntervalSpec

section
variable {D : Type} [InputData D] {d : D} {cs : List Int} {ix : Nat → Int} {sl : Nat → Nat → D} {env : Env D}

/-- What `match_token` does, seen through `q`. -/
theorem match_paths {q} (hq : Blur q) {env : Env D} (ht : Tame env) (hg : Tidy env.atn)
    (hh : ∀ l l', env.hash l = env.hash l' → abs q l = abs q l') {fc fe : Nat} {dfas : List DFA}
    (hr : Reached env.atn env.hash fc dfas) (hroom : Room (fe + 1) dfas) {L : Lex D} (hm : L.mode < dfas.length)
    (hs : Sane d) (R : Reads d cs ix sl) {n : Nat} (hn : n ≤ cs.length) (hc : L.cur = at_ d cs ix n) {ss : Nat}
    {st : ATNState} (hss : env.atn.modeToStartState[L.mode]? = some ss) (hst : env.atn.states[ss]? = some st)
    {r : MatchRes} {L' : Lex D} {dfas' : List DFA} (h : matchToken env fc fe L dfas = some (r, L', dfas')) :
    match r with
    | .ok tt =>
      (∃ a v s t acts e, FirstOfEager env L cs ix n st a v s acts ∧ env.atn.states[s]? = some t ∧
        env.atn.ruleToTokenType[t.ruleIndex]? = some tt ∧ q e = q (execFrom acts) ∧
        L' = runExec env.action (ix n) e { L with cur := at_ d cs ix (min v cs.length) }) ∨
      ((∀ a v, ¬ EagerMatch env L cs ix n st a v) ∧ n = cs.length ∧ tt = TOKEN_EOF ∧ L' = L)
    | .noAlt i => i = ix n ∧ (∀ a v, ¬ EagerMatch env L cs ix n st a v) ∧ n < cs.length ∧
        ∃ w, n ≤ w ∧ w ≤ cs.length ∧ L' = { L with cur := at_ d cs ix w } ∧
          (w < cs.length → ¬ EagerViable env L cs ix n st (w + 1)) ∧ (n < w → Viable env L cs ix n st w)
    | .illegalMode => False := by
  have hd : L.cur.input.data = d := by rw [hc]; rfl
  have hspec := match_spec (n := 0) hq hh (reached_warm hq hh hr) hm (by rw [hd]; exact hs) (by simpa using hroom)
  cases hp : pmatch q env fc fe L with
  | none => rw [hp] at hspec; simp only at hspec; rw [hspec] at h; simp at h
  | some o =>
    obtain ⟨x, rfl, hb, w, w1, w2, w3, w4, w5, w6⟩ := pmatch_spec hq hg R hn hc hss hst hp
    rw [hp] at hspec
    obtain ⟨e, df, h1, h2, -⟩ := hspec
    rw [h2] at h
    simp only [Option.some.injEq, Prod.mk.injEq] at h
    obtain ⟨hr1, hr2, -⟩ := h
    have hix : L.cur.input.index = ix n := by rw [hc]; rfl
    simp only [answer] at hr1 hr2
    have bound : ∀ {a v}, EagerMatch env L cs ix n st a v → v ≤ cs.length + 1 := by
      rintro a v ⟨s, acts, t, hm, -⟩
      exact (live_range (eager_live hm)).2 hn
    cases hx : x.prev with
    | some b =>
      simp only [hx] at hr1 hr2
      rw [hx] at hb
      obtain ⟨v, a, s, t, acts, b1, b2, b3, b4, b5, b6, b7, b8, b9, b10⟩ := hb
      subst hr1
      left
      refine ⟨a, v, s, t, acts, e, ⟨b2, ?_, b10⟩, b3, b4, ?_, ?_⟩
      · intro a' v' hm'
        by_contra hlt
        exact b9 v' (by omega) (bound hm') a' hm'
      · have h3 := h1 (by simp [hx])
        simp only [PStop.exec, hx, Option.bind_some] at h3
        rw [← b8, ← h3, hq.idem]
      · rw [← hr2, hix]
        congr 2
        rw [w3, b5, b6, b7]
        rfl
    | none =>
      simp only [hx] at hr1 hr2
      rw [hx] at hb
      have hno : ∀ a v, ¬ EagerMatch env L cs ix n st a v := fun a v hm' => hb v (bound hm') a hm'
      have hwn : x.cur.input.index = L.cur.input.index ↔ w = n := by
        rw [hix, w3]
        exact ⟨fun h => ix_inj R w2 hn h, fun h => by rw [h]; rfl⟩
      by_cases hcond : x.symbol = EOF ∧ x.cur.input.index = L.cur.input.index
      · rw [if_pos hcond] at hr1 hr2
        subst hr1
        have h3 := hwn.mp hcond.2
        have h4 := hcond.1
        rw [w4, symAt_eof_iff R w2] at h4
        refine .inr ⟨hno, by omega, rfl, ?_⟩
        rw [← hr2, w3, h3, ← hc]
      · rw [if_neg hcond] at hr1 hr2
        subst hr1
        refine ⟨hix, hno, ?_, w, w1, w2, by rw [← hr2, w3], ?_, fun h => ?_⟩
        · by_contra hlt
          have e1 : n = cs.length := by omega
          have e2 : w = cs.length := by omega
          exact hcond ⟨by rw [w4, symAt_eof_iff R w2]; exact e2, hwn.mpr (by omega)⟩
        · rintro hlt ⟨a, z, z1, z2⟩
          exact w5 hlt a z z1 z2
        · obtain ⟨a, z, z1, z2⟩ := w6 h
          exact ⟨a, z, z1, z2⟩

theorem eager_match (hg : Greedy env.atn) {L : Lex D} {n : Nat} {st : ATNState} {a : Int} {v s : Nat}
    {acts : List LexerAction} (h : Matches env L cs ix n st a v s acts) : EagerMatch env L cs ix n st a v :=
  let ⟨h1, t, h2, h3⟩ := h
  ⟨s, acts, t, live_eager hg h1, h2, h3⟩

/-- Without non-greedy decisions at all. -/
theorem first_of_greedy (hg : Greedy env.atn) {L : Lex D} {n : Nat} {st : ATNState} {a : Int} {v s : Nat}
    {acts : List LexerAction} (h : FirstOfEager env L cs ix n st a v s acts) : FirstLongest env L cs ix n st a v s acts :=
  ⟨h.matched, fun _ _ _ _ hm => h.longest _ _ (eager_match hg hm), fun _ _ _ hm => h.first _ (eager_match hg hm)⟩

theorem viable_greedy (hg : Greedy env.atn) {L : Lex D} {n : Nat} {st : ATNState} {v : Nat}
    (h : ¬ EagerViable env L cs ix n st v) : ¬ Viable env L cs ix n st v := fun ⟨a, x, h1, h2⟩ =>
  h ⟨a, x, live_eager hg h1, h2⟩

/-- **C25** (partial: the hash of the DFA cache must not collide) With any operators, non-greedy ones included:
the token matched is a match of the rule chosen, and matches that do without non-greedy decisions are never
missed for it: none of them is longer, and none as long is of an earlier rule.  EOF or an error is the answer only
if there is no such match. -/
theorem C25_eager_partial {env : Env D} (ht : Tame env) (hg : Tidy env.atn) (hh : TellsApart env.hash)
    {fc fe : Nat} {dfas : List DFA} (hr : Reached env.atn env.hash fc dfas) (hroom : Room (fe + 1) dfas) {L : Lex D}
    (hm : L.mode < dfas.length) (hs : Sane d) (R : Reads d cs ix sl) {n : Nat} (hn : n ≤ cs.length)
    (hc : L.cur = at_ d cs ix n) {ss : Nat} {st : ATNState} (hss : env.atn.modeToStartState[L.mode]? = some ss)
    (hst : env.atn.states[ss]? = some st) {r : MatchRes} {L' : Lex D} {dfas' : List DFA}
    (h : matchToken env fc fe L dfas = some (r, L', dfas')) :
    match r with
    | .ok tt =>
      (∃ a v s t acts, FirstOfEager env L cs ix n st a v s acts ∧ env.atn.states[s]? = some t ∧
        env.atn.ruleToTokenType[t.ruleIndex]? = some tt ∧ L'.cur = at_ d cs ix (min v cs.length)) ∨
      ((∀ a v, ¬ EagerMatch env L cs ix n st a v) ∧ n = cs.length ∧ tt = TOKEN_EOF ∧ L'.cur = L.cur)
    | .noAlt i => i = ix n ∧ (∀ a v, ¬ EagerMatch env L cs ix n st a v) ∧ n < cs.length ∧
        ∃ w, n ≤ w ∧ w ≤ cs.length ∧ L'.cur = at_ d cs ix w ∧
          (w < cs.length → ¬ EagerViable env L cs ix n st (w + 1)) ∧ (n < w → Viable env L cs ix n st w)
    | .illegalMode => False := by
  have := match_paths blur_nothing ht hg (fun l l' e => abs_congr (hh l l' e)) hr hroom hm hs R hn hc hss hst h
  cases r with
  | ok tt =>
    rcases this with ⟨a, v, s, t, acts, e, h1, h2, h3, -, h5⟩ | ⟨h1, h2, h3, h4⟩
    · exact .inl ⟨a, v, s, t, acts, h1, h2, h3, by rw [h5, runExec_cur ht.action]⟩
    · exact .inr ⟨h1, h2, h3, by rw [h4]⟩
  | noAlt i =>
    obtain ⟨h1, h2, h3, w, h4, h5, h6, h7⟩ := this
    exact ⟨h1, h2, h3, w, h4, h5, by rw [h6], h7⟩
  | illegalMode => exact this

/-- **C25** (partial: the hash of the DFA cache must not collide) In a mode of the grammar, the match is
the longest prefix any rule matches, by the first of the rules that match that much, and has its type;
at the end of the input EOF is returned if no rule matches; and the error is reported exactly when no
rule matches and there is input left, after the longest prefix some rule could begin with. -/
theorem C25_longest_match_partial {env : Env D} (ht : Tame env) (hg : Greedy env.atn) (hh : TellsApart env.hash)
    {fc fe : Nat} {dfas : List DFA} (hr : Reached env.atn env.hash fc dfas) (hroom : Room (fe + 1) dfas) {L : Lex D}
    (hm : L.mode < dfas.length) (hs : Sane d) (R : Reads d cs ix sl) {n : Nat} (hn : n ≤ cs.length)
    (hc : L.cur = at_ d cs ix n) {ss : Nat} {st : ATNState} (hss : env.atn.modeToStartState[L.mode]? = some ss)
    (hst : env.atn.states[ss]? = some st) {r : MatchRes} {L' : Lex D} {dfas' : List DFA}
    (h : matchToken env fc fe L dfas = some (r, L', dfas')) :
    match r with
    | .ok tt =>
      (∃ a v s t acts, FirstLongest env L cs ix n st a v s acts ∧ env.atn.states[s]? = some t ∧
        env.atn.ruleToTokenType[t.ruleIndex]? = some tt ∧ L'.cur = at_ d cs ix (min v cs.length)) ∨
      (NoMatch env L cs ix n st ∧ n = cs.length ∧ tt = TOKEN_EOF ∧ L'.cur = L.cur)
    | .noAlt i => i = ix n ∧ NoMatch env L cs ix n st ∧ n < cs.length ∧
        ∃ w, n ≤ w ∧ w ≤ cs.length ∧ L'.cur = at_ d cs ix w ∧
          (w < cs.length → ¬ Viable env L cs ix n st (w + 1)) ∧ (n < w → Viable env L cs ix n st w)
    | .illegalMode => False := by
  have := C25_eager_partial ht hg.toTidy hh hr hroom hm hs R hn hc hss hst h
  have no : (∀ a v, ¬ EagerMatch env L cs ix n st a v) → NoMatch env L cs ix n st := fun h a v _ _ hm => h a v (eager_match hg hm)
  cases r with
  | ok tt =>
    rcases this with ⟨a, v, s, t, acts, h1, h2⟩ | ⟨h1, h2⟩
    · exact .inl ⟨a, v, s, t, acts, first_of_greedy hg h1, h2⟩
    · exact .inr ⟨no h1, h2⟩
  | noAlt i =>
    obtain ⟨h1, h2, h3, w, h4, h5, h6, h7, h8⟩ := this
    exact ⟨h1, no h2, h3, w, h4, h5, h6, fun k => viable_greedy hg (h7 k), h8⟩
  | illegalMode => exact this

/-- **C25** Without a start state for the mode nothing is matched. -/
theorem C25_illegal_mode {env : Env D} {fc fe : Nat} {dfas : List DFA} (hh : TellsApart env.hash)
    (hr : Reached env.atn env.hash fc dfas) (hroom : Room (fe + 1) dfas) {L : Lex D} (hs : Sane L.cur.input.data)
    (hss : env.atn.modeToStartState[L.mode]? = none ∨ dfas[L.mode]? = none) :
    matchToken env fc fe L dfas = some (.illegalMode, L, dfas) := by
  have hh' : ∀ l l', env.hash l = env.hash l' → abs nothing l = abs nothing l' := fun l l' e => abs_congr (hh l l' e)
  cases hd : dfas[L.mode]? with
  | none => simp [matchToken, hd]
  | some x =>
    have h0 : env.atn.modeToStartState[L.mode]? = none := by
      rcases hss with h | h
      · exact h
      · rw [hd] at h; simp at h
    have hm : L.mode < dfas.length := by
      by_contra hlt
      rw [List.getElem?_eq_none (by omega)] at hd; simp at hd
    have := match_spec (n := 0) (fe := fe) blur_nothing hh' (reached_warm blur_nothing hh' hr) hm hs (by simpa using hroom)
    simpa [pmatch, h0] using this

/-- **C25** The type is that of the rule: in an automaton whose states belong to their rules, a match of
rule number `a` ends in a state with the rule number of the `a`-th rule of the mode. -/
theorem C25_type_of_rule {env : Env D} (hg : Tidy env.atn) (hw : RuleWise env.atn) {L : Lex D} {n : Nat} {ss : Nat}
    {st : ATNState} (hst : env.atn.states[ss]? = some st) {a : Int} {v s : Nat} {acts : List LexerAction}
    (h : Matches env L cs ix n st a v s acts) {t : ATNState} (ht : env.atn.states[s]? = some t) :
    ∃ (i : Nat) (tr : Trans), a = ((i + 1 : Nat) : Int) ∧ st.transitions[i]? = some tr ∧
      ∃ t0, env.atn.states[tr.target]? = some t0 ∧ t.ruleIndex = t0.ruleIndex := by
  have key : ∀ {a v x}, Live env L cs ix n st a v x → ∃ (i : Nat) (tr : Trans), a = ((i + 1 : Nat) : Int) ∧
      st.transitions[i]? = some tr ∧ (x = ⟨tr.target, [], []⟩ ∨ ∃ t0, env.atn.states[tr.target]? = some t0) ∧
      ∀ t0, env.atn.states[tr.target]? = some t0 → ∀ u, env.atn.states[(x.stack.getLast?).getD x.state]? = some u →
        u.ruleIndex = t0.ruleIndex ∧ ∀ n g, u.stateType ≠ .decision n g .tokenStart := by
    intro a v x h
    induction h with
    | @start i tr hi =>
      refine ⟨i, tr, rfl, hi, .inl rfl, ?_⟩
      intro t0 h0 u hu
      simp only [List.getLast?_nil, Option.getD_none] at hu
      rw [h0] at hu
      injection hu with hu; subst hu
      exact ⟨rfl, hw.into ss st hst tr (List.mem_of_getElem? hi) _ h0⟩
    | @silent a v x y hl hs ih =>
      obtain ⟨i, tr, h1, h2, h3, h4⟩ := ih
      refine ⟨i, tr, h1, h2, .inr ?_, ?_⟩
      · rcases h3 with rfl | h3
        · cases hs with
          | edge k1 => exact ⟨_, k1⟩
          | ret k1 => exact ⟨_, k1⟩
        · exact h3
      · intro t0 h0 u hu
        have h5 := h4 t0 h0
        cases hs with
        | @edge _ sx e k1 k2 k3 k4 =>
          by_cases hk : x.stack = []
          · rw [hk] at h5
            simp only [List.getLast?_nil, Option.getD_none] at h5
            have h6 := h5 _ k1
            have stay : (∀ t f r p, e ≠ .rule t f r p) → y.stack = x.stack → y.state = e.target →
                u.ruleIndex = t0.ruleIndex ∧ ∀ n g, u.stateType ≠ .decision n g .tokenStart := by
              intro j1 j2 j3
              rw [j2, hk, j3] at hu
              simp only [List.getLast?_nil, Option.getD_none] at hu
              exact ⟨(hw.edge _ _ k1 h6.2 k2 e k3 j1 u hu).trans h6.1, hw.into _ _ k1 e k3 u hu⟩
            cases e with
            | rule t f r p =>
              simp only [Free] at k4
              subst k4
              simp only [hk, List.getLast?_singleton, Option.getD_some] at hu
              have := hw.call _ _ k1 t f r p k3 u hu
              exact ⟨this.1.trans h6.1, this.2⟩
            | epsilon t p => simp only [Free] at k4; subst k4; exact stay (by simp) rfl rfl
            | predicate t d r p => obtain ⟨-, rfl⟩ := k4; exact stay (by simp) rfl rfl
            | action t d r b p =>
              simp only [Free, if_pos hk] at k4
              obtain ⟨act, -, -, rfl⟩ := k4
              exact stay (by simp) rfl rfl
            | atom t b => obtain ⟨-, -, rfl⟩ := k4; exact stay (by simp) rfl rfl
            | range t b c => obtain ⟨-, -, rfl⟩ := k4; exact stay (by simp) rfl rfl
            | set t b => obtain ⟨-, -, rfl⟩ := k4; exact stay (by simp) rfl rfl
            | notSet => exact absurd k4 (by simp [Free])
            | wildcard => exact absurd k4 (by simp [Free])
            | precedence => exact absurd k4 (by simp [Free])
          · have hbot : ∀ z, ((x.stack.getLast?).getD z) = (y.stack.getLast?).getD y.state := by
              intro z
              have same : y.stack = x.stack → ((x.stack.getLast?).getD z) = (y.stack.getLast?).getD y.state := by
                intro j
                rw [j]
                cases hgl : x.stack.getLast? with
                | none => exact absurd (List.getLast?_eq_none_iff.mp hgl) hk
                | some g => rfl
              cases e with
              | rule t f r p =>
                simp only [Free] at k4
                subst k4
                cases hgl : x.stack.getLast? with
                | none => exact absurd (List.getLast?_eq_none_iff.mp hgl) hk
                | some g => simp [List.getLast?_cons, hgl]
              | epsilon t p => simp only [Free] at k4; subst k4; exact same rfl
              | predicate t d r p => obtain ⟨-, rfl⟩ := k4; exact same rfl
              | action t d r b p => simp only [Free, if_neg hk] at k4; subst k4; exact same rfl
              | atom t b => obtain ⟨-, -, rfl⟩ := k4; exact same rfl
              | range t b c => obtain ⟨-, -, rfl⟩ := k4; exact same rfl
              | set t b => obtain ⟨-, -, rfl⟩ := k4; exact same rfl
              | notSet => exact absurd k4 (by simp [Free])
              | wildcard => exact absurd k4 (by simp [Free])
              | precedence => exact absurd k4 (by simp [Free])
            rw [← hbot x.state] at hu
            exact h5 u hu
        | @ret sx f k k1 k2 k3 =>
          refine h5 u ?_
          rw [← hu, k3]
          cases k with
          | nil => rfl
          | cons g k => simp [List.getLast?_cons]
    | @read a v x sx e hl hv k1 k2 k3 ih =>
      obtain ⟨i, tr, h1, h2, h3, h4⟩ := ih
      refine ⟨i, tr, h1, h2, .inr ?_, ?_⟩
      · rcases h3 with rfl | h3
        · exact ⟨_, k1⟩
        · exact h3
      · intro t0 h0 u hu
        have h5 := h4 t0 h0
        cases hgl : x.stack.getLast? with
        | none =>
          simp only [hgl, Option.getD_none] at hu h5
          have h6 := h5 _ k1
          refine ⟨(hw.edge _ _ k1 h6.2 (reads_worth hg k1 k2 k3).1 e k2 ?_ u hu).trans h6.1, hw.into _ _ k1 e k2 u hu⟩
          intro t f r p he
          rw [he] at k3; simp [ReadsSym] at k3
        | some g =>
          simp only [hgl, Option.getD_some] at hu h5
          exact h5 u hu
  obtain ⟨i, tr, h1, h2, h3, h4⟩ := key h.1
  refine ⟨i, tr, h1, h2, ?_⟩
  have h5 : ∃ t0, env.atn.states[tr.target]? = some t0 := by
    rcases h3 with h3 | h3
    · injection h3 with h3 _ _
      exact ⟨t, by rw [← h3]; exact ht⟩
    · exact h3
  obtain ⟨t0, h5⟩ := h5
  exact ⟨t0, h5, (h4 t0 h5 t (by simpa using ht)).1⟩

/-- **C27** (partial: the hash must tell actions apart, and offsets are left out) After a match the
actions performed are, in order and each once, the actions on a path on which the chosen rule matches the
token. -/
theorem C27_path_actions_partial {env : Env D} (ht : Tame env) (hg : Tidy env.atn) (hh : TellsActionsApart env.hash)
    {fc fe : Nat} {dfas : List DFA} (hr : Reached env.atn env.hash fc dfas) (hroom : Room (fe + 1) dfas) {L : Lex D}
    (hm : L.mode < dfas.length) (hs : Sane d) (R : Reads d cs ix sl) {n : Nat} (hn : n ≤ cs.length)
    (hc : L.cur = at_ d cs ix n) {ss : Nat} {st : ATNState} (hss : env.atn.modeToStartState[L.mode]? = some ss)
    (hst : env.atn.states[ss]? = some st) {tt : Int} {L' : Lex D} {dfas' : List DFA}
    (h : matchToken env fc fe L dfas = some (.ok tt, L', dfas')) :
    (∃ a v s acts done, FirstOfEager env L cs ix n st a v s acts ∧ done.map noOffset = acts.map noOffset ∧
      L' = performAll env.action (ix n) (ix (min v cs.length)) done
        { L with cur := at_ d cs ix (min v cs.length) }) ∨
    ((∀ a v, ¬ EagerMatch env L cs ix n st a v) ∧ L' = L) := by
  rcases match_paths blur_noOffsets ht hg (fun l l' e => abs_congr (hh l l' e)) hr hroom hm hs R hn hc hss hst h with
    ⟨a, v, s, t, acts, e, h1, -, -, h4, h5⟩ | ⟨h1, -, -, h4⟩
  · left
    simp only [execFrom] at h4
    cases e with
    | none =>
      by_cases ha : acts = []
      · exact ⟨a, v, s, acts, [], h1, by simp [ha], by rw [h5]; rfl⟩
      · rw [if_neg ha] at h4; simp [noOffsets] at h4
    | some l =>
      by_cases ha : acts = []
      · rw [if_pos ha] at h4; simp [noOffsets] at h4
      · rw [if_neg ha] at h4
        simp only [noOffsets, Option.map_some, Option.some.injEq] at h4
        exact ⟨a, v, s, acts, l, h1, h4, by rw [h5, runExec, executeActions_spec ht.action]; rfl⟩
  · exact .inr ⟨h1, h4⟩

end

/-! ## A concrete case -/

/-- A check for `Tidy`. -/
def tidyCheck (atn : ATN) : Bool :=
  decide ((atn.states.length : Int) ≤ PC.EMPTY_RS) && atn.states.all fun st =>
    (st.epsilonOnly || decide (st.stateType = .ruleStop) || decide (st.transitions.length ≤ 1)) &&
    (!(st.epsilonOnly || decide (st.stateType = .ruleStop)) || st.transitions.all (·.isEpsilon)) &&
    st.transitions.all fun tr => match tr with
      | .rule _ f _ _ => decide (f < atn.states.length)
      | .set _ x | .notSet _ x => decide (SortedDisjoint x.intervals)
      | _ => true

theorem tidyCheck_ok {atn : ATN} (h : tidyCheck atn = true) : Tidy atn := by
  simp only [tidyCheck, Bool.and_eq_true, decide_eq_true_eq, List.all_eq_true] at h
  obtain ⟨h0, h⟩ := h
  have h' : ∀ (s : Nat) (st : ATNState), atn.states[s]? = some st → _ := fun s st hs => h st (List.mem_of_getElem? hs)
  refine ⟨h0, ?_, ?_, ?_, ?_⟩
  · intro s st hs h1 h2
    have := (h' s st hs).1.1
    simpa [h1, h2] using this
  · intro s st hs h1 tr htr
    have := (h' s st hs).1.2
    rw [Bool.or_eq_true, Bool.not_eq_true'] at this
    rcases this with h2 | h2
    · rw [Bool.or_eq_false_iff] at h2
      rcases h1 with h1 | h1
      · rw [h1] at h2; simp at h2
      · simp [h1] at h2
    · exact List.all_eq_true.mp h2 tr htr
  · intro s st hs t f r p htr
    have := (h' s st hs).2 _ htr
    simpa using this
  · intro s st hs tr htr
    have := (h' s st hs).2 tr htr
    cases tr <;> simp_all

/-- A check for `Greedy`. -/
def greedyCheck (atn : ATN) : Bool :=
  tidyCheck atn && atn.states.all fun st =>
    match st.stateType with
      | .decision _ true _ => false
      | _ => true

theorem greedyCheck_ok {atn : ATN} (h : greedyCheck atn = true) : Greedy atn := by
  simp only [greedyCheck, Bool.and_eq_true, List.all_eq_true] at h
  refine ⟨tidyCheck_ok h.1, ?_⟩
  intro s st hs n k hk
  have := h.2 st (List.mem_of_getElem? hs)
  rw [hk] at this; simp at this

/-- A check for `RuleWise`. -/
def ruleWiseCheck (atn : ATN) : Bool :=
  let ok (s : Nat) (p : ATNState → Bool) : Bool := match atn.states[s]? with
    | none => true
    | some t => p t
  let notStart (t : ATNState) : Bool := match t.stateType with
    | .decision _ _ .tokenStart => false
    | _ => true
  atn.states.all fun st => st.transitions.all fun tr =>
    ok tr.target notStart &&
    match tr with
    | .rule _ f _ _ => ok f fun u => decide (u.ruleIndex = st.ruleIndex) && notStart u
    | _ => !notStart st || decide (st.stateType = .ruleStop) ||
        ok tr.target fun t => decide (t.ruleIndex = st.ruleIndex)

theorem ruleWiseCheck_ok {atn : ATN} (h : ruleWiseCheck atn = true) : RuleWise atn := by
  simp only [ruleWiseCheck, List.all_eq_true, Bool.and_eq_true] at h
  have h' : ∀ (s : Nat) (st : ATNState), atn.states[s]? = some st → _ := fun s st hs => h st (List.mem_of_getElem? hs)
  have ns : ∀ {t : ATNState}, (match t.stateType with
      | .decision _ _ .tokenStart => false
      | _ => true) = true → ∀ n g, t.stateType ≠ .decision n g .tokenStart := by
    intro t ht n g e
    rw [e] at ht; simp at ht
  have sn : ∀ {t : ATNState}, (∀ n g, t.stateType ≠ .decision n g .tokenStart) → (match t.stateType with
      | .decision _ _ .tokenStart => false
      | _ => true) = true := by
    intro t ht
    split
    · rename_i n g e; exact absurd e (ht n g)
    · rfl
  refine ⟨?_, ?_, ?_⟩
  · intro s st hs h1 h2 tr htr h3 t ht
    have := (h' s st hs tr htr).2
    rw [sn h1] at this
    cases tr with
    | rule t f r p => exact absurd rfl (h3 t f r p)
    | _ => simpa [h2, ht] using this
  · intro s st hs t f r p htr u hu
    have := (h' s st hs _ htr).2
    simp only [hu, Bool.and_eq_true, decide_eq_true_eq] at this
    exact ⟨this.1, ns this.2⟩
  · intro s st hs tr htr t ht
    have := (h' s st hs tr htr).1
    rw [ht] at this
    exact ns this

/-- `IF : 'if' ; ID : L+ ; fragment L : [a-z] ;` -/
def kwATN : ATN where
  grammarType := .lexer
  maxTokenType := 2
  decisionToState := [0]
  modeToStartState := [0]
  ruleToStartState := [1, 5, 9]
  ruleToStopState := [4, 8, 11]
  ruleToTokenType := [1, 2, 0]
  lexerActions := []
  states := [
    st 0 (.decision 0 false .tokenStart) [.epsilon 1 0, .epsilon 5 0],
    st 0 (.ruleStart 4 false) [.epsilon 2 0], st 0 .basic [.atom 3 105], st 0 .basic [.atom 4 102], st 0 .ruleStop [],
    st 1 (.ruleStart 8 false) [.epsilon 6 0], st 1 .basic [.rule 9 7 2 0], st 1 .basic [.epsilon 6 0, .epsilon 8 0],
      st 1 .ruleStop [],
    st 2 (.ruleStart 11 false) [.epsilon 10 0], st 2 .basic [.range 11 97 122], st 2 .ruleStop [.epsilon 7 0]]

def kwEnv : Env Str := { exEnv with atn := kwATN, hash := blindHash }

def kwDFAs : List DFA := ((DFA.new kwATN 0 0).toList)

theorem kwATN_greedy : Greedy kwATN := greedyCheck_ok (by decide)
theorem kwATN_ruleWise : RuleWise kwATN := ruleWiseCheck_ok (by decide)

theorem new_reached {atn : ATN} {hash : List Config → Nat} {fc : Nat}
    (h : (DFA.new atn 0 0).map (·.isPrecedence) = some false) :
    Reached atn hash fc (DFA.new atn 0 0).toList := by
  simp only [Option.map_eq_some_iff] at h
  obtain ⟨d, h1, h2⟩ := h
  refine .new ?_
  intro x hx
  rw [h1] at hx
  simp only [Option.toList_some, List.mem_singleton] at hx
  exact ⟨0, 0, by rw [hx]; exact h1, by rw [hx]; exact h2⟩

theorem new_room {atn : ATN} {m : Nat} (h : (DFA.new atn 0 0).map (·.states.length) = some 1) (hm : m ≤ 5000) :
    Room m (DFA.new atn 0 0).toList := by
  simp only [Option.map_eq_some_iff] at h
  obtain ⟨d, h1, h2⟩ := h
  intro x hx
  rw [h1] at hx
  simp only [Option.toList_some, List.mem_singleton] at hx
  rw [hx, h2]
  simp only [ERROR_DFA_STATE_REF]; omega

/-- On `if` both rules match both characters and the first one is taken, on `iff` the second matches
more, and on `1` there is an error; in all three cases the theorem says what its words say. -/
example : (matchToken kwEnv 20 20 (Lex.new (InputStream.new (Str.mk ['i', 'f', ' ']))) kwDFAs).map
      (fun r => (r.1, r.2.1.cur.input.index)) = some (.ok 1, 2) ∧
    (matchToken kwEnv 20 20 (Lex.new (InputStream.new (Str.mk ['i', 'f', 'f', ' ']))) kwDFAs).map
      (fun r => (r.1, r.2.1.cur.input.index)) = some (.ok 2, 3) ∧
    (matchToken kwEnv 20 20 (Lex.new (InputStream.new (Str.mk ['1']))) kwDFAs).map
      (fun r => (r.1, r.2.1.cur.input.index)) = some (.noAlt 0, 0) := by
  decide +kernel

example (text : List Char) {tt : Int} {L' : Lex Str} {dfas' : List DFA}
    (h : matchToken kwEnv 20 20 (Lex.new (InputStream.new (Str.mk text))) kwDFAs = some (.ok tt, L', dfas')) :
    (∃ a v s t acts, FirstLongest kwEnv (Lex.new (InputStream.new (Str.mk text))) (text.map fun c => (c.toNat : Int))
        (fun n => (bytes (text.take n) : Nat)) 0 (st 0 (.decision 0 false .tokenStart) [.epsilon 1 0, .epsilon 5 0])
        a v s acts ∧ kwATN.states[s]? = some t ∧ kwATN.ruleToTokenType[t.ruleIndex]? = some tt ∧
        L'.cur = at_ (Str.mk text) (text.map fun c => (c.toNat : Int)) (fun n => (bytes (text.take n) : Nat))
          (min v text.length)) ∨
    (NoMatch kwEnv (Lex.new (InputStream.new (Str.mk text))) (text.map fun c => (c.toNat : Int))
        (fun n => (bytes (text.take n) : Nat)) 0 (st 0 (.decision 0 false .tokenStart) [.epsilon 1 0, .epsilon 5 0]) ∧
      0 = text.length ∧ tt = TOKEN_EOF ∧ L'.cur = (Lex.new (InputStream.new (Str.mk text))).cur) := by
  have := C25_longest_match_partial (env := kwEnv) (ss := 0)
    ⟨fun _ _ L => Untouched.refl L, fun L => Untouched.refl L, fun _ => rfl⟩
    kwATN_greedy blindHash_ok (new_reached (by decide)) (new_room (by decide) (by omega))
    (L := Lex.new (InputStream.new (Str.mk text))) (show 0 < kwDFAs.length by decide) (sane_str _) (reads_str text) (n := 0) (by omega)
    (by simp [Lex.new, at_, InputStream.new, lineOf, colOf, bytes]) rfl rfl h
  simp only [List.length_map] at this
  exact this

/-- A match of rule 2 in the grammar ends in a state of rule 1 (counted from 0), the rule of `ID`. -/
example (text : List Char) {v s : Nat} {acts : List LexerAction} {t : ATNState}
    (h : Matches kwEnv (Lex.new (InputStream.new (Str.mk text))) (text.map fun c => (c.toNat : Int))
      (fun n => (bytes (text.take n) : Nat)) 0 (st 0 (.decision 0 false .tokenStart) [.epsilon 1 0, .epsilon 5 0]) 2 v s acts)
    (ht : kwATN.states[s]? = some t) : t.ruleIndex = 1 := by
  obtain ⟨i, tr, h1, h2, t0, h3, h4⟩ := C25_type_of_rule (env := kwEnv) kwATN_greedy.toTidy kwATN_ruleWise (ss := 0) rfl h ht
  have hi : i = 1 := by omega
  subst hi
  have h2 : Trans.epsilon 5 0 = tr := by simpa [LexExample.st] using h2
  subst h2
  have h3 : (st 1 (.ruleStart 8 false) [.epsilon 6 0]) = t0 := by simpa [kwEnv, kwATN, Trans.target] using h3
  rw [h4, ← h3]; rfl

/-- There are such matches: `ab` is one. -/
example : Matches kwEnv (Lex.new (InputStream.new (Str.mk ['a', 'b']))) [97, 98] (fun n => (n : Int)) 0
    (st 0 (.decision 0 false .tokenStart) [.epsilon 1 0, .epsilon 5 0]) 2 2 8 [] := by
  refine ⟨?_, _, rfl, rfl⟩
  have e1 := Live.start (env := kwEnv) (L := Lex.new (InputStream.new (Str.mk ['a', 'b']))) (cs := [97, 98])
    (ix := fun n => (n : Int)) (n := 0)
    (st := st 0 (.decision 0 false .tokenStart) [.epsilon 1 0, .epsilon 5 0]) (i := 1) rfl
  have loop : ∀ {v : Nat} {c : Int}, [97, 98][v]? = some c → 97 ≤ c → c ≤ 122 →
      Live kwEnv (Lex.new (InputStream.new (Str.mk ['a', 'b']))) [97, 98] (fun n => (n : Int)) 0
        (st 0 (.decision 0 false .tokenStart) [.epsilon 1 0, .epsilon 5 0]) 2 v ⟨6, [], []⟩ →
      Live kwEnv (Lex.new (InputStream.new (Str.mk ['a', 'b']))) [97, 98] (fun n => (n : Int)) 0
        (st 0 (.decision 0 false .tokenStart) [.epsilon 1 0, .epsilon 5 0]) 2 (v + 1) ⟨7, [], []⟩ := by
    intro v c hv hc hc' h
    have hlt : v < 2 := by
      by_contra h0
      rw [List.getElem?_eq_none (by simp; omega)] at hv
      simp at hv
    have e3 := h.silent (.edge (y := ⟨9, [7], []⟩) (tr := .rule 9 7 2 0) rfl (by decide) (by decide) rfl)
    have e4 := e3.silent (.edge (y := ⟨10, [7], []⟩) (tr := .epsilon 10 0) rfl (by decide) (by decide) rfl)
    have e5 := e4.read (s := st 2 .basic [.range 11 97 122]) (tr := .range 11 97 122) (by simp; omega) rfl (by decide)
      (by rw [hv]; exact ⟨hc, hc'⟩)
    exact e5.silent (.ret (f := 7) (k := []) rfl rfl rfl)
  have e2 := e1.silent (.edge (y := ⟨6, [], []⟩) (tr := .epsilon 6 0) rfl (by decide) (by decide) rfl)
  have e6 := loop (v := 0) rfl (by decide) (by decide) e2
  have e7 := e6.silent (.edge (y := ⟨6, [], []⟩) (tr := .epsilon 6 0) rfl (by decide) (by decide) rfl)
  have e8 := loop (v := 1) rfl (by decide) (by decide) e7
  exact e8.silent (.edge (y := ⟨8, [], []⟩) (tr := .epsilon 8 0) rfl (by decide) (by decide) rfl)

example (text : List Char) : matchToken kwEnv 20 20 { Lex.new (InputStream.new (Str.mk text)) with mode := 1 } kwDFAs =
    some (.illegalMode, { Lex.new (InputStream.new (Str.mk text)) with mode := 1 }, kwDFAs) :=
  C25_illegal_mode (env := kwEnv) blindHash_ok (new_reached (by decide)) (new_room (by decide) (by omega)) (sane_str _)
    (.inl rfl)

/-- On a blank the example grammar performs `skip`, the action on the path of its second rule. -/
example : ∃ L' dfas', matchToken exFull 20 20 (Lex.new (InputStream.new (Str.mk [' ']))) exDFAs = some (.ok 2, L', dfas') ∧
    ((∃ a v s acts done, FirstOfEager exFull (Lex.new (InputStream.new (Str.mk [' ']))) [32]
        (fun n => (bytes ([' '].take n) : Nat)) 0
        (st 0 (.decision 0 false .tokenStart) [.epsilon 1 0, .epsilon 4 0, .epsilon 8 0, .epsilon 12 0, .epsilon 15 0])
        a v s acts ∧ done.map noOffset = acts.map noOffset ∧
        L' = performAll exFull.action 0 (bytes ([' '].take (min v 1)) : Nat) done
          { Lex.new (InputStream.new (Str.mk [' '])) with
            cur := at_ (Str.mk [' ']) [32] (fun n => (bytes ([' '].take n) : Nat)) (min v 1) }) ∨
      ((∀ a v, ¬ EagerMatch exFull (Lex.new (InputStream.new (Str.mk [' ']))) [32] (fun n => (bytes ([' '].take n) : Nat)) 0
        (st 0 (.decision 0 false .tokenStart) [.epsilon 1 0, .epsilon 4 0, .epsilon 8 0, .epsilon 12 0, .epsilon 15 0]) a v) ∧
        L' = Lex.new (InputStream.new (Str.mk [' '])))) := by
  have h : (matchToken exFull 20 20 (Lex.new (InputStream.new (Str.mk [' ']))) exDFAs).map (·.1) = some (.ok 2) := by
    decide +kernel
  simp only [Option.map_eq_some_iff] at h
  obtain ⟨⟨r, L', dfas'⟩, h1, h2⟩ := h
  simp only at h2; subst h2
  refine ⟨L', dfas', h1, ?_⟩
  exact C27_path_actions_partial (env := exFull) (ss := 0)
    ⟨fun _ _ L => Untouched.refl L, fun L => Untouched.refl L, fun _ => rfl⟩
    (tidyCheck_ok (by decide)) fullHash_ok exDFAs_new.1 (new_room (atn := exATN) (by decide) (by omega))
    (L := Lex.new (InputStream.new (Str.mk [' ']))) (show 0 < exDFAs.length by decide) (sane_str _) (reads_str [' '])
    (n := 0) (by omega) (by simp [Lex.new, at_, InputStream.new, lineOf, colOf, bytes]) rfl rfl h1

/-! ## Where C27 fails -/

/-- `X : ('ab')* 'a' {action} 'bd' ;` -/
def coldATN : ATN where
  grammarType := .lexer
  maxTokenType := 1
  decisionToState := [0]
  modeToStartState := [0]
  ruleToStartState := [1]
  ruleToStopState := [9]
  ruleToTokenType := [1]
  lexerActions := [.custom 0 0]
  states := [
    st 0 (.decision 0 false .tokenStart) [.epsilon 1 0],
    st 0 (.ruleStart 9 false) [.epsilon 2 0], st 0 .basic [.epsilon 3 0, .epsilon 5 0],
    st 0 .basic [.atom 4 97], st 0 .basic [.atom 2 98],
    st 0 .basic [.atom 6 97], st 0 .basic [.action 7 false 0 0 0],
    st 0 .basic [.atom 8 98], st 0 .basic [.atom 9 100], st 0 .ruleStop []]

/-- The action writes down the index it runs at. -/
def coldEnv : Env Str := { offEnv with atn := coldATN }

def coldDFAs : List DFA := ((DFA.new coldATN 0 0).toList)

/-- **C27 fails** also with an empty cache and a hash without collisions: on `ababd` the action between
the last `a` and `bd` is passed at index 3, but performed at index 1, since the edge made for the first
`ab` is used again for the second. -/
theorem C27_false_offset : ∃ r L' dfas',
    matchToken coldEnv 20 20 (Lex.new (InputStream.new (Str.mk ['a', 'b', 'a', 'b', 'd']))) coldDFAs =
      some (r, L', dfas') ∧ r = .ok 1 ∧ L'.text = some ['1'] := by
  have h : (matchToken coldEnv 20 20 (Lex.new (InputStream.new (Str.mk ['a', 'b', 'a', 'b', 'd']))) coldDFAs).map
      (fun r => (r.1, r.2.1.text)) = some (.ok 1, some ['1']) := by decide +kernel
  simp only [Option.map_eq_some_iff, Prod.mk.injEq] at h
  obtain ⟨⟨r, L', dfas'⟩, h1, h2, h3⟩ := h
  exact ⟨r, L', dfas', h1, h2, h3⟩

end Antlr.LexPathProps
