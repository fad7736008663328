import Verif.Lexer.OrderRun
import Verif.Lexer.TotalProps

/-!
# C25, C27: which match is taken in grammars with non-greedy operators

For any automaton of the form the tool writes, the token is the preferred one in the sense of `OrderSpec.lean`,
and its actions are those of the preferred way.
-/

namespace Antlr.LexOrder
open Antlr Lexer LexCache LexSpec LexProps LexPaths LexCacheProps LexPathProps LexExample IntervalSpec

section
variable {atn : ATN} {holds : Int → Int → Prop} {past : Prop}

/-! ## Choices determine the way -/

theorem choice_unique {w u u' : Way} (h : Choice atn holds past w u) (h' : Choice atn holds past w u')
    (hn : u.now = u'.now) : u = u' := by
  cases h with
  | edge h1 h2 h3 h4 =>
    cases h' with
    | edge k1 k2 k3 k4 =>
      simp only [Way.move, List.append_cancel_left_eq, List.cons.injEq, and_true] at hn
      subst hn
      rw [h1] at k1; injection k1 with k1; subst k1
      rw [h3] at k3; injection k3 with k3; subst k3
      rw [free_unique h4 k4]
    | ret k1 k2 k3 =>
      rw [h1] at k1; injection k1 with k1; subst k1
      exact absurd k2 h2
  | ret h1 h2 h3 =>
    cases h' with
    | edge k1 k2 k3 k4 =>
      rw [h1] at k1; injection k1 with k1; subst k1
      exact absurd h2 k2
    | ret k1 k2 k3 =>
      rw [h3] at k3
      injection k3 with e1 e2
      subst e1; subst e2; rfl

theorem choice_now {w u : Way} (h : Choice atn holds past w u) : ∃ i, u.now = w.now ++ [i] := by
  cases h with
  | @edge _ _ _ i => exact ⟨i, rfl⟩
  | ret => exact ⟨0, rfl⟩

theorem choices_unique {w u u' : Way} (h : Relation.ReflTransGen (Choice atn holds past) w u)
    (h' : Relation.ReflTransGen (Choice atn holds past) w u') (hn : u.now = u'.now) : u = u' := by
  induction h using Relation.ReflTransGen.head_induction_on with
  | refl =>
    rcases Relation.ReflTransGen.cases_head h' with rfl | ⟨v, h1, h2⟩
    · rfl
    · obtain ⟨i, hi⟩ := choice_now h1
      obtain ⟨-, -, ⟨s, hs⟩, -⟩ := choices_same h2
      rw [hs, hi] at hn
      have := congrArg List.length hn
      simp at this
  | @head w v h1 h2 ih =>
    obtain ⟨i, hi⟩ := choice_now h1
    obtain ⟨-, -, ⟨s, hs⟩, -⟩ := choices_same h2
    rcases Relation.ReflTransGen.cases_head h' with rfl | ⟨v', h3, h4⟩
    · rw [hs, hi] at hn
      have := congrArg List.length hn
      simp at this
    · obtain ⟨j, hj⟩ := choice_now h3
      obtain ⟨-, -, ⟨s', hs'⟩, -⟩ := choices_same h4
      have e : v = v' := by
        refine choice_unique h1 h3 ?_
        rw [hs, hs', hi, hj] at hn
        simp only [List.append_assoc, List.append_cancel_left_eq, List.singleton_append, List.cons.injEq] at hn
        rw [hi, hj, hn.1]
      subst e
      exact ih h4
end

section
variable {D : Type} [InputData D] {d : D} {cs : List Int} {ix : Nat → Int} {sl : Nat → Nat → D} {env : Env D}
  {L : Lex D} {n : Nat} {st : ATNState}

/-- A way is known by its rule and its choices. -/
theorem reached_unique (hg : Tidy env.atn) {k : Nat} : ∀ {w u : Way}, Reached env L cs ix n st k w →
    Reached env L cs ix n st k u → Same w u → w = u := by
  induction k with
  | zero =>
    rintro w u ⟨i, tr, h1, h2⟩ ⟨j, tr', h3, h4⟩ ⟨e1, e2, -⟩
    rw [(choices_same h2).1, (choices_same h4).1] at e1
    have : i = j := by simp only [first] at e1; omega
    subst this
    rw [h1] at h3; injection h3 with h3; subst h3
    exact choices_unique h2 h4 e2
  | succ k ih =>
    rintro w u ⟨x, h1, -, -, h2⟩ ⟨y, h3, -, -, h4⟩ ⟨e1, e2, e3⟩
    have hxy : x = y := by
      refine ih h1 h3 ⟨by rw [← (takes_same h2).1, e1, (takes_same h4).1], ?_⟩
      rw [(takes_same h2).2.1, (takes_same h4).2.1] at e3
      injection e3 with e4 e5
      exact ⟨e4, e5⟩
    subst hxy
    obtain ⟨s, tr, k1, k2, k3, k4⟩ := h2
    obtain ⟨s', tr', k5, k6, k7, k8⟩ := h4
    rw [k1] at k5; injection k5 with k5; subst k5
    obtain ⟨z1, z2, -⟩ := reads_worth hg k1 k2 k3
    have hl := hg.one _ _ k1 z2 z1
    have : tr = tr' := by
      match hs : s.transitions, hl with
      | [], _ => rw [hs] at k2; simp at k2
      | [a], _ =>
        rw [hs] at k2 k6
        simp only [List.mem_singleton] at k2 k6
        rw [k2, k6]
      | _ :: _ :: _, hl => simp at hl
    subst this
    exact choices_unique k4 k8 e2

/-- There is at most one preferred way. -/
theorem preferred_unique {k k' : Nat} {w w' : Way} (h : Preferred env L cs ix n st k w)
    (h' : Preferred env L cs ix n st k' w') : k = k' ∧ w = w' := by
  have e : k = k' := Nat.le_antisymm (h'.longest k w h.hit) (h.longest k' w' h'.hit)
  subst e
  refine ⟨rfl, ?_⟩
  rcases h.first w' h'.hit with e | e
  · exact e.symm
  · rcases h'.first w h.hit with e' | e'
    · exact e'
    · exact absurd e' (before_asymm e)

/-! ## The relation to `Live` and `Eager` -/

theorem choices_live {v : Nat} {w u : Way} (h : Relation.ReflTransGen
    (Choice env.atn (holdsAt env L cs ix v) (cs.length < v)) w u) (hl : Live env L cs ix n st w.rule v w.thread) :
    Live env L cs ix n st u.rule v u.thread := by
  induction h with
  | refl => exact hl
  | tail _ h1 ih =>
    cases h1 with
    | edge k1 k2 k3 k4 => exact ih.silent (.edge k1 k2 (List.mem_of_getElem? k3) k4)
    | ret k1 k2 k3 => exact ih.silent (.ret k1 k2 k3)

/-- Ways are threads with a history. -/
theorem reached_live {k : Nat} : ∀ {w : Way}, Reached env L cs ix n st k w → Live env L cs ix n st w.rule (n + k) w.thread := by
  induction k with
  | zero =>
    rintro w ⟨i, tr, h1, h2⟩
    exact choices_live h2 (.start h1)
  | succ k ih =>
    rintro w ⟨u, h1, -, h2, s, tr, k1, k2, k3, k4⟩
    exact choices_live k4 (v := n + k + 1) ((ih h1).read h2 k1 k2 k3)

/-- Where a way matches, its rule does. -/
theorem hit_matches {k : Nat} {w : Way} (h : Hit env L cs ix n st k w) :
    Matches env L cs ix n st w.rule (n + k) w.thread.state w.thread.acts := by
  obtain ⟨h1, t, h2, h3, h4⟩ := h
  have := reached_live h1
  refine ⟨?_, t, h2, h3⟩
  rw [← h4]; exact this

theorem calm_choosy {s : Nat} (h : Calm env.atn s) : choosy env.atn s = false := by
  unfold choosy
  split
  · rename_i st hst
    split
    · rename_i a b c e
      cases b with
      | false => rfl
      | true => exact absurd e (h st hst a c)
    · rfl
  · rfl

/-- Threads that came to no non-greedy decision are never given up. -/
theorem eager_reached {a : Int} {v : Nat} {x : Thread} (h : Eager env L cs ix n st a v x) : ∃ k w, v = n + k ∧
    Reached env L cs ix n st k w ∧ w.passed = false ∧ w.rule = a ∧ w.thread = x := by
  induction h with
  | @start i tr h1 => exact ⟨0, first i tr, rfl, ⟨i, tr, h1, .refl⟩, rfl, rfl, rfl⟩
  | silent _ h1 h2 ih =>
    obtain ⟨k, w, rfl, k1, k2, k3, rfl⟩ := ih
    have key : ∀ {u : Way}, Choice env.atn (holdsAt env L cs ix (n + k)) (cs.length < n + k) w u →
        Reached env L cs ix n st k u := by
      intro u hu
      cases k with
      | zero => obtain ⟨i, tr, z1, z2⟩ := k1; exact ⟨i, tr, z1, z2.tail hu⟩
      | succ k => exact reached_choices k1 (.single hu)
    cases h1 with
    | edge z1 z2 z3 z4 =>
      obtain ⟨i, hi⟩ := List.mem_iff_getElem?.1 z3
      exact ⟨k, _, rfl, key (.edge z1 z2 hi z4), by simp [Way.move, k2, calm_choosy h2], k3, rfl⟩
    | ret z1 z2 z3 =>
      exact ⟨k, _, rfl, key (.ret z1 z2 z3), by simp only [Way.move, k2, Bool.false_or]; exact calm_choosy h2, k3, rfl⟩
  | read _ h1 h2 h3 h4 h5 ih =>
    obtain ⟨k, w, rfl, k1, k2, k3, rfl⟩ := ih
    exact ⟨k + 1, w.eat env.atn _, rfl, ⟨w, k1, fun hc => by have := hc.1; rw [k2] at this; simp at this, h1, _, _, h2, h3, h4, .refl⟩,
      by simp [Way.eat, k2, calm_choosy h5], k3, rfl⟩

theorem eager_hit {a : Int} {v : Nat} (h : EagerMatch env L cs ix n st a v) : ∃ k w, v = n + k ∧ w.rule = a ∧
    Hit env L cs ix n st k w := by
  obtain ⟨s, acts, t, h1, h2, h3⟩ := h
  obtain ⟨k, w, k1, k2, -, k3, k4⟩ := eager_reached h1
  exact ⟨k, w, k1, k3, k2, t, by rw [k4]; exact h2, h3, by rw [k4]⟩

/-- The preferred match is one of the matches, and at least as good as those without a non-greedy decision. -/
theorem preferred_first {k : Nat} {w : Way} (h : Preferred env L cs ix n st k w) :
    FirstOfEager env L cs ix n st w.rule (n + k) w.thread.state w.thread.acts := by
  refine ⟨hit_matches h.hit, ?_, ?_⟩
  · intro a v hm
    obtain ⟨j, u, rfl, -, hu⟩ := eager_hit hm
    have := h.longest j u hu; omega
  · intro a hm
    obtain ⟨j, u, e, rfl, hu⟩ := eager_hit hm
    rw [show j = k by omega] at hu
    rcases h.first u hu with rfl | hb
    · exact Int.le_refl _
    · rcases hb with hb | hb
      · omega
      · omega

/-! ## The matcher -/

/-- What `match_token` does, seen through `q`. -/
theorem match_ways {q} (hq : Blur q) {env : Env D} (hg : Tidy env.atn)
    (hh : ∀ l l', env.hash l = env.hash l' → abs q l = abs q l') {fc fe : Nat} {dfas : List DFA}
    (hr : LexCacheProps.Reached env.atn env.hash fc dfas) (hroom : Room (fe + 1) dfas) {L : Lex D} (hm : L.mode < dfas.length)
    (hs : Sane d) (R : Reads d cs ix sl) {n : Nat} (hn : n ≤ cs.length) (hc : L.cur = at_ d cs ix n) {ss : Nat}
    {st : ATNState} (hss : env.atn.modeToStartState[L.mode]? = some ss) (hst : env.atn.states[ss]? = some st)
    {r : MatchRes} {L' : Lex D} {dfas' : List DFA} (h : matchToken env fc fe L dfas = some (r, L', dfas')) :
    match r with
    | .ok tt =>
      (∃ k w t e, Preferred env L cs ix n st k w ∧ env.atn.states[w.thread.state]? = some t ∧
        env.atn.ruleToTokenType[t.ruleIndex]? = some tt ∧ q e = q (execFrom w.thread.acts) ∧
        L' = runExec env.action (ix n) e { L with cur := at_ d cs ix (min (n + k) cs.length) }) ∨
      ((∀ k w, ¬ Hit env L cs ix n st k w) ∧ n = cs.length ∧ tt = TOKEN_EOF ∧ L' = L)
    | .noAlt i => i = ix n ∧ (∀ k w, ¬ Hit env L cs ix n st k w) ∧ n < cs.length ∧
        ∃ w, n ≤ w ∧ w ≤ cs.length ∧ L' = { L with cur := at_ d cs ix w }
    | .illegalMode => False := by
  have hd : L.cur.input.data = d := by rw [hc]; rfl
  have hspec := match_spec (n := 0) hq hh (reached_warm hq hh hr) hm (by rw [hd]; exact hs) (by simpa using hroom)
  cases hp : pmatch q env fc fe L with
  | none => rw [hp] at hspec; simp only at hspec; rw [hspec] at h; simp at h
  | some o =>
    obtain ⟨x, rfl, hb, k, w2, w3, w4⟩ := pmatch_ended hq hg R hn hc hss hst hp
    rw [hp] at hspec
    obtain ⟨e, df, h1, h2, -⟩ := hspec
    rw [h2] at h
    simp only [Option.some.injEq, Prod.mk.injEq] at h
    obtain ⟨hr1, hr2, -⟩ := h
    have hix : L.cur.input.index = ix n := by rw [hc]; rfl
    simp only [answer] at hr1 hr2
    have bound : ∀ {k w}, Hit env L cs ix n st k w → k ≤ cs.length + 1 - n := by
      rintro k w ⟨hw, -⟩
      have := (live_range (reached_live hw)).2 hn
      omega
    cases hx : x.prev with
    | some b =>
      simp only [hx] at hr1 hr2
      rw [hx] at hb
      obtain ⟨j, w, t, b1, b2, b3, b4, b5, b6, b7, b8, b9, b10⟩ := hb
      subst hr1
      left
      refine ⟨j, w, t, e, ⟨b2, ?_, ?_⟩, b3, b4, ?_, ?_⟩
      · intro k' u hu
        by_contra hlt
        exact b9 k' (by omega) (bound hu) u hu
      · intro u hu
        rcases b10 u hu with hsame | hbef
        · exact .inl (reached_unique hg b2.1 hu.1 hsame).symm
        · exact .inr hbef
      · have h3 := h1 (by simp [hx])
        simp only [PStop.exec, hx, Option.bind_some] at h3
        rw [← b8, ← h3, hq.idem]
      · rw [← hr2, hix]
        congr 2
        rw [w3, b5, b6, b7]
        rfl
    | none =>
      simp only [hx] at hr1 hr2
      rw [hx] at hb
      have hno : ∀ k w, ¬ Hit env L cs ix n st k w := fun k w hw => hb k (bound hw) w hw
      have hwn : x.cur.input.index = L.cur.input.index ↔ n + k = n := by
        rw [hix, w3]
        exact ⟨fun h => ix_inj R w2 hn h, fun h => by rw [h]; rfl⟩
      by_cases hcond : x.symbol = EOF ∧ x.cur.input.index = L.cur.input.index
      · rw [if_pos hcond] at hr1 hr2
        subst hr1
        have h3 := hwn.mp hcond.2
        have h4 := hcond.1
        rw [w4, symAt_eof_iff R w2] at h4
        refine .inr ⟨hno, by omega, rfl, ?_⟩
        rw [← hr2, w3, h3, ← hc]
      · rw [if_neg hcond] at hr1 hr2
        subst hr1
        refine ⟨hix, hno, ?_, n + k, by omega, w2, by rw [← hr2, w3]⟩
        by_contra hlt
        have e2 : n + k = cs.length := by omega
        exact hcond ⟨by rw [w4, symAt_eof_iff R w2]; exact e2, hwn.mpr (by omega)⟩

/-- **C25** (partial: the hash of the DFA cache must not collide) With non-greedy operators too it is determined
which match is taken: among the ways that are not given up, one that matches the longest prefix, and of these the
first.  There is only one such way.  EOF is returned at the end of the input if none matches, and an error is reported
exactly when none matches and there is input left. -/
theorem C25_preferred_partial {env : Env D} (ht : Tame env) (hg : Tidy env.atn) (hh : TellsApart env.hash)
    {fc fe : Nat} {dfas : List DFA} (hr : LexCacheProps.Reached env.atn env.hash fc dfas) (hroom : Room (fe + 1) dfas)
    {L : Lex D} (hm : L.mode < dfas.length) (hs : Sane d) (R : Reads d cs ix sl) {n : Nat} (hn : n ≤ cs.length)
    (hc : L.cur = at_ d cs ix n) {ss : Nat} {st : ATNState} (hss : env.atn.modeToStartState[L.mode]? = some ss)
    (hst : env.atn.states[ss]? = some st) {r : MatchRes} {L' : Lex D} {dfas' : List DFA}
    (h : matchToken env fc fe L dfas = some (r, L', dfas')) :
    match r with
    | .ok tt =>
      (∃ k w t, Preferred env L cs ix n st k w ∧ (∀ k' w', Preferred env L cs ix n st k' w' → k' = k ∧ w' = w) ∧
        env.atn.states[w.thread.state]? = some t ∧ env.atn.ruleToTokenType[t.ruleIndex]? = some tt ∧
        L'.cur = at_ d cs ix (min (n + k) cs.length)) ∨
      ((∀ k w, ¬ Hit env L cs ix n st k w) ∧ n = cs.length ∧ tt = TOKEN_EOF ∧ L'.cur = L.cur)
    | .noAlt i => i = ix n ∧ (∀ k w, ¬ Hit env L cs ix n st k w) ∧ n < cs.length
    | .illegalMode => False := by
  have := match_ways blur_nothing hg (fun l l' e => abs_congr (hh l l' e)) hr hroom hm hs R hn hc hss hst h
  cases r with
  | ok tt =>
    rcases this with ⟨k, w, t, e, h1, h2, h3, -, h5⟩ | ⟨h1, h2, h3, h4⟩
    · exact .inl ⟨k, w, t, h1, fun k' w' h' => preferred_unique h' h1, h2, h3, by rw [h5, runExec_cur ht.action]⟩
    · exact .inr ⟨h1, h2, h3, by rw [h4]⟩
  | noAlt i => exact ⟨this.1, this.2.1, this.2.2.1⟩
  | illegalMode => exact this

/-- **C27** (partial: the hash must tell actions apart, and offsets are left out) After a match the actions performed
are, in order and each once, the actions on the preferred way. -/
theorem C27_preferred_actions_partial {env : Env D} (ht : Tame env) (hg : Tidy env.atn) (hh : TellsActionsApart env.hash)
    {fc fe : Nat} {dfas : List DFA} (hr : LexCacheProps.Reached env.atn env.hash fc dfas) (hroom : Room (fe + 1) dfas)
    {L : Lex D} (hm : L.mode < dfas.length) (hs : Sane d) (R : Reads d cs ix sl) {n : Nat} (hn : n ≤ cs.length)
    (hc : L.cur = at_ d cs ix n) {ss : Nat} {st : ATNState} (hss : env.atn.modeToStartState[L.mode]? = some ss)
    (hst : env.atn.states[ss]? = some st) {tt : Int} {L' : Lex D} {dfas' : List DFA}
    (h : matchToken env fc fe L dfas = some (.ok tt, L', dfas')) :
    (∃ k w done, Preferred env L cs ix n st k w ∧ done.map noOffset = w.thread.acts.map noOffset ∧
      L' = performAll env.action (ix n) (ix (min (n + k) cs.length)) done
        { L with cur := at_ d cs ix (min (n + k) cs.length) }) ∨
    ((∀ k w, ¬ Hit env L cs ix n st k w) ∧ L' = L) := by
  rcases match_ways blur_noOffsets hg (fun l l' e => abs_congr (hh l l' e)) hr hroom hm hs R hn hc hss hst h with
    ⟨k, w, t, e, h1, -, -, h4, h5⟩ | ⟨h1, -, -, h4⟩
  · left
    simp only [execFrom] at h4
    cases e with
    | none =>
      by_cases ha : w.thread.acts = []
      · exact ⟨k, w, [], h1, by simp [ha], by rw [h5]; rfl⟩
      · rw [if_neg ha] at h4; simp [noOffsets] at h4
    | some l =>
      by_cases ha : w.thread.acts = []
      · rw [if_pos ha] at h4; simp [noOffsets] at h4
      · rw [if_neg ha] at h4
        simp only [noOffsets, Option.map_some, Option.some.injEq] at h4
        exact ⟨k, w, l, h1, h4, by rw [h5, runExec, executeActions_spec ht.action]; rfl⟩
  · exact .inr ⟨h1, h4⟩

end

/-! ## A concrete case

`C : '<' .*? '>' ;`: the token ends with the first `>`. -/

section
open LexTotalProps

theorem lineATN_tidy : Tidy lineATN := tidyCheck_ok (by decide)

theorem choice_inv {atn : ATN} {holds : Int → Int → Prop} {past : Prop} {w u : Way} (h : Choice atn holds past w u)
    {s : ATNState} (hs : atn.states[w.thread.state]? = some s) (hk : w.thread.stack = []) :
    s.stateType ≠ .ruleStop ∧ ∃ i tr y, s.transitions[i]? = some tr ∧ Free atn holds past tr w.thread y ∧ u = w.move atn i y := by
  cases h with
  | edge h1 h2 h3 h4 =>
    rw [hs] at h1; injection h1 with h1; subst h1
    exact ⟨h2, _, _, _, h3, h4, rfl⟩
  | ret h1 h2 h3 => rw [hk] at h3; simp at h3

theorem getElem?_one {α : Type} {a b : α} {i : Nat} (h : [a][i]? = some b) : i = 0 ∧ b = a := by
  rcases i with _ | i
  · simpa [eq_comm] using h
  · simp at h

theorem getElem?_two {α : Type} {a b c : α} {i : Nat} (h : [a, b][i]? = some c) : (i = 0 ∧ c = a) ∨ (i = 1 ∧ c = b) := by
  rcases i with _ | _ | i
  · left; simpa [eq_comm] using h
  · right; simpa [eq_comm] using h
  · simp at h

section
variable {holds : Int → Int → Prop} {past : Prop} {w u : Way} (h : Choice lineATN holds past w u)
include h

theorem line_1 (hw : w.thread = ⟨1, [], []⟩) : u = w.move lineATN 0 ⟨2, [], []⟩ := by
  obtain ⟨-, i, tr, y, h1, h2, rfl⟩ := choice_inv h (s := st 0 (.ruleStart 7 false) [.epsilon 2 0]) (by rw [hw]; rfl) (by rw [hw])
  obtain ⟨rfl, rfl⟩ := getElem?_one h1
  rw [show y = _ from h2, hw]

theorem line_8 (hw : w.thread = ⟨8, [], []⟩) : u = w.move lineATN 0 ⟨9, [], []⟩ := by
  obtain ⟨-, i, tr, y, h1, h2, rfl⟩ := choice_inv h (s := st 1 (.ruleStart 15 false) [.epsilon 9 0]) (by rw [hw]; rfl) (by rw [hw])
  obtain ⟨rfl, rfl⟩ := getElem?_one h1
  rw [show y = _ from h2, hw]

theorem line_5 (hw : w.thread = ⟨5, [], []⟩) : u = w.move lineATN 0 ⟨3, [], []⟩ := by
  obtain ⟨-, i, tr, y, h1, h2, rfl⟩ := choice_inv h (s := st 0 .starLoopback [.epsilon 3 0]) (by rw [hw]; rfl) (by rw [hw])
  obtain ⟨rfl, rfl⟩ := getElem?_one h1
  rw [show y = _ from h2, hw]

theorem line_3 (hw : w.thread = ⟨3, [], []⟩) : u = w.move lineATN 0 ⟨6, [], []⟩ ∨ u = w.move lineATN 1 ⟨4, [], []⟩ := by
  obtain ⟨-, i, tr, y, h1, h2, rfl⟩ := choice_inv h
    (s := st 0 (.decision 1 true (.starLoopEntry 5 false)) [.epsilon 6 0, .epsilon 4 0]) (by rw [hw]; rfl) (by rw [hw])
  rcases getElem?_two h1 with ⟨rfl, rfl⟩ | ⟨rfl, rfl⟩
  · left; rw [show y = _ from h2, hw]
  · right; rw [show y = _ from h2, hw]

theorem line_2 (hw : w.thread = ⟨2, [], []⟩) : False := by
  obtain ⟨-, i, tr, y, h1, h2, rfl⟩ := choice_inv h (s := st 0 .basic [.atom 3 60]) (by rw [hw]; rfl) (by rw [hw])
  obtain ⟨rfl, rfl⟩ := getElem?_one h1
  exact absurd h2.2.1 (by simp [ReadsSym, EOF])

theorem line_9 (hw : w.thread = ⟨9, [], []⟩) : False := by
  obtain ⟨-, i, tr, y, h1, h2, rfl⟩ := choice_inv h (s := st 1 .basic [.atom 10 35]) (by rw [hw]; rfl) (by rw [hw])
  obtain ⟨rfl, rfl⟩ := getElem?_one h1
  exact absurd h2.2.1 (by simp [ReadsSym, EOF])

theorem line_6 (hw : w.thread = ⟨6, [], []⟩) : False := by
  obtain ⟨-, i, tr, y, h1, h2, rfl⟩ := choice_inv h (s := st 0 .basic [.atom 7 62]) (by rw [hw]; rfl) (by rw [hw])
  obtain ⟨rfl, rfl⟩ := getElem?_one h1
  exact absurd h2.2.1 (by simp [ReadsSym, EOF])

theorem line_4 (hw : w.thread = ⟨4, [], []⟩) : False := by
  obtain ⟨-, i, tr, y, h1, h2, rfl⟩ := choice_inv h (s := st 0 .basic [.wildcard 5]) (by rw [hw]; rfl) (by rw [hw])
  obtain ⟨rfl, rfl⟩ := getElem?_one h1
  exact h2

theorem line_7 (hw : w.thread = ⟨7, [], []⟩) : False := by
  obtain ⟨h0, -⟩ := choice_inv h (s := st 0 .ruleStop []) (by rw [hw]; rfl) (by rw [hw])
  exact h0 rfl
end

variable {cs : List Int} {ix : Nat → Int} {L : Lex Str}

/-- The start state of the mode. -/
abbrev line0 : ATNState := st 0 (.decision 0 false .tokenStart) [.epsilon 1 0, .epsilon 8 0]

theorem line_start {w : Way} (h : Reached lineEnv L cs ix 0 line0 0 w) :
    (w.rule = 1 ∧ (w.thread = ⟨1, [], []⟩ ∨ w.thread = ⟨2, [], []⟩)) ∨ w.thread = ⟨8, [], []⟩ ∨ w.thread = ⟨9, [], []⟩ := by
  obtain ⟨i, tr, h1, h2⟩ := h
  induction h2 with
  | refl =>
    rcases getElem?_two h1 with ⟨rfl, rfl⟩ | ⟨rfl, rfl⟩
    · exact .inl ⟨rfl, .inl rfl⟩
    · exact .inr (.inl rfl)
  | tail _ h3 ih =>
    rcases ih with ⟨k1, k2 | k2⟩ | k2 | k2
    · rw [line_1 h3 k2]; exact .inl ⟨k1, .inr rfl⟩
    · exact (line_2 h3 k2).elim
    · rw [line_8 h3 k2]; exact .inr (.inr rfl)
    · exact (line_9 h3 k2).elim

/-- Inside the loop. -/
def Inside (L : Lex Str) (cs : List Int) (ix : Nat → Int) (k : Nat) (w : Way) : Prop :=
  w.rule = 1 ∧ w.passed = true ∧ (w.thread = ⟨3, [], []⟩ ∨ w.thread = ⟨5, [], []⟩ ∨
    ∃ y, Reached lineEnv L cs ix 0 line0 k y ∧ y.rule = 1 ∧ y.passed = true ∧ y.thread = ⟨3, [], []⟩ ∧
      (w = y.move lineATN 0 ⟨6, [], []⟩ ∨ w = y.move lineATN 1 ⟨4, [], []⟩))

theorem inside_choices {k : Nat} {w u : Way} (hr : Reached lineEnv L cs ix 0 line0 (k + 1) w) (hi : Inside L cs ix (k + 1) w)
    (h : Relation.ReflTransGen (Choice lineATN (holdsAt lineEnv L cs ix (0 + k + 1)) (cs.length < 0 + k + 1)) w u) :
    Inside L cs ix (k + 1) u := by
  induction h with
  | refl => exact hi
  | @tail b c h0 h1 ih =>
    have hb := reached_choices hr h0
    obtain ⟨i1, i2, i3 | i3 | ⟨y, -, -, -, -, rfl | rfl⟩⟩ := ih
    · exact ⟨by rcases line_3 h1 i3 with rfl | rfl <;> exact i1, by rcases line_3 h1 i3 with rfl | rfl <;> simp [Way.move, i2],
        .inr (.inr ⟨b, hb, i1, i2, i3, line_3 h1 i3⟩)⟩
    · rw [line_5 h1 i3]
      exact ⟨i1, by simp [Way.move, i2], .inl rfl⟩
    · exact (line_6 h1 rfl).elim
    · exact (line_4 h1 rfl).elim

theorem inside_no_accept {k : Nat} {w : Way} (h : Inside L cs ix k w) : ¬ Accepts lineATN w := by
  rintro ⟨t, h1, h2, -⟩
  obtain ⟨-, -, i3 | i3 | ⟨y, -, -, -, -, rfl | rfl⟩⟩ := h
  · rw [i3] at h1; simp only [lineATN, LexExample.st] at h1; injection h1 with h1; subst h1; simp at h2
  · rw [i3] at h1; simp only [lineATN, LexExample.st] at h1; injection h1 with h1; subst h1; simp at h2
  · simp only [Way.move, lineATN, LexExample.st] at h1; injection h1 with h1; subst h1; simp at h2
  · simp only [Way.move, lineATN, LexExample.st] at h1; injection h1 with h1; subst h1; simp at h2

/-- Up to the first `>` the match is inside the loop. -/
theorem line_inside {m : Nat} (h0 : cs[0]? = some 60) (hm : ∀ i, 1 ≤ i → i ≤ m → ∃ c, cs[i]? = some c ∧ c ≠ 62)
    {k : Nat} (hk : k ≤ m) : ∀ {w : Way}, Reached lineEnv L cs ix 0 line0 (k + 1) w → Inside L cs ix (k + 1) w := by
  induction k with
  | zero =>
    intro w h
    obtain ⟨u, h1, h2, h3, s, tr, k1, k2, k3, k4⟩ := h
    simp only [Nat.zero_add, h0, Option.getD_some] at k3
    rcases line_start h1 with ⟨e1, e | e⟩ | e | e
    · rw [e] at k1; obtain rfl : s = st 0 (.ruleStart 7 false) [.epsilon 2 0] := by symm; injection k1
      simp only [LexExample.st, List.mem_singleton] at k2; subst k2; exact k3.elim
    · rw [e] at k1; obtain rfl : s = st 0 .basic [.atom 3 60] := by symm; injection k1
      simp only [LexExample.st, List.mem_singleton] at k2; subst k2
      have hb : Reached lineEnv L cs ix 0 line0 (0 + 1) (u.eat lineATN 3) :=
        ⟨u, h1, h2, h3, _, .atom 3 60, by rw [e]; rfl, by simp [LexExample.st], by simp [ReadsSym, h0], .refl⟩
      exact inside_choices hb ⟨e1, by simp only [Way.eat, Bool.or_eq_true]; right; decide, .inl (by simp [Way.eat, e])⟩ k4
    · rw [e] at k1; obtain rfl : s = st 1 (.ruleStart 15 false) [.epsilon 9 0] := by symm; injection k1
      simp only [LexExample.st, List.mem_singleton] at k2; subst k2; exact k3.elim
    · rw [e] at k1; obtain rfl : s = st 1 .basic [.atom 10 35] := by symm; injection k1
      simp only [LexExample.st, List.mem_singleton] at k2; subst k2; exact absurd k3 (by simp [ReadsSym])
  | succ k ih =>
    intro w h
    obtain ⟨u, h1, h2, h3, s, tr, k1, k2, k3, k4⟩ := h
    obtain ⟨c, hc, hc'⟩ := hm (k + 1) (by omega) hk
    have k3' := k3
    simp only [Nat.zero_add, hc, Option.getD_some] at k3
    obtain ⟨i1, i2, e | e | ⟨y, y1, y2, y3, y4, rfl | rfl⟩⟩ := ih (by omega) h1
    · rw [e] at k1
      obtain rfl : s = st 0 (.decision 1 true (.starLoopEntry 5 false)) [.epsilon 6 0, .epsilon 4 0] := by symm; injection k1
      simp only [LexExample.st, List.mem_cons, List.not_mem_nil, or_false] at k2
      rcases k2 with rfl | rfl <;> exact k3.elim
    · rw [e] at k1; obtain rfl : s = st 0 .starLoopback [.epsilon 3 0] := by symm; injection k1
      simp only [LexExample.st, List.mem_singleton] at k2; subst k2; exact k3.elim
    · obtain rfl : s = st 0 .basic [.atom 7 62] := by symm; simp only [Way.move] at k1; injection k1
      simp only [LexExample.st, List.mem_singleton] at k2; subst k2; exact absurd k3 hc'
    · obtain rfl : s = st 0 .basic [.wildcard 5] := by symm; simp only [Way.move] at k1; injection k1
      simp only [LexExample.st, List.mem_singleton] at k2; subst k2
      refine inside_choices ⟨_, h1, h2, h3, _, .wildcard 5, rfl, by simp [LexExample.st], k3', .refl⟩
        ⟨y2, by simp [Way.eat, Way.move, y3], .inr (.inl rfl)⟩ k4

/-- ... and the loop can go on. -/
theorem line_goes {m : Nat} (h0 : cs[0]? = some 60)
    (hm : ∀ i, 1 ≤ i → i ≤ m → ∃ c, cs[i]? = some c ∧ c ≠ 62 ∧ 0 < c ∧ c < 0x10FFFF) {k : Nat} (hk : k ≤ m) :
    ∃ y, Reached lineEnv L cs ix 0 line0 (k + 1) y ∧ y.rule = 1 ∧ y.thread = ⟨3, [], []⟩ := by
  have hm' : ∀ i, 1 ≤ i → i ≤ m → ∃ c, cs[i]? = some c ∧ c ≠ 62 := fun i h1 h2 => by
    obtain ⟨c, h3, h4, -⟩ := hm i h1 h2; exact ⟨c, h3, h4⟩
  induction k with
  | zero =>
    have a0 : Reached lineEnv L cs ix 0 line0 0 ((first 0 (.epsilon 1 0)).move lineATN 0 ⟨2, [], []⟩) :=
      ⟨0, .epsilon 1 0, rfl, .single (.edge (st := st 0 (.ruleStart 7 false) [.epsilon 2 0]) (tr := .epsilon 2 0) rfl
        (by simp [LexExample.st]) rfl rfl)⟩
    refine ⟨Way.eat lineATN _ 3, ⟨_, a0, ?_, Nat.zero_le _, st 0 .basic [.atom 3 60], .atom 3 60, rfl,
      by simp [LexExample.st], by simp [ReadsSym, h0], .refl⟩, rfl, rfl⟩
    rintro ⟨h, -⟩
    revert h; decide
  | succ k ih =>
    obtain ⟨y, h1, h2, h3⟩ := ih (by omega)
    obtain ⟨c, hc, -, hc1, hc2⟩ := hm (k + 1) (by omega) hk
    have hlt : k + 1 < cs.length := (List.getElem?_eq_some_iff.1 hc).1
    have b1 : Reached lineEnv L cs ix 0 line0 (k + 1) (y.move lineATN 1 ⟨4, [], []⟩) := by
      refine reached_choices h1 (.single (.edge (tr := .epsilon 4 0)
        (st := st 0 (.decision 1 true (.starLoopEntry 5 false)) [.epsilon 6 0, .epsilon 4 0])
        (by rw [h3]; rfl) (by simp [LexExample.st]) rfl ?_))
      simp only [Free, h3]
    have b2 : Reached lineEnv L cs ix 0 line0 (k + 1 + 1) ((y.move lineATN 1 ⟨4, [], []⟩).eat lineATN 5) := by
      refine ⟨_, b1, ?_, by omega, st 0 .basic [.wildcard 5], .wildcard 5, rfl, by simp [LexExample.st], ?_, .refl⟩
      · rintro ⟨-, v, v1, v2, -⟩
        exact inside_no_accept (line_inside h0 hm' (by omega) v1) v2
      · simp only [Nat.zero_add, hc, Option.getD_some]; exact ⟨hc1, hc2⟩
    exact ⟨_, reached_choices b2 (.single (.edge (st := st 0 .starLoopback [.epsilon 3 0]) (tr := .epsilon 3 0) (i := 0) rfl
      (by simp [LexExample.st]) rfl rfl)), h2, rfl⟩

/-- At the first `>` the loop is left, and every way that would go on is given up. -/
theorem line_ends {m : Nat} (h0 : cs[0]? = some 60) (hm : ∀ i, 1 ≤ i → i ≤ m → ∃ c, cs[i]? = some c ∧ c ≠ 62)
    (h1 : cs[m + 1]? = some 62) {w : Way} (h : Reached lineEnv L cs ix 0 line0 (m + 2) w) :
    w.thread = ⟨7, [], []⟩ ∨ (¬ Accepts lineATN w ∧ Cut lineATN (Reached lineEnv L cs ix 0 line0 (m + 2)) w) := by
  obtain ⟨u, k1, k2, k3, s, tr, k4, k5, k6, k7⟩ := h
  have k6' := k6
  simp only [Nat.zero_add, h1, Option.getD_some] at k6
  obtain ⟨i1, i2, e | e | ⟨y, y1, y2, y3, y4, rfl | rfl⟩⟩ := line_inside h0 hm (Nat.le_refl m) k1
  · rw [e] at k4
    obtain rfl : s = st 0 (.decision 1 true (.starLoopEntry 5 false)) [.epsilon 6 0, .epsilon 4 0] := by symm; injection k4
    simp only [LexExample.st, List.mem_cons, List.not_mem_nil, or_false] at k5
    rcases k5 with rfl | rfl <;> exact k6.elim
  · rw [e] at k4; obtain rfl : s = st 0 .starLoopback [.epsilon 3 0] := by symm; injection k4
    simp only [LexExample.st, List.mem_singleton] at k5; subst k5; exact k6.elim
  · obtain rfl : s = st 0 .basic [.atom 7 62] := by symm; simp only [Way.move] at k4; injection k4
    simp only [LexExample.st, List.mem_singleton] at k5; subst k5
    left
    rcases Relation.ReflTransGen.cases_head k7 with e | ⟨v, v1, -⟩
    · rw [← e]; rfl
    · exact (line_7 v1 rfl).elim
  · obtain rfl : s = st 0 .basic [.wildcard 5] := by symm; simp only [Way.move] at k4; injection k4
    simp only [LexExample.st, List.mem_singleton] at k5; subst k5
    right
    have b0 : Reached lineEnv L cs ix 0 line0 (m + 1 + 1) ((y.move lineATN 1 ⟨4, [], []⟩).eat lineATN 5) :=
      ⟨_, k1, k2, k3, st 0 .basic [.wildcard 5], .wildcard 5, rfl, by simp [LexExample.st], k6', .refl⟩
    have hin := inside_choices b0 ⟨y2, by simp [Way.eat, Way.move, y3], .inr (.inl rfl)⟩ k7
    refine ⟨inside_no_accept hin, hin.2.1, (y.move lineATN 0 ⟨6, [], []⟩).eat lineATN 7, ?_, ⟨st 0 .ruleStop [], rfl, rfl, rfl⟩, ?_, ?_⟩
    · have b1 : Reached lineEnv L cs ix 0 line0 (m + 1) (y.move lineATN 0 ⟨6, [], []⟩) := by
        refine reached_choices y1 (.single (.edge (tr := .epsilon 6 0)
          (st := st 0 (.decision 1 true (.starLoopEntry 5 false)) [.epsilon 6 0, .epsilon 4 0])
          (by rw [y4]; rfl) (by simp [LexExample.st]) rfl ?_))
        simp only [Free, y4]
      refine ⟨_, b1, ?_, k3, st 0 .basic [.atom 7 62], .atom 7 62, rfl, by simp [LexExample.st], ?_, .refl⟩
      · rintro ⟨-, v, v1, v2, -⟩
        exact inside_no_accept (line_inside h0 hm (Nat.le_refl m) v1) v2
      · simp only [Nat.zero_add, h1, Option.getD_some]; rfl
    · rw [hin.1]; exact y2
    · obtain ⟨c1, c2, -⟩ := choices_same k7
      refine .inr ⟨by rw [hin.1]; exact y2, .inl ?_⟩
      rw [c2]
      refine .inr ⟨rfl, ?_⟩
      simp only [Way.move]
      exact append_lt.2 (by decide)

/-- Whatever text follows, and whatever was cached before: the token is of type 1 and ends with the first `>`. -/
theorem line_token {mid rest : List Char} (hmid : ∀ c ∈ mid, c ≠ '>' ∧ 0 < c.toNat ∧ c.toNat < 0x10FFFF)
    {fc fe : Nat} {dfas : List DFA} (hr : LexCacheProps.Reached lineATN blindHash fc dfas) (hroom : Room (fe + 1) dfas)
    (hl : 0 < dfas.length) {r : MatchRes} {L' : Lex Str} {dfas' : List DFA}
    (h : matchToken lineEnv fc fe (Lex.new (InputStream.new (Str.mk ('<' :: mid ++ '>' :: rest)))) dfas = some (r, L', dfas')) :
    r = .ok 1 ∧ L'.cur.input.index = (bytes ('<' :: mid ++ ['>']) : Nat) := by
  obtain ⟨text, ht⟩ : ∃ text, text = '<' :: mid ++ '>' :: rest := ⟨_, rfl⟩
  rw [← ht] at h
  have h0 : ((text).map fun c => (c.toNat : Int))[0]? = some 60 := by rw [ht]; rfl
  have h1 : ((text).map fun c => (c.toNat : Int))[mid.length + 1]? = some 62 := by
    simp [ht]
  have hm : ∀ i, 1 ≤ i → i ≤ mid.length → ∃ c, ((text).map fun c => (c.toNat : Int))[i]? = some c ∧
      c ≠ 62 ∧ 0 < c ∧ c < 0x10FFFF := by
    intro i hi hi'
    obtain ⟨j, rfl⟩ : ∃ j, i = j + 1 := ⟨i - 1, by omega⟩
    have hj : j < mid.length := by omega
    obtain ⟨k1, k2, k3⟩ := hmid mid[j] (List.getElem_mem hj)
    refine ⟨(mid[j].toNat : Int), ?_, ?_, by omega, by omega⟩
    · rw [ht, List.cons_append, List.map_cons, List.getElem?_cons_succ, List.map_append,
        List.getElem?_append_left (by simpa using hj), List.getElem?_map, List.getElem?_eq_getElem hj]; rfl
    intro e
    refine k1 (Char.ext ?_)
    have : mid[j].toNat = 62 := by omega
    exact UInt32.toNat_inj.1 this
  have hm' : ∀ i, 1 ≤ i → i ≤ mid.length → ∃ c, ((text).map fun c => (c.toNat : Int))[i]? = some c ∧ c ≠ 62 :=
    fun i k1 k2 => by obtain ⟨c, k3, k4, -⟩ := hm i k1 k2; exact ⟨c, k3, k4⟩
  have key := C25_preferred_partial (env := lineEnv) (ss := 0)
    ⟨fun _ _ L => Untouched.refl L, fun L => Untouched.refl L, fun _ => rfl⟩ lineATN_tidy blindHash_ok hr hroom
    (L := Lex.new (InputStream.new (Str.mk (text)))) hl (sane_str _) (reads_str text) (n := 0) (by omega)
    (by simp [Lex.new, at_, InputStream.new, lineOf, colOf, bytes]) rfl rfl h
  have hhit : ∃ w, Hit lineEnv (Lex.new (InputStream.new (Str.mk (text))))
      ((text).map fun c => (c.toNat : Int))
      (fun n => (bytes ((text).take n) : Nat)) 0 line0 (mid.length + 2) w := by
    obtain ⟨y, y1, y2, y4⟩ := line_goes h0 hm (Nat.le_refl mid.length)
      (L := Lex.new (InputStream.new (Str.mk (text))))
      (ix := fun n => (bytes ((text).take n) : Nat))
    have b1 := reached_choices y1 (.single (.edge (tr := .epsilon 6 0) (y := ⟨6, [], []⟩)
      (st := st 0 (.decision 1 true (.starLoopEntry 5 false)) [.epsilon 6 0, .epsilon 4 0])
      (by rw [y4]; rfl) (by simp [LexExample.st]) (i := 0) rfl (by simp only [Free, y4])))
    refine ⟨Way.eat lineATN _ 7, ⟨_, b1, ?_, ?_, st 0 .basic [.atom 7 62], .atom 7 62, rfl, by simp [LexExample.st], ?_, .refl⟩,
      st 0 .ruleStop [], rfl, rfl, rfl⟩
    · rintro ⟨-, v, v1, v2, -⟩
      exact inside_no_accept (line_inside h0 hm' (Nat.le_refl _) v1) v2
    · simp [ht]
    · simp only [Nat.zero_add, h1, Option.getD_some]; rfl
  obtain ⟨w0, hw0⟩ := hhit
  have hnone : ∀ j w, ¬ Reached lineEnv (Lex.new (InputStream.new (Str.mk (text))))
      ((text).map fun c => (c.toNat : Int))
      (fun n => (bytes ((text).take n) : Nat)) 0 line0 (mid.length + 2 + 1 + j) w := by
    intro j
    induction j with
    | zero =>
      rintro w ⟨u, u1, u2, -, u3⟩
      rcases line_ends h0 hm' h1 u1 with e | ⟨-, e⟩
      · exact (takes_reads lineATN_tidy u3).2 ⟨st 0 .ruleStop [], by rw [e]; rfl, rfl, by rw [e]⟩
      · exact u2 e
    | succ j ih => rintro w ⟨u, u1, -⟩; exact ih u u1
  cases r with
  | ok tt =>
    rcases key with ⟨k, w, t, p1, -, p2, p3, p4⟩ | ⟨p1, -⟩
    · have e : k = mid.length + 2 := by
        refine Nat.le_antisymm ?_ (p1.longest _ _ hw0)
        by_contra hlt
        refine hnone (k - (mid.length + 3)) w ?_
        rw [show mid.length + 2 + 1 + (k - (mid.length + 3)) = k by omega]
        exact p1.hit.1
      subst e
      rcases line_ends h0 hm' h1 p1.hit.1 with e | ⟨e, -⟩
      · rw [e] at p2
        obtain rfl : t = st 0 .ruleStop [] := by symm; injection p2
        refine ⟨?_, ?_⟩
        · have : (1 : Int) = tt := by simpa [lineEnv, lineATN, LexExample.st] using p3
          rw [← this]
        · rw [p4]
          simp only [at_]
          rw [Nat.min_eq_left (by simp [ht])]
          congr 2
          rw [ht, show 0 + (mid.length + 2) = ('<' :: mid ++ ['>']).length by simp,
            show '<' :: mid ++ '>' :: rest = ('<' :: mid ++ ['>']) ++ rest by simp, List.take_left]
      · exact absurd p1.hit.2 e
    · exact absurd hw0 (p1 _ _)
  | noAlt i => exact absurd hw0 (key.2.1 _ _)
  | illegalMode => exact key.elim

/-- There is such a match. -/
example : (matchToken lineEnv 20 20 (Lex.new (InputStream.new (Str.mk ['<', 'a', '>', 'b', '>']))) lineDFAs).map
    (fun r => (r.1, r.2.1.cur.input.index)) = some (.ok 1, 3) := by decide +kernel

example {r : MatchRes} {L' : Lex Str} {dfas' : List DFA}
    (h : matchToken lineEnv 20 20 (Lex.new (InputStream.new (Str.mk ['<', 'a', '>', 'b', '>']))) lineDFAs = some (r, L', dfas')) :
    r = .ok 1 ∧ L'.cur.input.index = 3 :=
  line_token (mid := ['a']) (rest := ['b', '>']) (by decide) (new_reached (atn := lineATN) (by decide))
    (new_room (atn := lineATN) (by decide) (by decide)) (by decide) h

end

end Antlr.LexOrder
