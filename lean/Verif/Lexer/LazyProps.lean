import Verif.Lexer.Lazy
import Verif.Lexer.OrderProps

/-!
# C79: a token of a rule `OPEN .*? CLOSE` ends with the first `CLOSE`
-/

namespace Antlr.LexLazy
open Antlr Lexer LexCache LexSpec LexProps LexPaths LexCacheProps LexPathProps LexOrder LexExample

variable {D : Type} [InputData D] {d : D} {cs : List Int} {ix : Nat → Int} {sl : Nat → Nat → D}

/-- The token type belongs to edge `i` of the start state of the mode and to no other. -/
def Owns (atn : ATN) (st : ATNState) (i : Nat) (tt : Int) : Prop :=
  ∀ j tr t0, st.transitions[j]? = some tr → atn.states[tr.target]? = some t0 → atn.ruleToTokenType[t0.ruleIndex]? = some tt →
    j = i

theorem hit_closed {env : Env D} {L : Lex D} {n i k : Nat} {st : ATNState} {tr0 : Trans} {dot : Trans} {op cl : List Int} {w : Way}
    (hg : Tidy env.atn) (hn : n ≤ cs.length) (hi : st.transitions[i]? = some tr0) (hz : LazyRule env tr0.target op dot cl)
    (h : Hit env L cs ix n st k w) (hr : w.rule = ((i + 1 : Nat) : Int)) : ClosedAt cs n op cl k := by
  obtain ⟨e, x, b, d, z, num, p, p', kind, se, sd, sz, h1, h2, h3, h4, h5, h6, h7, h8, h9, h10, h11, h12, h13, h14⟩ := hz.form
  exact closed hg h3 h4 h5 h6 h7 h9 h10 h11 h12 h13 h14 hn hi h1 h2 h hr

theorem hit_found {env : Env D} {L : Lex D} {n i : Nat} {st : ATNState} {tr0 : Trans} {dot : Trans} {op cl body : List Int}
    (hg : Tidy env.atn) (hn : n ≤ cs.length) (hi : st.transitions[i]? = some tr0) (hz : LazyRule env tr0.target op dot cl)
    (ht : Stands cs n (op ++ body ++ cl)) (hbody : ∀ c ∈ body, ReadsSym dot c)
    (hfirst : ∀ q, op.length ≤ q → Stands cs (n + q) cl → (op ++ body ++ cl).length ≤ q + cl.length) :
    ∃ w, Hit env L cs ix n st (op ++ body ++ cl).length w ∧ w.rule = ((i + 1 : Nat) : Int) := by
  obtain ⟨e, x, b, d, z, num, p, p', kind, se, sd, sz, h1, h2, h3, h4, h5, h6, h7, h8, h9, h10, h11, h12, h13, h14⟩ := hz.form
  exact found hg h3 h4 h5 h6 h7 h9 h10 h11 h12 h13 h14 hn hi h1 h2 ht hbody hfirst

theorem word_fits {p : Nat} {word : List Int} (h : Stands cs p word) (hp : p ≤ cs.length) : p + word.length ≤ cs.length := by
  have := List.IsPrefix.length_le h
  rw [List.length_drop] at this
  omega

/-- **C79** (partial: the hash of the DFA cache must not collide) A token of a rule `OPEN .*? CLOSE` begins with `OPEN`
and ends with `CLOSE`, and `CLOSE` does not occur earlier after `OPEN`. -/
theorem C79_lazy_ends_partial {env : Env D} (ht : Tame env) (hg : Tidy env.atn) (hw : RuleWise env.atn) (hh : TellsApart env.hash)
    {fc fe : Nat} {dfas : List DFA} (hr : LexCacheProps.Reached env.atn env.hash fc dfas) (hroom : Room (fe + 1) dfas)
    {L : Lex D} (hm : L.mode < dfas.length) (hs : Sane d) (R : Reads d cs ix sl) {n : Nat} (hn : n ≤ cs.length)
    (hc : L.cur = at_ d cs ix n) {ss : Nat} {st : ATNState} (hss : env.atn.modeToStartState[L.mode]? = some ss)
    (hst : env.atn.states[ss]? = some st) {i : Nat} {tr0 : Trans} (hi : st.transitions[i]? = some tr0)
    {op cl : List Int} {dot : Trans} (hz : LazyRule env tr0.target op dot cl)
    {tt : Int} (hty : Owns env.atn st i tt) (hne : tt ≠ TOKEN_EOF) {L' : Lex D} {dfas' : List DFA}
    (h : matchToken env fc fe L dfas = some (.ok tt, L', dfas')) :
    ∃ k, ClosedAt cs n op cl k ∧ L'.cur = at_ d cs ix (n + k) := by
  rcases C25_preferred_partial ht hg hh hr hroom hm hs R hn hc hss hst h with ⟨k, w, t, h1, -, h2, h3, h4⟩ | ⟨-, -, h3, -⟩
  · obtain ⟨j, tr, e1, e2, t0, e3, e4⟩ := C25_type_of_rule hg hw hst (hit_matches h1.hit) h2
    obtain rfl := hty j tr t0 e2 e3 (by rw [← e4]; exact h3)
    have hcl := hit_closed hg hn hi hz h1.hit e1
    refine ⟨k, hcl, ?_⟩
    obtain ⟨body, b1, b2, -⟩ := hcl
    have := word_fits b2 hn
    rw [h4, Nat.min_eq_left (by omega)]
  · exact absurd h3 hne

/-- **C79** (partial: the hash of the DFA cache must not collide) Where `OPEN`, a body and the first `CLOSE` stand in
the text, and no other rule of the mode has a way that takes more, nor one before it a way that takes as much, the
match takes the text up to this `CLOSE`, and its type is that of the rule. -/
theorem C79_lazy_found_partial {env : Env D} (ht : Tame env) (hg : Tidy env.atn) (hw : RuleWise env.atn) (hh : TellsApart env.hash)
    {fc fe : Nat} {dfas : List DFA} (hr : LexCacheProps.Reached env.atn env.hash fc dfas) (hroom : Room (fe + 1) dfas)
    {L : Lex D} (hm : L.mode < dfas.length) (hs : Sane d) (R : Reads d cs ix sl) {n : Nat} (hn : n ≤ cs.length)
    (hc : L.cur = at_ d cs ix n) {ss : Nat} {st : ATNState} (hss : env.atn.modeToStartState[L.mode]? = some ss)
    (hst : env.atn.states[ss]? = some st) {i : Nat} {tr0 : Trans} (hi : st.transitions[i]? = some tr0)
    {op cl body : List Int} {dot : Trans} (hz : LazyRule env tr0.target op dot cl)
    (htext : Stands cs n (op ++ body ++ cl)) (hbody : ∀ c ∈ body, ReadsSym dot c)
    (hfirst : ∀ q, op.length ≤ q → Stands cs (n + q) cl → (op ++ body ++ cl).length ≤ q + cl.length)
    (hother : ∀ k u, Hit env L cs ix n st k u → u.rule ≠ ((i + 1 : Nat) : Int) → k ≤ (op ++ body ++ cl).length ∧
      (u.rule < ((i + 1 : Nat) : Int) → k < (op ++ body ++ cl).length))
    {r : MatchRes} {L' : Lex D} {dfas' : List DFA} (h : matchToken env fc fe L dfas = some (r, L', dfas')) :
    ∃ tt t0, env.atn.states[tr0.target]? = some t0 ∧ env.atn.ruleToTokenType[t0.ruleIndex]? = some tt ∧ r = .ok tt ∧
      L'.cur = at_ d cs ix (n + (op ++ body ++ cl).length) := by
  have key := C25_preferred_partial ht hg hh hr hroom hm hs R hn hc hss hst h
  obtain ⟨w0, hw0, hw1⟩ := hit_found (L := L) (ix := ix) hg hn hi hz htext hbody hfirst
  have hlen := word_fits htext hn
  cases r with
  | ok tt =>
    rcases key with ⟨k, w, t, h1, -, h2, h3, h4⟩ | ⟨p1, -⟩
    · have hk := h1.longest _ _ hw0
      have hrule : w.rule = ((i + 1 : Nat) : Int) ∧ k = (op ++ body ++ cl).length := by
        by_cases e : w.rule = ((i + 1 : Nat) : Int)
        · obtain ⟨body', b1, b2, b3⟩ := hit_closed hg hn hi hz h1.hit e
          refine ⟨e, Nat.le_antisymm ?_ hk⟩
          rw [stands_append] at htext
          have := b3 (op ++ body).length (by simp) htext.2
          simp only [List.length_append] at this ⊢
          omega
        · obtain ⟨g1, g2⟩ := hother k w h1.hit e
          obtain rfl : k = (op ++ body ++ cl).length := Nat.le_antisymm g1 hk
          exfalso
          rcases h1.first w0 hw0 with rfl | hb
          · exact e hw1
          · rcases hb with hb | hb
            · rw [hw1] at hb; exact absurd (g2 hb) (Nat.lt_irrefl _)
            · exact e (hb.1.trans hw1)
      obtain ⟨hrule, rfl⟩ := hrule
      obtain ⟨j, tr, e1, e2, t0, e3, e4⟩ := C25_type_of_rule hg hw hst (hit_matches h1.hit) h2
      obtain rfl : j = i := by rw [hrule] at e1; omega
      rw [hi] at e2; injection e2 with e2; subst e2
      exact ⟨tt, t0, e3, by rw [← e4]; exact h3, rfl, by rw [h4, Nat.min_eq_left hlen]⟩
    · exact absurd hw0 (p1 _ _)
  | noAlt i => exact absurd hw0 (key.2.1 _ _)
  | illegalMode => exact key.elim

/-! ## A check for `LazyRule` -/

def skipsCheck (atn : ATN) (always : Int → Int → Bool) : Trans → Bool
  | .epsilon _ _ => true
  | .predicate _ _ r p => always r p
  | .action _ _ _ a _ => decide (0 ≤ a) && decide (a.toNat < atn.lexerActions.length)
  | _ => false

/-- The line from `s` reads the word and leads to `t`; `always` tells which predicates always hold. -/
def lineCheck (atn : ATN) (always : Int → Int → Bool) : Nat → Nat → List Int → Nat → Bool
  | 0, _, _, _ => false
  | fuel + 1, s, word, t =>
    (word.isEmpty && s == t) || match atn.states[s]? with
      | none => false
      | some st => decide (st.stateType ≠ .ruleStop) && match st.transitions, word with
        | [.atom u c], c' :: word' => c == c' && decide (c ≠ EOF) && lineCheck atn always fuel u word' t
        | [tr], _ => skipsCheck atn always tr && lineCheck atn always fuel tr.target word t
        | _, _ => false

theorem lineCheck_ok {env : Env D} {always : Int → Int → Bool} (ha : ∀ r p, always r p = true → ∀ L, env.sempred r p L = true)
    {fuel : Nat} : ∀ {s : Nat} {word : List Int} {t : Nat}, lineCheck env.atn always fuel s word t = true → Line env s word t := by
  have hsk : ∀ {tr : Trans}, skipsCheck env.atn always tr = true → Skips env tr := by
    intro tr h
    cases tr <;> simp_all [skipsCheck, Skips]
  induction fuel with
  | zero => intro s word t h; simp [lineCheck] at h
  | succ fuel ih =>
    intro s word t h
    simp only [lineCheck, Bool.or_eq_true, Bool.and_eq_true, List.isEmpty_iff, beq_iff_eq] at h
    rcases h with ⟨rfl, rfl⟩ | h
    · exact .done s
    · cases hs : env.atn.states[s]? with
      | none => rw [hs] at h; simp at h
      | some st =>
        rw [hs] at h
        simp only [Bool.and_eq_true, decide_eq_true_eq] at h
        obtain ⟨h1, h2⟩ := h
        split at h2
        · next u c c' word' e =>
          simp only [Bool.and_eq_true, beq_iff_eq, decide_eq_true_eq] at h2
          obtain ⟨⟨rfl, h3⟩, h4⟩ := h2
          exact .read hs h1 e h3 (ih h4)
        · next tr _ e _ =>
          simp only [Bool.and_eq_true] at h2
          exact .pass hs h1 e (hsk h2.1) (ih h2.2)
        · simp at h2

/-- The rule that begins in `s` is `OPEN DOT*? CLOSE` with the decision of the loop in `e`, the dot in `d` and the end
of the rule in `z`. -/
def lazyCheck (atn : ATN) (always : Int → Int → Bool) (s : Nat) (op : List Int) (dot : Trans) (cl : List Int) (e d z : Nat) : Bool :=
  match atn.states[e]?, atn.states[d]?, atn.states[z]? with
  | some se, some sd, some sz => match se.stateType, se.transitions with
    | .decision _ true _, [.epsilon x _, .epsilon b _] =>
      decide (s ≠ e) && lineCheck atn always 100 s op e && lineCheck atn always 100 b [] d && decide (sd.stateType ≠ .ruleStop) &&
      decide (sd.transitions = [dot]) && (match dot with | .wildcard _ | .notSet _ _ => true | _ => false) &&
      lineCheck atn always 100 dot.target [] e && lineCheck atn always 100 x cl z && decide (sz.stateType = .ruleStop)
    | _, _ => false
  | _, _, _ => false

theorem lazyCheck_ok {env : Env D} {always : Int → Int → Bool} (ha : ∀ r p, always r p = true → ∀ L, env.sempred r p L = true)
    {s e d z : Nat} {op cl : List Int} {dot : Trans} (h : lazyCheck env.atn always s op dot cl e d z = true) :
    LazyRule env s op dot cl := by
  unfold lazyCheck at h
  split at h
  · next se sd sz h1 h2 h3 =>
    split at h
    · next num kind x p b p' h4 h5 =>
      simp only [Bool.and_eq_true, decide_eq_true_eq] at h
      obtain ⟨⟨⟨⟨⟨⟨⟨⟨g1, g2⟩, g3⟩, g4⟩, g5⟩, g6⟩, g7⟩, g8⟩, g9⟩ := h
      refine ⟨e, x, b, d, z, num, p, p', kind, se, sd, sz, g1, lineCheck_ok ha g2, h1, h4, h5, lineCheck_ok ha g3, h2, g4, g5,
        ?_, lineCheck_ok ha g7, lineCheck_ok ha g8, h3, g9⟩
      cases dot <;> simp_all [Dot]
    · simp at h
  · simp at h

/-! ## A concrete case -/

section
open LexTotalProps

theorem line_lazy : LazyRule lineEnv 1 [60] (.wildcard 5) [62] :=
  lazyCheck_ok (always := fun _ _ => false) (by simp) (e := 3) (d := 4) (z := 7) (by decide)

/-- Whatever was cached before, a token of type 1 is closed by the first `>`. -/
example {text : List Char} {fc fe : Nat} {dfas : List DFA} (hr : LexCacheProps.Reached lineATN blindHash fc dfas)
    (hroom : Room (fe + 1) dfas) (hl : 0 < dfas.length) {L' : Lex Str} {dfas' : List DFA}
    (h : matchToken lineEnv fc fe (Lex.new (InputStream.new (Str.mk text))) dfas = some (.ok 1, L', dfas')) :
    ∃ k, ClosedAt (text.map fun c => (c.toNat : Int)) 0 [60] [62] k ∧ L'.cur.input.index = (bytes (text.take k) : Nat) := by
  obtain ⟨k, h1, h2⟩ := C79_lazy_ends_partial (env := lineEnv) (ss := 0) (i := 0)
    ⟨fun _ _ L => Untouched.refl L, fun L => Untouched.refl L, fun _ => rfl⟩ lineATN_tidy
    (ruleWiseCheck_ok (by decide)) blindHash_ok hr hroom (L := Lex.new (InputStream.new (Str.mk text))) hl (sane_str _)
    (reads_str text) (n := 0) (by omega) (by simp [Lex.new, at_, InputStream.new, lineOf, colOf, bytes]) rfl rfl rfl
    line_lazy (tt := 1) (by
      rintro (_ | _ | j) tr t0 h1 h2 h3
      · rfl
      · cases h1; cases h2; revert h3; decide
      · simp [LexExample.st] at h1) (by decide) h
  exact ⟨k, h1, by rw [h2]; simp [at_]⟩

end

end Antlr.LexLazy
