import Verif.Lexer.TotalRun
import Verif.Lexer.TotalCheck
import Verif.Lexer.PathProps
import Verif.Lexer.Props

/-!
# C69: lexing returns

On an automaton from which nothing is missing and that has no loop without reading, matching a token
returns; if moreover no rule matches without reading a character, every request for a token returns and
the tokens end with EOF.  Non-greedy operators are allowed.
-/

namespace Antlr.LexTotalProps
open Antlr Lexer LexCache LexSpec LexProps LexPaths LexCacheProps LexPathProps LexTotal LexExample IntervalSpec

section
variable {D : Type} [InputData D] {d : D} {cs : List Int} {ix : Nat → Int} {sl : Nat → Nat → D}

/-- What is known of a match with enough fuel. -/
theorem match_ok {env : Env D} (hw : Whole env.atn) {N : Nat} (hl : NoLoop env.atn N)
    (hh : TellsApart env.hash) (R : Reads d cs ix sl) (hs : Sane d) {fc fe b : Nat}
    (hfc : (N * N + N + 1) * (cs.length + 1) ≤ fc) (hfe : (N * N + N + 1) * (cs.length + 1) ≤ fe) {L : Lex D} {n : Nat}
    (hn : n ≤ cs.length) (hc : L.cur = at_ d cs ix n) {dfas : List DFA} (hr : Reached env.atn env.hash fc dfas)
    (hroom : Room (b + (fe + 1)) dfas) :
    ∃ res L' dfas', matchToken env fc fe L dfas = some (res, L', dfas') ∧ Reached env.atn env.hash fc dfas' ∧
      Room b dfas' ∧ ((∀ r a L, Untouched L (env.action r a L)) → NoEmpty env.atn → ∀ tt, res = .ok tt →
        (n < cs.length → L'.cur ≠ at_ d cs ix n) ∧ (n = cs.length → tt = TOKEN_EOF ∧ L' = L)) := by
  have hN : N * (N * (cs.length + 1) + 1) + cs.length + 1 ≤ (N * N + N + 1) * (cs.length + 1) := by
    have h1 : N ≤ N * (cs.length + 1) := Nat.le_mul_of_pos_right _ (by omega)
    rw [Nat.mul_succ N, ← Nat.mul_assoc, Nat.add_mul, Nat.add_mul]
    omega
  have hd : L.cur.input.data = d := by rw [hc]; rfl
  have hh' : ∀ l l', env.hash l = env.hash l' → abs nothing l = abs nothing l' := fun l l' e => abs_congr (hh l l' e)
  have hroom1 : Room (fe + 1) dfas := fun x hx => by have := hroom x hx; omega
  have hroom0 : Room b dfas := fun x hx => by have := hroom x hx; omega
  by_cases hm : L.mode < dfas.length
  · have hspec := match_spec (n := b) (fe := fe) blur_nothing hh' (reached_warm blur_nothing hh' hr) hm (by rw [hd]; exact hs) hroom
    obtain ⟨o, o1, o2⟩ := pmatch_ok (q := nothing) (fc := fc) (fe := fe) hw hl R hn hc (by omega) (by omega)
    rw [o1] at hspec
    cases o with
    | none => exact ⟨_, _, _, hspec, hr, hroom0, by simp⟩
    | some x =>
      obtain ⟨e, dfas', h1, h2, h3, h4, h5, h6⟩ := hspec
      refine ⟨_, _, _, h2, hr.used rfl rfl (by rw [hd]; exact hs) hroom1 h2, h5, ?_⟩
      intro hact he tt hok
      obtain ⟨k1, k2⟩ := o2 he x rfl
      have hix : L.cur.input.index = ix n := by rw [hc]; rfl
      refine ⟨fun hlt heq => ?_, fun heq => ?_⟩
      · obtain ⟨k3, w, w1, w2, w3⟩ := k1 hlt
        have hidx := congrArg (fun c => c.input.index) heq
        simp only [answer] at hok hidx
        cases hp : x.prev with
        | some a =>
          rw [hp] at hok hidx
          obtain ⟨v, v1, v2, v3⟩ := k3 a hp
          simp only [runExec_cur hact, InputStream.seek, at_] at hidx
          have := ix_inj R v2 hn (v3.symm.trans hidx)
          omega
        | none =>
          rw [hp] at hok hidx
          simp only at hok hidx
          by_cases hcond : x.symbol = EOF ∧ x.cur.input.index = L.cur.input.index
          · have h7 := hcond.1
            rw [w3, symAt_eof_iff R w1] at h7
            have h8 := hcond.2
            rw [hix, w2] at h8
            have := ix_inj R w1 hn h8
            omega
          · rw [if_neg hcond] at hok
            simp at hok
      · obtain ⟨k3, k4, k5⟩ := k2 heq
        have hcond : x.symbol = EOF ∧ x.cur.input.index = L.cur.input.index := ⟨k4, by rw [k5, ← hc]⟩
        simp only [answer, k3, if_pos hcond] at hok ⊢
        simp only [MatchRes.ok.injEq] at hok
        exact ⟨hok.symm, by rw [k5, ← hc]⟩
  · have e1 : dfas[L.mode]? = none := by simp; omega
    exact ⟨_, _, _, by simp only [matchToken, e1]; rfl, hr, hroom0, by simp⟩

/-- **C69** Matching a token returns: on an automaton from which nothing is missing and on which less than
`N` steps can be made in a row without reading, a depth of recursion and a number of rounds that grow in
proportion to the length of the input are enough, at every position and in every state of the cache. -/
theorem C69_match_returns {env : Env D} (hw : Whole env.atn) {N : Nat} (hl : NoLoop env.atn N)
    (hh : TellsApart env.hash) (R : Reads d cs ix sl) (hs : Sane d) {fc fe : Nat}
    (hfc : (N * N + N + 1) * (cs.length + 1) ≤ fc) (hfe : (N * N + N + 1) * (cs.length + 1) ≤ fe) {L : Lex D} {n : Nat}
    (hn : n ≤ cs.length) (hc : L.cur = at_ d cs ix n) {dfas : List DFA} (hr : Reached env.atn env.hash fc dfas)
    (hroom : Room (fe + 1) dfas) : ∃ r, matchToken env fc fe L dfas = some r := by
  obtain ⟨res, L', dfas', h, -⟩ := match_ok (b := 0) hw hl hh R hs hfc hfe hn hc hr (by simpa using hroom)
  exact ⟨_, h⟩

/-- **C69** Lexing returns: if moreover no rule matches without reading a character, every request for a
token returns, and from request number `length + 2` on the answer is the EOF token. -/
theorem C69_lexing_returns {env : Env D} (hw : Whole env.atn) {N : Nat} (hl : NoLoop env.atn N) (hne : NoEmpty env.atn)
    (hh : TellsApart env.hash) (ht : Tame env) (R : Reads d cs ix sl) (hs : Sane d) {fc fe fn : Nat}
    (hfc : (N * N + N + 1) * (cs.length + 1) ≤ fc) (hfe : (N * N + N + 1) * (cs.length + 1) ≤ fe)
    (hfn : 2 * cs.length + 3 ≤ fn) {dfas : List DFA} (hr : Reached env.atn env.hash fc dfas)
    (hroom : Room ((cs.length + 1) * (fe + 1)) dfas) (k : Nat) :
    ∃ ts L dfas', nextTokens env fc fe fn k (Lex.new (InputStream.new d)) dfas = some (ts, L, dfas') ∧
      ts.length = k ∧ ∀ (i : Nat) (t : Tok), cs.length + 1 ≤ i → ts[i]? = some t → t = eofToken cs ix := by
  have room : ∀ {b : Nat} {x : List DFA}, Room ((b + 1) * (fe + 1)) x → Room (b * (fe + 1) + (fe + 1)) x := by
    intro b x h; rwa [Nat.succ_mul] at h
  refine C22_reaches_eof R ht (Good := fun b x => Reached env.atn env.hash fc x ∧ Room (b * (fe + 1)) x) ?_ ⟨hr, hroom⟩
    hfn k
  constructor
  · rintro L x n b hn hc ⟨g1, g2⟩
    obtain ⟨res, L', x', h1, h2, h3, -⟩ := match_ok hw hl hh R hs hfc hfe hn hc g1 (room g2)
    exact ⟨_, h1, h2, h3⟩
  · rintro L L' x x' n b tt hn hc ⟨g1, g2⟩ h
    obtain ⟨res, L1, x1, h1, -, -, h4⟩ := match_ok hw hl hh R hs hfc hfe (Nat.le_of_lt hn) hc g1 (room g2)
    rw [h] at h1
    simp only [Option.some.injEq, Prod.mk.injEq] at h1
    obtain ⟨rfl, rfl, rfl⟩ := h1
    exact (h4 ht.action hne tt rfl).1 hn
  · rintro L L' x x' b tt hc hty ⟨g1, g2⟩ h
    obtain ⟨res, L1, x1, h1, -, -, h4⟩ := match_ok hw hl hh R hs hfc hfe (Nat.le_refl _) hc g1 (room g2)
    rw [h] at h1
    simp only [Option.some.injEq, Prod.mk.injEq] at h1
    obtain ⟨rfl, rfl, rfl⟩ := h1
    obtain ⟨rfl, rfl⟩ := (h4 ht.action hne tt rfl).2 rfl
    exact ⟨by decide, by rw [hty]; decide⟩

/-- **C25** and **C69** together: if any rule matches anything, the first of the rules with the longest match
is found (`fc` and `fe` as above; automata without non-greedy decisions). -/
theorem C25_match_found_partial {env : Env D} (ht : Tame env) (hg : Greedy env.atn) (hw : Whole env.atn) {N : Nat}
    (hl : NoLoop env.atn N) (hh : TellsApart env.hash) (R : Reads d cs ix sl) (hs : Sane d) {fc fe : Nat}
    (hfc : (N * N + N + 1) * (cs.length + 1) ≤ fc) (hfe : (N * N + N + 1) * (cs.length + 1) ≤ fe) {L : Lex D} {n : Nat}
    (hn : n ≤ cs.length) (hc : L.cur = at_ d cs ix n) {dfas : List DFA} (hr : Reached env.atn env.hash fc dfas)
    (hroom : Room (fe + 1) dfas) (hm : L.mode < dfas.length) {ss : Nat} {st : ATNState}
    (hss : env.atn.modeToStartState[L.mode]? = some ss) (hst : env.atn.states[ss]? = some st)
    (h : ∃ a v s acts, Matches env L cs ix n st a v s acts) :
    ∃ tt L' dfas' a v s t acts, matchToken env fc fe L dfas = some (.ok tt, L', dfas') ∧
      FirstLongest env L cs ix n st a v s acts ∧ env.atn.states[s]? = some t ∧
      env.atn.ruleToTokenType[t.ruleIndex]? = some tt ∧ L'.cur = at_ d cs ix (min v cs.length) := by
  obtain ⟨⟨r, L', dfas'⟩, hr'⟩ := C69_match_returns hw hl hh R hs hfc hfe hn hc hr hroom
  have := C25_longest_match_partial ht hg hh hr hroom hm hs R hn hc hss hst hr'
  obtain ⟨a, v, s, acts, h⟩ := h
  cases r with
  | ok tt =>
    rcases this with ⟨a, v, s, t, acts, h1⟩ | ⟨h1, -⟩
    · exact ⟨tt, L', dfas', a, v, s, t, acts, hr', h1⟩
    · exact absurd h (h1 a v s acts)
  | noAlt i => exact absurd h (this.2.1 a v s acts)
  | illegalMode => exact this.elim

end

/-! ## Examples -/

/-- The keywords, with a rule called by another one. -/
example (k : Nat) := C69_lexing_returns (env := kwEnv) (N := 5) (fc := 124) (fe := 124) (fn := 9) (k := k)
  (wholeCheck_ok (by decide))
  (loopCheck_ok (heights := [4, 1, 0, 0, 1, 3, 2, 3, 1, 1, 0, 1])
    (nulls := [false, false, false, false, true, false, false, true, true, false, false, true]) (by decide) (by decide) (by decide))
  (emptyCheck_ok (heights := [4, 1, 0, 0, 1, 3, 2, 3, 1, 1, 0, 1])
    (nulls := [false, false, false, false, true, false, false, true, true, false, false, true]) (by decide) (by decide))
  blindHash_ok ⟨fun _ _ L => Untouched.refl L, fun L => Untouched.refl L, fun _ => rfl⟩
  (reads_str ['i', 'f', 'f']) (sane_str _) (by decide) (by decide) (by decide) (dfas := kwDFAs)
  (new_reached (atn := kwATN) (by decide)) (new_room (atn := kwATN) (by decide) (by decide))

/-- `C : '<' .*? '>' ; L : '#' ~'\n'* ('\n' | EOF) ;`: a non-greedy loop and a rule that reads EOF. -/
def lineATN : ATN where
  grammarType := .lexer
  maxTokenType := 2
  decisionToState := [0, 3, 10, 12]
  modeToStartState := [0]
  ruleToStartState := [1, 8]
  ruleToStopState := [7, 15]
  ruleToTokenType := [1, 2]
  lexerActions := []
  states := [
    st 0 (.decision 0 false .tokenStart) [.epsilon 1 0, .epsilon 8 0],
    st 0 (.ruleStart 7 false) [.epsilon 2 0], st 0 .basic [.atom 3 60],
      st 0 (.decision 1 true (.starLoopEntry 5 false)) [.epsilon 6 0, .epsilon 4 0], st 0 .basic [.wildcard 5],
      st 0 .starLoopback [.epsilon 3 0], st 0 .basic [.atom 7 62], st 0 .ruleStop [],
    st 1 (.ruleStart 15 false) [.epsilon 9 0], st 1 .basic [.atom 10 35],
      st 1 (.decision 2 false (.starLoopEntry 10 false)) [.epsilon 11 0, .epsilon 12 0],
      st 1 .basic [.notSet 10 ⟨[⟨10, 10⟩], false⟩],
      st 1 (.decision 3 false (.blockStart 15 .basic)) [.epsilon 13 0, .epsilon 14 0],
      st 1 .basic [.atom 15 10], st 1 .basic [.atom 15 EOF], st 1 .ruleStop []]

def lineHeights : List Nat := [2, 1, 0, 1, 0, 2, 0, 1, 1, 0, 4, 0, 3, 0, 2, 1]
def lineNulls : List Bool :=
  [false, false, false, false, false, false, false, true, false, false, true, false, true, false, true, true]
def lineEnv : Env Str := { exEnv with atn := lineATN, hash := blindHash }
def lineDFAs : List DFA := ((DFA.new lineATN 0 0).toList)

example (k : Nat) := C69_lexing_returns (env := lineEnv) (N := 5) (fc := 155) (fe := 155) (fn := 11) (k := k)
  (wholeCheck_ok (by decide)) (loopCheck_ok (heights := lineHeights) (nulls := lineNulls) (by decide) (by decide) (by decide))
  (emptyCheck_ok (heights := lineHeights) (nulls := lineNulls) (by decide) (by decide))
  blindHash_ok ⟨fun _ _ L => Untouched.refl L, fun L => Untouched.refl L, fun _ => rfl⟩
  (reads_str ['<', '>', '>', '#']) (sane_str _) (by decide) (by decide) (by decide) (dfas := lineDFAs)
  (new_reached (atn := lineATN) (by decide)) (new_room (atn := lineATN) (by decide) (by decide))

/-- The first loop is left as soon as it can be; the comment ends with the input. -/
example : (nextTokens lineEnv 155 155 11 4 (Lex.new (InputStream.new (Str.mk ['<', '>', '>', '#']))) lineDFAs).map
    (fun r => r.1.map fun t => (t.ttype, t.start, t.stop)) = some [(1, 0, 1), (2, 3, 3), (-1, 4, 3), (-1, 4, 3)] := by
  decide +kernel

/-! ## Where it fails -/

/-- `X : ('a'?)* 'b' ;`, which the tool refuses: a loop that needs not read. -/
def loopATN : ATN where
  grammarType := .lexer
  maxTokenType := 1
  decisionToState := [0, 2, 3]
  modeToStartState := [0]
  ruleToStartState := [1]
  ruleToStopState := [7]
  ruleToTokenType := [1]
  lexerActions := []
  states := [
    st 0 (.decision 0 false .tokenStart) [.epsilon 1 0],
    st 0 (.ruleStart 7 false) [.epsilon 2 0],
      st 0 (.decision 1 false (.starLoopEntry 5 false)) [.epsilon 3 0, .epsilon 6 0],
      st 0 (.decision 2 false (.blockStart 5 .basic)) [.epsilon 4 0, .epsilon 5 0], st 0 .basic [.atom 5 97],
      st 0 .starLoopback [.epsilon 2 0], st 0 .basic [.atom 7 98], st 0 .ruleStop []]

theorem foldlM_none {α β : Type} {f : β → α → Option β} {x : α} (h : ∀ b, f b x = none) (l : List α) (hx : x ∈ l) :
    ∀ b, l.foldlM f b = none := by
  induction l with
  | nil => simp at hx
  | cons y l ih =>
    intro b
    rw [List.foldlM_cons]
    rcases List.mem_cons.mp hx with rfl | hx
    · rw [h]; rfl
    · cases hy : f b y with
      | none => rfl
      | some b' => exact ih hx b'

theorem jump_none {atn : ATN} {pred : Int → Int → Option Bool} {eof : Bool} {fuel : Nat} {c : Config} {st : ATNState}
    {t : Nat} {p : Int} (hs : atn.states[c.state]? = some st) (hn : st.stateType ≠ .ruleStop) (ht : .epsilon t p ∈ st.transitions)
    (h : ∀ c' acc, c'.state = t → Lexer.closure atn pred eof fuel c' acc = none) (acc : ConfigSet × Bool) :
    Lexer.closure atn pred eof (fuel + 1) c acc = none := by
  obtain ⟨cs, fl⟩ := acc
  simp only [Lexer.closure, hs, Option.bind_some, if_neg hn]
  rw [Option.bind_eq_none_iff]
  intro cs1 _
  refine foldlM_none (x := .epsilon t p) ?_ _ ht _
  intro b
  simp only [epsilonTarget]
  cases atn.states[(Trans.epsilon t p).target]? with
  | none => rfl
  | some tst => exact h _ _ rfl

theorem loop_closure {pred : Int → Int → Option Bool} {eof : Bool} (fuel : Nat) : ∀ (c : Config) (acc : ConfigSet × Bool),
    c.state = 1 ∨ c.state = 2 ∨ c.state = 3 ∨ c.state = 5 → Lexer.closure loopATN pred eof fuel c acc = none := by
  induction fuel with
  | zero => intros; rfl
  | succ fuel ih =>
    rintro c acc (h | h | h | h)
    · exact jump_none (t := 2) (p := 0) (by rw [h]; rfl) (by simp [st]) (by simp [st]) (fun c' acc h' => ih c' acc (by simp [h'])) acc
    · exact jump_none (t := 3) (p := 0) (by rw [h]; rfl) (by simp [st]) (by simp [st]) (fun c' acc h' => ih c' acc (by simp [h'])) acc
    · exact jump_none (t := 5) (p := 0) (by rw [h]; rfl) (by simp [st]) (by simp [st]) (fun c' acc h' => ih c' acc (by simp [h'])) acc
    · exact jump_none (t := 2) (p := 0) (by rw [h]; rfl) (by simp [st]) (by simp [st]) (fun c' acc h' => ih c' acc (by simp [h'])) acc

/-- **C69 fails** on an automaton with a loop that needs not read: nothing is missing from it, but the first
match never returns, however deep the recursion may be. -/
theorem C69_false_loop : Whole loopATN ∧
    ∀ {D : Type} [InputData D] (env : Env D), env.atn = loopATN → ∀ (fc fe : Nat) (L : Lex D), L.mode = 0 →
      matchToken env fc fe L (DFA.new loopATN 0 0).toList = none := by
  refine ⟨wholeCheck_ok (by decide), ?_⟩
  intro D _ env he fc fe L hm
  obtain ⟨d, hd⟩ : ∃ d, DFA.new loopATN 0 0 = some d := ⟨_, rfl⟩
  have hs0 : d.s0 = none := by
    have : (DFA.new loopATN 0 0).map (·.s0) = some none := by decide
    rw [hd] at this; simpa using this
  have h1 : matchAtn env fc fe L d = none := by
    simp only [matchAtn, hm, he]
    have h2 : loopATN.modeToStartState[0]? = some 0 := rfl
    have h3 : loopATN.states[0]? = some (st 0 (.decision 0 false .tokenStart) [.epsilon 1 0]) := rfl
    rw [h2]
    simp only [h3, Option.bind_some]
    simp only [st, startSet]
    rw [loop_closure fc _ _ (by simp [Trans.target])]
    rfl
  simp only [matchToken, hd, hm, Option.toList_some, List.getElem?_cons_zero, hs0, h1, Option.map_none]

/-- `E : 'a'* ;`: a rule that matches without reading. -/
def emptyATN : ATN where
  grammarType := .lexer
  maxTokenType := 1
  decisionToState := [0, 2]
  modeToStartState := [0]
  ruleToStartState := [1]
  ruleToStopState := [5]
  ruleToTokenType := [1]
  lexerActions := []
  states := [
    st 0 (.decision 0 false .tokenStart) [.epsilon 1 0],
    st 0 (.ruleStart 5 false) [.epsilon 2 0],
      st 0 (.decision 1 false (.starLoopEntry 4 false)) [.epsilon 3 0, .epsilon 5 0], st 0 .basic [.atom 4 97],
      st 0 .starLoopback [.epsilon 2 0], st 0 .ruleStop []]

def emptyEnv : Env Str := { exEnv with atn := emptyATN, hash := blindHash }
def emptyDFAs : List DFA := ((DFA.new emptyATN 0 0).toList)

/-- **C69 fails** when a rule matches without reading: nothing is missing and there is no loop, but on `b` the
lexer returns empty tokens again and again and does not come to the end. -/
theorem C69_false_empty : Whole emptyATN ∧ NoLoop emptyATN 5 ∧ ∃ ts L dfas,
    nextTokens emptyEnv 62 62 62 20 (Lex.new (InputStream.new (Str.mk ['b']))) emptyDFAs = some (ts, L, dfas) ∧
    ts.map (fun t => (t.ttype, t.start, t.stop)) = List.replicate 20 (1, 0, -1) := by
  refine ⟨wholeCheck_ok (by decide), loopCheck_ok (heights := [4, 3, 2, 0, 3, 1]) (nulls := [true, true, true, false, true, true])
    (by decide) (by decide) (by decide), ?_⟩
  have h : (nextTokens emptyEnv 62 62 62 20 (Lex.new (InputStream.new (Str.mk ['b']))) emptyDFAs).map
      (fun r => r.1.map (fun t => (t.ttype, t.start, t.stop))) = some (List.replicate 20 (1, 0, -1)) := by decide +kernel
  obtain ⟨r, hr, h⟩ := Option.map_eq_some_iff.mp h
  exact ⟨r.1, r.2.1, r.2.2, hr, h⟩

end Antlr.LexTotalProps
