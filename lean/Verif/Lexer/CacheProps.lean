import Verif.Lexer.CacheRun
import Verif.Lexer.InterruptLemmas
import Verif.Lexer.Encode
import Verif.Lexer.Example

/-!
# C26: the DFA cache of the lexer

The property fails (`C26_false_executors`, `C26_false_offsets`).  What holds, for every grammar and
every history of matches by any lexers sharing the cache:

* with a hash that tells apart everything but executors (what the real one does when there is no
  collision) token type and token end never depend on the cache;
* with a hash that tells executors apart as well, the executed actions agree up to the offsets of
  custom actions, and all tokens agree when custom actions do not look at the input position.
-/

namespace Antlr.LexCacheProps
open Antlr Lexer LexCache LexSpec LexProps LexExample

/-- How the DFAs of a grammar come about: created empty, then used by matches of any lexers for the
grammar, on any inputs and with any predicates and actions; some matches were interrupted by a panic in their
middle. -/
inductive Reached (atn : ATN) (hash : List Config → Nat) (fc : Nat) : List DFA → Prop
  | new {dfas : List DFA} :
      (∀ d ∈ dfas, ∃ s n, DFA.new atn s n = some d ∧ d.isPrecedence = false) → Reached atn hash fc dfas
  | used {D : Type} [InputData D] {env : Env D} {fe : Nat} {L L' : Lex D} {r : MatchRes}
      {dfas dfas' : List DFA} :
      Reached atn hash fc dfas → env.atn = atn → env.hash = hash → Sane L.cur.input.data →
      Room (fe + 1) dfas → matchToken env fc fe L dfas = some (r, L', dfas') → Reached atn hash fc dfas'
  | cut {D : Type} [InputData D] {env : Env D} {L : Lex D} {dfas : List DFA} {d d' : DFA} :
      Reached atn hash fc dfas → env.atn = atn → env.hash = hash → Sane L.cur.input.data → dfas[L.mode]? = some d →
      Interrupted env fc L d d' → d'.states.length < ERROR_DFA_STATE_REF → Reached atn hash fc (dfas.set L.mode d')

/-- Lists with the same hash agree in everything but the executors. -/
def TellsApart (hash : List Config → Nat) : Prop :=
  ∀ l l', hash l = hash l' → l.map (er nothing) = l'.map (er nothing)

/-- Lists with the same hash agree in everything but the offsets of custom actions. -/
def TellsActionsApart (hash : List Config → Nat) : Prop :=
  ∀ l l', hash l = hash l' → l.map (er noOffsets) = l'.map (er noOffsets)

theorem reached_warm {q} {atn : ATN} {hash : List Config → Nat} {fc : Nat} (hq : Blur q)
    (hh : ∀ l l', hash l = hash l' → abs q l = abs q l') {dfas : List DFA} (h : Reached atn hash fc dfas) :
    AllWarm q atn hash fc dfas := by
  induction h with
  | new hd =>
    intro m d hm
    obtain ⟨s, n, hn, hp⟩ := hd d (List.mem_of_getElem? hm)
    simp only [DFA.new, Option.map_eq_some_iff] at hn
    obtain ⟨st, _, hn⟩ := hn
    split at hn
    · subst hn; simp at hp
    · subst hn
      simp only [Warm]
      split
      · simp
      · refine ⟨by simp, by simp [ERROR_DFA_STATE_REF], ?_, ?_, by simp, by simp⟩
        · intro i x hi hx
          rw [List.getElem?_eq_none (by simp; omega)] at hx; simp at hx
        · intro i x t y hi hx
          rw [List.getElem?_eq_none (by simp; omega)] at hx; simp at hx
  | used hr he hha hs hroom hm ih =>
    rename_i D _ env fe L L' r dfas dfas'
    subst he; subst hha
    by_cases hlt : L.mode < dfas.length
    · have := match_spec (n := 0) hq hh ih hlt hs (by simpa using hroom)
      split at this
      · rw [this] at hm; simp at hm
      · rw [this] at hm; simp only [Option.some.injEq, Prod.mk.injEq] at hm
        obtain ⟨_, _, rfl⟩ := hm; exact ih
      · obtain ⟨e, d', e1, e2, e3, _⟩ := this
        rw [e2] at hm; simp only [Option.some.injEq, Prod.mk.injEq] at hm
        obtain ⟨_, _, rfl⟩ := hm; exact e3
    · have e1 : dfas[L.mode]? = none := by simp; omega
      simp only [matchToken, e1, Option.some.injEq, Prod.mk.injEq] at hm
      obtain ⟨_, _, rfl⟩ := hm; exact ih
  | cut hr he hha hs hd hi hsz ih =>
    rename_i D _ env L dfas d d'
    subst he; subst hha
    have hlt := (List.getElem?_eq_some_iff.1 hd).1
    intro m y hy
    by_cases hmm : L.mode = m
    · subst hmm
      rw [List.getElem?_set_self hlt] at hy
      cases hy
      exact interrupted_warm hq hh (ih _ _ hd) hs hi hsz
    · rw [List.getElem?_set_ne hmm] at hy
      exact ih m y hy

variable {D : Type} [InputData D]

/-- **C26** (partial: the hash must not collide, and nothing is said about actions) Type and end of the
matched token, or the failure to match, do not depend on what earlier matches left in the cache. -/
theorem C26_type_and_end_partial {env : Env D} (ht : Tame env) {fc fe : Nat} (hh : TellsApart env.hash)
    {d d' : List DFA} (h : Reached env.atn env.hash fc d) (h' : Reached env.atn env.hash fc d')
    (hl : d.length = d'.length) (hr : Room (fe + 1) d) (hr' : Room (fe + 1) d') {L : Lex D}
    (hs : Sane L.cur.input.data) :
    (matchToken env fc fe L d).map (fun r => (r.1, r.2.1.cur)) =
      (matchToken env fc fe L d').map (fun r => (r.1, r.2.1.cur)) := by
  have hh' : ∀ l l', env.hash l = env.hash l' → abs nothing l = abs nothing l' :=
    fun l l' e => abs_congr (hh l l' e)
  by_cases hm : L.mode < d.length
  · have h1 := match_spec (n := 0) blur_nothing hh' (reached_warm blur_nothing hh' h) hm hs (by simpa using hr)
    have h2 := match_spec (n := 0) blur_nothing hh' (reached_warm blur_nothing hh' h') (by omega) hs
      (by simpa using hr')
    cases hp : pmatch nothing env fc fe L with
    | none => rw [hp] at h1 h2; simp only at h1 h2; rw [h1, h2]
    | some o =>
      rw [hp] at h1 h2
      cases o with
      | none => simp only at h1 h2; rw [h1, h2]; rfl
      | some x =>
        obtain ⟨e, d1, -, a2, -⟩ := h1
        obtain ⟨e', d1', -, b2, -⟩ := h2
        rw [a2, b2]
        obtain ⟨k1, k2, -⟩ := answer_cur ht.action L.cur.input.index x e e' L
        simp [k1, k2]
  · have e1 : d[L.mode]? = none := by simp; omega
    have e2 : d'[L.mode]? = none := by simp; omega
    simp [matchToken, e1, e2]

/-- **C26** (partial: the hash must tell executors apart, and offsets are left out) The actions executed
after a match are the same whatever is in the cache, up to the positions custom actions run at. -/
theorem C26_actions_partial {env : Env D} {fc fe : Nat} (hh : TellsActionsApart env.hash)
    {d d' : List DFA} (h : Reached env.atn env.hash fc d) (h' : Reached env.atn env.hash fc d')
    (hl : d.length = d'.length) (hr : Room (fe + 1) d) (hr' : Room (fe + 1) d') {L : Lex D}
    (hs : Sane L.cur.input.data) :
    (matchToken env fc fe L d = none ∧ matchToken env fc fe L d' = none) ∨
    ∃ res L0 e e' d1 d1',
      matchToken env fc fe L d = some (res, runExec env.action L.cur.input.index e L0, d1) ∧
      matchToken env fc fe L d' = some (res, runExec env.action L.cur.input.index e' L0, d1') ∧
      noOffsets e = noOffsets e' := by
  have hh' : ∀ l l', env.hash l = env.hash l' → abs noOffsets l = abs noOffsets l' :=
    fun l l' e => abs_congr (hh l l' e)
  by_cases hm : L.mode < d.length
  · have h1 := match_spec (n := 0) blur_noOffsets hh' (reached_warm blur_noOffsets hh' h) hm hs (by simpa using hr)
    have h2 := match_spec (n := 0) blur_noOffsets hh' (reached_warm blur_noOffsets hh' h') (by omega) hs
      (by simpa using hr')
    cases hp : pmatch noOffsets env fc fe L with
    | none => rw [hp] at h1 h2; exact .inl ⟨h1, h2⟩
    | some o =>
      rw [hp] at h1 h2
      cases o with
      | none => exact .inr ⟨_, L, none, none, _, _, h1, h2, rfl⟩
      | some x =>
        obtain ⟨e, d1, a1, a2, -⟩ := h1
        obtain ⟨e', d1', b1, b2, -⟩ := h2
        right
        simp only [answer] at a2 b2
        cases hx : x.prev with
        | none =>
          simp only [hx] at a2 b2
          by_cases hc : x.symbol = EOF ∧ x.cur.input.index = L.cur.input.index
          · rw [if_pos hc] at a2 b2
            exact ⟨_, _, none, none, _, _, a2, b2, rfl⟩
          · rw [if_neg hc] at a2 b2
            exact ⟨_, _, none, none, _, _, a2, b2, rfl⟩
        | some b =>
          simp only [hx] at a2 b2
          exact ⟨_, _, e, e', _, _, a2, b2, (a1 (by simp [hx])).trans (b1 (by simp [hx])).symm⟩
  · have e1 : d[L.mode]? = none := by simp; omega
    have e2 : d'[L.mode]? = none := by simp; omega
    exact .inr ⟨.illegalMode, L, none, none, d, d', by simp [matchToken, e1, runExec],
      by simp [matchToken, e2, runExec], rfl⟩

/-- **C26** (partial: as above, and custom actions must not look at the input position) All tokens of a
run, and the state of the lexer after it, are the same whatever is in the cache at its start. -/
theorem C26_tokens_partial {env : Env D} (ht : Tame env) (hb : PositionBlind env.action) {fc fe fn k : Nat}
    (hh : TellsActionsApart env.hash) {d d' : List DFA} (h : Reached env.atn env.hash fc d)
    (h' : Reached env.atn env.hash fc d') (hl : d.length = d'.length) (hr : Room (k * (fn * (fe + 1))) d)
    (hr' : Room (k * (fn * (fe + 1))) d') {L : Lex D} (hs : Sane L.cur.input.data) :
    (nextTokens env fc fe fn k L d).map (fun r => (r.1, r.2.1)) =
      (nextTokens env fc fe fn k L d').map (fun r => (r.1, r.2.1)) := by
  have hh' : ∀ l l', env.hash l = env.hash l' → abs noOffsets l = abs noOffsets l' :=
    fun l l' e => abs_congr (hh l l' e)
  exact nextTokens_same ht hb hh' (n := 0) k
    ⟨reached_warm blur_noOffsets hh' h, reached_warm blur_noOffsets hh' h', hl, by simpa using hr,
      by simpa using hr'⟩ hs

/-! ## The hypotheses can be met -/

theorem sane_str (s : Str) : Sane s := by
  intro i v h
  simp only [InputData.item, Str.item] at h
  split at h
  · simp at h
  · obtain ⟨cs, _, h⟩ := Option.bind_eq_some_iff.mp h
    simp only [Option.map_eq_some_iff] at h
    obtain ⟨c, _, h⟩ := h
    have : c.toNat < 2 ^ 32 := c.val.toNat_lt
    omega

theorem sane_units (data : List Nat) (hd : ∀ v ∈ data, v < 2 ^ 63) : Sane (Units.mk data) := by
  intro i v h
  simp only [InputData.item, Units.item] at h
  split at h
  · simp at h
  · simp only [Option.map_eq_some_iff] at h
    obtain ⟨x, hx, h⟩ := h
    have := hd x (List.mem_of_getElem? hx)
    omega

/-- The hash that leaves out executors. -/
def blindHash (l : List Config) : Nat := Encode.configs (l.map (er nothing))

theorem blindHash_ok : TellsApart blindHash := fun _ _ h => Encode.configs_inj h
theorem fullHash_ok : TellsActionsApart Encode.configs := fun _ _ h => by rw [Encode.configs_inj h]

/-- The example grammar with a hash without collisions. -/
def exFull : Env Str := { exEnv with hash := Encode.configs }

theorem exDFAs_new : Reached exATN Encode.configs 20 exDFAs ∧ Reached exATN blindHash 20 exDFAs := by
  have h : ∀ d ∈ exDFAs, ∃ s n, DFA.new exATN s n = some d ∧ d.isPrecedence = false := by
    intro d hd
    refine ⟨0, 0, ?_⟩
    have hn : (DFA.new exATN 0 0).isSome = true := by decide
    obtain ⟨d', hd'⟩ := Option.isSome_iff_exists.mp hn
    simp only [exDFAs, hd', Option.toList_some, List.mem_singleton] at hd
    subst hd
    refine ⟨hd', ?_⟩
    have : (DFA.new exATN 0 0).map (·.isPrecedence) = some false := by decide
    rw [hd'] at this
    simpa using this
  exact ⟨.new h, .new h⟩

/-- The cache after matching ` ` and then `a` is not empty any more, and the run on the example text
gives the same tokens with it as with the empty one. -/
example : ∃ dfas, Reached exATN Encode.configs 20 dfas ∧ dfas.map (·.states.length) = [4] ∧
    (nextTokens exFull 20 20 20 5 (Lex.new (InputStream.new (Str.mk exText))) dfas).map (fun r => (r.1, r.2.1)) =
    (nextTokens exFull 20 20 20 5 (Lex.new (InputStream.new (Str.mk exText))) exDFAs).map (fun r => (r.1, r.2.1)) := by
  have h : ((matchToken exFull 20 20 (Lex.new (InputStream.new (Str.mk [' ']))) exDFAs).bind fun r =>
      (matchToken exFull 20 20 (Lex.new (InputStream.new (Str.mk ['a']))) r.2.2).map
        fun x => (r.2.2.map (·.states.length), x.2.2.map (·.states.length))) = some ([3], [4]) := by decide +kernel
  obtain ⟨⟨r1, L1, d1⟩, h1, h⟩ := Option.bind_eq_some_iff.mp h
  simp only [Option.map_eq_some_iff, Prod.mk.injEq] at h
  obtain ⟨⟨r2, L2, d2⟩, h2, h3, h4⟩ := h
  have room : ∀ {l : List DFA} {n : Nat}, l.map (·.states.length) = [n] → n ≤ 4 → ∀ m, m ≤ 5000 → Room m l := by
    intro l n hl hn m hm d hd
    have : d.states.length ∈ l.map (·.states.length) := List.mem_map_of_mem hd
    rw [hl] at this
    simp only [List.mem_singleton] at this
    simp only [ERROR_DFA_STATE_REF]
    omega
  have e0 : exDFAs.map (·.states.length) = [1] := by decide
  have g1 : Reached exATN Encode.configs 20 d1 :=
    .used exDFAs_new.1 rfl rfl (sane_str _) (room e0 (by omega) _ (by omega)) h1
  have g2 : Reached exATN Encode.configs 20 d2 :=
    .used g1 rfl rfl (sane_str _) (room h3 (by omega) _ (by omega)) h2
  refine ⟨d2, g2, h4, ?_⟩
  refine C26_tokens_partial ⟨fun _ _ L => Untouched.refl L, fun L => Untouched.refl L, fun _ => rfl⟩ (fun _ _ _ _ => rfl)
    fullHash_ok g2 exDFAs_new.1 ?_ (room h4 (by omega) _ (by omega)) (room e0 (by omega) _ (by omega)) (sane_str _)
  have := congrArg List.length h4
  simp only [List.length_map, List.length_cons, List.length_nil] at this
  rw [this]; decide

/-- With the hash that leaves out executors: after ` ` was matched the cache has two states more, and
matching the example text gives the same answer at the same place. -/
example : ∃ dfas, Reached exATN blindHash 20 dfas ∧ dfas.map (·.states.length) = [3] ∧
    (matchToken { exEnv with hash := blindHash } 20 20 (Lex.new (InputStream.new (Str.mk exText))) dfas).map
      (fun r => (r.1, r.2.1.cur)) =
    (matchToken { exEnv with hash := blindHash } 20 20 (Lex.new (InputStream.new (Str.mk exText))) exDFAs).map
      (fun r => (r.1, r.2.1.cur)) := by
  have h : (matchToken { exEnv with hash := blindHash } 20 20 (Lex.new (InputStream.new (Str.mk [' '])))
      exDFAs).map (fun r => r.2.2.map (·.states.length)) = some [3] := by decide +kernel
  simp only [Option.map_eq_some_iff] at h
  obtain ⟨⟨r1, L1, d1⟩, h1, h3⟩ := h
  have room : ∀ {l : List DFA} {n : Nat}, l.map (·.states.length) = [n] → n ≤ 4 → Room 21 l := by
    intro l n hl hn d hd
    have : d.states.length ∈ l.map (·.states.length) := List.mem_map_of_mem hd
    rw [hl] at this
    simp only [List.mem_singleton] at this
    simp only [ERROR_DFA_STATE_REF]
    omega
  have e0 : exDFAs.map (·.states.length) = [1] := by decide
  have g1 : Reached exATN blindHash 20 d1 :=
    .used exDFAs_new.2 rfl rfl (sane_str _) (room e0 (by omega)) h1
  refine ⟨d1, g1, h3, ?_⟩
  refine C26_type_and_end_partial ⟨fun _ _ L => Untouched.refl L, fun L => Untouched.refl L, fun _ => rfl⟩
    blindHash_ok g1 exDFAs_new.2 ?_ (room h3 (by omega)) (room e0 (by omega)) (sane_str _)
  have := congrArg List.length h3
  simp only [List.length_map, List.length_cons, List.length_nil] at this
  rw [this]; decide

/-! ## Where the property fails -/

/-- `WS : ' ' -> skip | '\t' -> channel(1) ;` -/
def wsATN : ATN where
  grammarType := .lexer
  maxTokenType := 1
  decisionToState := [0]
  modeToStartState := [0]
  ruleToStartState := [1]
  ruleToStopState := [7]
  ruleToTokenType := [1]
  lexerActions := [.skip, .channel 1]
  states := [
    st 0 (.decision 0 false .tokenStart) [.epsilon 1 0],
    st 0 (.ruleStart 7 false) [.epsilon 2 0], st 0 .basic [.epsilon 3 0, .epsilon 5 0],
    st 0 .basic [.atom 4 32], st 0 .basic [.action 7 false 0 0 0],
    st 0 .basic [.atom 6 9], st 0 .basic [.action 7 false 0 1 0], st 0 .ruleStop []]

def wsEnv : Env Str := { exEnv with atn := wsATN, hash := blindHash }

def wsDFAs : List DFA := ((DFA.new wsATN 0 0).toList)

/-- **C26 fails**: after a blank was matched, a tab is skipped instead of being sent to channel 1: the
two accepting states differ only in their actions and are taken for the same. -/
theorem C26_false_executors : ∃ r1 L1 d1 r2 L2 d2 r3 L3 d3,
    matchToken wsEnv 20 20 (Lex.new (InputStream.new (Str.mk [' ']))) wsDFAs = some (r1, L1, d1) ∧
    matchToken wsEnv 20 20 (Lex.new (InputStream.new (Str.mk ['\t']))) wsDFAs = some (r2, L2, d2) ∧
    matchToken wsEnv 20 20 (Lex.new (InputStream.new (Str.mk ['\t']))) d1 = some (r3, L3, d3) ∧
    L2.channel = 1 ∧ L2.ttype = 0 ∧ L3.channel = 0 ∧ L3.ttype = LEXER_SKIP := by
  have h : ((matchToken wsEnv 20 20 (Lex.new (InputStream.new (Str.mk [' ']))) wsDFAs).bind fun r1 =>
      (matchToken wsEnv 20 20 (Lex.new (InputStream.new (Str.mk ['\t']))) wsDFAs).bind fun r2 =>
        (matchToken wsEnv 20 20 (Lex.new (InputStream.new (Str.mk ['\t']))) r1.2.2).map fun r3 =>
          (r2.2.1.channel, r2.2.1.ttype, r3.2.1.channel, r3.2.1.ttype)) = some (1, 0, 0, LEXER_SKIP) := by
    decide +kernel
  obtain ⟨⟨r1, L1, d1⟩, h1, h⟩ := Option.bind_eq_some_iff.mp h
  obtain ⟨⟨r2, L2, d2⟩, h2, h⟩ := Option.bind_eq_some_iff.mp h
  simp only [Option.map_eq_some_iff, Prod.mk.injEq] at h
  obtain ⟨⟨r3, L3, d3⟩, h3, g1, g2, g3, g4⟩ := h
  exact ⟨r1, L1, d1, r2, L2, d2, r3, L3, d3, h1, h2, h3, g1, g2, g3, g4⟩

/-- `X : 'a'+ {action} 'b' ;` -/
def offATN : ATN where
  grammarType := .lexer
  maxTokenType := 1
  decisionToState := [0]
  modeToStartState := [0]
  ruleToStartState := [1]
  ruleToStopState := [6]
  ruleToTokenType := [1]
  lexerActions := [.custom 0 0]
  states := [
    st 0 (.decision 0 false .tokenStart) [.epsilon 1 0],
    st 0 (.ruleStart 6 false) [.epsilon 2 0], st 0 .basic [.atom 3 97],
    st 0 .basic [.epsilon 2 0, .epsilon 4 0], st 0 .basic [.action 5 false 0 0 0],
    st 0 .basic [.atom 6 98], st 0 .ruleStop []]

/-- The action writes down the index it runs at. -/
def offEnv : Env Str :=
  { exEnv with
    atn := offATN
    hash := Encode.configs
    action := fun _ _ L => { L with text := some [Char.ofNat (L.cur.input.index.toNat + 48)] } }

def offDFAs : List DFA := ((DFA.new offATN 0 0).toList)

/-- **C26 fails** even with a hash without collisions: the offset of the action inside a rule is baked
into the cached edge.  On `aab` the action runs at index 2 with an empty cache, but at index 1 after `ab`
was matched. -/
theorem C26_false_offsets : ∃ r1 L1 d1 r2 L2 d2 r3 L3 d3,
    matchToken offEnv 20 20 (Lex.new (InputStream.new (Str.mk ['a', 'b']))) offDFAs = some (r1, L1, d1) ∧
    matchToken offEnv 20 20 (Lex.new (InputStream.new (Str.mk ['a', 'a', 'b']))) offDFAs = some (r2, L2, d2) ∧
    matchToken offEnv 20 20 (Lex.new (InputStream.new (Str.mk ['a', 'a', 'b']))) d1 = some (r3, L3, d3) ∧
    L2.text = some ['2'] ∧ L3.text = some ['1'] := by
  have h : ((matchToken offEnv 20 20 (Lex.new (InputStream.new (Str.mk ['a', 'b']))) offDFAs).bind fun r1 =>
      (matchToken offEnv 20 20 (Lex.new (InputStream.new (Str.mk ['a', 'a', 'b']))) offDFAs).bind fun r2 =>
        (matchToken offEnv 20 20 (Lex.new (InputStream.new (Str.mk ['a', 'a', 'b']))) r1.2.2).map fun r3 =>
          (r2.2.1.text, r3.2.1.text)) = some (some ['2'], some ['1']) := by
    decide +kernel
  obtain ⟨⟨r1, L1, d1⟩, h1, h⟩ := Option.bind_eq_some_iff.mp h
  obtain ⟨⟨r2, L2, d2⟩, h2, h⟩ := Option.bind_eq_some_iff.mp h
  simp only [Option.map_eq_some_iff, Prod.mk.injEq] at h
  obtain ⟨⟨r3, L3, d3⟩, h3, g1, g2⟩ := h
  exact ⟨r1, L1, d1, r2, L2, d2, r3, L3, d3, h1, h2, h3, g1, g2⟩

end Antlr.LexCacheProps
