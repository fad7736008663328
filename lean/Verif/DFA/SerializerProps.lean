import Verif.Lexer.Print
import Verif.Prediction.Print
import Verif.Prediction.AnswerProps

/-! # C80: printing a DFA -/

namespace Antlr.PrintProps
open Antlr PrintSpec

/-! ## Lexers -/

/-- The text lists the arrows of the DFA by source and label, each as one line; `label c` stands for label `c`. -/
def Lists (label : Nat → List Char) (d : DFA) (text : List Char) : Prop :=
  ∃ lines : List ((Nat × Nat × Nat) × Mark × Mark), (lines.map (·.1)).Pairwise Before ∧
    (∀ i c j, (i, c, j) ∈ lines.map (·.1) ↔ Arrow d i c j) ∧
    (∀ x ∈ lines, Marked d x.1.1 x.2.1 ∧ Marked d x.1.2.2 x.2.2) ∧
    text = lines.flatMap fun x => x.2.1.text showNat showInt ++ '-' :: label x.1.2.1 ++ '-' :: '>' ::
      x.2.2.text showNat showInt ++ ['\n']

theorem lists_of {d : DFA} {lab : Nat → List Char} (h : ∀ i c j, Arrow d i c j → Prints d i ∧ Prints d j) :
    Lists lab d ((arrows d).flatMap (line lab d)) := by
  have e : ((arrows d).map fun a => (a, markOf d a.1, markOf d a.2.2)).map (·.1) = arrows d := by
    rw [List.map_map]
    exact List.map_id _
  refine ⟨(arrows d).map fun a => (a, markOf d a.1, markOf d a.2.2), ?_, ?_, ?_, ?_⟩
  · rw [e]; exact sorted_arrowsFrom _ _
  · intro i c j
    rw [e]; exact mem_arrows
  · intro x hx
    obtain ⟨a, ha, rfl⟩ := List.mem_map.1 hx
    obtain ⟨h1, h2⟩ := h _ _ _ (mem_arrows.1 ha)
    exact ⟨marked_markOf h1, marked_markOf h2⟩
  · rw [List.flatMap_map]
    rfl

/-- **C80** `to_lexer_string` returns for every DFA of a lexer, whatever matches it was used for, also if some were
interrupted.  The text is empty as long as the DFA has no start state.  Otherwise it has a line for each arrow, by
source and character, with the token type at accepting states. -/
theorem C80_lexer_prints {atn : ATN} {hash : List Config → Nat} {fc : Nat} {dfas : List DFA}
    (h : LexCacheProps.Reached atn hash fc dfas) {d : DFA} (hd : d ∈ dfas) :
    ∃ text, d.toLexerString = some text ∧ (d.s0 = none → text = []) ∧
      (d.s0 ≠ none → Lists (fun c => ['\'', Char.ofNat c, '\'']) d text) ∧ ∀ i c j, Arrow d i c j → c < 128 := by
  have hn := LexPrint.reached_neat h d hd
  have small : ∀ i c j, Arrow d i c j → c < 128 := fun i c j ha => (LexPrint.neat_prints hn ha).2.1
  unfold DFA.toLexerString
  by_cases hs : d.s0 = none
  · exact ⟨[], if_pos hs, fun _ => rfl, fun h => absurd hs h, small⟩
  · refine ⟨_, (if_neg hs).trans (printed (lab := LexPrint.quoted) ?_), fun h => absurd h hs, fun _ => lists_of ?_, small⟩
    · intro i c j ha
      obtain ⟨h1, h2, h3⟩ := LexPrint.neat_prints hn ha
      exact ⟨h1, by rw [LexPrint.charOf_small h2]; rfl, h3⟩
    · intro i c j ha
      obtain ⟨h1, -, h3⟩ := LexPrint.neat_prints hn ha
      exact ⟨h1, h3⟩

/-- **C80** The arrows, the accepting states at their ends and the token types can be read off the text: DFAs of
lexers (of any grammars) that print the same have the same ones. -/
theorem C80_lexer_read {atn atn' : ATN} {hash hash' : List Config → Nat} {fc fc' : Nat} {dfas dfas' : List DFA}
    (h : LexCacheProps.Reached atn hash fc dfas) (h' : LexCacheProps.Reached atn' hash' fc' dfas') {d d' : DFA}
    (hd : d ∈ dfas) (hd' : d' ∈ dfas') (hs : d.s0 ≠ none) (hs' : d'.s0 ≠ none) (e : d.toLexerString = d'.toLexerString)
    {i c j : Nat} (ha : Arrow d i c j) :
    Arrow d' i c j ∧ ∀ k m, k = i ∨ k = j → Marked d k m → Marked d' k m := by
  have key : ∀ {atn : ATN} {hash : List Config → Nat} {fc : Nat} {dfas : List DFA} {d : DFA}, LexCacheProps.Reached atn hash fc dfas →
      d ∈ dfas → AllPrint LexPrint.quoted (fun x => (charOf x).map fun c => ['\'', c, '\'']) (· < 128) d := by
    intro atn hash fc dfas d h hd i c j ha
    obtain ⟨h1, h2, h3⟩ := LexPrint.neat_prints (LexPrint.reached_neat h d hd) ha
    exact ⟨h1, ⟨by show (charOf c).map _ = _; rw [LexPrint.charOf_small h2]; rfl, h2⟩, h3⟩
  unfold DFA.toLexerString at e
  rw [if_neg hs, if_neg hs'] at e
  obtain ⟨a1, a2, a3⟩ := read_arrows LexPrint.quoted_readable (key h hd) (key h' hd') e ha
  obtain ⟨p1, -, p3⟩ := key h' hd' _ _ _ a1
  refine ⟨a1, fun k m hk hm => ?_⟩
  have := markOf_unique hm
  subst this
  rcases hk with rfl | rfl
  · rw [a2]; exact marked_markOf p1
  · rw [a3]; exact marked_markOf p3

/-- **C80** The arrows are the edges that a match follows on the character of the label. -/
theorem C80_lexer_follows (d : DFA) (i c j : Nat) (hc : c < 128) :
    Arrow d i c j ↔ Lexer.existingTarget d i c = some (some j) ∧ j ≠ ERROR_DFA_STATE_REF := by
  have e : asUsize (c : Int) = c := by
    unfold asUsize
    omega
  unfold Arrow Lexer.existingTarget
  rw [e]
  constructor
  · rintro ⟨s, h1, h2, h3, h4⟩
    exact ⟨by rw [h1]; simp [h2, readEdge, h3], h4⟩
  · rintro ⟨h1, h2⟩
    obtain ⟨s, k1, k2⟩ := Option.map_eq_some_iff.1 h1
    obtain ⟨x, k3, k4⟩ := Option.bind_eq_some_iff.1 k2
    unfold readEdge at k4
    split at k4
    · cases k4
    · rename_i hx
      cases k4
      exact ⟨s, k1, k3, hx, h2⟩

/-! ## Parsers -/

/-- An accepting state with predicates to try. -/
def Undecided (d : DFA) (i : Nat) : Prop :=
  ∃ s : DFAState, d.states[i]? = some s ∧ s.isAccept = true ∧ s.predicates ≠ []

/-- **C80** `to_string` for every DFA of a parser, whatever predictions it was used for, also if some were interrupted:
it returns and lists the arrows, by source and token type (label `c` is token type `c - 1`), unless an arrow ends or
begins at an accepting state with predicates. -/
theorem C80_parser_prints_partial {atn : ATN} {s : Nat} {d : DFA} (h : PredictionProps.Predicted atn s d) (v : Vocabulary)
    (hs : d.s0 ≠ none) (hu : ∀ i c j, Arrow d i c j → ¬ Undecided d i ∧ ¬ Undecided d j) :
    ∃ text, d.toString v = some text ∧ Lists (fun c => (v.getDisplayName ((c : Int) - 1)).toList) d text := by
  have hn := PredPrint.predicted_neat h
  have hp : ∀ i c j, Arrow d i c j → Prints d i ∧ Prints d j := by
    intro i c j ha
    obtain ⟨h1, ⟨x, h2, h3⟩, h4, y, h5, h6⟩ := PredPrint.neat_ends hn ha
    obtain ⟨u1, u2⟩ := hu i c j ha
    exact ⟨⟨x, h2, h3, h1, fun hx => Classical.byContradiction fun hne => u1 ⟨x, h2, hx, hne⟩⟩,
      ⟨y, h5, h6, h4, fun hx => Classical.byContradiction fun hne => u2 ⟨y, h5, hx, hne⟩⟩⟩
  refine ⟨_, (if_neg hs).trans (printed (lab := fun c => (v.getDisplayName ((c : Int) - 1)).toList) ?_), lists_of hp⟩
  exact fun i c j ha => ⟨(hp i c j ha).1, rfl, (hp i c j ha).2⟩

theorem later_predicted {atn : ATN} {s : Nat} {dec : ATNState} {d d' : DFA} (h : PredictionProps.Later atn dec d d')
    (hd : PredictionProps.Predicted atn s d) : PredictionProps.Predicted atn s d' := by
  induction h with
  | refl => exact hd
  | step _ e _ h _ ih => exact .after ih e h
  | cut _ e _ h _ ih => exact .cut ih e h

/-- **C80** For a grammar without predicates and precedences `to_string` always returns and lists the arrows. -/
theorem C80_parser_plain {atn : ATN} (ha : PredictionSpec.Plain atn) {s : Nat} {dec : ATNState} (hdec : Prediction.Decides atn s dec)
    {d : DFA} (h : PredictionProps.Cached atn s dec d) (v : Vocabulary) (hs : d.s0 ≠ none) :
    ∃ text, d.toString v = some text ∧ Lists (fun c => (v.getDisplayName ((c : Int) - 1)).toList) d text := by
  obtain ⟨d0, n, h1, h2⟩ := id h
  have no : ∀ i, ¬ Undecided d i := by
    rintro i ⟨x, e1, -, e3⟩
    exact e3 ((PredictionProps.cached_dinv ha hdec h).tidy i x e1).preds
  exact C80_parser_prints_partial (later_predicted h2 (.new h1)) v hs fun i c j _ => ⟨no i, no j⟩

/-- **C80** The arrows are the edges that a prediction follows on the token type of the label: an arrow of another state
than the start state of a left-recursive rule. -/
theorem C80_parser_follows (d : DFA) (i c j : Nat) (hc : c < 2 ^ 64) :
    Arrow d i c j ↔ d.existingTarget i ((c : Int) - 1) = some (some j) ∧ j ≠ ERROR_DFA_STATE_REF := by
  have e : asUsize ((c : Int) - 1 + 1) = c := by
    unfold asUsize
    rw [show (c : Int) - 1 + 1 = c by omega]
    omega
  unfold Arrow DFA.existingTarget
  rw [e]
  constructor
  · rintro ⟨s, h1, h2, h3, h4⟩
    exact ⟨by rw [h1]; simp [h2, readEdge, h3], h4⟩
  · rintro ⟨h1, h2⟩
    obtain ⟨s, k1, k2⟩ := Option.map_eq_some_iff.1 h1
    obtain ⟨x, k3, k4⟩ := Option.bind_eq_some_iff.1 k2
    unfold readEdge at k4
    split at k4
    · cases k4
    · rename_i hx
      cases k4
      exact ⟨s, k1, k3, hx, h2⟩

/-- **C80 fails** with predicates: `to_string` panics (`unimplemented!()`) on every DFA with an arrow that begins or
ends at an accepting state with predicates. -/
theorem C80_parser_panics {d : DFA} (v : Vocabulary) (hs : d.s0 ≠ none) {i c j : Nat} (ha : Arrow d i c j)
    (hu : Undecided d i ∨ Undecided d j) : d.toString v = none := by
  unfold DFA.toString
  rw [if_neg hs]
  cases h : stateStrings d.states (fun x => some (v.getDisplayName ((x : Int) - 1)).toList) d.states with
  | none => rfl
  | some x =>
    obtain ⟨⟨a, k1, k2⟩, b, k3, k4⟩ := PredPrint.stateStrings_some _ 0 _ h (i, c, j) (mem_arrows.2 ha)
    have bad : ∀ {k : Nat} {a : DFAState}, Undecided d k → d.states[k]? = some a → (stateString a).isSome = true → False := by
      rintro k a ⟨s, e1, e2, e3⟩ e4 e5
      rw [e4] at e1
      cases e1
      unfold stateString at e5
      split at e5
      · cases e5
      · rw [if_pos (by cases hp : a.predicates <;> simp_all)] at e5
        cases e5
    rcases hu with hu | hu
    · exact (bad hu (by simpa using k1) k2).elim
    · exact (bad hu k3 k4).elim

theorem apart_readable {name : Nat → List Char} {m : Nat} (h : Apart name m) : Readable name (· ≤ m) := by
  intro a b x y ha hb e
  have e' : (name a ++ ['-', '>']) ++ x = (name b ++ ['-', '>']) ++ y := by simpa using e
  have key : a = b := by
    rcases List.prefix_or_prefix_of_prefix (List.prefix_append _ x) (e' ▸ List.prefix_append _ y) with k | k
    · exact h a b ha hb k
    · exact (h b a hb ha k).symm
  subst key
  exact ⟨rfl, List.append_cancel_left e'⟩

/-- Whatever was printed has ends that print. -/
theorem printed_ends {atn : ATN} {s : Nat} {d : DFA} (h : PredictionProps.Predicted atn s d) {v : Vocabulary} {text : List Char}
    (hs : d.s0 ≠ none) (e : d.toString v = some text) {i c j : Nat} (ha : Arrow d i c j) : Prints d i ∧ Prints d j := by
  have ok : ∀ {k : Nat}, (∃ x, d.states[k]? = some x ∧ x.stateNumber = k) → 1 ≤ k → ¬ Undecided d k → Prints d k := by
    rintro k ⟨x, h1, h2⟩ hk hu
    exact ⟨x, h1, h2, hk, fun hx => Classical.byContradiction fun hne => hu ⟨x, h1, hx, hne⟩⟩
  obtain ⟨h1, h2, h3, h4⟩ := PredPrint.neat_ends (PredPrint.predicted_neat h) ha
  have no : ¬ (Undecided d i ∨ Undecided d j) := by
    intro hu
    rw [C80_parser_panics v hs ha hu] at e
    cases e
  exact ⟨ok h2 h1 fun hu => no (Or.inl hu), ok h4 h3 fun hu => no (Or.inr hu)⟩

/-- **C80** Labels are those of tokens of the grammar, outside left-recursive rules. -/
theorem C80_parser_labels {atn : ATN} {s : Nat} {d : DFA} (h : PredictionProps.Predicted atn s d) (hp : d.isPrecedence = false)
    {i c j : Nat} (ha : Arrow d i c j) : c ≤ asUsize atn.maxTokenType + 1 := by
  obtain ⟨x, h1, h2, -⟩ := ha
  have h3 := (PredPrint.predicted_neat h).narrow hp x (List.mem_of_getElem? h1)
  have h4 := (List.getElem?_eq_some_iff.1 h2).1
  unfold PredPrint.room at h3
  omega

/-- **C80** The arrows, the accepting states at their ends and their alternatives can be read off the text printed for a
parser DFA, outside left-recursive rules, if the display names of the tokens can be told apart: DFAs of decisions of a
parser that print the same have the same ones. -/
theorem C80_parser_read {atn : ATN} {s s' : Nat} {d d' : DFA} (h : PredictionProps.Predicted atn s d)
    (h' : PredictionProps.Predicted atn s' d') (hp : d.isPrecedence = false) (hp' : d'.isPrecedence = false) (hs : d.s0 ≠ none)
    (hs' : d'.s0 ≠ none) (v : Vocabulary)
    (hv : Apart (fun c => (v.getDisplayName ((c : Int) - 1)).toList) (asUsize atn.maxTokenType + 1)) {text : List Char}
    (e : d.toString v = some text) (e' : d'.toString v = some text) {i c j : Nat} (ha : Arrow d i c j) :
    Arrow d' i c j ∧ ∀ k m, k = i ∨ k = j → Marked d k m → Marked d' k m := by
  have key : ∀ {s : Nat} {d : DFA}, PredictionProps.Predicted atn s d → d.isPrecedence = false → d.s0 ≠ none → d.toString v = some text →
      AllPrint (fun c => (v.getDisplayName ((c : Int) - 1)).toList) (fun x => some (v.getDisplayName ((x : Int) - 1)).toList)
        (· ≤ asUsize atn.maxTokenType + 1) d := by
    intro s d h hp hs e i c j ha
    obtain ⟨h1, h2⟩ := printed_ends h hs e ha
    exact ⟨h1, ⟨rfl, C80_parser_labels h hp ha⟩, h2⟩
  have g := key h hp hs e
  have g' := key h' hp' hs' e'
  unfold DFA.toString at e e'
  rw [if_neg hs] at e
  rw [if_neg hs'] at e'
  obtain ⟨a1, a2, a3⟩ := read_arrows (apart_readable hv) g g' (e.trans e'.symm) ha
  obtain ⟨p1, -, p3⟩ := g' _ _ _ a1
  refine ⟨a1, fun k m hk hm => ?_⟩
  have := markOf_unique hm
  subst this
  rcases hk with rfl | rfl
  · rw [a2]; exact marked_markOf p1
  · rw [a3]; exact marked_markOf p3

/-! ### Examples -/

section
open LexCacheProps Lexer LexExample

/-- What is to be seen of the example lexer after one token. -/
def exSeen (d : DFA) : Bool :=
  decide (d.s0 = some 1) && decide (d.toLexerString = some "s0-'a'->:s1=>1\n".toList) &&
    decide ((d.states[1]?).map (fun s => s.edges[97]?) = some (some 2)) &&
    decide ((d.states[2]?).map (fun s => (s.isAccept, s.prediction, s.requiresFullCtx)) = some (true, 1, false))

theorem exLexer_reached : ∃ d, Reached exATN Encode.configs 20 [d] ∧ d.s0 ≠ none ∧
    d.toLexerString = some "s0-'a'->:s1=>1\n".toList ∧ Arrow d 1 97 2 ∧ Marked d 2 ⟨1, some 1, false⟩ := by
  have h : ((matchToken exFull 20 20 (Lex.new (InputStream.new (Str.mk ['a', 'b', ' ']))) exDFAs).map fun r =>
      r.2.2.map exSeen) = some [true] := by decide +kernel
  obtain ⟨⟨r, L, ds⟩, h1, h2⟩ := Option.map_eq_some_iff.1 h
  have room : LexCache.Room 21 exDFAs := by
    intro d hd
    have : d.states.length ∈ exDFAs.map (·.states.length) := List.mem_map_of_mem hd
    rw [show exDFAs.map (·.states.length) = [1] by decide] at this
    simp only [List.mem_singleton] at this
    simp only [ERROR_DFA_STATE_REF]
    omega
  have g : Reached exATN Encode.configs 20 ds := .used (env := exFull) exDFAs_new.1 rfl rfl (sane_str _) room h1
  simp only at h2
  obtain ⟨d, ds', rfl, h3, h4⟩ := List.map_eq_cons_iff.1 h2
  rw [List.map_eq_nil_iff] at h4
  subst h4
  simp only [exSeen, Bool.and_eq_true, decide_eq_true_eq] at h3
  obtain ⟨⟨⟨q1, q2⟩, q3⟩, q4⟩ := h3
  obtain ⟨s, k1, k2⟩ := Option.map_eq_some_iff.1 q3
  obtain ⟨t, k3, k4⟩ := Option.map_eq_some_iff.1 q4
  simp only [Prod.mk.injEq] at k4
  exact ⟨d, g, by rw [q1]; simp, q2, ⟨s, k1, k2, by decide, by decide⟩, t, k3, rfl, k4.2.2.symm, by rw [k4.1, k4.2.1]; rfl⟩

/-- Whatever lexer prints the same has the same arrow, to a state that accepts type 1. -/
example {atn : ATN} {hash : List Config → Nat} {fc : Nat} {dfas : List DFA} (h : Reached atn hash fc dfas) {d : DFA} (hd : d ∈ dfas)
    (hs : d.s0 ≠ none) (e : d.toLexerString = some "s0-'a'->:s1=>1\n".toList) : Arrow d 1 97 2 ∧ Marked d 2 ⟨1, some 1, false⟩ := by
  obtain ⟨d', g, hs', e', ha, hm⟩ := exLexer_reached
  obtain ⟨a, b⟩ := C80_lexer_read g h (by simp) hd hs' hs (e'.trans e.symm) ha
  exact ⟨a, b 2 _ (Or.inr rfl) hm⟩
end

section
open Prediction PredictionProps

/-- **C80 fails** for left-recursive rules: the edges of the start state of their DFA are indexed by precedence, but
are printed as if they were token types.  The loop of tests/gen/visitorcalcparser.rs, entered on `+` with precedence 0,
prints an arrow for end of file. -/
theorem C80_precedence_label : ∃ d, Predicted Gen.Calc.atn 18 d ∧ d.s0 = some 1 ∧ d.getPrecedenceStart 0 = some (some 2) ∧
    d.toString (Vocabulary.new [none, none, some "'*'", some "'/'", some "'+'", some "'-'"] [] none) =
      some "s0-EOF->s1\ns1-'+'->:s2=>1\n".toList := by
  have h : ((DFA.new Gen.Calc.atn 18 1).bind fun d =>
      (adaptivePredict ⟨Gen.Calc.atn, .LL, fun _ _ _ _ => true, 0, [7, -1], id, fun _ => 0⟩ 60 60 d
        (CTS.withChannel (exSource [4, 1]) 0)).map fun r => (r.dfa.s0, r.dfa.getPrecedenceStart 0,
          r.dfa.toString (Vocabulary.new [none, none, some "'*'", some "'/'", some "'+'", some "'-'"] [] none))) =
      some (some 1, some (some 2), some "s0-EOF->s1\ns1-'+'->:s2=>1\n".toList) := by decide +kernel
  obtain ⟨d, h1, h⟩ := Option.bind_eq_some_iff.1 h
  obtain ⟨r, h2, h⟩ := Option.map_eq_some_iff.1 h
  simp only [Prod.mk.injEq] at h
  exact ⟨r.dfa, .after (.new h1) rfl h2, h.1, h.2.1, h.2.2⟩

/-- The decision `'a' | 'a' | 'b'` after any predictions. -/
example {d : DFA} (h : Cached exEnd 2 exEndDec d) (v : Vocabulary) (hs : d.s0 ≠ none) :
    ∃ text, d.toString v = some text ∧ Lists (fun c => (v.getDisplayName ((c : Int) - 1)).toList) d text :=
  C80_parser_plain exEnd_plain exEnd_decides h v hs

/-- On `b` it prints one arrow. -/
example : (adaptivePredict exEndParams 20 20 exEndDfa (exEndInput 2)).map (fun r =>
    (decide (r.dfa.s0 = some 1), r.dfa.toString (Vocabulary.new [none, some "'a'", some "'b'"] [] none))) =
    some (true, some "s0-'b'->:s1=>3\n".toList) := by decide +kernel

/-- The names of its tokens. -/
def exNames : Vocabulary := Vocabulary.new [none, some "'a'", some "'b'"] [] none

theorem exNames_apart : Apart (fun c => (exNames.getDisplayName ((c : Int) - 1)).toList) (asUsize exEnd.maxTokenType + 1) := by
  have h : ∀ a : Nat, a < 4 → ∀ b : Nat, b < 4 → (exNames.getDisplayName ((a : Int) - 1)).toList ++ ['-', '>'] <+:
      (exNames.getDisplayName ((b : Int) - 1)).toList ++ ['-', '>'] → a = b := by decide +kernel
  exact fun a b ha hb => h a (Nat.lt_succ_of_le ha) b (Nat.lt_succ_of_le hb)

/-- Whatever predictions led to this text, there is an arrow on `b` to a state that accepts the third alternative. -/
example {d : DFA} (h : Predicted exEnd 2 d) (hp : d.isPrecedence = false) (hs : d.s0 ≠ none)
    (e : d.toString exNames = some "s0-'b'->:s1=>3\n".toList) : Arrow d 1 3 2 ∧ Marked d 2 ⟨1, some 3, false⟩ := by
  have k : (adaptivePredict exEndParams 20 20 exEndDfa (exEndInput 2)).map (fun r =>
      decide (r.dfa.s0 = some 1) && decide (r.dfa.isPrecedence = false) &&
        decide (r.dfa.toString exNames = some "s0-'b'->:s1=>3\n".toList) &&
        decide ((r.dfa.states[1]?).map (fun s => s.edges[3]?) = some (some 2)) &&
        decide ((r.dfa.states[2]?).map (fun s => (s.isAccept, s.prediction, s.requiresFullCtx)) = some (true, 3, false))) =
      some true := by decide +kernel
  obtain ⟨r, h1, k⟩ := Option.map_eq_some_iff.1 k
  simp only [Bool.and_eq_true, decide_eq_true_eq] at k
  obtain ⟨⟨⟨⟨k1, k2⟩, k3⟩, k4⟩, k5⟩ := k
  obtain ⟨x, x1, x2⟩ := Option.map_eq_some_iff.1 k4
  obtain ⟨y, y1, y2⟩ := Option.map_eq_some_iff.1 k5
  simp only [Prod.mk.injEq] at y2
  have g : Predicted exEnd 2 r.dfa := .after (.new (by decide +kernel : DFA.new exEnd 2 0 = some exEndDfa)) rfl h1
  obtain ⟨a, b⟩ := C80_parser_read g h k2 hp (by rw [k1]; simp) hs exNames exNames_apart k3 e ⟨x, x1, x2, by decide, by decide⟩
  exact ⟨a, b 2 _ (Or.inr rfl) ⟨y, y1, rfl, y2.2.2.symm, by rw [y2.1, y2.2.1]; rfl⟩⟩

/-- The grammar `s : ( {p}? 'a' | {q}? 'a' ) EOF ;` -/
def exPreds : ATN where
  grammarType := .parser
  maxTokenType := 2
  decisionToState := [2]
  ruleToStartState := [0]
  ruleToStopState := [1]
  states := [
    exState 0 (.ruleStart 1 false) [exEps 2],
    exState 1 .ruleStop [],
    exState 2 (.decision 0 false (.blockStart 7 .basic)) [exEps 3, exEps 4],
    exState 3 .basic [.predicate 5 false 0 0],
    exState 4 .basic [.predicate 6 false 0 1],
    exState 5 .basic [.atom 7 1],
    exState 6 .basic [.atom 7 1],
    exState 7 (.blockEnd 2) [exEps 8],
    exState 8 .basic [.atom 1 (-1)]]

/-- After one prediction for it, `to_string` panics. -/
example : ∃ d, Predicted exPreds 2 d ∧ d.toString (Vocabulary.new [] [] none) = none := by
  have h : ((DFA.new exPreds 2 0).bind fun d =>
      (adaptivePredict ⟨exPreds, .LL, fun _ _ _ _ => true, 0, [-1], id, fun _ => 0⟩ 60 60 d
        (CTS.withChannel (exSource [1]) 0)).map fun r => (r.out, r.dfa.toString (Vocabulary.new [] [] none))) =
      some (.alt 1, none) := by decide +kernel
  obtain ⟨d, h1, h⟩ := Option.bind_eq_some_iff.1 h
  obtain ⟨r, h2, h⟩ := Option.map_eq_some_iff.1 h
  simp only [Prod.mk.injEq] at h
  exact ⟨r.dfa, .after (.new h1) rfl h2, h.2⟩
end

end Antlr.PrintProps
