import Verif.Gen.Lexers
import Verif.Gen.PredictReturnProps
import Verif.Lexer.SourceProps

/-!
# From text to tree: C78

A lexer feeds a token stream, which feeds a generated parser.  `C78_source` (Lexer/SourceProps.lean) says that the tokens of
a text are a `Source`; here it is put together with C77.
-/

namespace Antlr.EndProps
open Antlr Lexer LexCache LexSpec LexCacheProps LexTotal LexTotalProps EndSpec
open Antlr.Gen (emptyDfas csvLexer refLexer plainLexer runRule)
open Antlr.GenProps (refCfg csvCfg fueled Small C77_ref C77_csv)
open Antlr.TokenSpec (Visible eofIdx)

variable {D : Type} [InputData D]

/-! ## Lexers of the repository -/

theorem mapM_mem {α β : Type} {f : α → Option β} (l : List α) : ∀ {r : List β}, l.mapM f = some r → ∀ y ∈ r, ∃ x ∈ l, f x = some y := by
  induction l with
  | nil => intro r h y hy; simp at h; subst h; cases hy
  | cons a l ih =>
    intro r h y hy
    rw [List.mapM_cons] at h
    obtain ⟨b, h1, h⟩ := Option.bind_eq_some_iff.1 h
    obtain ⟨bs, h2, h⟩ := Option.bind_eq_some_iff.1 h
    cases h
    rcases List.mem_cons.1 hy with rfl | hy
    · exact ⟨a, List.mem_cons_self .., h1⟩
    · obtain ⟨x, hx, e⟩ := ih h2 y hy
      exact ⟨x, List.mem_cons_of_mem _ hx, e⟩

/-- New DFAs, `_decision_to_DFA` of a generated lexer. -/
theorem new_dfas {atn : ATN} {ds : List DFA} (h : emptyDfas atn = some ds)
    (hp : (ds.all fun d => !d.isPrecedence && d.states.length == 1) = true) {hash : List Config → Nat} {fc : Nat} :
    Reached atn hash fc ds ∧ ∀ m, m + 1 ≤ ERROR_DFA_STATE_REF → Room m ds := by
  simp only [List.all_eq_true, Bool.and_eq_true, Bool.not_eq_true', beq_iff_eq] at hp
  refine ⟨.new fun d hd => ?_, fun m hm d hd => by rw [(hp d hd).2]; omega⟩
  obtain ⟨x, -, e⟩ := mapM_mem _ h d hd
  obtain ⟨s, -, e⟩ := Option.bind_eq_some_iff.1 e
  exact ⟨s, _, e, (hp d hd).1⟩

theorem plain_tame (atn : ATN) (hash : List Config → Nat) (toChars : D → List Char) : Tame (plainLexer atn hash toChars) :=
  ⟨fun _ _ L => LexProps.Untouched.refl L, fun L => LexProps.Untouched.refl L, fun _ => rfl⟩

def csvHeights : List Nat := [3, 1, 1, 1, 1, 1, 1, 2, 1, 2, 1, 1, 1, 0, 2, 0, 2, 0, 2, 0, 1, 6, 5, 4, 3, 2, 0, 1, 4, 3, 2, 0, 0,
  0, 0, 1, 4, 2, 1, 3, 0, 2]
def csvNulls : List Bool := [false, false, true, false, true, false, true, false, true, false, true, false, true, false, true,
  false, true, false, true, false, false, true, true, true, true, true, false, false, true, true, true, false, false, false,
  false, false, false, false, false, false, false, true]

def refHeights : List Nat := [3, 2, 1, 2, 1, 1, 1, 0, 1, 4, 3, 2, 0, 1, 4, 3, 2, 0, 4, 3, 2]
def refNulls : List Bool := [false, false, true, false, true, false, true, false, false, true, true, true, false, false, true,
  true, true, false, true, true, true]

theorem csv_loops : loopCheck csvLexer csvHeights csvNulls = true := by decide +kernel
theorem ref_loops : loopCheck refLexer refHeights refNulls = true := by decide +kernel

theorem csv_whole : Whole csvLexer := wholeCheck_ok (by decide +kernel)
theorem ref_whole : Whole refLexer := wholeCheck_ok (by decide +kernel)
theorem csv_empty : emptyCheck csvLexer csvNulls = true := by decide +kernel
theorem ref_empty : emptyCheck refLexer refNulls = true := by decide +kernel

theorem csv_within (hash : List Config → Nat) (toChars : D → List Char) :
    EndSpec.Within (plainLexer csvLexer hash toChars) (fun t => 1 ≤ t ∧ t ≤ 6) (fun c => c = 0 ∨ c = 1) where
  rule := by
    have : ∀ t ∈ csvLexer.ruleToTokenType, 1 ≤ t ∧ t ≤ 6 := by decide +kernel
    exact this
  type := fun t h => by
    have e : csvLexer.lexerActions = [.channel 1] := by decide +kernel
    have h' : LexerAction.type t ∈ csvLexer.lexerActions := h
    rw [e] at h'; simp at h'
  channel := fun c h => by
    have e : csvLexer.lexerActions = [.channel 1] := by decide +kernel
    have h' : LexerAction.channel c ∈ csvLexer.lexerActions := h
    rw [e] at h'; simp at h'; exact .inr h'
  default := .inl rfl
  plain := fun o a h => by
    have e : csvLexer.lexerActions = [.channel 1] := by decide +kernel
    have h' : LexerAction.indexedCustom o a ∈ csvLexer.lexerActions := h
    rw [e] at h'; simp at h'
  actionType := fun _ _ _ => .inl rfl
  actionChannel := fun _ _ _ => .inl rfl
  emitType := fun _ => rfl
  emitChannel := fun _ => .inl rfl

theorem ref_within (hash : List Config → Nat) (toChars : D → List Char) :
    EndSpec.Within (plainLexer refLexer hash toChars) (fun t => 1 ≤ t ∧ t ≤ 3) (· = 0) where
  rule := by
    have : ∀ t ∈ refLexer.ruleToTokenType, 1 ≤ t ∧ t ≤ 3 := by decide +kernel
    exact this
  type := fun t h => by
    have e : refLexer.lexerActions = [.skip] := by decide +kernel
    have h' : LexerAction.type t ∈ refLexer.lexerActions := h
    rw [e] at h'; simp at h'
  channel := fun c h => by
    have e : refLexer.lexerActions = [.skip] := by decide +kernel
    have h' : LexerAction.channel c ∈ refLexer.lexerActions := h
    rw [e] at h'; simp at h'
  default := rfl
  plain := fun o a h => by
    have e : refLexer.lexerActions = [.skip] := by decide +kernel
    have h' : LexerAction.indexedCustom o a ∈ refLexer.lexerActions := h
    rw [e] at h'; simp at h'
  actionType := fun _ _ _ => .inl rfl
  actionChannel := fun _ _ _ => .inl rfl
  emitType := fun _ => rfl
  emitChannel := fun _ => .inl rfl

variable {d : D} {cs : List Int} {ix : Nat → Int} {sl : Nat → Nat → D} {fc fe fn : Nat} {hash : List Config → Nat}
  {toChars : D → List Char} {dfas : List DFA}

/-- The first token of the text is on the channel `c`, or there is none. -/
def StartsOn (env : Env D) (fc fe fn : Nat) (L : Lex D) (dfas : List DFA) (c : Int) : Prop :=
  ∀ t L' dfas', nextToken env fc fe fn L dfas = some (t, L', dfas') → t.ttype = TOKEN_EOF ∨ t.channel = c

theorem visible_of {env : Env D} {L : Lex D} {src : Source} {c : Int} (h : Lexed env fc fe fn L dfas src)
    (hc : StartsOn env fc fe fn L dfas c) : Visible src c 0 := by
  have h1 := h 1 (by omega)
  obtain ⟨r, h2, h3⟩ := Option.map_eq_some_iff.1 h1
  rw [LexSpec.nextTokens] at h2
  obtain ⟨q, e, h2⟩ := Option.bind_eq_some_iff.1 h2
  simp only [LexSpec.nextTokens, Option.map_some, Option.some.injEq] at h2
  subst h2
  have := hc _ _ _ e
  cases hp : src.pre with
  | nil => exact .inl (by simp [eofIdx, hp])
  | cons t l =>
    rw [hp] at h3
    simp only [List.cons_append, List.take_succ_cons, List.take_zero, List.cons.injEq, and_true] at h3
    refine .inr ⟨by simp [eofIdx, hp], ?_⟩
    rw [h3] at this
    have hne := src.pre_ne t (by rw [hp]; exact List.mem_cons_self ..)
    simpa [Source.next, hp] using this.resolve_left hne

/-- **C78** Parsing a text with the lexer and the parser of grammars/ReferenceToATN.g4 returns, whatever the text, whatever the
lexer's DFAs learned before. -/
theorem C78_ref (bail : Bool) (hh : TellsApart hash) (R : Reads d cs ix sl) (hs : Sane d)
    (hfc : 31 * (cs.length + 1) ≤ fc) (hfe : 31 * (cs.length + 1) ≤ fe)
    (hfn : 2 * cs.length + 3 ≤ fn) (hr : Reached refLexer hash fc dfas)
    (hroom : Room ((cs.length + 1) * (fe + 1)) dfas) (B : Nat) (hB : B + (cs.length + 3) ≤ ERROR_DFA_STATE_REF) {ds : List DFA}
    (hds : emptyDfas Gen.RefAtn.atn = some ds) :
    ∃ src, Lexed (plainLexer refLexer hash toChars) fc fe fn (Lex.new (InputStream.new d)) dfas src ∧
      ∃ F, ∀ fuel, F ≤ fuel → ∀ q : Int, ∃ m0 x s',
        (∀ m, m0 ≤ m → runRule ((fueled (refCfg bail) fuel).upto B) m 0 q
          ⟨⟨{}, P.new (CTS.withChannel src 0)⟩, ⟨ds, []⟩⟩ = some (x, s')) ∧
        (Small B s'.sim = true → ∀ m, m0 ≤ m → runRule (fueled (refCfg bail) fuel) m 0 q
          ⟨⟨{}, P.new (CTS.withChannel src 0)⟩, ⟨ds, []⟩⟩ = some (x, s')) ∧
        ((∃ root, x = .ok root) ∨ (bail = true ∧ ∃ e, x = .error (.fallThrough e))) := by
  obtain ⟨src, h1, h2, h3⟩ := C78_source (env := plainLexer refLexer hash toChars) ref_whole
    (N := 5) (loopCheck_ok ref_loops (by decide) (by decide)) (emptyCheck_ok ref_loops ref_empty) hh
    (plain_tame _ _ _) R hs hfc hfe hfn hr hroom (ref_within hash toChars)
  have hv : Visible src 0 0 := by
    cases hp : src.pre with
    | nil => exact .inl (by simp [eofIdx, hp])
    | cons t l =>
      exact .inr ⟨by simp [eofIdx, hp], by
        simpa [Source.next, hp] using (h3 t (by rw [hp]; exact List.mem_cons_self ..)).2⟩
  obtain ⟨F, hF⟩ := C77_ref bail src 0 hv (fun t ht => by
    obtain ⟨⟨a, b⟩, -⟩ := h3 t ht
    have : t.ttype = 1 ∨ t.ttype = 2 ∨ t.ttype = 3 := by omega
    simp only [GenProps.refTypes, List.mem_cons]
    omega) B (by simp only [eofIdx]; omega) hds
  refine ⟨src, h1, F, fun fuel hf q => ?_⟩
  obtain ⟨m0, x, s', g1, g2, g3⟩ := hF fuel hf q
  exact ⟨m0, x, s', g1, g2, g3.imp (fun ⟨root, _, h, _⟩ => ⟨root, h⟩) id⟩

/-- **C78** Parsing a text with the lexer and the parser of grammars/CSV.g4 returns if the text begins with a token on the
channel of the parser, and not with blanks. -/
theorem C78_csv_partial (bail : Bool) (hh : TellsApart hash) (R : Reads d cs ix sl) (hs : Sane d)
    (hfc : 57 * (cs.length + 1) ≤ fc) (hfe : 57 * (cs.length + 1) ≤ fe)
    (hfn : 2 * cs.length + 3 ≤ fn) (hr : Reached csvLexer hash fc dfas) (hroom : Room ((cs.length + 1) * (fe + 1)) dfas)
    (hfirst : StartsOn (plainLexer csvLexer hash toChars) fc fe fn (Lex.new (InputStream.new d)) dfas 0) :
    ∃ src, Lexed (plainLexer csvLexer hash toChars) fc fe fn (Lex.new (InputStream.new d)) dfas src ∧
      ∃ F, ∀ fuel, F ≤ fuel → ∀ (r : Nat) (q : Int) (σ : Gen.SimState), r < 4 → ∃ m0 x s',
        (∀ m, m0 ≤ m → runRule (fueled (csvCfg bail) fuel) m r q ⟨⟨{}, P.new (CTS.withChannel src 0)⟩, σ⟩ = some (x, s')) ∧
        ((∃ root, x = .ok root) ∨ (bail = true ∧ ∃ e, x = .error (.fallThrough e))) := by
  obtain ⟨src, h1, h2, h3⟩ := C78_source (env := plainLexer csvLexer hash toChars) csv_whole
    (N := 7) (loopCheck_ok csv_loops (by decide) (by decide)) (emptyCheck_ok csv_loops csv_empty) hh
    (plain_tame _ _ _) R hs hfc hfe hfn hr hroom (csv_within hash toChars)
  obtain ⟨F, hF⟩ := C77_csv bail src 0 (visible_of h1 hfirst) (fun t ht => by
    obtain ⟨⟨a, b⟩, -⟩ := h3 t ht
    have : t.ttype = 1 ∨ t.ttype = 2 ∨ t.ttype = 3 ∨ t.ttype = 4 ∨ t.ttype = 5 ∨ t.ttype = 6 := by omega
    simp only [GenProps.csvTypes, List.mem_cons]
    omega)
  refine ⟨src, h1, F, fun fuel hf r q σ hr => ?_⟩
  obtain ⟨m0, x, s', g1, g2⟩ := hF fuel hf r q σ hr
  exact ⟨m0, x, s', g1, g2.imp (fun ⟨root, _, h, _⟩ => ⟨root, h⟩) id⟩

/-! ## Examples -/

def refDfas : List DFA := (emptyDfas refLexer).getD []

/-- Every text, with a new lexer and a new parser. -/
example (text : List Char) (h : text.length < 2 ^ 29) : ∃ src,
    Lexed (plainLexer refLexer blindHash Str.chars) (31 * (text.length + 1)) (31 * (text.length + 1)) (2 * text.length + 3)
      (Lex.new (InputStream.new (Str.mk text))) refDfas src ∧
    ∃ F, ∀ fuel, F ≤ fuel → ∃ m0 root s', ∀ m, m0 ≤ m → runRule ((fueled (refCfg false) fuel).upto (2 ^ 60)) m 0 0
      ⟨⟨{}, P.new (CTS.withChannel src 0)⟩, ⟨(emptyDfas Gen.RefAtn.atn).getD [], []⟩⟩ = some (.ok root, s') := by
  obtain ⟨ds, hd⟩ := GenProps.ref_dfas
  have hn := new_dfas (atn := refLexer) (ds := refDfas) (hash := blindHash) (fc := 31 * (text.length + 1))
    (by decide +kernel) (by decide +kernel)
  have hl : (text.map fun c => (c.toNat : Int)).length = text.length := List.length_map ..
  obtain ⟨src, h1, F, hF⟩ := C78_ref (toChars := Str.chars) (fc := 31 * (text.length + 1)) (fe := 31 * (text.length + 1))
    (fn := 2 * text.length + 3) false blindHash_ok (Antlr.LexProps.reads_str text)
    (sane_str _) (by rw [hl]) (by rw [hl]) (by rw [hl]) hn.1 (hn.2 _ (by
      rw [hl]
      have : (text.length + 1) * (31 * (text.length + 1) + 1) ≤ 2 ^ 29 * (31 * 2 ^ 29 + 1) :=
        Nat.mul_le_mul (by omega) (by omega)
      have e : ERROR_DFA_STATE_REF = 2 ^ 64 - 1 := rfl
      rw [e]
      omega)) (2 ^ 60) (by
      rw [hl]
      have e : ERROR_DFA_STATE_REF = 2 ^ 64 - 1 := rfl
      rw [e]
      omega) hd
  refine ⟨src, h1, F, fun fuel hf => ?_⟩
  obtain ⟨m0, x, s', g1, -, g2⟩ := hF fuel hf 0
  rcases g2 with ⟨root, rfl⟩ | ⟨h, -⟩
  · exact ⟨m0, root, s', by rw [hd]; exact g1⟩
  · cases h

def csvEnv : Env Str := plainLexer csvLexer blindHash Str.chars
def csvDfas : List DFA := (emptyDfas csvLexer).getD []

/-- Text with a string that is not closed, then nothing. -/
example : ∃ src, Lexed csvEnv 342 342 13 (Lex.new (InputStream.new (Str.mk ['a', ',', '\n', '"', 'b']))) csvDfas src ∧
    ∃ F, ∀ fuel, F ≤ fuel → ∃ m0 root s', ∀ m, m0 ≤ m → runRule (fueled (csvCfg false) fuel) m 0 0
      ⟨⟨{}, P.new (CTS.withChannel src 0)⟩, ⟨[], []⟩⟩ = some (.ok root, s') := by
  have hn := new_dfas (atn := csvLexer) (ds := csvDfas) (hash := blindHash) (fc := 342) (by decide +kernel) (by decide +kernel)
  obtain ⟨src, h1, F, hF⟩ := C78_csv_partial (toChars := Str.chars) (fc := 342) (fe := 342) (fn := 13) false blindHash_ok
    (Antlr.LexProps.reads_str ['a', ',', '\n', '"', 'b']) (sane_str _) (by decide) (by decide) (by decide) hn.1 (hn.2 _ (by decide)) (by
      intro t L' dfas' h
      have : ((nextToken csvEnv 342 342 13 (Lex.new (InputStream.new (Str.mk ['a', ',', '\n', '"', 'b']))) csvDfas).map
        fun r => r.1.channel) = some 0 := by decide +kernel
      right
      have h' : nextToken csvEnv 342 342 13 (Lex.new (InputStream.new (Str.mk ['a', ',', '\n', '"', 'b']))) csvDfas =
        some (t, L', dfas') := h
      rw [h'] at this
      simpa using this)
  refine ⟨src, h1, F, fun fuel hf => ?_⟩
  obtain ⟨m0, x, s', g1, g2⟩ := hF fuel hf 0 0 ⟨[], []⟩ (by decide)
  rcases g2 with ⟨root, rfl⟩ | ⟨h, -⟩
  · exact ⟨m0, root, s', g1⟩
  · cases h

/-! ## A text on which parsing panics -/

/-- The tokens of a line that begins with a blank: WS, TEXT, newline. -/
def blankSrc : Source where
  pre := [{ ttype := 4, channel := 1, start := 0, stop := 0, line := 1, column := 0, text := [' '] },
    { ttype := 5, start := 1, stop := 1, line := 1, column := 1, text := ['a'] },
    { ttype := 3, start := 2, stop := 2, line := 1, column := 2, text := ['\n'] }]
  eof := { ttype := -1, start := 3, stop := 2, line := 2, column := 0 }
  pre_ne := by decide
  eof_eq := rfl

theorem blank_lexed : Lexed csvEnv 228 228 9 (Lex.new (InputStream.new (Str.mk [' ', 'a', '\n']))) csvDfas blankSrc := by
  intro k hk
  have : k = 0 ∨ k = 1 ∨ k = 2 ∨ k = 3 ∨ k = 4 := by
    have : k ≤ 4 := hk
    omega
  rcases this with rfl | rfl | rfl | rfl | rfl <;> decide +kernel

/-- Both sides are the same by computation; the tactic hands this to the kernel, which is quicker than the elaborator. -/
theorem blank_none (fuel m : Nat) (q : Int) (σ : Gen.SimState) : runRule (fueled (csvCfg false) (fuel + 60)) (m + 60) 0 q
    ⟨⟨{}, P.new (CTS.withChannel blankSrc 0)⟩, σ⟩ = none := by
  run_tac do
    let g ← Lean.Elab.Tactic.getMainGoal
    let some (_, _, r) := (← g.getType).eq? | throwError "an equation expected"
    g.assign (← Lean.Meta.mkEqRefl r)

/-- **C78** fails for a CSV file whose first line begins with a blank: the blank is on a hidden channel, but is the first
token of the stream (C16); `field` skips it as an error, and at its end `exit_rule` asks for the token before
(src/parser.rs:562), where `next_token_on_channel` goes back beyond the first token
(src/common_token_stream.rs:162-180).  However deep calls may be nested (`m`), the
parser does not return. -/
theorem C78_false_blank : Lexed csvEnv 228 228 9 (Lex.new (InputStream.new (Str.mk [' ', 'a', '\n']))) csvDfas blankSrc ∧
    ∀ (fuel m : Nat) (q : Int) (σ : Gen.SimState), 60 ≤ fuel → 60 ≤ m → runRule (fueled (csvCfg false) fuel) m 0 q
      ⟨⟨{}, P.new (CTS.withChannel blankSrc 0)⟩, σ⟩ = none := by
  refine ⟨blank_lexed, fun fuel m q σ hf hm => ?_⟩
  obtain ⟨fuel, rfl⟩ : ∃ k, fuel = k + 60 := ⟨fuel - 60, by omega⟩
  obtain ⟨m, rfl⟩ : ∃ k, m = k + 60 := ⟨m - 60, by omega⟩
  exact blank_none fuel m q σ

end Antlr.EndProps
