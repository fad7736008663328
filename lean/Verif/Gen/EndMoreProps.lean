import Verif.Gen.EndProps
import Verif.Gen.TameReturnProps

/-!
# Parsing a text returns: C78 for the other lexers and parsers of tests/gen

As in `Gen/EndProps.lean`.
-/

namespace Antlr.EndProps
open Antlr Lexer LexCache LexSpec LexCacheProps LexTotal LexTotalProps EndSpec
open Antlr.Gen (emptyDfas calcLexer labelsLexer slrLexer basicLexer plainLexer runRule)
open Antlr.GenProps (fueled Small)
open Antlr.TokenSpec (Visible eofIdx)

variable {D : Type} [InputData D]

/-- What an action of the lexer may set. -/
def actionB (ty ch : Int → Bool) : LexerAction → Bool
  | .type t => ty t
  | .channel c => ch c
  | .indexedCustom _ _ => false
  | _ => true

/-- `Within` for a lexer without actions in the target language. -/
theorem within_of {atn : ATN} {ty ch : Int → Bool} (h1 : atn.ruleToTokenType.all ty = true)
    (h2 : atn.lexerActions.all (actionB ty ch) = true) (h3 : ch 0 = true) (hash : List Config → Nat) (toChars : D → List Char) :
    EndSpec.Within (plainLexer atn hash toChars) (fun t => ty t = true) (fun c => ch c = true) where
  rule := List.all_eq_true.1 h1
  type := fun t h => List.all_eq_true.1 h2 _ h
  channel := fun c h => List.all_eq_true.1 h2 _ h
  default := h3
  plain := fun o a h => by have := List.all_eq_true.1 h2 _ h; cases this
  actionType := fun _ _ _ => .inl rfl
  actionChannel := fun _ _ _ => .inl rfl
  emitType := fun _ => rfl
  emitChannel := fun _ => .inl rfl

/-- If all tokens are on the channel, the first is. -/
theorem visible_all {src : Source} {c : Int} (h : ∀ t ∈ src.pre, t.channel = c) : Visible src c 0 := by
  cases hp : src.pre with
  | nil => exact .inl (by simp [eofIdx, hp])
  | cons t l =>
    exact .inr ⟨by simp [eofIdx, hp], by
      simpa [Source.next, hp] using h t (by rw [hp]; exact List.mem_cons_self ..)⟩

variable {d : D} {cs : List Int} {ix : Nat → Int} {sl : Nat → Nat → D} {fc fe fn : Nat} {hash : List Config → Nat}
  {toChars : D → List Char} {dfas : List DFA}

/-! ## grammars/VisitorCalc.g4 -/

def calcHeights : List Nat := [3, 2, 1, 1, 1, 1, 1, 1, 1, 1, 1, 2, 1, 0, 1, 4, 3, 2, 0, 2, 0, 2, 0, 2, 0, 2, 0, 1, 6, 5, 4, 3, 2]
def calcNulls : List Bool := [false, false, true, false, true, false, true, false, true, false, true, false, true, false, false,
  true, true, true, false, true, false, true, false, true, false, true, false, false, true, true, true, true, true]

theorem calc_loops : loopCheck calcLexer calcHeights calcNulls = true := by decide +kernel
theorem calc_whole : Whole calcLexer := wholeCheck_ok (by decide +kernel)
theorem calc_empty : emptyCheck calcLexer calcNulls = true := by decide +kernel

/-- **C78** Parsing a text with the lexer and the parser of grammars/VisitorCalc.g4, with the bail strategy, returns if the text begins with a token on the
channel of the parser, and not with blanks. -/
theorem C78_calc_partial (hh : TellsApart hash) (R : Reads d cs ix sl) (hs : Sane d)
    (hfc : 57 * (cs.length + 1) ≤ fc) (hfe : 57 * (cs.length + 1) ≤ fe)
    (hfn : 2 * cs.length + 3 ≤ fn) (hr : Reached calcLexer hash fc dfas) (hroom : Room ((cs.length + 1) * (fe + 1)) dfas)
    (hfirst : StartsOn (plainLexer calcLexer hash toChars) fc fe fn (Lex.new (InputStream.new d)) dfas 0)
    (B : Nat) (hB : B + (cs.length + 3) ≤ ERROR_DFA_STATE_REF) {ds : List DFA} (hds : emptyDfas Gen.Calc.atn = some ds) :
    ∃ src, Lexed (plainLexer calcLexer hash toChars) fc fe fn (Lex.new (InputStream.new d)) dfas src ∧
      ∃ F, ∀ fuel, F ≤ fuel → ∀ (r : Nat) (q : Int), r < 2 → ∃ m0 x s',
        (∀ m, m0 ≤ m → runRule ((fueled GenProps.calcCfg fuel).upto B) m r q
          ⟨⟨{}, P.new (CTS.withChannel src 0)⟩, ⟨ds, []⟩⟩ = some (x, s')) ∧
        (Small B s'.sim = true → ∀ m, m0 ≤ m → runRule (fueled GenProps.calcCfg fuel) m r q
          ⟨⟨{}, P.new (CTS.withChannel src 0)⟩, ⟨ds, []⟩⟩ = some (x, s')) ∧
        ((∃ root, x = .ok root) ∨ ∃ e, x = .error (.fallThrough e)) := by
  obtain ⟨src, h1, h2, h3⟩ := C78_source (env := plainLexer calcLexer hash toChars) calc_whole
    (N := 7) (loopCheck_ok calc_loops (by decide) (by decide)) (emptyCheck_ok calc_loops calc_empty) hh
    (plain_tame _ _ _) R hs hfc hfe hfn hr hroom
    (within_of (ty := fun t => decide (1 ≤ t ∧ t ≤ 6)) (ch := fun c => decide (c = 0 ∨ c = 1)) (by decide +kernel) (by decide +kernel) rfl hash toChars)
  obtain ⟨F, hF⟩ := GenProps.C77_calc src 0 (visible_of h1 hfirst) (fun t ht => by
    have := (h3 t ht).1
    simp only [decide_eq_true_eq] at this
    simp only [GenProps.calcTypes, List.mem_cons]
    omega) B (by simp only [eofIdx]; omega) hds
  exact ⟨src, h1, F, hF⟩

/-! ## grammars/Labels.g4 -/

def labelsHeights : List Nat := [3, 1, 1, 1, 1, 1, 1, 1, 1, 1, 1, 1, 1, 2, 1, 2, 1, 1, 1, 0, 2, 0, 2, 0, 2, 0, 2, 0, 0, 2, 0, 0, 2, 0, 1,
  4, 3, 2, 0, 1, 4, 3, 2, 0, 4, 3, 2]
def labelsNulls : List Bool := [false, false, true, false, true, false, true, false, true, false, true, false, true, false, true,
  false, true, false, true, false, true, false, true, false, true, false, true, false, false, true, false, false, true, false,
  false, true, true, true, false, false, true, true, true, false, true, true, true]

theorem labels_loops : loopCheck labelsLexer labelsHeights labelsNulls = true := by decide +kernel
theorem labels_whole : Whole labelsLexer := wholeCheck_ok (by decide +kernel)
theorem labels_empty : emptyCheck labelsLexer labelsNulls = true := by decide +kernel

/-- **C78** Parsing a text with the lexer and the parser of grammars/Labels.g4, with the bail strategy, returns, whatever the text. -/
theorem C78_labels (hh : TellsApart hash) (R : Reads d cs ix sl) (hs : Sane d)
    (hfc : 31 * (cs.length + 1) ≤ fc) (hfe : 31 * (cs.length + 1) ≤ fe)
    (hfn : 2 * cs.length + 3 ≤ fn) (hr : Reached labelsLexer hash fc dfas) (hroom : Room ((cs.length + 1) * (fe + 1)) dfas)
    (B : Nat) (hB : B + (cs.length + 3) ≤ ERROR_DFA_STATE_REF) {ds : List DFA} (hds : emptyDfas Gen.Labels.atn = some ds) :
    ∃ src, Lexed (plainLexer labelsLexer hash toChars) fc fe fn (Lex.new (InputStream.new d)) dfas src ∧
      ∃ F, ∀ fuel, F ≤ fuel → ∀ (r : Nat) (q : Int), r < 2 → ∃ m0 x s',
        (∀ m, m0 ≤ m → runRule ((fueled (Gen.Labels.cfg true) fuel).upto B) m r q
          ⟨⟨{}, P.new (CTS.withChannel src 0)⟩, ⟨ds, []⟩⟩ = some (x, s')) ∧
        (Small B s'.sim = true → ∀ m, m0 ≤ m → runRule (fueled (Gen.Labels.cfg true) fuel) m r q
          ⟨⟨{}, P.new (CTS.withChannel src 0)⟩, ⟨ds, []⟩⟩ = some (x, s')) ∧
        ((∃ root, x = .ok root) ∨ ∃ e, x = .error (.fallThrough e)) := by
  obtain ⟨src, h1, h2, h3⟩ := C78_source (env := plainLexer labelsLexer hash toChars) labels_whole
    (N := 5) (loopCheck_ok labels_loops (by decide) (by decide)) (emptyCheck_ok labels_loops labels_empty) hh
    (plain_tame _ _ _) R hs hfc hfe hfn hr hroom
    (within_of (ty := fun t => decide (1 ≤ t ∧ t ≤ 9)) (ch := fun c => decide (c = 0)) (by decide +kernel) (by decide +kernel) rfl hash toChars)
  obtain ⟨F, hF⟩ := GenProps.C77_labels src 0 (visible_all fun t ht => by simpa using (h3 t ht).2) (fun t ht => by
    have := (h3 t ht).1
    simp only [decide_eq_true_eq] at this
    simp only [GenProps.labelsTypes, List.mem_cons]
    omega) B (by simp only [eofIdx]; omega) hds
  exact ⟨src, h1, F, hF⟩

/-! ## grammars/SimpleLR.g4 -/

def slrHeights : List Nat := [3, 2, 1, 1, 1, 0, 1, 4, 3, 2, 0, 4, 3, 2]
def slrNulls : List Bool := [false, false, true, false, true, false, false, true, true, true, false, true, true, true]

theorem slr_loops : loopCheck slrLexer slrHeights slrNulls = true := by decide +kernel
theorem slr_whole : Whole slrLexer := wholeCheck_ok (by decide +kernel)
theorem slr_empty : emptyCheck slrLexer slrNulls = true := by decide +kernel

/-- **C78** Parsing a text with the lexer and the parser of grammars/SimpleLR.g4, with the bail strategy, returns, whatever the text. -/
theorem C78_slr (hh : TellsApart hash) (R : Reads d cs ix sl) (hs : Sane d)
    (hfc : 31 * (cs.length + 1) ≤ fc) (hfe : 31 * (cs.length + 1) ≤ fe)
    (hfn : 2 * cs.length + 3 ≤ fn) (hr : Reached slrLexer hash fc dfas) (hroom : Room ((cs.length + 1) * (fe + 1)) dfas)
    (B : Nat) (hB : B + (cs.length + 3) ≤ ERROR_DFA_STATE_REF) {ds : List DFA} (hds : emptyDfas Gen.SimpleLR.atn = some ds) :
    ∃ src, Lexed (plainLexer slrLexer hash toChars) fc fe fn (Lex.new (InputStream.new d)) dfas src ∧
      ∃ F, ∀ fuel, F ≤ fuel → ∀ (r : Nat) (q : Int), r < 2 → ∃ m0 x s',
        (∀ m, m0 ≤ m → runRule ((fueled (Gen.SimpleLR.cfg true) fuel).upto B) m r q
          ⟨⟨{}, P.new (CTS.withChannel src 0)⟩, ⟨ds, []⟩⟩ = some (x, s')) ∧
        (Small B s'.sim = true → ∀ m, m0 ≤ m → runRule (fueled (Gen.SimpleLR.cfg true) fuel) m r q
          ⟨⟨{}, P.new (CTS.withChannel src 0)⟩, ⟨ds, []⟩⟩ = some (x, s')) ∧
        ((∃ root, x = .ok root) ∨ ∃ e, x = .error (.fallThrough e)) := by
  obtain ⟨src, h1, h2, h3⟩ := C78_source (env := plainLexer slrLexer hash toChars) slr_whole
    (N := 5) (loopCheck_ok slr_loops (by decide) (by decide)) (emptyCheck_ok slr_loops slr_empty) hh
    (plain_tame _ _ _) R hs hfc hfe hfn hr hroom
    (within_of (ty := fun t => decide (1 ≤ t ∧ t ≤ 2)) (ch := fun c => decide (c = 0)) (by decide +kernel) (by decide +kernel) rfl hash toChars)
  obtain ⟨F, hF⟩ := GenProps.C77_slr src 0 (visible_all fun t ht => by simpa using (h3 t ht).2) (fun t ht => by
    have := (h3 t ht).1
    simp only [decide_eq_true_eq] at this
    simp only [GenProps.slrTypes, List.mem_cons]
    omega) B (by simp only [eofIdx]; omega) hds
  exact ⟨src, h1, F, hF⟩

/-! ## grammars/VisitorBasic.g4 -/

def basicHeights : List Nat := [2, 1, 1, 0, 2]
def basicNulls : List Bool := [false, false, true, false, true]

theorem basic_loops : loopCheck basicLexer basicHeights basicNulls = true := by decide +kernel
theorem basic_whole : Whole basicLexer := wholeCheck_ok (by decide +kernel)
theorem basic_empty : emptyCheck basicLexer basicNulls = true := by decide +kernel

/-- **C78** Parsing a text with the lexer and the parser of grammars/VisitorBasic.g4 returns, whatever the text, with either strategy. -/
theorem C78_basic (bail : Bool) (hh : TellsApart hash) (R : Reads d cs ix sl) (hs : Sane d)
    (hfc : 13 * (cs.length + 1) ≤ fc) (hfe : 13 * (cs.length + 1) ≤ fe)
    (hfn : 2 * cs.length + 3 ≤ fn) (hr : Reached basicLexer hash fc dfas) (hroom : Room ((cs.length + 1) * (fe + 1)) dfas) :
    ∃ src, Lexed (plainLexer basicLexer hash toChars) fc fe fn (Lex.new (InputStream.new d)) dfas src ∧
      ∃ F, ∀ fuel, F ≤ fuel → ∀ (q : Int) (σ : Gen.SimState), ∃ m0 x s',
        (∀ m, m0 ≤ m → runRule (fueled (Gen.Basic.cfg bail) fuel) m 0 q ⟨⟨{}, P.new (CTS.withChannel src 0)⟩, σ⟩ = some (x, s')) ∧
        ((∃ root, x = .ok root) ∨ (bail = true ∧ ∃ e, x = .error (.fallThrough e))) := by
  obtain ⟨src, h1, h2, h3⟩ := C78_source (env := plainLexer basicLexer hash toChars) basic_whole
    (N := 3) (loopCheck_ok basic_loops (by decide) (by decide)) (emptyCheck_ok basic_loops basic_empty) hh
    (plain_tame _ _ _) R hs hfc hfe hfn hr hroom
    (within_of (ty := fun t => decide (1 ≤ t ∧ t ≤ 1)) (ch := fun c => decide (c = 0)) (by decide +kernel) (by decide +kernel) rfl hash toChars)
  obtain ⟨F, hF⟩ := GenProps.C77_basic bail src 0 (visible_all fun t ht => by simpa using (h3 t ht).2) (fun t ht => by
    have := (h3 t ht).1
    simp only [decide_eq_true_eq] at this
    simp only [GenProps.basicTypes, List.mem_cons]
    omega)
  refine ⟨src, h1, F, fun fuel hf q σ => ?_⟩
  obtain ⟨m0, x, s', g1, g2⟩ := hF fuel hf q σ
  exact ⟨m0, x, s', g1, g2.imp (fun ⟨root, _, h, _⟩ => ⟨root, h⟩) id⟩

/-! ## Examples -/

def labelsDfas : List DFA := (emptyDfas labelsLexer).getD []

/-- Every text, with a new lexer and a new parser of grammars/Labels.g4. -/
example (text : List Char) (h : text.length < 2 ^ 29) : ∃ src,
    Lexed (plainLexer labelsLexer blindHash Str.chars) (31 * (text.length + 1)) (31 * (text.length + 1)) (2 * text.length + 3)
      (Lex.new (InputStream.new (Str.mk text))) labelsDfas src ∧
    ∃ F, ∀ fuel, F ≤ fuel → ∃ m0 x s', (∀ m, m0 ≤ m → runRule ((fueled (Gen.Labels.cfg true) fuel).upto (2 ^ 60)) m 0 0
      ⟨⟨{}, P.new (CTS.withChannel src 0)⟩, ⟨(emptyDfas Gen.Labels.atn).getD [], []⟩⟩ = some (x, s')) ∧
      ((∃ root, x = .ok root) ∨ ∃ e, x = .error (.fallThrough e)) := by
  obtain ⟨ds, hd⟩ := GenProps.labels_dfas
  have hn := new_dfas (atn := labelsLexer) (ds := labelsDfas) (hash := blindHash) (fc := 31 * (text.length + 1))
    (by decide +kernel) (by decide +kernel)
  have hl : (text.map fun c => (c.toNat : Int)).length = text.length := List.length_map ..
  obtain ⟨src, h1, F, hF⟩ := C78_labels (toChars := Str.chars) (fc := 31 * (text.length + 1)) (fe := 31 * (text.length + 1))
    (fn := 2 * text.length + 3) blindHash_ok (Antlr.LexProps.reads_str text)
    (sane_str _) (by rw [hl]) (by rw [hl]) (by rw [hl]) hn.1 (hn.2 _ (by
      rw [hl]
      have : (text.length + 1) * (31 * (text.length + 1) + 1) ≤ 2 ^ 29 * (31 * 2 ^ 29 + 1) :=
        Nat.mul_le_mul (by omega) (by omega)
      have e : ERROR_DFA_STATE_REF = 2 ^ 64 - 1 := rfl
      rw [e]
      omega)) (2 ^ 60) (by
      rw [hl]
      have e : ERROR_DFA_STATE_REF = 2 ^ 64 - 1 := rfl
      rw [e]
      omega) hd
  refine ⟨src, h1, F, fun fuel hf => ?_⟩
  obtain ⟨m0, x, s', g1, -, g2⟩ := hF fuel hf 0 0 (by decide)
  exact ⟨m0, x, s', by rw [hd]; exact g1, g2⟩

def calcEnv : Env Str := plainLexer calcLexer blindHash Str.chars
def calcDfas : List DFA := (emptyDfas calcLexer).getD []

/-- `1 +x*`: there is no `x` in the language of the calculator, and the factor is missing. -/
example : ∃ src, Lexed calcEnv 342 342 13 (Lex.new (InputStream.new (Str.mk ['1', ' ', '+', 'x', '*']))) calcDfas src ∧
    ∃ F, ∀ fuel, F ≤ fuel → ∃ m0 x s', (∀ m, m0 ≤ m → runRule ((fueled GenProps.calcCfg fuel).upto (2 ^ 60)) m 0 0
      ⟨⟨{}, P.new (CTS.withChannel src 0)⟩, ⟨(emptyDfas Gen.Calc.atn).getD [], []⟩⟩ = some (x, s')) ∧
      ((∃ root, x = .ok root) ∨ ∃ e, x = .error (.fallThrough e)) := by
  obtain ⟨ds, hd⟩ := GenProps.calc_dfas
  have hn := new_dfas (atn := calcLexer) (ds := calcDfas) (hash := blindHash) (fc := 342) (by decide +kernel) (by decide +kernel)
  obtain ⟨src, h1, F, hF⟩ := C78_calc_partial (toChars := Str.chars) (fc := 342) (fe := 342) (fn := 13) blindHash_ok
    (Antlr.LexProps.reads_str ['1', ' ', '+', 'x', '*']) (sane_str _) (by decide) (by decide) (by decide) hn.1 (hn.2 _ (by decide)) (by
      intro t L' dfas' h
      have : ((nextToken calcEnv 342 342 13 (Lex.new (InputStream.new (Str.mk ['1', ' ', '+', 'x', '*']))) calcDfas).map
        fun r => r.1.channel) = some 0 := by decide +kernel
      right
      have h' : nextToken calcEnv 342 342 13 (Lex.new (InputStream.new (Str.mk ['1', ' ', '+', 'x', '*']))) calcDfas =
        some (t, L', dfas') := h
      rw [h'] at this
      simpa using this) (2 ^ 60) (by decide) hd
  refine ⟨src, h1, F, fun fuel hf => ?_⟩
  obtain ⟨m0, x, s', g1, -, g2⟩ := hF fuel hf 0 0 (by decide)
  exact ⟨m0, x, s', by rw [hd]; exact g1, g2⟩

end Antlr.EndProps
