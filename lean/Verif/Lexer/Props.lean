import Verif.Lexer.Run
import Verif.Lexer.Example

/-!
# The lexer's tokens: properties C20 – C24, C27, C28, C67

`Reads d cs ix sl` says that the data `d` reads as the characters `cs`; it holds for every input
(`reads_units`, `reads_str`).
-/

namespace Antlr.LexProps
open Antlr Lexer LexSpec LexExample

set_option linter.unusedSectionVars false

variable {D : Type} [InputData D] {d : D} {cs : List Int} {ix : Nat → Int} {sl : Nat → Nat → D}

theorem ready_new (R : Reads d cs ix sl) : Ready d cs ix 0 (Lex.new (InputStream.new d)) where
  le := Nat.zero_le _
  cur := by simp [Lex.new, InputStream.new, LexSpec.at_, R.first, lineOf_zero, colOf_zero]
  hit := by simp [Lex.new]

theorem exTame : Tame exEnv :=
  ⟨fun _ _ L => Untouched.refl L, fun L => Untouched.refl L, fun _ => rfl⟩

theorem exKeepsText : KeepsText exEnv := ⟨fun _ _ _ => rfl, fun _ => rfl⟩

/-! ## C20 tokens tile the input -/

/-- **C20** After any number of `next_token` calls, the matches made so far (tokens, skipped text,
parts collected by MORE, and dropped errors) lie end to end from the start of the input to the current
position; the tokens returned are exactly those these matches make, in order, followed by EOF tokens
that have an empty range at the end of the input. -/
theorem C20_tiles (R : Reads d cs ix sl) {env : Env D} (ht : Tame env) {fc fe fn k : Nat} {L : Lex D}
    {dfas dfas' : List DFA} {ts : List Tok}
    (h : nextTokens env fc fe fn k (Lex.new (InputStream.new d)) dfas = some (ts, L, dfas')) :
    ∃ m, m ≤ cs.length ∧ L.cur.input.index = ix m ∧ Tiling 0 L.pieces (ix m) ∧
      ∃ toks e, ts = toks ++ List.replicate e (eofToken cs ix) ∧
        toks.map (fun t => (t.start, t.stop + 1, t.ttype)) = tokensOf none L.pieces ∧
        (0 < e → m = cs.length) := by
  obtain ⟨m, ps, toks, e, r, g, h1, h2, h3, _, _⟩ := nextTokens_spec R ht k (ready_new R) h
  have hp : L.pieces = ps := by rw [g.pieces]; rfl
  refine ⟨m, r.le, by rw [r.cur]; rfl, ?_, toks, e, h1, by rw [hp]; exact h2, fun he => (h3 he).1⟩
  rw [hp, ← R.first]; exact g.tiling

/-- **C20** The text of every token other than EOF is the slice of the input the token covers (unless
actions override it). -/
theorem C20_text (R : Reads d cs ix sl) {env : Env D} (ht : Tame env) (hk : KeepsText env)
    {fc fe fn k : Nat} {L : Lex D} {dfas dfas' : List DFA} {ts : List Tok}
    (h : nextTokens env fc fe fn k (Lex.new (InputStream.new d)) dfas = some (ts, L, dfas'))
    (t : Tok) (hm : t ∈ ts) (hne : t.ttype ≠ EOF) :
    ∃ a b, a ≤ b ∧ b ≤ cs.length ∧ t.start = ix a ∧ t.stop = ix b - 1 ∧
      t.text = if a < cs.length then env.toChars (sl a b) else eofText := by
  obtain ⟨m, ps, toks, e, r, g, h1, h2, h3, _, h5⟩ := nextTokens_spec R ht k (ready_new R) h
  obtain ⟨a, b, g1, g2, g3, g4, _, _, g7⟩ := (h5 t hm).place
  exact ⟨a, b, g1, g2, g3, g4, g7 hk hne⟩

/-- The example run: five pieces with one skipped, one MORE and one error. -/
def exRun := nextTokens exEnv 20 20 20 6 (Lex.new (InputStream.new ⟨exText⟩)) exDFAs

example : exRun.map (fun r => r.1.map fun t => (t.ttype, t.start, t.stop, t.line, t.column)) =
    some [(1, 0, 0, 1, 0), (1, 2, 3, 1, 2), (4, 4, 4, 1, 4), (1, 6, 6, 2, 1), (-1, 7, 6, 2, 2),
      (-1, 7, 6, 2, 2)] := by decide +kernel
example : exRun.map (fun r => r.2.1.pieces.map fun p => (p.start, p.stop, p.kind, p.failed)) =
    some [(0, 1, 1, false), (1, 2, -3, false), (2, 3, -2, false), (3, 4, 1, false), (4, 5, 4, false),
      (5, 6, -3, true), (6, 7, 1, false)] := by decide +kernel
example : exRun.map (fun r => r.1.map fun t => t.text) =
    some [['a'], ['m', 'a'], ['\n'], ['a'], [], []] := by decide +kernel

/-- **C20 fails** for the range of the EOF token when the input ends while MORE is collecting: on the
input `m` the first token returned has type EOF but covers the `m`. -/
theorem C20_false_more_at_eof : ∃ ts L dfas,
    nextTokens exEnv 20 20 20 2 (Lex.new (InputStream.new (Str.mk ['m']))) exDFAs = some (ts, L, dfas) ∧
    ts.map (fun t => (t.ttype, t.start, t.stop, t.text)) = [(EOF, 0, 0, ['m']), (EOF, 1, 0, [])] := by
  have h : (nextTokens exEnv 20 20 20 2 (Lex.new (InputStream.new (Str.mk ['m']))) exDFAs).map
      (fun r => r.1.map (fun t => (t.ttype, t.start, t.stop, t.text))) =
      some [(EOF, 0, 0, ['m']), (EOF, 1, 0, [])] := by decide +kernel
  obtain ⟨r, hr, h⟩ := Option.map_eq_some_iff.mp h
  exact ⟨r.1, r.2.1, r.2.2, hr, h⟩

/-! ## C21 line and column -/

/-- **C21** Every token, EOF included, carries the line and column of its first character: one plus
the newlines before it, and the characters since the last newline. -/
theorem C21_line_column (R : Reads d cs ix sl) {env : Env D} (ht : Tame env)
    {fc fe fn k : Nat} {L : Lex D} {dfas dfas' : List DFA} {ts : List Tok}
    (h : nextTokens env fc fe fn k (Lex.new (InputStream.new d)) dfas = some (ts, L, dfas'))
    (t : Tok) (hm : t ∈ ts) :
    ∃ a, a ≤ cs.length ∧ t.start = ix a ∧ t.line = lineOf cs a ∧ t.column = colOf cs a := by
  obtain ⟨m, ps, toks, e, r, g, h1, h2, h3, _, h5⟩ := nextTokens_spec R ht k (ready_new R) h
  obtain ⟨a, b, g1, g2, g3, g4, g5, g6, _⟩ := (h5 t hm).place
  exact ⟨a, by omega, g3, g5, g6⟩

/-- **C21** Between calls the lexer's own line and column are those of its position, however far the
match looked ahead. -/
theorem C21_position (R : Reads d cs ix sl) {env : Env D} (ht : Tame env)
    {fc fe fn k : Nat} {L : Lex D} {dfas dfas' : List DFA} {ts : List Tok}
    (h : nextTokens env fc fe fn k (Lex.new (InputStream.new d)) dfas = some (ts, L, dfas')) :
    ∃ m, m ≤ cs.length ∧ L.cur = ⟨⟨d, ix m⟩, lineOf cs m, colOf cs m⟩ := by
  obtain ⟨m, ps, toks, e, r, _⟩ := nextTokens_spec R ht k (ready_new R) h
  exact ⟨m, r.le, r.cur⟩

example : lineOf [97, 10, 98, 98] 4 = 2 ∧ colOf [97, 10, 98, 98] 4 = 2 := by decide

/-! ## C22 EOF -/

/-- **C22** If matches return, consume before the end of the input and do not ask for more at its end,
every `next_token` call returns, and from call number `length + 2` on it returns the EOF token.  (When
matches do so: `C69_lexing_returns`.) -/
theorem C22_reaches_eof (R : Reads d cs ix sl) {env : Env D} (ht : Tame env) {fc fe fn : Nat}
    {Good : Nat → List DFA → Prop} (hc : Consuming env fc fe d cs ix Good) {dfas : List DFA}
    (hg : Good (cs.length + 1) dfas)
    (hf : 2 * cs.length + 3 ≤ fn) (k : Nat) :
    ∃ ts L dfas', nextTokens env fc fe fn k (Lex.new (InputStream.new d)) dfas = some (ts, L, dfas') ∧
      ts.length = k ∧ ∀ (i : Nat) (t : Tok), cs.length + 1 ≤ i → ts[i]? = some t → t = eofToken cs ix := by
  -- `j` calls are enough to see the end
  have key : ∀ (k j n b : Nat) (L : Lex D) (dfas : List DFA), Ready d cs ix n L → Good b dfas →
      (L.hitEof = false → cs.length - n + 1 ≤ b) → (L.hitEof = true ∨ cs.length + 1 ≤ n + j) →
      ∃ ts L' dfas', nextTokens env fc fe fn k L dfas = some (ts, L', dfas') ∧ ts.length = k ∧
        ∀ (i : Nat) (t : Tok), j ≤ i → ts[i]? = some t → t = eofToken cs ix := by
    intro k
    induction k with
    | zero =>
      intro j n b L dfas _ _ _ _
      exact ⟨[], L, dfas, rfl, rfl, by simp⟩
    | succ k ih =>
      intro j n b L dfas hr hg hb hj
      obtain ⟨t, L1, dfas1, b1, h1, h2, p, hp1, hp2, hp3, hp4, hp5⟩ := nextToken_total R ht hc hr hg hb hf
      obtain ⟨m, ps, r1, gr, em⟩ := nextToken_spec R ht hr h1
      have hpm : p = m := ix_inj R hp2 r1.le (congrArg (fun c => c.input.index) (hp3.symm.trans r1.cur))
      subst hpm
      have hj' : L1.hitEof = true ∨ cs.length + 1 ≤ p + (j - 1) := by
        cases hh : L1.hitEof
        · right
          have hnp := (hp5 hh).1
          rcases hj with hj | hj
          · have := (hit_nextToken hr hj h1).2.1
            rw [this] at hh; simp [hj] at hh
          · have : p ≠ cs.length := fun he => by rw [hp4 he] at hh; exact absurd hh (by simp)
            omega
        · left; rfl
      obtain ⟨ts, L2, dfas2, g1, g2, g3⟩ := ih (j - 1) p b1 L1 dfas1 r1 h2 (fun hh => (hp5 hh).2) hj'
      refine ⟨t :: ts, L2, dfas2, by simp [nextTokens, h1, g1], by simp [g2], ?_⟩
      intro i t' hi ht'
      cases i with
      | zero =>
        have hh : L.hitEof = true := by
          rcases hj with hj | hj
          · exact hj
          · have := hr.le; omega
        have e := (hit_nextToken hr hh h1).1
        simp only [List.getElem?_cons_zero, Option.some.injEq] at ht'
        rw [← ht', e]
      | succ i =>
        simp only [List.getElem?_cons_succ] at ht'
        exact g3 i t' (by omega) ht'
  obtain ⟨ts, L, dfas', h1, h2, h3⟩ := key k (cs.length + 1) 0 _ _ dfas (ready_new R) hg (fun _ => by omega)
    (Or.inr (by omega))
  exact ⟨ts, L, dfas', h1, h2, h3⟩

/-- **C22** Once the end of the input has been seen, `next_token` returns the same EOF token and
changes nothing, for ever. -/
theorem C22_eof_stays (R : Reads d cs ix sl) {env : Env D} (ht : Tame env) {fc fe fn k : Nat} {L : Lex D}
    {dfas dfas' : List DFA} {ts : List Tok}
    (h : nextTokens env fc fe fn k (Lex.new (InputStream.new d)) dfas = some (ts, L, dfas'))
    (hh : L.hitEof = true) (hf : 1 ≤ fn) (j : Nat) :
    ∃ L', nextTokens env fc fe fn j L dfas' = some (List.replicate j (eofToken cs ix), L', dfas') ∧
      L' = { L with token := L'.token } := by
  obtain ⟨m, _, _, _, r, -⟩ := nextTokens_spec R ht k (ready_new R) h
  clear h
  induction j generalizing L with
  | zero => exact ⟨L, rfl, rfl⟩
  | succ j ih =>
    have hn : ∃ x, nextToken env fc fe fn L dfas' = some x := by
      obtain ⟨fn, rfl⟩ : ∃ f, fn = f + 1 := ⟨fn - 1, by omega⟩
      simp only [nextToken, outerLoop, hh, ↓reduceIte, Option.bind_some, emitEof, Option.map_some]
      exact ⟨_, rfl⟩
    obtain ⟨⟨t, L1, dfas1⟩, hx⟩ := hn
    obtain ⟨h1, h2, h3⟩ := hit_nextToken r hh hx
    subst h1 h3
    obtain ⟨L', g1, g2⟩ := ih (L := L1) (by rw [h2]; exact hh) ⟨r.le, by rw [h2]; exact r.cur, fun _ => r.hit hh⟩
    refine ⟨L', ?_, ?_⟩
    · simp only [nextTokens, hx, Option.bind_some, g1, Option.map_some, List.replicate_succ]
    · rw [g2, h2]

/-- **C22** A failed match always drops at least one character, unless the input is at its end: no
two failures happen at the same position before the end. -/
theorem C22_failures_progress (R : Reads d cs ix sl) {env : Env D} (ht : Tame env)
    {fc fe fn k : Nat} {L : Lex D} {dfas dfas' : List DFA} {ts : List Tok}
    (h : nextTokens env fc fe fn k (Lex.new (InputStream.new d)) dfas = some (ts, L, dfas')) :
    ∀ p ∈ L.pieces, p.failed = true → p.start < p.stop ∨ p.stop = ix cs.length := by
  obtain ⟨m, ps, toks, e, r, g, _⟩ := nextTokens_spec R ht k (ready_new R) h
  have hp : L.pieces = ps := by rw [g.pieces]; rfl
  intro p hp' hf
  exact (g.fails p (hp ▸ hp') hf).2

/-! ## C23 modes -/

/-- The operations on modes. -/
inductive ModeOp where
  | push (m : Nat) | pop | set (m : Nat)
deriving DecidableEq, Repr

/-- What they should do to a stack whose head is the current mode. -/
def ModeOp.spec : ModeOp → List Nat → List Nat
  | .push m, s => m :: s
  | .pop, [] => []
  | .pop, [m] => [m]
  | .pop, _ :: s => s
  | .set m, s => m :: s.tail

/-- What the code does. -/
def ModeOp.run (L : Lex D) : ModeOp → Lex D
  | .push m => L.pushMode m
  | .pop => L.popMode.2
  | .set m => L.setMode m

/-- **C23** Any sequence of mode operations acts on current mode and mode stack like a stack with a
current element. -/
theorem C23_stack (ops : List ModeOp) (L : Lex D) :
    let L' := ops.foldl ModeOp.run L
    L'.mode :: L'.modeStack = ops.foldl (fun s op => op.spec s) (L.mode :: L.modeStack) ∧
    L'.cur = L.cur := by
  induction ops generalizing L with
  | nil => exact ⟨rfl, rfl⟩
  | cons op ops ih =>
    have h1 := ih (ModeOp.run L op)
    have h2 : (ModeOp.run L op).mode :: (ModeOp.run L op).modeStack = op.spec (L.mode :: L.modeStack) ∧
        (ModeOp.run L op).cur = L.cur := by
      cases op with
      | push m => exact ⟨rfl, rfl⟩
      | set m => exact ⟨rfl, rfl⟩
      | pop =>
        simp only [ModeOp.run, Lex.popMode]
        cases hms : L.modeStack with
        | nil => simp [ModeOp.spec, hms]
        | cons x xs => simp [ModeOp.spec]
    simp only [List.foldl_cons]
    rw [← h2.1]
    exact ⟨h1.1, h1.2.trans h2.2⟩

/-- **C23** `pop_mode` after `push_mode` restores everything and reports the old mode; on an empty
stack it reports nothing and changes nothing. -/
theorem C23_push_pop (L : Lex D) (m : Nat) :
    (L.pushMode m).popMode = (some L.mode, L) ∧ (L.modeStack = [] → L.popMode = (none, L)) := by
  refine ⟨rfl, fun h => ?_⟩
  simp [Lex.popMode, h]

/-- **C23** A match only looks at (and only extends) the DFA of the current mode. -/
theorem C23_match_uses_mode {env : Env D} {fc fe : Nat} {L : Lex D} {dfas other : List DFA}
    (h : other[L.mode]? = dfas[L.mode]?) :
    (matchToken env fc fe L other).map (fun r => (r.1, r.2.1, r.2.2[L.mode]?)) =
      (matchToken env fc fe L dfas).map (fun r => (r.1, r.2.1, r.2.2[L.mode]?)) ∧
    ∀ r, matchToken env fc fe L dfas = some r → ∀ i, i ≠ L.mode → r.2.2[i]? = dfas[i]? := by
  constructor
  · simp only [matchToken]
    rw [h]
    cases hd : dfas[L.mode]? with
    | none => simp [h, hd]
    | some dfa =>
      simp only [Option.map_map]
      congr 1
      funext r
      have h1 : L.mode < dfas.length := by
        by_contra hc; rw [List.getElem?_eq_none (by omega)] at hd; simp at hd
      have h2 : L.mode < other.length := by
        by_contra hc; rw [hd, List.getElem?_eq_none (by omega)] at h; simp at h
      simp [h1, h2]
  · intro r hr i hi
    simp only [matchToken] at hr
    split at hr
    · injection hr with hr; subst hr; rfl
    · simp only [Option.map_eq_some_iff] at hr
      obtain ⟨q, _, rfl⟩ := hr
      simp only
      rw [List.getElem?_set_ne (by omega)]

example : ([ModeOp.push 3, .push 5, .set 7, .pop, .pop, .pop].foldl (ModeOp.run (D := Str))
    (Lex.new (InputStream.new ⟨[]⟩))).mode = 0 := by decide

/-! ## C24 skip and more -/

/-- **C24** One `next_token` call: the matches made during the call either make exactly one token – the
one returned, which runs from the start of its first MORE match through its last match – or only
skipped text, and then EOF is returned. -/
theorem C24_one_token (R : Reads d cs ix sl) {env : Env D} (ht : Tame env)
    {fc fe fn k : Nat} {L L' : Lex D} {dfas dfas' dfas'' : List DFA} {ts : List Tok} {t : Tok}
    (h : nextTokens env fc fe fn k (Lex.new (InputStream.new d)) dfas = some (ts, L, dfas'))
    (h' : nextToken env fc fe fn L dfas' = some (t, L', dfas'')) :
    ∃ ps, L'.pieces = L.pieces ++ ps ∧
      (tokensOf none ps = [(t.start, t.stop + 1, t.ttype)] ∨
       tokensOf none ps = [] ∧ t = eofToken cs ix ∧ L'.hitEof = true) := by
  obtain ⟨m, ps, toks, e, r, _⟩ := nextTokens_spec R ht k (ready_new R) h
  obtain ⟨m', ps', r', g, em⟩ := nextToken_spec R ht r h'
  refine ⟨ps', g.pieces, ?_⟩
  cases em with
  | token a q1 q2 q3 q4 q5 q6 q7 q8 q9 =>
    left; rw [q7, q3, q4]; simp
  | eof q1 q2 q3 q4 => exact Or.inr ⟨q1, q2, q4⟩

/-- The environment of the example with an action that overrides the token, as src/lexer.rs:97-98
invites to. -/
def exOverride : Env Str :=
  { exEnv with
    action := fun _ _ L => { L with token := some { ttype := 99, channel := 0, start := 0, stop := 0,
                                                    line := 1, column := 0, index := -1, text := [] } } }

/-- **C24 fails** for overridden tokens: the rule `X : 'x' {token = …}` on the input `xa` sets a token
of type 99; `next_token` neither returns it nor anything else for the `x`, but the token for `a`. -/
theorem C24_false_override : ∃ ts L dfas,
    nextTokens exOverride 20 20 20 2 (Lex.new (InputStream.new (Str.mk ['x', 'a']))) exDFAs =
      some (ts, L, dfas) ∧
    ts.map (fun t => (t.ttype, t.start, t.stop)) = [(1, 1, 1), (EOF, 2, 1)] ∧
    L.pieces.map (fun p => (p.start, p.stop, p.kind)) = [(0, 1, 5), (1, 2, 1)] := by
  have h : (nextTokens exOverride 20 20 20 2 (Lex.new (InputStream.new (Str.mk ['x', 'a']))) exDFAs).map
      (fun r => (r.1.map (fun t => (t.ttype, t.start, t.stop)),
        r.2.1.pieces.map (fun p => (p.start, p.stop, p.kind)))) =
      some ([(1, 1, 1), (EOF, 2, 1)], [(0, 1, 5), (1, 2, 1)]) := by decide +kernel
  obtain ⟨r, hr, h⟩ := Option.map_eq_some_iff.mp h
  injection h with h1 h2
  exact ⟨r.1, r.2.1, r.2.2, hr, h1, h2⟩

/-! ## C27 actions -/

/-- **C27** Executing an action list performs every action once, in order, each with the input at its
place – the recorded offset for an action inside the rule, the token end for all others – and leaves
the input at the token's end (for actions that do not move the input themselves). -/
theorem C27_in_order_at_positions (action : Int → Int → Lex D → Lex D)
    (ht : ∀ r a L, Untouched L (action r a L)) (as : List LexerAction) (L : Lex D) (start : Int) :
    executeActions action as L start = performAll action start L.cur.input.index as L ∧
    (executeActions action as L start).cur = L.cur := by
  have h := executeActions_spec ht as L start
  refine ⟨h, ?_⟩
  rw [h, (performAll_untouched ht start L.cur.input.index as L).cur]; rfl

/-- An action that writes down where it ran. -/
def exTrace (r a : Int) (L : Lex Str) : Lex Str :=
  { L with text := some (L.text.getD [] ++ [r, a, L.cur.input.index].map fun x => Char.ofNat (x.toNat + 48)) }

example : (executeActions exTrace [.indexedCustom 1 (.custom 4 0), .skip, .custom 4 1]
    { Lex.new (InputStream.mk (Str.mk exText) 5) with mode := 2 } 2).ttype = LEXER_SKIP ∧
    (executeActions exTrace [.indexedCustom 1 (.custom 4 0), .skip, .custom 4 1]
      { Lex.new (InputStream.mk (Str.mk exText) 5) with mode := 2 } 2).text =
      some ['4', '0', '3', '4', '1', '5'] := by decide +kernel

/-- **C27** Before a character is matched, the offset is recorded in exactly the actions that depend on
the position and have none yet; order and all others are kept. -/
theorem C27_offsets (offset : Int) (as : List LexerAction) :
    (fixOffset offset as).length = as.length ∧
    ∀ (i : Nat) (a : LexerAction), as[i]? = some a →
      (fixOffset offset as)[i]? = some (match a with
        | .custom r x => .indexedCustom offset (.custom r x)
        | a => a) := by
  refine ⟨by simp [fixOffset], ?_⟩
  intro i a h
  simp only [fixOffset, List.getElem?_map, h, Option.map_some]
  cases a <;> rfl

/-! ## C28 predicates -/

/-- **C28** Evaluating a predicate speculatively leaves input position, line and column as they were,
whatever the predicate does to them; and the predicate sees the position after the current character. -/
theorem C28_restores {S : Type} (p : Cursor D × S → Option (Bool × Cursor D × S)) (c : Cursor D) (s : S)
    (hp : ∀ x r, p x = some r → r.2.1.input.data = x.1.input.data)
    {b : Bool} {c' : Cursor D} {s' : S} (h : evaluatePredicate p true c s = some (b, c', s')) :
    c' = c ∧ ∃ c1 c2, c.consume = some c1 ∧ p (c1, s) = some (b, c2, s') := by
  simp only [evaluatePredicate, ↓reduceIte] at h
  obtain ⟨c1, hc, h⟩ := Option.bind_eq_some_iff.mp h
  simp only [Option.map_eq_some_iff] at h
  obtain ⟨⟨b1, c2, s1⟩, hr, h⟩ := h
  injection h with h0 h; injection h with h1 h2
  subst h0 h2
  refine ⟨?_, c1, c2, hc, hr⟩
  have hd := hp _ _ hr
  simp only at hd
  have hd1 : c1.input.data = c.input.data := by
    simp only [Cursor.consume] at hc
    obtain ⟨ch, _, hc⟩ := Option.bind_eq_some_iff.mp hc
    simp only [Option.map_eq_some_iff, InputStream.consume] at hc
    obtain ⟨i, ⟨j, _, rfl⟩, rfl⟩ := hc
    split <;> rfl
  rw [← h1, hd.trans hd1 |> fun e => show c2.input.seek c.input.index = c.input by
    simp only [InputStream.seek, e]]

/-- **C28** The value of a predicate, in the middle of a match at position `n`: that at position
`n + 1`, with the right line and column. -/
theorem C28_position (R : Reads d cs ix sl) (sp : Int → Int → Cursor D → Bool) (r p : Int) {n : Nat}
    (hn : n < cs.length) :
    predValue sp r p true (LexSpec.at_ d cs ix n) = some (sp r p (LexSpec.at_ d cs ix (n + 1))) := by
  simp [predValue, evaluatePredicate, consume_at R hn]

/-- **C28** At the end of the input speculative evaluation panics ("cannot consume EOF"). -/
theorem C28_false_eof_panics (text : List Char) (sp : Int → Int → Cursor Str → Bool) (r p l c : Int) :
    predValue sp r p true ⟨⟨⟨text⟩, (bytes text : Nat)⟩, l, c⟩ = none := by
  have h := (InputProps.C08_consume text []).2 rfl
  simp only [InputProps.at_, List.append_nil] at h
  simp only [predValue, evaluatePredicate, ↓reduceIte, Cursor.consume, h, Option.map_none,
    Option.map_eq_none_iff, Option.bind_eq_none_iff]
  intros; trivial

example : (evaluatePredicate (S := Nat) (fun x => some (true, ⟨x.1.input.seek 0, 7, 7⟩, x.2 + 1)) true
    (Cursor.mk ⟨Str.mk exText, 4⟩ 1 4) 0) = some (true, ⟨⟨⟨exText⟩, 4⟩, 1, 4⟩, 1) := by decide +kernel

/-! ## C67 error reports -/

/-- **C67** The lexer reports one error for each piece of dropped input, in order, at the line and
column where it starts and with exactly the dropped text (including what MORE had collected). -/
theorem C67_reports (R : Reads d cs ix sl) {env : Env D} (ht : Tame env)
    {fc fe fn k : Nat} {L : Lex D} {dfas dfas' : List DFA} {ts : List Tok}
    (h : nextTokens env fc fe fn k (Lex.new (InputStream.new d)) dfas = some (ts, L, dfas')) :
    List.Forall₂ (Describes cs ix sl) L.reports (errorsOf none L.pieces) := by
  obtain ⟨m, ps, toks, e, r, g, _⟩ := nextTokens_spec R ht k (ready_new R) h
  have hp : L.pieces = ps := by rw [g.pieces]; rfl
  obtain ⟨rs, h1, h2⟩ := g.reports
  rw [hp, h1]; exact h2

/-- On `m?a` the collected `m` is dropped with the `?`. -/
example : (nextTokens exEnv 20 20 20 1 (Lex.new (InputStream.new (Str.mk ['m', '?', 'a']))) exDFAs).map
    (fun r => r.2.1.reports.map fun x => (x.line, x.col, x.text.chars)) = some [(1, 0, ['m', '?'])] := by
  decide +kernel

end Antlr.LexProps
