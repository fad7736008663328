import Verif.Lexer.Position
import Mathlib.Data.List.Forall2

/-!
# `next_token`: helper lemmas for C20 – C24
-/

namespace Antlr.LexProps
open Antlr Lexer LexSpec

set_option linter.unusedSectionVars false

variable {D : Type} [InputData D] {d : D} {cs : List Int} {ix : Nat → Int} {sl : Nat → Nat → D}

/-! ## What a failed match leaves alone -/

theorem failOrAccept_err {action : Int → Int → Lex D → Lex D} {start : Int} {x : Stop D} {L L' : Lex D}
    {res : MatchRes} (h : failOrAccept action start x L = some (res, L')) (hr : ∀ t, res ≠ .ok t) :
    L' = { L with cur := L'.cur } := by
  simp only [failOrAccept] at h
  split at h
  · simp only [Option.map_eq_some_iff] at h
    obtain ⟨st, _, h⟩ := h
    injection h with h _
    exact absurd h.symm (hr _)
  · split at h
    · injection h with h; injection h with h _; exact absurd h.symm (hr _)
    · injection h with h; injection h with _ h; subst h; rfl

theorem execAtn_err {env : Env D} {fc fe : Nat} {start : Int} {L L' : Lex D} {dfa dfa' : DFA} {s0 : Nat}
    {res : MatchRes} (h : execAtn env fc fe start L dfa s0 = some (res, L', dfa'))
    (hr : ∀ t, res ≠ .ok t) : L' = { L with cur := L'.cur } := by
  simp only [execAtn] at h
  obtain ⟨cap, hcap, h⟩ := Option.bind_eq_some_iff.mp h
  obtain ⟨sy, _, h⟩ := Option.bind_eq_some_iff.mp h
  obtain ⟨x, hx, h⟩ := Option.bind_eq_some_iff.mp h
  simp only [Option.map_eq_some_iff] at h
  obtain ⟨⟨res', L1⟩, hf, h⟩ := h
  injection h with h0 h; injection h with hl hd
  subst h0 hl
  exact failOrAccept_err hf hr

theorem matchToken_err {env : Env D} {fc fe : Nat} {L L' : Lex D} {dfas dfas' : List DFA}
    {res : MatchRes} (h : matchToken env fc fe L dfas = some (res, L', dfas'))
    (hr : ∀ t, res ≠ .ok t) : L' = { L with cur := L'.cur } := by
  simp only [matchToken] at h
  split at h
  · injection h with h; injection h with _ h; injection h with h _; subst h; rfl
  · simp only [Option.map_eq_some_iff] at h
    obtain ⟨⟨res', L1, d1⟩, hm, h⟩ := h
    injection h with h0 h; injection h with h _; subst h0 h
    split at hm
    · simp only [matchAtn] at hm
      split at hm
      · injection hm with h; injection h with _ h; injection h with h _; subst h; rfl
      · obtain ⟨st, _, hm⟩ := Option.bind_eq_some_iff.mp hm
        obtain ⟨s0, _, hm⟩ := Option.bind_eq_some_iff.mp hm
        obtain ⟨r, _, hm⟩ := Option.bind_eq_some_iff.mp hm
        exact execAtn_err hm hr
    · exact execAtn_err hm hr

/-! ## Text -/

theorem executeAction_text {action : Int → Int → Lex D → Lex D}
    (ht : ∀ r a L, (action r a L).text = L.text) (a : LexerAction) (L : Lex D) :
    (executeAction action a L).text = L.text := by
  induction a with
  | custom r a => exact ht r a L
  | popMode =>
    simp only [executeAction, Lex.popMode]
    split <;> rfl
  | indexedCustom o a ih => simpa only [executeAction] using ih
  | _ => rfl

theorem executeLoop_text {action : Int → Int → Lex D → Lex D}
    (ht : ∀ r a L, (action r a L).text = L.text) (start stop : Int) (as : List LexerAction) :
    ∀ (L : Lex D) (rs : Bool), (executeLoop action start stop as L rs).1.text = L.text := by
  induction as with
  | nil => intro L rs; rfl
  | cons a as ih =>
    intro L rs
    simp only [executeLoop]
    split
    · rw [ih, executeAction_text ht]; rfl
    · split
      · rw [ih, executeAction_text ht]; rfl
      · rw [ih, executeAction_text ht]

theorem executeActions_text {action : Int → Int → Lex D → Lex D}
    (ht : ∀ r a L, (action r a L).text = L.text) (as : List LexerAction) (L : Lex D) (start : Int) :
    (executeActions action as L start).text = L.text := by
  simp only [executeActions]
  split
  · exact executeLoop_text ht _ _ _ _ _
  · exact executeLoop_text ht _ _ _ _ _

theorem execAtn_text {env : Env D} (ht : KeepsText env) {fc fe : Nat} {start : Int} {L L' : Lex D}
    {dfa dfa' : DFA} {s0 : Nat} {res : MatchRes}
    (h : execAtn env fc fe start L dfa s0 = some (res, L', dfa')) : L'.text = L.text := by
  simp only [execAtn] at h
  obtain ⟨cap, hcap, h⟩ := Option.bind_eq_some_iff.mp h
  obtain ⟨sy, _, h⟩ := Option.bind_eq_some_iff.mp h
  obtain ⟨x, hx, h⟩ := Option.bind_eq_some_iff.mp h
  simp only [Option.map_eq_some_iff] at h
  obtain ⟨⟨res', L1⟩, hf, h⟩ := h
  injection h with h0 h; injection h with hl hd
  subst h0 hl
  simp only [failOrAccept] at hf
  split at hf
  · simp only [Option.map_eq_some_iff] at hf
    obtain ⟨st, _, hf⟩ := hf
    injection hf with _ hf
    subst hf
    split
    · rw [executeActions_text ht.action]
    · rfl
  · split at hf
    · injection hf with h; injection h with _ h; subst h; rfl
    · injection hf with h; injection h with _ h; subst h; rfl

theorem matchToken_text {env : Env D} (ht : KeepsText env) {fc fe : Nat} {L L' : Lex D}
    {dfas dfas' : List DFA} {res : MatchRes} (h : matchToken env fc fe L dfas = some (res, L', dfas')) :
    L'.text = L.text := by
  simp only [matchToken] at h
  split at h
  · injection h with h; injection h with _ h; injection h with h _; subst h; rfl
  · simp only [Option.map_eq_some_iff] at h
    obtain ⟨⟨res', L1, d1⟩, hm, h⟩ := h
    injection h with h0 h; injection h with h _; subst h0 h
    split at hm
    · simp only [matchAtn] at hm
      split at hm
      · injection hm with h; injection h with _ h; injection h with h _; subst h; rfl
      · obtain ⟨st, _, hm⟩ := Option.bind_eq_some_iff.mp hm
        obtain ⟨s0, _, hm⟩ := Option.bind_eq_some_iff.mp hm
        obtain ⟨r, _, hm⟩ := Option.bind_eq_some_iff.mp hm
        exact execAtn_text ht hm
    · exact execAtn_text ht hm

/-! ## One iteration of the inner loop -/

/-- What one match does to the lexer, which stood at position `n` collecting a token from
position `a` on. -/
structure Stepped (d : D) (cs : List Int) (ix : Nat → Int) (sl : Nat → Nat → D) (a n m : Nat)
    (failed : Bool) (L L' : Lex D) : Prop where
  le : n ≤ m
  le' : m ≤ cs.length
  cur : L'.cur = LexSpec.at_ d cs ix m
  startIndex : L'.startIndex = L.startIndex
  startLine : L'.startLine = L.startLine
  startCol : L'.startCol = L.startCol
  token : L'.token = L.token
  hitEof : L'.hitEof = (L.hitEof || decide (m = cs.length))
  pieces : L'.pieces = L.pieces ++ [⟨ix n, ix m, L'.ttype, failed⟩]
  fail : failed = true → L'.ttype = LEXER_SKIP ∧ (n < m ∨ m = cs.length) ∧
    L'.reports = L.reports ++ [⟨L.startLine, L.startCol, sl a m⟩]
  good : failed = false → L'.reports = L.reports

theorem matchStep_spec (R : Reads d cs ix sl) {env : Env D} (ht : Tame env) {fc fe : Nat} {L L' : Lex D}
    {dfas dfas' : List DFA} {a n : Nat} (han : a ≤ n) (hn : n ≤ cs.length)
    (hL : L.cur = LexSpec.at_ d cs ix n) (hs : L.startIndex = ix a)
    (h : matchStep env fc fe L dfas = some (L', dfas')) :
    (∃ m failed, Stepped d cs ix sl a n m failed L L') ∧ (KeepsText env → L'.text = L.text) := by
  simp only [matchStep] at h
  obtain ⟨⟨res, L1, dfas1⟩, hm, h⟩ := Option.bind_eq_some_iff.mp h
  obtain ⟨hk, m, h1, h2, h3⟩ :=
    matchToken_pos R ht (L := { L with ttype := TOKEN_INVALID_TYPE }) hn hL hm
  simp only [h3] at h
  have htx : KeepsText env → L1.text = L.text := fun ht => (matchToken_text ht hm).trans rfl
  have herr : ∀ (hr : ∀ t, res ≠ .ok t), L1.ttype = TOKEN_INVALID_TYPE := fun hr => by
    have := congrArg Lex.ttype (matchToken_err hm hr); simpa using this
  have errcase : ∀ (hr : ∀ t, res ≠ .ok t)
      (_ : (((LexSpec.at_ d cs ix m).input.getText L1.startIndex (LexSpec.at_ d cs ix m).input.index).bind fun text =>
         (LexSpec.at_ d cs ix m).recover.map fun c =>
           (LEXER_SKIP, ({ L1 with
              cur := c
              reports := L1.reports ++ [Report.mk L1.startLine L1.startCol text] } : Lex D), true)).bind
      (fun (q : Int × Lex D × Bool) =>
        (q.2.1.cur.input.la 1).map fun la =>
          let L1 : Lex D := { q.2.1 with hitEof := q.2.1.hitEof || decide (la = EOF) }
          let L2 : Lex D := { L1 with ttype := if L1.ttype = TOKEN_INVALID_TYPE then q.1 else L1.ttype }
          (({ L2 with pieces := L2.pieces ++
              [Piece.mk L.cur.input.index L2.cur.input.index L2.ttype q.2.2] } : Lex D), dfas1)) =
        some (L', dfas')),
      (∃ m failed, Stepped d cs ix sl a n m failed L L') ∧ (KeepsText env → L'.text = L.text) := by
    intro hr h
    obtain ⟨q, hq, h⟩ := Option.bind_eq_some_iff.mp h
    obtain ⟨text, htext, hq⟩ := Option.bind_eq_some_iff.mp hq
    rw [recover_at R h2, Option.map_some] at hq
    injection hq with hq; subst hq
    simp only [] at h
    rw [la_at R (Nat.min_le_right _ _), Option.map_some] at h
    injection h with h; injection h with h hd
    subst h
    have htt : L1.ttype = TOKEN_INVALID_TYPE := herr hr
    have hst : L1.startIndex = ix a := by rw [hk.startIndex]; exact hs
    have htxt : text = sl a (min (m + 1) cs.length) := by
      rw [hst] at htext
      have := R.textThrough a m (ix m) (by omega) h2
      have e : (LexSpec.at_ d cs ix m).input = ⟨d, ix m⟩ := rfl
      rw [e] at htext
      simp only [this] at htext
      injection htext with htext; exact htext.symm
    refine ⟨⟨min (m + 1) cs.length, true, ?_⟩, fun hkt => htx hkt⟩
    refine { le := by omega, le' := by omega, cur := rfl, startIndex := hk.startIndex,
             startLine := hk.startLine, startCol := hk.startCol, token := hk.token,
             hitEof := ?_, pieces := ?_, fail := ?_, good := by simp }
    · simp only [hk.hitEof]
      congr 1
      simp only [decide_eq_decide]
      exact symAt_eof_iff R (by omega)
    · simp only [hk.pieces, hL]; rfl
    · intro _
      refine ⟨by simp [htt], by omega, ?_⟩
      simp only [hk.reports, hk.startLine, hk.startCol, htxt]
  cases res with
  | ok tt =>
    simp only [Option.bind_some] at h
    rw [h3, la_at R h2, Option.map_some] at h
    injection h with h; injection h with h hd
    subst h
    refine ⟨⟨m, false, ?_⟩, fun hkt => htx hkt⟩
    refine { le := h1, le' := h2, cur := rfl, startIndex := hk.startIndex,
             startLine := hk.startLine, startCol := hk.startCol, token := hk.token,
             hitEof := ?_, pieces := ?_, fail := by simp, good := fun _ => hk.reports }
    · simp only [hk.hitEof]
      congr 1
      simp only [decide_eq_decide]
      exact symAt_eof_iff R h2
    · simp only [hk.pieces, hL]; rfl
  | noAlt s => exact errcase (by simp) h
  | illegalMode => exact errcase (by simp) h

/-! ## Tilings and tokens -/

theorem tiling_append {i j k : Int} {ps qs : List Piece} (h1 : Tiling i ps j) (h2 : Tiling j qs k) :
    Tiling i (ps ++ qs) k := by
  induction ps generalizing i with
  | nil => simp only [Tiling] at h1; subst h1; simpa using h2
  | cons p ps ih => exact ⟨h1.1, h1.2.1, ih h1.2.2⟩

theorem errorsOf_start {i j : Int} {ps : List Piece} (h : Tiling i ps j) :
    errorsOf none ps = errorsOf (some i) ps := by
  cases ps with
  | nil => rfl
  | cons p ps => simp only [errorsOf, Option.getD_none, Option.getD_some, h.1]

theorem tokensOf_start {i j : Int} {ps : List Piece} (h : Tiling i ps j) :
    tokensOf none ps = tokensOf (some i) ps := by
  cases ps with
  | nil => rfl
  | cons p ps => simp only [tokensOf, Option.getD_none, Option.getD_some, h.1]

/-- What `next_token` returned: the token that follows from the pieces `ps` matched meanwhile, from
position `n` to position `m`. -/
inductive Emitted (env : Env D) (cs : List Int) (ix : Nat → Int) (sl : Nat → Nat → D) (s : Option Int)
    (lo m : Nat) (ps : List Piece) (hit : Bool) (t : Tok) : Prop
  | token (a : Nat) (h1 : lo ≤ a) (h2 : a ≤ m) (start : t.start = ix a) (stop : t.stop = ix m - 1)
      (line : t.line = lineOf cs a) (col : t.column = colOf cs a)
      (pieces : tokensOf s ps = [(ix a, ix m, t.ttype)])
      (text : KeepsText env → t.text = if a < cs.length then env.toChars (sl a m) else eofText)
      (hit : hit = decide (m = cs.length))
  | eof (pieces : tokensOf s ps = []) (tok : t = eofToken cs ix) (hm : m = cs.length) (hit : hit = true)

theorem emit_spec (R : Reads d cs ix sl) {env : Env D} (ht : Tame env) {L L' : Lex D} {a m : Nat}
    (ham : a ≤ m) (hm : m ≤ cs.length) (hL : L.cur = LexSpec.at_ d cs ix m) (hs : L.startIndex = ix a)
    (h : emit env L = some L') :
    L'.cur = L.cur ∧ L'.hitEof = L.hitEof ∧ L'.pieces = L.pieces ∧ L'.reports = L.reports ∧
    ∃ t, L'.token = some t ∧ t.start = ix a ∧ t.stop = ix m - 1 ∧ t.line = L.startLine ∧
      t.column = L.startCol ∧ t.ttype = L.ttype ∧
      (KeepsText env → L.text = none →
        t.text = if a < cs.length then env.toChars (sl a m) else eofText) := by
  simp only [emit, Option.map_eq_some_iff] at h
  obtain ⟨text, htext, rfl⟩ := h
  have hb := ht.before L
  refine ⟨hb.cur, hb.hitEof, hb.pieces, hb.reports, _, rfl, ?_, ?_, ?_, ?_, ?_, ?_⟩
  · rw [← hs]; exact hb.startIndex
  · simp only [hb.cur, hL]; rfl
  · exact hb.startLine
  · exact hb.startCol
  · exact ht.beforeType L
  · intro hkt hnone
    simp only [hb.cur, hL, hkt.before, hnone, hb.startIndex, hs, Lexer.createText] at htext
    have e : (LexSpec.at_ d cs ix m).input = ⟨d, ix m⟩ := rfl
    rw [e] at htext
    have hsz : (InputStream.mk d (ix m)).size = ix cs.length := R.size
    rw [hsz] at htext
    simp only at htext
    have h0 := ix_le R hm (Nat.le_refl _)
    by_cases ha : a < cs.length
    · have h1 := ix_lt R ha (Nat.le_refl _)
      rw [if_neg (by omega), R.text a m _ ham hm, Option.map_some] at htext
      injection htext with htext
      rw [if_pos ha]; exact htext.symm
    · have : a = cs.length := by omega
      subst this
      rw [if_pos (Or.inr (Int.le_refl _))] at htext
      injection htext with htext
      rw [if_neg ha]; exact htext.symm

/-- The state of the lexer between two matches, at position `n`. -/
structure Ready (d : D) (cs : List Int) (ix : Nat → Int) (n : Nat) (L : Lex D) : Prop where
  le : n ≤ cs.length
  cur : L.cur = LexSpec.at_ d cs ix n
  hit : L.hitEof = true → n = cs.length

/-- The state inside the inner loop: collecting a token from position `a` on. -/
structure Collecting (d : D) (cs : List Int) (ix : Nat → Int) (a n : Nat) (L : Lex D) : Prop
    extends Ready d cs ix n L where
  le_a : a ≤ n
  start : L.startIndex = ix a
  line : L.startLine = lineOf cs a
  col : L.startCol = colOf cs a
  token : L.token = none

/-- Reports and pieces only grow, by a tiling; failures make progress and are reported once. -/
structure Grown (cs : List Int) (ix : Nat → Int) (sl : Nat → Nat → D) (s : Option Int) (n m : Nat)
    (ps : List Piece) (L L' : Lex D) : Prop where
  le : n ≤ m
  le' : m ≤ cs.length
  pieces : L'.pieces = L.pieces ++ ps
  tiling : Tiling (ix n) ps (ix m)
  fails : ∀ p ∈ ps, p.failed = true → p.kind = LEXER_SKIP ∧ (p.start < p.stop ∨ p.stop = ix cs.length)
  clean : ∀ p, ps.getLast? = some p → p.kind ≠ LEXER_MORE
  reports : ∃ rs, L'.reports = L.reports ++ rs ∧ List.Forall₂ (Describes cs ix sl) rs (errorsOf s ps)

theorem loops_spec (R : Reads d cs ix sl) {env : Env D} (ht : Tame env) {fc fe : Nat} (fuel : Nat) :
    (∀ {L L' : Lex D} {dfas dfas' : List DFA} {n : Nat}, Ready d cs ix n L →
      outerLoop env fc fe fuel L dfas = some (L', dfas') →
      ∃ m ps t, L'.token = some t ∧ Ready d cs ix m L' ∧ Grown cs ix sl none n m ps L L' ∧
        Emitted env cs ix sl none n m ps L'.hitEof t) ∧
    (∀ {L L' : Lex D} {dfas dfas' : List DFA} {a n : Nat}, Collecting d cs ix a n L →
      L.hitEof = false ∨ n = cs.length →
      (KeepsText env → L.text = none) →
      innerLoop env fc fe fuel L dfas = some (L', dfas') →
      ∃ m ps t, L'.token = some t ∧ Ready d cs ix m L' ∧ Grown cs ix sl (some (ix a)) n m ps L L' ∧ ps ≠ [] ∧
        Emitted env cs ix sl (some (ix a)) a m ps L'.hitEof t) := by
  induction fuel with
  | zero =>
    refine ⟨?_, ?_⟩
    · intro L L' dfas dfas' n _ h; simp [outerLoop] at h
    · intro L L' dfas dfas' a n _ _ _ h; simp [innerLoop] at h
  | succ fuel ih =>
    refine ⟨?_, ?_⟩
    · intro L L' dfas dfas' n hr h
      simp only [outerLoop] at h
      split at h
      · rename_i hhit
        injection h with h; injection h with h _; subst h
        have hn := hr.hit hhit
        refine ⟨n, [], _, rfl, ⟨hr.le, hr.cur, fun _ => hn⟩, ⟨Nat.le_refl _, hr.le, by simp [emitEof], rfl,
          by simp, by simp, [], by simp [emitEof], .nil⟩, .eof rfl ?_ hn hhit⟩
        simp only [eofToken, hr.cur, hn]; rfl
      · rename_i hhit
        have hc : Collecting d cs ix n n (beginToken L) :=
          { le := hr.le, cur := hr.cur, hit := hr.hit, le_a := Nat.le_refl _,
            start := by simp only [beginToken, hr.cur]; rfl
            line := by simp only [beginToken, hr.cur]; rfl
            col := by simp only [beginToken, hr.cur]; rfl
            token := rfl }
        obtain ⟨m, ps, t, h1, h2, h3, _, h4⟩ := ih.2 hc (Or.inl (by simpa [beginToken] using hhit)) (fun _ => rfl) h
        have hts := tokensOf_start h3.tiling
        refine ⟨m, ps, t, h1, h2, ⟨h3.le, h3.le', h3.pieces, h3.tiling, h3.fails, h3.clean,
          by rw [errorsOf_start h3.tiling]; exact h3.reports⟩, ?_⟩
        cases h4 with
        | token a' g1 g2 g3 g4 g5 g6 g7 g8 g9 =>
          exact .token a' g1 g2 g3 g4 g5 g6 (hts ▸ g7) g8 g9
        | eof g1 g2 g3 g4 => exact .eof (hts ▸ g1) g2 g3 g4
    · intro L L' dfas dfas' a n hc hhit htext h
      simp only [innerLoop] at h
      obtain ⟨⟨L1, dfas1⟩, hm, h⟩ := Option.bind_eq_some_iff.mp h
      obtain ⟨⟨m, failed, hs⟩, htx⟩ := matchStep_spec R ht hc.le_a hc.le hc.cur hc.start hm
      have hhit1 : L1.hitEof = decide (m = cs.length) := by
        rw [hs.hitEof]
        rcases hhit with h0 | h0
        · rw [h0, Bool.false_or]
        · have := hs.le; have := hs.le'
          have : m = cs.length := by omega
          simp [this]
      have hr1 : Ready d cs ix m L1 :=
        ⟨hs.le', hs.cur, fun h => by rw [hhit1] at h; exact of_decide_eq_true h⟩
      have hile := ix_le R hs.le hs.le'
      have hpf : (⟨ix n, ix m, L1.ttype, failed⟩ : Piece).failed = true →
          L1.ttype = LEXER_SKIP ∧ (ix n < ix m ∨ ix m = ix cs.length) := by
        intro hf
        obtain ⟨g1, g2, _⟩ := hs.fail hf
        refine ⟨g1, ?_⟩
        rcases g2 with g2 | g2
        · exact Or.inl (ix_lt R g2 hs.le')
        · exact Or.inr (by rw [g2])
      have grow : ∀ {L2 : Lex D} {m2 : Nat} {ps : List Piece},
          Grown cs ix sl (if L1.ttype = LEXER_MORE then some (ix a) else none) m m2 ps L1 L2 →
          (ps = [] → L1.ttype ≠ LEXER_MORE) →
          Grown cs ix sl (some (ix a)) n m2 (⟨ix n, ix m, L1.ttype, failed⟩ :: ps) L L2 := by
        intro L2 m2 ps g hne
        refine ⟨Nat.le_trans hs.le g.le, g.le', ?_, ⟨rfl, hile, g.tiling⟩, ?_, ?_, ?_⟩
        · rw [g.pieces, hs.pieces]; simp
        · intro p hp
          rcases List.mem_cons.mp hp with rfl | hp
          · exact hpf
          · exact g.fails p hp
        · intro p hp
          cases ps with
          | nil => simp at hp; subst hp; exact hne rfl
          | cons q ps => rw [List.getLast?_cons_cons] at hp; exact g.clean p hp
        · obtain ⟨rs, g1, g2⟩ := g.reports
          cases hf : failed
          · refine ⟨rs, by rw [g1, hs.good hf], ?_⟩
            simp only [errorsOf, Bool.false_eq_true, ↓reduceIte, Option.getD_some]
            split at g2
            · rename_i hmore; rw [if_pos hmore]; exact g2
            · rename_i hmore; rw [if_neg hmore]; exact g2
          · obtain ⟨f1, f2, f3⟩ := hs.fail hf
            refine ⟨⟨L.startLine, L.startCol, sl a m⟩ :: rs, by rw [g1, f3]; simp, ?_⟩
            simp only [errorsOf, ↓reduceIte, Option.getD_some]
            rw [if_neg (by rw [f1]; simp [LEXER_MORE, LEXER_SKIP])] at g2
            refine .cons ⟨a, m, Nat.le_trans hc.le_a hs.le, hs.le', rfl, ?_⟩ g2
            rw [hc.line, hc.col]
      simp only at h
      split at h
      · -- skip
        rename_i hk
        obtain ⟨m2, ps, t, h1, h2, h3, h4⟩ := ih.1 hr1 h
        have hle := hs.le
        have hkm : ¬ L1.ttype = LEXER_MORE := by rw [hk]; simp [LEXER_MORE, LEXER_SKIP]
        refine ⟨m2, _, t, h1, h2, grow (by rw [if_neg hkm]; exact h3) (fun _ => hkm), by simp, ?_⟩
        have hto : tokensOf (some (ix a)) (⟨ix n, ix m, L1.ttype, failed⟩ :: ps) = tokensOf none ps := by
          simp [tokensOf, hk]
        cases h4 with
        | token a' g1 g2 g3 g4 g5 g6 g7 g8 g9 =>
          have := hc.le_a
          exact .token a' (by omega) g2 g3 g4 g5 g6 (hto ▸ g7) g8 g9
        | eof g1 g2 g3 g4 => exact .eof (hto ▸ g1) g2 g3 g4
      · rename_i hk
        split at h
        · -- more
          rename_i hk2
          have hc1 : Collecting d cs ix a m L1 :=
            { le := hr1.le, cur := hr1.cur, hit := hr1.hit, le_a := Nat.le_trans hc.le_a hs.le,
              start := hs.startIndex.trans hc.start, line := hs.startLine.trans hc.line,
              col := hs.startCol.trans hc.col, token := hs.token.trans hc.token }
          have hh : L1.hitEof = false ∨ m = cs.length := by
            rw [hhit1]; by_cases hx : m = cs.length <;> simp [hx]
          obtain ⟨m2, ps, t, h1, h2, h3, hne, h4⟩ := ih.2 hc1 hh (fun hkt => (htx hkt).trans (htext hkt)) h
          refine ⟨m2, _, t, h1, h2, grow (by rw [if_pos hk2]; exact h3) (fun h => absurd h hne), by simp, ?_⟩
          have hto : tokensOf (some (ix a)) (⟨ix n, ix m, L1.ttype, failed⟩ :: ps) =
              tokensOf (some (ix a)) ps := by
            simp [tokensOf, hk2, LEXER_MORE, LEXER_SKIP]
          cases h4 with
          | token a' g1 g2 g3 g4 g5 g6 g7 g8 g9 => exact .token a' g1 g2 g3 g4 g5 g6 (hto ▸ g7) g8 g9
          | eof g1 g2 g3 g4 => exact .eof (hto ▸ g1) g2 g3 g4
        · rename_i hk2
          have htok : L1.token = none := hs.token.trans hc.token
          rw [htok] at h
          simp only [Option.isNone_none, ↓reduceIte, Option.map_eq_some_iff] at h
          obtain ⟨L2, he, h⟩ := h
          injection h with h _; subst h
          have han : a ≤ m := Nat.le_trans hc.le_a hs.le
          obtain ⟨e1, e2, e3, e4, t, e5, e6, e7, e8, e9, e10, e11⟩ :=
            emit_spec R ht han hs.le' hs.cur (hs.startIndex.trans hc.start) he
          have g0 : Grown cs ix sl none m m [] L1 L2 :=
            ⟨Nat.le_refl _, hs.le', by rw [e3]; simp, rfl, by simp, by simp, [], by rw [e4]; simp, .nil⟩
          refine ⟨m, _, t, e5, ⟨hs.le', e1.trans hs.cur, fun h => hr1.hit (e2 ▸ h)⟩,
            grow (by rw [if_neg hk2]; exact g0) (fun _ => hk2), by simp, ?_⟩
          refine .token a (Nat.le_refl _) han e6 e7 ?_ ?_ ?_ ?_ (e2.trans hhit1)
          · rw [e8, hs.startLine, hc.line]
          · rw [e9, hs.startCol, hc.col]
          · simp [tokensOf, hk, hk2, e10]
          · intro hkt; exact e11 hkt ((htx hkt).trans (htext hkt))

end Antlr.LexProps
