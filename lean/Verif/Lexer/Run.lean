import Verif.Lexer.Tokens

/-!
# Sequences of `next_token` calls: helper lemmas for C20 – C24, C67
-/

namespace Antlr.LexProps
open Antlr Lexer LexSpec

set_option linter.unusedSectionVars false

variable {D : Type} [InputData D] {d : D} {cs : List Int} {ix : Nat → Int} {sl : Nat → Nat → D}

theorem tokensOf_append (qs : List Piece) (ps : List Piece) (s : Option Int)
    (hc : ∀ p, ps.getLast? = some p → p.kind ≠ LEXER_MORE) (hs : ps = [] → s = none) :
    tokensOf s (ps ++ qs) = tokensOf s ps ++ tokensOf none qs := by
  induction ps generalizing s with
  | nil => simp [tokensOf, hs rfl]
  | cons p ps ih =>
    have hc' : ∀ q, ps.getLast? = some q → q.kind ≠ LEXER_MORE := by
      intro q hq
      cases ps with
      | nil => simp at hq
      | cons r ps => exact hc q (by rw [List.getLast?_cons_cons]; exact hq)
    simp only [List.cons_append, tokensOf]
    split
    · exact ih none hc' (fun _ => rfl)
    · split
      · rename_i hm
        refine ih _ hc' (fun hnil => ?_)
        subst hnil; exact absurd hm (hc p rfl)
      · rw [ih none hc' (fun _ => rfl)]; rfl

theorem errorsOf_append (qs : List Piece) (ps : List Piece) (s : Option Int)
    (hc : ∀ p, ps.getLast? = some p → p.kind ≠ LEXER_MORE) (hs : ps = [] → s = none) :
    errorsOf s (ps ++ qs) = errorsOf s ps ++ errorsOf none qs := by
  induction ps generalizing s with
  | nil => simp [errorsOf, hs rfl]
  | cons p ps ih =>
    have hc' : ∀ q, ps.getLast? = some q → q.kind ≠ LEXER_MORE := by
      intro q hq
      cases ps with
      | nil => simp at hq
      | cons r ps => exact hc q (by rw [List.getLast?_cons_cons]; exact hq)
    simp only [List.cons_append, errorsOf]
    split
    · rw [ih none hc' (fun _ => rfl)]; rfl
    · split
      · rename_i hm
        refine ih _ hc' (fun hnil => ?_)
        subst hnil; exact absurd hm (hc p rfl)
      · exact ih none hc' (fun _ => rfl)

theorem Grown.append {n m k : Nat} {ps qs : List Piece} {L L' L'' : Lex D}
    (h1 : Grown cs ix sl none n m ps L L') (h2 : Grown cs ix sl none m k qs L' L'') :
    Grown cs ix sl none n k (ps ++ qs) L L'' where
  le := Nat.le_trans h1.le h2.le
  le' := h2.le'
  pieces := by rw [h2.pieces, h1.pieces, List.append_assoc]
  tiling := tiling_append h1.tiling h2.tiling
  fails := fun p hp => (List.mem_append.mp hp).elim (h1.fails p) (h2.fails p)
  clean := fun p hp => by
    cases qs with
    | nil => rw [List.append_nil] at hp; exact h1.clean p hp
    | cons q qs => rw [List.getLast?_append_cons] at hp; exact h2.clean p hp
  reports := by
    obtain ⟨r1, e1, f1⟩ := h1.reports
    obtain ⟨r2, e2, f2⟩ := h2.reports
    refine ⟨r1 ++ r2, by rw [e2, e1, List.append_assoc], ?_⟩
    rw [errorsOf_append qs ps none h1.clean (fun _ => rfl)]
    exact List.rel_append f1 f2

/-- A token in its place. -/
structure Placed (env : Env D) (cs : List Int) (ix : Nat → Int) (sl : Nat → Nat → D) (t : Tok) : Prop where
  place : ∃ a b, a ≤ b ∧ b ≤ cs.length ∧ t.start = ix a ∧ t.stop = ix b - 1 ∧
    t.line = lineOf cs a ∧ t.column = colOf cs a ∧
    (KeepsText env → t.ttype ≠ EOF → t.text = if a < cs.length then env.toChars (sl a b) else eofText)

theorem nextToken_spec (R : Reads d cs ix sl) {env : Env D} (ht : Tame env) {fc fe fn n : Nat}
    {L L' : Lex D} {dfas dfas' : List DFA} {t : Tok} (hr : Ready d cs ix n L)
    (h : nextToken env fc fe fn L dfas = some (t, L', dfas')) :
    ∃ m ps, Ready d cs ix m L' ∧ Grown cs ix sl none n m ps L L' ∧
      Emitted env cs ix sl none n m ps L'.hitEof t := by
  simp only [nextToken] at h
  obtain ⟨⟨L1, dfas1⟩, ho, h⟩ := Option.bind_eq_some_iff.mp h
  simp only [Option.map_eq_some_iff] at h
  obtain ⟨t', ht', h⟩ := h
  injection h with h0 h; injection h with h1 h2
  subst h0 h1 h2
  obtain ⟨m, ps, t'', g1, g2, g3, g4⟩ := (loops_spec R ht fn).1 hr ho
  rw [ht'] at g1; injection g1 with g1; subst g1
  exact ⟨m, ps, ⟨g2.le, g2.cur, g2.hit⟩,
    ⟨g3.le, g3.le', g3.pieces, g3.tiling, g3.fails, g3.clean, g3.reports⟩, g4⟩

theorem hit_nextToken {env : Env D} {fc fe fn n : Nat} {L L' : Lex D} {dfas dfas' : List DFA} {t : Tok}
    (hr : Ready d cs ix n L) (hh : L.hitEof = true)
    (h : nextToken env fc fe fn L dfas = some (t, L', dfas')) :
    t = eofToken cs ix ∧ L' = { L with token := none } ∧ dfas' = dfas := by
  have hn := hr.hit hh
  cases fn with
  | zero => simp [nextToken, outerLoop] at h
  | succ fn =>
    simp only [nextToken, outerLoop, hh, ↓reduceIte, Option.bind_some, emitEof, Option.map_some,
      Option.some.injEq, Prod.mk.injEq] at h
    refine ⟨?_, by rw [← h.2.1, ← hh], h.2.2.symm⟩
    rw [← h.1]; simp only [eofToken, hr.cur, hn]; rfl

/-- What a sequence of calls returns. -/
theorem nextTokens_spec (R : Reads d cs ix sl) {env : Env D} (ht : Tame env) {fc fe fn : Nat} (k : Nat) :
    ∀ {n : Nat} {L L' : Lex D} {dfas dfas' : List DFA} {ts : List Tok}, Ready d cs ix n L →
    nextTokens env fc fe fn k L dfas = some (ts, L', dfas') →
    ∃ m ps toks e, Ready d cs ix m L' ∧ Grown cs ix sl none n m ps L L' ∧
      ts = toks ++ List.replicate e (eofToken cs ix) ∧
      toks.map (fun t => (t.start, t.stop + 1, t.ttype)) = tokensOf none ps ∧
      (0 < e → m = cs.length ∧ L'.hitEof = true) ∧ (L.hitEof = true → ps = []) ∧
      ∀ t ∈ ts, Placed env cs ix sl t := by
  induction k with
  | zero =>
    intro n L L' dfas dfas' ts hr h
    simp only [nextTokens, Option.some.injEq, Prod.mk.injEq] at h
    obtain ⟨rfl, rfl, rfl⟩ := h
    exact ⟨n, [], [], 0, hr, ⟨Nat.le_refl _, hr.le, by simp, rfl, by simp, by simp, [], by simp, .nil⟩,
      rfl, rfl, by simp, fun _ => rfl, by simp⟩
  | succ k ih =>
    intro n L L' dfas dfas' ts hr h
    simp only [nextTokens] at h
    obtain ⟨⟨t, L1, dfas1⟩, h1, h⟩ := Option.bind_eq_some_iff.mp h
    simp only [Option.map_eq_some_iff] at h
    obtain ⟨⟨ts', L2, dfas2⟩, h2, h⟩ := h
    injection h with g0 h; injection h with g1 g2
    subst g0 g1 g2
    obtain ⟨m1, ps1, r1, gr1, em⟩ := nextToken_spec R ht hr h1
    obtain ⟨m2, ps2, toks, e, r2, gr2, hts, htoks, he, hh2, hpl⟩ := ih r1 h2
    have hgr := gr1.append gr2
    have hto : tokensOf none (ps1 ++ ps2) = tokensOf none ps1 ++ tokensOf none ps2 :=
      tokensOf_append _ _ _ gr1.clean (fun _ => rfl)
    have hhit : L.hitEof = true → ps1 ++ ps2 = [] := by
      intro hh
      obtain ⟨_, hL1, _⟩ := hit_nextToken hr hh h1
      have e1 : ps1 = [] := by
        have := gr1.pieces; rw [hL1] at this; simpa using this
      rw [e1, hh2 (by rw [hL1]; exact hh)]; rfl
    cases em with
    | token a q1 q2 q3 q4 q5 q6 q7 q8 q9 =>
      refine ⟨m2, ps1 ++ ps2, t :: toks, e, r2, hgr, ?_, ?_, he, hhit, ?_⟩
      · rw [hts]; rfl
      · rw [hto, q7, List.map_cons, htoks, q3, q4]; simp
      · intro t' ht'
        rcases List.mem_cons.mp ht' with rfl | ht'
        · exact ⟨a, m1, q2, gr1.le', q3, q4, q5, q6, fun hk _ => q8 hk⟩
        · exact hpl t' ht'
    | eof q1 q2 q3 q4 =>
      have hps2 : ps2 = [] := hh2 q4
      have htk : toks = [] := by
        rw [hps2] at htoks; simpa [tokensOf] using htoks
      refine ⟨m2, ps1 ++ ps2, [], e + 1, r2, hgr, ?_, ?_, ?_, hhit, ?_⟩
      · rw [hts, htk, q2]; simp [List.replicate_succ]
      · rw [hto, q1, hps2]; simp [tokensOf]
      · intro _
        have h3 := gr2.le; have h4 := gr2.le'
        refine ⟨by omega, ?_⟩
        rcases Nat.eq_zero_or_pos e with h0 | h0
        · -- no further EOF token: then no further call at all
          subst h0
          have hts' : ts' = [] := by rw [hts, htk]; rfl
          cases k with
          | zero =>
            simp only [nextTokens, Option.some.injEq, Prod.mk.injEq] at h2
            rw [← h2.2.1]; exact q4
          | succ k =>
            simp only [nextTokens] at h2
            obtain ⟨x, _, h2⟩ := Option.bind_eq_some_iff.mp h2
            simp only [Option.map_eq_some_iff] at h2
            obtain ⟨y, _, h2⟩ := h2
            injection h2 with h2 _
            rw [hts'] at h2; simp at h2
        · exact (he h0).2
      · intro t' ht'
        rcases List.mem_cons.mp ht' with rfl | ht'
        · refine ⟨cs.length, cs.length, Nat.le_refl _, Nat.le_refl _, ?_⟩
          rw [q2]
          exact ⟨rfl, rfl, rfl, rfl, fun _ h => absurd rfl h⟩
        · exact hpl t' ht'

/-! ## Progress -/

/-- Matches do not fail to return; before the end of the input they consume; at the end of the input
they do not ask for more. `Good b` is whatever the DFAs must satisfy for this to be so `b` times. -/
structure Consuming (env : Env D) (fc fe : Nat) (d : D) (cs : List Int) (ix : Nat → Int)
    (Good : Nat → List DFA → Prop) : Prop where
  total : ∀ (L : Lex D) dfas n b, n ≤ cs.length → L.cur = LexSpec.at_ d cs ix n → Good (b + 1) dfas →
    ∃ r, matchToken env fc fe L dfas = some r ∧ Good b r.2.2
  consumes : ∀ (L L' : Lex D) dfas dfas' n b tt, n < cs.length → L.cur = LexSpec.at_ d cs ix n → Good (b + 1) dfas →
    matchToken env fc fe L dfas = some (.ok tt, L', dfas') → L'.cur ≠ LexSpec.at_ d cs ix n
  noMore : ∀ (L L' : Lex D) dfas dfas' b tt, L.cur = LexSpec.at_ d cs ix cs.length →
    L.ttype = TOKEN_INVALID_TYPE → Good (b + 1) dfas →
    matchToken env fc fe L dfas = some (.ok tt, L', dfas') → tt ≠ LEXER_MORE ∧ L'.ttype ≠ LEXER_MORE

theorem matchStep_total (R : Reads d cs ix sl) {env : Env D} (ht : Tame env) {fc fe : Nat}
    {Good : Nat → List DFA → Prop} (hc : Consuming env fc fe d cs ix Good) {L : Lex D} {dfas : List DFA}
    {a n b : Nat} (han : a ≤ n) (hn : n ≤ cs.length) (hL : L.cur = LexSpec.at_ d cs ix n)
    (hs : L.startIndex = ix a) (hg : Good (b + 1) dfas) :
    ∃ L' dfas', matchStep env fc fe L dfas = some (L', dfas') ∧ Good b dfas' ∧
      (n < cs.length → L'.cur ≠ LexSpec.at_ d cs ix n) ∧ (n = cs.length → L'.ttype ≠ LEXER_MORE) := by
  obtain ⟨⟨res, L1, dfas1⟩, hm, hg1⟩ := hc.total { L with ttype := TOKEN_INVALID_TYPE } dfas n b hn hL hg
  obtain ⟨hk, m, h1, h2, h3⟩ :=
    matchToken_pos R ht (L := { L with ttype := TOKEN_INVALID_TYPE }) hn hL hm
  have hex : ∃ L', matchStep env fc fe L dfas = some (L', dfas1) := by
    have herr : (L1.cur.input.getText L1.startIndex L1.cur.input.index).isSome ∧
        L1.cur.recover = some (LexSpec.at_ d cs ix (min (m + 1) cs.length)) := by
      refine ⟨?_, by rw [h3, recover_at R h2]⟩
      have e : L1.cur.input = ⟨d, ix m⟩ := by rw [h3]; rfl
      have e2 : L1.startIndex = ix a := by rw [hk.startIndex]; exact hs
      rw [e, e2]
      show ((InputStream.mk d (ix m)).getText (ix a) (ix m)).isSome
      rw [R.textThrough a m _ (by omega) h2]; rfl
    obtain ⟨tx, htx⟩ := Option.isSome_iff_exists.mp herr.1
    simp only [matchStep, hm, Option.bind_some]
    cases res with
    | ok tt => simp only [Option.bind_some, h3, la_at R h2, Option.map_some]; exact ⟨_, rfl⟩
    | noAlt s =>
      simp only [htx, herr.2, Option.bind_some, Option.map_some, la_at R (Nat.min_le_right _ _)]
      exact ⟨_, rfl⟩
    | illegalMode =>
      simp only [htx, herr.2, Option.bind_some, Option.map_some, la_at R (Nat.min_le_right _ _)]
      exact ⟨_, rfl⟩
  obtain ⟨L', hL'⟩ := hex
  refine ⟨L', dfas1, hL', hg1, ?_, ?_⟩
  · intro hlt heq
    obtain ⟨⟨m', failed, st⟩, _⟩ := matchStep_spec R ht han hn hL hs hL'
    have hmn : m' = n := by
      have := st.cur.symm.trans heq
      have := congrArg (fun c => c.input.index) this
      exact ix_inj R st.le' hn this
    cases hf : failed
    · -- then the match was not a failure
      simp only [matchStep, hm, Option.bind_some] at hL'
      cases res with
      | ok tt =>
        simp only [Option.bind_some, Option.map_eq_some_iff] at hL'
        obtain ⟨la, _, hL'⟩ := hL'
        injection hL' with hL' _
        refine hc.consumes { L with ttype := TOKEN_INVALID_TYPE } L1 dfas dfas1 n b tt hlt hL hg hm ?_
        rw [← heq, ← hL']
      | noAlt s =>
        obtain ⟨q, hq, hL'⟩ := Option.bind_eq_some_iff.mp hL'
        obtain ⟨tx, _, hq⟩ := Option.bind_eq_some_iff.mp hq
        simp only [Option.map_eq_some_iff] at hq hL'
        obtain ⟨c, _, rfl⟩ := hq
        obtain ⟨la, _, hL'⟩ := hL'
        injection hL' with hL' _
        have hp := st.pieces
        rw [← hL'] at hp
        simp only [hk.pieces] at hp
        have := List.append_cancel_left hp
        simp [hf] at this
      | illegalMode =>
        obtain ⟨q, hq, hL'⟩ := Option.bind_eq_some_iff.mp hL'
        obtain ⟨tx, _, hq⟩ := Option.bind_eq_some_iff.mp hq
        simp only [Option.map_eq_some_iff] at hq hL'
        obtain ⟨c, _, rfl⟩ := hq
        obtain ⟨la, _, hL'⟩ := hL'
        injection hL' with hL' _
        have hp := st.pieces
        rw [← hL'] at hp
        simp only [hk.pieces] at hp
        have := List.append_cancel_left hp
        simp [hf] at this
    · rcases (st.fail hf).2.1 with h | h <;> omega
  · intro heq
    subst heq
    cases res with
    | ok tt =>
      obtain ⟨q1, q2⟩ := hc.noMore { L with ttype := TOKEN_INVALID_TYPE } L1 dfas dfas1 b tt hL rfl hg hm
      simp only [matchStep, hm, Option.bind_some, Option.map_eq_some_iff] at hL'
      obtain ⟨la, _, hL'⟩ := hL'
      injection hL' with hL' _
      rw [← hL']
      simp only
      split
      · exact q1
      · exact q2
    | noAlt s =>
      have htt : L1.ttype = TOKEN_INVALID_TYPE := by
        have := congrArg Lex.ttype (matchToken_err hm (by simp)); simpa using this
      simp only [matchStep, hm, Option.bind_some] at hL'
      obtain ⟨q, hq, hL'⟩ := Option.bind_eq_some_iff.mp hL'
      obtain ⟨tx, _, hq⟩ := Option.bind_eq_some_iff.mp hq
      simp only [Option.map_eq_some_iff] at hq hL'
      obtain ⟨c, _, rfl⟩ := hq
      obtain ⟨la, _, hL'⟩ := hL'
      injection hL' with hL' _
      rw [← hL']
      simp [htt, LEXER_MORE, LEXER_SKIP]
    | illegalMode =>
      have htt : L1.ttype = TOKEN_INVALID_TYPE := by
        have := congrArg Lex.ttype (matchToken_err hm (by simp)); simpa using this
      simp only [matchStep, hm, Option.bind_some] at hL'
      obtain ⟨q, hq, hL'⟩ := Option.bind_eq_some_iff.mp hL'
      obtain ⟨tx, _, hq⟩ := Option.bind_eq_some_iff.mp hq
      simp only [Option.map_eq_some_iff] at hq hL'
      obtain ⟨c, _, rfl⟩ := hq
      obtain ⟨la, _, hL'⟩ := hL'
      injection hL' with hL' _
      rw [← hL']
      simp [htt, LEXER_MORE, LEXER_SKIP]

theorem emit_total (R : Reads d cs ix sl) {env : Env D} (ht : Tame env) {L : Lex D} {a m : Nat}
    (ham : a ≤ m) (hm : m ≤ cs.length) (hL : L.cur = LexSpec.at_ d cs ix m) (hs : L.startIndex = ix a) :
    ∃ L', emit env L = some L' := by
  have hb := ht.before L
  simp only [emit, Option.map_eq_some_iff]
  have : ∃ x, Lexer.createText env.toChars (some (env.beforeEmit L).cur.input) (env.beforeEmit L).text
      (env.beforeEmit L).startIndex ((env.beforeEmit L).cur.input.index - 1) = some x := by
    simp only [hb.cur, hL, hb.startIndex, hs, Lexer.createText]
    cases (env.beforeEmit L).text with
    | some t => exact ⟨t, rfl⟩
    | none =>
      simp only
      split
      · exact ⟨_, rfl⟩
      · have e : (LexSpec.at_ d cs ix m).input = ⟨d, ix m⟩ := rfl
        rw [e]
        simp only
        rw [R.text a m _ ham hm]; exact ⟨_, rfl⟩
  obtain ⟨x, hx⟩ := this
  exact ⟨_, x, hx, rfl⟩

/-- The lexer has moved from position `n` on, or has seen the end; `b` matches are enough for the rest. -/
def Moved (d : D) (cs : List Int) (ix : Nat → Int) (n b : Nat) (L : Lex D) : Prop :=
  ∃ k, n ≤ k ∧ k ≤ cs.length ∧ L.cur = LexSpec.at_ d cs ix k ∧ (k = cs.length → L.hitEof = true) ∧
    (L.hitEof = false → n < k ∧ cs.length - k + 1 ≤ b)

theorem loops_total (R : Reads d cs ix sl) {env : Env D} (ht : Tame env) {fc fe : Nat}
    {Good : Nat → List DFA → Prop} (hc : Consuming env fc fe d cs ix Good) (fuel : Nat) :
    (∀ {L : Lex D} {dfas : List DFA} {n b : Nat}, Ready d cs ix n L → Good b dfas →
      (L.hitEof = true ∧ 1 ≤ fuel) ∨ (2 * (cs.length - n) + 3 ≤ fuel ∧ cs.length - n + 1 ≤ b) →
      ∃ L' dfas' b', outerLoop env fc fe fuel L dfas = some (L', dfas') ∧ Good b' dfas' ∧ Moved d cs ix n b' L') ∧
    (∀ {L : Lex D} {dfas : List DFA} {a n b : Nat}, Collecting d cs ix a n L → Good b dfas →
      L.hitEof = false ∨ n = cs.length → 2 * (cs.length - n) + 2 ≤ fuel → cs.length - n + 1 ≤ b →
      ∃ L' dfas' b', innerLoop env fc fe fuel L dfas = some (L', dfas') ∧ Good b' dfas' ∧ Moved d cs ix n b' L') := by
  induction fuel with
  | zero =>
    refine ⟨?_, ?_⟩
    · intro L dfas n b _ _ h; omega
    · intro L dfas a n b _ _ _ h; omega
  | succ fuel ih =>
    refine ⟨?_, ?_⟩
    · intro L dfas n b hr hg hf
      by_cases hh : L.hitEof = true
      · simp only [outerLoop, hh, ↓reduceIte]
        exact ⟨_, _, b, rfl, hg, n, Nat.le_refl _, hr.le, hr.cur, fun _ => hh, fun h => by simp [emitEof, hh] at h⟩
      · have hf' : 2 * (cs.length - n) + 2 ≤ fuel ∧ cs.length - n + 1 ≤ b := by
          rcases hf with ⟨h, _⟩ | h
          · exact absurd h hh
          · omega
        have hcol : Collecting d cs ix n n (beginToken L) :=
          { le := hr.le, cur := hr.cur, hit := hr.hit, le_a := Nat.le_refl _,
            start := by simp only [beginToken, hr.cur]; rfl
            line := by simp only [beginToken, hr.cur]; rfl
            col := by simp only [beginToken, hr.cur]; rfl
            token := rfl }
        obtain ⟨L', dfas', b', h1, h2, h3⟩ := ih.2 hcol hg (Or.inl (by simpa [beginToken] using hh)) hf'.1 hf'.2
        refine ⟨L', dfas', b', ?_, h2, h3⟩
        simp only [outerLoop, hh, Bool.false_eq_true, ↓reduceIte]; exact h1
    · intro L dfas a n b hcol hg hhit hf hbud
      obtain ⟨b, rfl⟩ : ∃ b', b = b' + 1 := ⟨b - 1, by omega⟩
      obtain ⟨L1, dfas1, hm, hg1, hp1, hp2⟩ :=
        matchStep_total R ht hc hcol.le_a hcol.le hcol.cur hcol.start hg
      obtain ⟨⟨m, failed, hs⟩, _⟩ := matchStep_spec R ht hcol.le_a hcol.le hcol.cur hcol.start hm
      have hhit1 : L1.hitEof = decide (m = cs.length) := by
        rw [hs.hitEof]
        rcases hhit with h0 | h0
        · rw [h0, Bool.false_or]
        · have := hs.le; have := hs.le'
          have : m = cs.length := by omega
          simp [this]
      have hr1 : Ready d cs ix m L1 :=
        ⟨hs.le', hs.cur, fun h => by rw [hhit1] at h; exact of_decide_eq_true h⟩
      have hle := hs.le
      have hle' := hs.le'
      have hprog : n < cs.length → n < m := by
        intro h
        rcases Nat.lt_or_ge n m with h' | h'
        · exact h'
        · exact absurd (by rw [hs.cur, show m = n by omega]) (hp1 h)
      have prog : ∀ {L2 : Lex D} {b' : Nat}, Moved d cs ix m b' L2 → Moved d cs ix n b' L2 := by
        rintro L2 b' ⟨k, h1, h2, h3, h4, h5⟩
        refine ⟨k, by omega, h2, h3, h4, fun hh => ?_⟩
        have := h5 hh
        omega
      simp only [innerLoop, hm, Option.bind_some]
      by_cases hk : L1.ttype = LEXER_SKIP
      · simp only [hk, ↓reduceIte]
        have hf1 : (L1.hitEof = true ∧ 1 ≤ fuel) ∨ (2 * (cs.length - m) + 3 ≤ fuel ∧ cs.length - m + 1 ≤ b) := by
          by_cases hml : m = cs.length
          · left; exact ⟨by rw [hhit1]; simp [hml], by omega⟩
          · right; have := hprog (by omega); omega
        obtain ⟨L2, dfas2, b2, h1, h2, h3⟩ := ih.1 hr1 hg1 hf1
        exact ⟨L2, dfas2, b2, h1, h2, prog h3⟩
      · by_cases hk2 : L1.ttype = LEXER_MORE
        · simp only [hk2, ↓reduceIte, show ¬ LEXER_MORE = LEXER_SKIP by simp [LEXER_MORE, LEXER_SKIP]]
          have hne : n ≠ cs.length := fun h => hp2 h hk2
          have hnm := hprog (by have := hcol.le; omega)
          have hcol1 : Collecting d cs ix a m L1 :=
            { le := hr1.le, cur := hr1.cur, hit := hr1.hit, le_a := Nat.le_trans hcol.le_a hs.le,
              start := hs.startIndex.trans hcol.start, line := hs.startLine.trans hcol.line,
              col := hs.startCol.trans hcol.col, token := hs.token.trans hcol.token }
          have hh : L1.hitEof = false ∨ m = cs.length := by
            rw [hhit1]; by_cases hx : m = cs.length <;> simp [hx]
          obtain ⟨L2, dfas2, b2, h1, h2, h3⟩ := ih.2 hcol1 hg1 hh (by omega) (by omega)
          exact ⟨L2, dfas2, b2, h1, h2, prog h3⟩
        · have htok : L1.token = none := hs.token.trans hcol.token
          simp only [hk, hk2, ↓reduceIte, htok, Option.isNone_none]
          obtain ⟨L2, he⟩ := emit_total R ht (Nat.le_trans hcol.le_a hs.le) hs.le' hs.cur
            (hs.startIndex.trans hcol.start)
          obtain ⟨e1, e2, _⟩ := emit_spec R ht (Nat.le_trans hcol.le_a hs.le) hs.le' hs.cur
            (hs.startIndex.trans hcol.start) he
          refine ⟨L2, dfas1, b, by rw [he]; rfl, hg1, ?_⟩
          refine ⟨m, hs.le, hs.le', e1.trans hs.cur, fun h => ?_, fun h => ?_⟩
          · rw [e2, hhit1]; simp [h]
          · rw [e2, hhit1] at h
            have : m ≠ cs.length := of_decide_eq_false h
            exact ⟨hprog (by omega), by have := hprog (by omega); omega⟩

theorem nextToken_total (R : Reads d cs ix sl) {env : Env D} (ht : Tame env) {fc fe fn : Nat}
    {Good : Nat → List DFA → Prop} (hc : Consuming env fc fe d cs ix Good) {L : Lex D} {dfas : List DFA} {n b : Nat}
    (hr : Ready d cs ix n L) (hg : Good b dfas) (hb : L.hitEof = false → cs.length - n + 1 ≤ b)
    (hf : 2 * cs.length + 3 ≤ fn) :
    ∃ t L' dfas' b', nextToken env fc fe fn L dfas = some (t, L', dfas') ∧ Good b' dfas' ∧ Moved d cs ix n b' L' := by
  have hbud : (L.hitEof = true ∧ 1 ≤ fn) ∨ (2 * (cs.length - n) + 3 ≤ fn ∧ cs.length - n + 1 ≤ b) := by
    cases hh : L.hitEof with
    | true => exact .inl ⟨rfl, by omega⟩
    | false => exact .inr ⟨by omega, hb hh⟩
  obtain ⟨L1, dfas1, b1, h1, h2, h3⟩ := (loops_total R ht hc fn).1 hr hg hbud
  obtain ⟨m, ps, t, g1, _⟩ := (loops_spec R ht fn).1 hr h1
  refine ⟨t, { L1 with token := none }, dfas1, b1, ?_, h2, h3⟩
  simp [nextToken, h1, g1]

end Antlr.LexProps
