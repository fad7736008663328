import Verif.Gen.Return

/-! # Synchronizing, deciding, and the end of a rule -/

namespace Antlr.Gen
open Antlr ParserSpec ErrorSpec ErrorLemmas ErrorProps LL1Spec LL1Props IntervalSpec IntervalProps GenSpec

set_option linter.unusedSectionVars false
variable {I S : Type} [TokStream I]
variable {C : Cfg I S} {T : Nat → Tok} {V : I → Nat → Prop} {ix : Nat → Int} {Inv : S → Prop} {N K : Nat}
variable {s : GS I S} {n : Nat} {cs : List (Nat × Nat)}

theorem rank_skip (hN : (T N).ttype = TOKEN_EOF) {set : IntervalSet} {m : Nat} (h : Skips T set n m) (hm : n + m ≤ N)
    {eh eh' : EH} (h1 : eh'.lastIndex = eh.lastIndex) (h2 : eh'.lastStates = eh.lastStates) :
    rank C T ix N eh' (n + m) ≤ rank C T ix N eh n := by
  rcases Nat.eq_zero_or_pos m with rfl | hp
  · exact Nat.le_of_eq (rank_same h1 h2)
  · exact Nat.le_of_lt (rank_lt hN (h.1 0 hp).1 (by omega) hm)

theorem syncs_inAtn {st : Int} (h : Syncs C.env.atn st) : InAtn C st := by
  obtain ⟨a, dec, rfl, h1, -⟩ := h
  exact ⟨a, rfl, (List.getElem?_eq_some_iff.1 h1).1⟩

theorem hasEdge_inAtn {st : Int} (h : HasEdge C.env.atn st) : InAtn C st := by
  obtain ⟨a, s, tr, ts, rfl, h1, -⟩ := h
  exact ⟨a, rfl, (List.getElem?_eq_some_iff.1 h1).1⟩

theorem callsRule_inAtn {st : Int} {r r' : Nat} (h : CallsRule C.env.atn st r r') : InAtn C st := by
  obtain ⟨a, s, t, f, p, ts, tst, rfl, h1, -⟩ := h
  exact ⟨a, rfl, (List.getElem?_eq_some_iff.1 h1).1⟩

/-! ## More fuel changes nothing -/

theorem consumeUntil_mono (set : IntervalSet) {m m' : Nat} (hm : m ≤ m') {e e' : ES I}
    (h : ES.consumeUntil set m e = some e') : ES.consumeUntil set m' e = some e' := by
  induction m generalizing m' e with
  | zero => simp [ES.consumeUntil] at h
  | succ m ih =>
    obtain ⟨m', rfl⟩ : ∃ k, m' = k + 1 := ⟨m' - 1, by omega⟩
    rw [ES.consumeUntil] at h ⊢
    cases hl : e.p.la 1 with
    | none => simp [hl] at h
    | some x =>
      rw [hl, Option.bind_some] at h
      rw [Option.bind_some]
      dsimp only at h ⊢
      split at h
      · rename_i hc
        rw [if_pos hc]
        obtain ⟨y, h1, h2⟩ := Option.bind_eq_some_iff.1 h
        rw [h1, Option.bind_some]
        exact ih (by omega) h2
      · rename_i hc
        rw [if_neg hc]; exact h

theorem recover_mono {env : EEnv I} {m m' : Nat} (hm : m ≤ m') {e e' : ES I} (h : ES.recover env m e = some e') :
    ES.recover env m' e = some e' := by
  unfold ES.recover at h ⊢
  obtain ⟨x, h1, h2⟩ := Option.bind_eq_some_iff.1 h
  rw [h1, Option.bind_some]
  obtain ⟨y, h3, h4⟩ := Option.bind_eq_some_iff.1 h2
  dsimp only at h3 h4 ⊢
  rw [h3, Option.bind_some]
  exact consumeUntil_mono _ hm h4

theorem esync_mono {env : EEnv I} {m m' : Nat} (hm : m ≤ m') {e : ES I} {r : Except PErr Unit × ES I}
    (h : ES.sync env m e = some r) : ES.sync env m' e = some r := by
  unfold ES.sync at h ⊢
  split at h
  · rename_i hc; rw [if_pos hc]; exact h
  rename_i hc
  rw [if_neg hc]
  obtain ⟨x1, h1, h⟩ := Option.bind_eq_some_iff.1 h
  rw [h1, Option.bind_some]
  dsimp only at h ⊢
  obtain ⟨x2, h2, h⟩ := Option.bind_eq_some_iff.1 h
  rw [h2, Option.bind_some]
  obtain ⟨x3, h3, h⟩ := Option.bind_eq_some_iff.1 h
  rw [h3, Option.bind_some]
  split at h
  · rename_i hc; rw [if_pos hc]; exact h
  rename_i hc
  rw [if_neg hc]
  split at h
  · rename_i hc; rw [if_pos hc]; exact h
  rename_i hc
  rw [if_neg hc]
  cases hk : ES.syncKind x2.stateType with
  | none => simp [hk] at h
  | some b =>
    cases b with
    | false => rw [hk] at h; exact h
    | true =>
      rw [hk] at h
      dsimp only at h ⊢
      obtain ⟨y1, g1, h⟩ := Option.bind_eq_some_iff.1 h
      rw [g1, Option.bind_some]
      obtain ⟨y2, g2, h⟩ := Option.bind_eq_some_iff.1 h
      rw [g2, Option.bind_some]
      obtain ⟨y3, g3, h⟩ := Option.bind_eq_some_iff.1 h
      rw [g3, Option.bind_some]
      obtain ⟨y4, g4, h⟩ := Option.map_eq_some_iff.1 h
      rw [consumeUntil_mono _ hm g4, Option.map_some, h]

theorem Halts.of_strat {α : Type} {f : Nat → Option (Except PErr α × ES I)} {Q : Except PErr α → GS I S → Prop} {m0 : Nat}
    {x : Except PErr α} {e' : ES I} (hm : ∀ m, m0 ≤ m → f m = some (x, e')) (hq : Q x { s with es := e' }) :
    Halts (fun m => s.strat (f m)) Q :=
  ⟨m0, x, { s with es := e' }, fun m h => by simp [GS.strat, hm m h], hq⟩

/-! ## `sync` -/

theorem sync_halts (W : World C T V ix N K) (h0 : Sane C V Inv N s n cs) (hne : cs ≠ []) {st : Int}
    (hst : Syncs C.env.atn st) : Halts (fun m => sync C m (s.setState st))
      (Outcome C T V ix Inv N (rank C T ix N s.es.eh n) cs fun _ _ _ => True) := by
  have h := h0.setState (syncs_inAtn hst)
  by_cases hb : C.bail = true
  · exact .now (x := .ok ()) (s' := s.setState st) (fun m => by simp [sync, hb, GS.strat, ES.bailSync])
      ⟨n, h, Nat.le_refl _, trivial⟩
  have hs : ∀ m, sync C m (s.setState st) = (s.setState st).strat (ES.sync C.env m (s.setState st).es) := by
    intro m; simp [sync, hb]
  simp only [hs]
  have hR : rank C T ix N s.es.eh n = rank C T ix N (s.setState st).es.eh n := rfl
  rw [hR]
  obtain ⟨a, dec, h1, h2, h3⟩ := hst
  have hq : (s.setState st).es.p.state = a := h1
  clear hR hs h0
  generalize s.setState st = s at h hq
  obtain ⟨c, hcs, hr⟩ := h.ready hne
  have hal : a < C.env.atn.states.length := (List.getElem?_eq_some_iff.1 h2).1
  have ret : ∀ {m0 : Nat} {x : Except PErr Unit} {e' : ES I}, s.es.sync C.env m0 = some (x, e') →
      Outcome C T V ix Inv N (rank C T ix N s.es.eh n) cs (fun _ _ _ => True) x { s with es := e' } →
      Halts (fun m => s.strat (s.es.sync C.env m)) (Outcome C T V ix Inv N (rank C T ix N s.es.eh n) cs fun _ _ _ => True) :=
    fun e hx => .of_strat (fun m hm => esync_mono hm e) hx
  by_cases hm : s.es.eh.mode = true
  · exact ret (C47_recovering C.env 0 s.es hm) ⟨n, h, Nat.le_refl _, trivial⟩
  rw [Bool.not_eq_true] at hm
  obtain ⟨set, hset⟩ := W.next a hal
  obtain ⟨E, hE⟩ := h.expected W hne
  by_cases c1 : set.contains (T n).ttype = true
  · obtain ⟨i', v1, e⟩ := C47_expected W.view C.env 0 s.es n c a hr hm hq dec h2 set hset c1
    refine ret e ⟨n, h.update (eh' := { s.es.eh with ntState := -1, ntCtx := none }) v1 h.le rfl (after_links ..) rfl h.built
        (fun c hc => by cases hc), Nat.le_of_eq (rank_same rfl rfl), trivial⟩
  rw [Bool.not_eq_true] at c1
  by_cases c2 : set.contains TOKEN_EPSILON = true
  · obtain ⟨i', v1, e⟩ := C47_skippable W.view C.env 0 s.es n c a hr hm hq dec h2 set hset c1 c2
    cases hn : s.es.eh.ntCtx with
    | some d =>
      rw [hn, Option.isSome_some, if_pos rfl] at e
      exact ret e ⟨n, h.after v1 h.le h.built rfl rfl _ _, Nat.le_refl _, trivial⟩
    | none =>
      rw [hn, Option.isSome_none, if_neg (by simp)] at e
      refine ret e ⟨n, h.update (eh' := { s.es.eh with ntState := a, ntCtx := some c }) v1 h.le rfl (after_links ..) rfl h.built
        (fun d hd => ?_), Nat.le_of_eq (rank_same rfl rfl), trivial⟩
      cases hd
      exact ⟨by simpa using hb, h.at hcs, a, rfl, hal⟩
  rw [Bool.not_eq_true] at c2
  cases hk : ES.syncKind dec.stateType with
  | none => exact absurd hk h3
  | some b =>
    cases b with
    | false =>
      by_cases c3 : E.contains (T (n + 1)).ttype = true
      · obtain ⟨i', v1, e⟩ := C47_entry_deletes W.view C.env 0 s.es n c a hr hm hq dec h2 set hset c1 c2 hk E hE c3
        have n1 := rank_next (C := C) (T := T) (ix := ix) W.eof h.le s.es.eh s.es.eh.end_
        exact ret e ⟨_, h.after v1 n1.1 (Built.end_ _) rfl rfl _ _, n1.2.1, trivial⟩
      · rw [Bool.not_eq_true] at c3
        obtain ⟨stack, k, s1, s2, s3⟩ := statesStack_total (h.at hcs)
        obtain ⟨i', v1, e⟩ := C47_entry_raises W.view C.env 0 s.es n c a hr hm hq dec h2 set hset c1 c2 hk E hE c3 stack s1
        refine ret e (.inr ⟨n, h.after v1 h.le h.built rfl rfl _ _, Nat.le_refl _, ?_, readable W v1⟩)
        obtain ⟨E', hE'⟩ := expected_total W.wf W.labels W.next s3 hal
        exact ⟨E', by simp only [Recog.expected, hE']⟩
    | true =>
      obtain ⟨R, hR⟩ := h.recovery W hne
      obtain ⟨m, hmN, hskip, -⟩ := C45_consume_until_terminates (T := T) (E.addSet R) n N h.le W.eof
      obtain ⟨i', v1, e⟩ := C47_loop_back W.view C.env (m + 1) s.es n c a hr hm hq dec h2 set hset c1 c2 hk E R hE hR m hskip
        (Nat.lt_succ_self m)
      exact ret e ⟨_, h.after (eh' := s.es.eh.begin) v1 hmN h.built rfl rfl _ _, rank_skip W.eof hskip hmN rfl rfl, trivial⟩

/-! ## Decisions -/

theorem noViable_halts (W : World C T V ix N K) (h : Sane C V Inv N s n cs) (hne : cs ≠ []) {α : Type}
    (Q : α → GS I S → Nat → Prop) : ∃ x, noViable s = some (x, s) ∧
      Outcome C T V ix Inv N (rank C T ix N s.es.eh n) cs Q x s := by
  obtain ⟨c, hcs, hr⟩ := h.ready hne
  obtain ⟨stack, k, s1, s2, s3⟩ := statesStack_total (h.at hcs)
  refine ⟨.error (.noAlt { message := [], token := (T n).toOwned, state := s.es.p.state, stack := stack } (T n).toOwned),
    by simp [noViable, noAltNew, cur_eq W.view.toIsView hr, hr.ctx, s1],
    .inr ⟨n, h, Nat.le_refl _, ?_, readable W h.view⟩⟩
  by_cases ht : (T n).ttype = TOKEN_EOF
  · exact .inl ht
  · right
    have e : (T n).toOwned.index = ix n := W.view.tokIndex n
    rw [e]
    exact W.text _ n h.view ht

/-- The decisions of `Ch` are made, and answered as `pr` says. -/
def Decides (C : Cfg I S) (T : Nat → Tok) (V : I → Nat → Prop) (ix : Nat → Int) (Inv : S → Prop) (N : Nat)
    (pr : Nat → Int → Int → Prop) (Ch : Nat → Choice → Prop) : Prop :=
  ∀ r ch, Ch r ch → ∀ (s : GS I S) (n : Nat) (cs : List (Nat × Nat)), In r cs → Sane C V Inv N s n cs →
    Halts (fun m => choose C m ch s) (Outcome C T V ix Inv N (rank C T ix N s.es.eh n) cs
      fun k _ n' => Answers pr ch (T n').ttype k)

theorem look_decides (W : World C T V ix N K) (pr : Nat → Int → Int → Prop) : Decides C T V ix Inv N pr IsLook := by
  rintro r ch ⟨sets, other, rfl⟩ s n cs hin h
  have hne := hin.ne
  obtain ⟨i1, a1, v1⟩ := la_ok W.view.toIsView h.view
  have h1 := h.look v1
  cases hf : sets.findIdx? (·.contains (T n).ttype) with
  | some k =>
    refine .now (x := .ok ((k : Int) + 1)) (fun m => by simp only [choose, a1, Option.bind_some, hf]; rfl)
      ⟨n, h1, Nat.le_refl _, ?_⟩
    show look sets other (T n).ttype = _
    simp only [look, hf]
  | none =>
    cases other with
    | some k =>
      refine .now (x := .ok k) (fun m => by simp only [choose, a1, Option.bind_some, hf]; rfl) ⟨n, h1, Nat.le_refl _, ?_⟩
      show look sets (some k) (T n).ttype = _
      simp only [look, hf]
    | none =>
      obtain ⟨x, e1, e2⟩ := noViable_halts W h1 hne (fun k _ n' => Answers pr (.look sets none) (T n').ttype k)
      exact .now (fun m => by simp only [choose, a1, Option.bind_some, hf]; exact e1) e2

variable {pr : Nat → Int → Int → Prop} {Ch : Nat → Choice → Prop}

theorem head_halts (W : World C T V ix N K) (hd : Decides C T V ix Inv N pr Ch) (h : Sane C V Inv N s n cs) {r : Nat} (hin : In r cs)
    {st : Int} {ch : Choice} (hst : Syncs C.env.atn st) (hch : Ch r ch) : Halts (fun m => head C m st ch s)
      (Outcome C T V ix Inv N (rank C T ix N s.es.eh n) cs fun k _ n' => Answers pr ch (T n').ttype k) := by
  refine (sync_halts W h hin.ne hst).andThen ?_ ?_
  · rintro a s1 ⟨n1, h1, h2, -⟩
    exact (hd r ch hch s1 n1 cs hin h1).mono fun x s hx => hx.mono h2 fun _ _ _ _ _ hq => hq
  · intro e s1 hx; exact hx

theorem failed_halts (W : World C T V ix N K) (h : Sane C V Inv N s n cs) (hne : cs ≠ []) (he : HasEdge C.env.atn s.es.p.state)
    (msg : List Char) {α : Type} (Q : α → GS I S → Nat → Prop) : ∃ x, failedPredicate C msg s = some (x, s) ∧
      Outcome C T V ix Inv N (rank C T ix N s.es.eh n) cs Q x s := by
  obtain ⟨c, hcs, hr⟩ := h.ready hne
  obtain ⟨stack, k, s1, s2, s3⟩ := statesStack_total (h.at hcs)
  obtain ⟨a, st, tr, ts, e1, e2, e3⟩ := he
  refine ⟨.error (.predicate { message := msg, token := (T n).toOwned, state := s.es.p.state, stack := stack }),
    ?_, .inr ⟨n, h, Nat.le_refl _, readable W h.view⟩⟩
  simp [failedPredicate, ATN.stateAt, P.recog, cur_eq W.view.toIsView hr, hr.ctx, s1, e1, e2, e3]

/-! ## The end of a rule -/

theorem report_sane (W : World C T V ix N K) (h : Sane C V Inv N s n cs) (hne : cs ≠ []) {e : PErr} (hf : Fine C s.es.p.input e) :
    ∃ e', s.es.reportError C.env e = some e' ∧ Sane C V Inv N ({ s with es := e' } : GS I S) n cs ∧
      e'.eh.lastIndex = s.es.eh.lastIndex ∧ e'.eh.lastStates = s.es.eh.lastStates := by
  obtain ⟨c, hcs, hr⟩ := h.ready hne
  unfold ES.reportError
  by_cases hm : s.es.eh.mode = true
  · exact ⟨s.es, by rw [if_pos hm], h, rfl, rfl⟩
  rw [if_neg hm]
  obtain ⟨msg, hmsg⟩ : ∃ msg, errorMessage C.env s.es.p e = some msg := by
    cases e with
    | noAlt b st =>
      simp only [errorMessage]
      rcases hf.1 with ht | ht
      · rw [if_pos ht]; exact ⟨_, rfl⟩
      · obtain ⟨x, hx⟩ := ht
        split
        · exact ⟨_, rfl⟩
        · rw [hx]; exact ⟨_, rfl⟩
    | mismatch b =>
      obtain ⟨E, hE⟩ := hf.1
      simp only [errorMessage]
      rw [hE]; exact ⟨_, rfl⟩
    | predicate b =>
      obtain ⟨x, hx, h1⟩ := (h.at hcs).get
      have h2 := W.names
      simp only [errorMessage]
      rw [hr.ctx, Option.bind_some, hx, Option.bind_some, List.getElem?_eq_getElem (by omega)]
      exact ⟨_, rfl⟩
    | fallThrough e => exact ⟨_, rfl⟩
    | other t => exact ⟨_, rfl⟩
  rw [hmsg, Option.bind_some]
  obtain ⟨p', h1, h2, h3, h4, h5⟩ : ∃ p', s.es.p.notifyErrorListeners msg (e.offending.map (·.index)) = some p' ∧
      p'.input = s.es.p.input ∧ p'.ctx = s.es.p.ctx ∧ p'.heap = s.es.p.heap ∧ p'.state = s.es.p.state := by
    unfold P.notifyErrorListeners
    have key : ∀ x : Int, (∃ t, TokStream.get s.es.p.input x = some t) → ∃ p' : P I,
        ((TokStream.get s.es.p.input x).map fun (t : Tok) => { s.es.p with
          syntaxErrors := s.es.p.syntaxErrors + 1
          errLog := s.es.p.errLog ++ s.es.p.errListeners.map fun l => (l, t, t.line, t.column, msg) }) = some p' ∧
        p'.input = s.es.p.input ∧ p'.ctx = s.es.p.ctx ∧ p'.heap = s.es.p.heap ∧ p'.state = s.es.p.state := by
      rintro x ⟨t, ht⟩
      rw [ht]
      exact ⟨_, rfl, rfl, rfl, rfl, rfl⟩
    cases e with
    | noAlt b st => exact key _ hf.2
    | mismatch b => exact key _ hf.2
    | predicate b => exact key _ hf
    | fallThrough e => exact hf.elim
    | other t =>
      simp only [PErr.offending, Option.map_none, cur_eq W.view.toIsView hr, Option.map_some]
      exact ⟨_, rfl, rfl, rfl, rfl, rfl⟩
  rw [h1]
  refine ⟨⟨s.es.eh.begin, p'⟩, rfl, ?_, rfl, rfl⟩
  refine h.update (eh' := s.es.eh.begin) (by rw [h2]; exact h.view) h.le h3 (by rw [h4]; exact SameLinks.refl _) h5 h.built h.nt

theorem recover_sane (W : World C T V ix N K) (h : Sane C V Inv N s n cs) (hne : cs ≠ []) :
    ∃ m0 e' n', (∀ m, m0 ≤ m → s.es.recover C.env m = some e') ∧ Sane C V Inv N ({ s with es := e' } : GS I S) n' cs ∧
      rank C T ix N e'.eh n' ≤ rank C T ix N s.es.eh n ∧
      ((T n).ttype ≠ TOKEN_EOF → rank C T ix N e'.eh n' < rank C T ix N s.es.eh n) := by
  obtain ⟨c, -, hr⟩ := h.ready hne
  obtain ⟨R, hR⟩ := h.recovery W hne
  obtain ⟨a, ha1, ha2⟩ := h.state hne
  obtain ⟨vs, hvs⟩ := h.built
  by_cases hs : Stuck s.es.eh (ix n) s.es.p.state
  · have n1 := rank_next (C := C) (T := T) (ix := ix) W.eof h.le s.es.eh (remember s.es.eh (ix (next T n)) s.es.p.state)
    obtain ⟨m, hmN, hskip, -⟩ := C45_consume_until_terminates (T := T) R (next T n) N n1.1 W.eof
    obtain ⟨i', e, v⟩ := C45_recover_stuck W.view C.env s.es n c hr R hR hs m hskip (m + 1) (Nat.lt_succ_self m)
    have r2 := rank_skip (C := C) (ix := ix) W.eof hskip hmN (eh := remember s.es.eh (ix (next T n)) s.es.p.state)
      (eh' := remember s.es.eh (ix (next T n)) s.es.p.state) rfl rfl
    refine ⟨m + 1, _, next T n + m, fun k hk => recover_mono hk e,
      h.after v hmN ⟨_, built_remember hvs _ _⟩ rfl rfl _ _, Nat.le_trans r2 n1.2.1, fun ht => Nat.lt_of_le_of_lt r2 (n1.2.2 ht)⟩
  · obtain ⟨m, hmN, hskip, -⟩ := C45_consume_until_terminates (T := T) R n N h.le W.eof
    obtain ⟨i', e, v⟩ := C45_recover W.view C.env s.es n c hr R hR hs m hskip (m + 1) (Nat.lt_succ_self m)
    have r2 := rank_skip (C := C) (ix := ix) W.eof hskip hmN (eh := remember s.es.eh (ix n) s.es.p.state)
      (eh' := remember s.es.eh (ix n) s.es.p.state) rfl rfl
    have r1 : (T n).ttype ≠ TOKEN_EOF →
        rank C T ix N (remember s.es.eh (ix n) s.es.p.state) n < rank C T ix N s.es.eh n := by
      intro ht
      have hl := left_remember (C := C) (ix := ix) hvs (n := n) ha2 (by rw [← ha1]; exact hs)
      rw [← ha1] at hl
      unfold rank
      rw [if_neg ht, if_neg ht]
      omega
    have r0 : rank C T ix N (remember s.es.eh (ix n) s.es.p.state) n ≤ rank C T ix N s.es.eh n := by
      by_cases ht : (T n).ttype = TOKEN_EOF
      · rw [rank_eof ht, rank_eof ht]; exact Nat.le_refl _
      · exact Nat.le_of_lt (r1 ht)
    exact ⟨m + 1, _, n + m, fun k hk => recover_mono hk e,
      h.after v hmN ⟨_, built_remember hvs _ _⟩ rfl rfl _ _, Nat.le_trans r2 r0, fun ht => Nat.lt_of_le_of_lt r2 (r1 ht)⟩

/-- The end of a rule that was entered at token `n0`.  Errors are handled; before EOF that is progress. -/
theorem finish_halts (W : World C T V ix N K) (hne : cs ≠ []) {eh0 : EH} {n0 : Nat} (hn0 : n0 ≤ N) {b : Bool}
    {x : Except PErr Unit} (h : Outcome C T V ix Inv N (rank C T ix N eh0 n0) cs
      (fun _ s' n' => b = true → rank C T ix N s'.es.eh n' < rank C T ix N eh0 n0) x s) :
    Halts (fun m => finish C m (x, s)) (fun x s' => match x with
      | .ok _ => ∃ n', Sane C V Inv N s' n' cs ∧ rank C T ix N s'.es.eh n' ≤ rank C T ix N eh0 n0 ∧
          (b = true ∧ (C.bail = true ∨ (T n0).ttype ≠ TOKEN_EOF) → rank C T ix N s'.es.eh n' < rank C T ix N eh0 n0)
      | .error e => C.bail = true ∧ ∃ e', e = .fallThrough e') := by
  cases x with
  | ok a =>
    obtain ⟨n', h1, h2, h3⟩ := h
    refine .of_strat (m0 := 0) (x := .ok ()) (e' := s.es) (fun m _ => ?_) ⟨n', h1, h2, fun hb => h3 hb.1⟩
    split <;> rfl
  | error e =>
    rcases h with ⟨hb, e', rfl⟩ | ⟨n', h1, h2, h3⟩
    · refine .of_strat (m0 := 0) (x := .error (.fallThrough e')) (e' := s.es) (fun m _ => ?_) ⟨hb, e', rfl⟩
      rw [if_pos hb]; rfl
    · obtain ⟨e1, r1, r2, r3, r4⟩ := report_sane W h1 hne h3
      by_cases hb : C.bail = true
      · refine .of_strat (m0 := 0) (x := .error (.fallThrough e)) (e' := e1) (fun m _ => ?_) ⟨hb, e, rfl⟩
        have hp : ES.processError e1.p e = some (.fallThrough e) := process_total r2 hne e
        rw [if_pos hb]
        cases e <;> first
          | exact h3.elim
          | simp only [ES.bailRuleEnd, r1, Option.bind_some, ES.bailRecover, hp, Option.map_some]
      · obtain ⟨m0, e2, n2, q1, q2, q3, q4⟩ := recover_sane W r2 hne
        have hr : rank C T ix N e1.eh n' = rank C T ix N s.es.eh n' := rank_same r3 r4
        have q3' : rank C T ix N e2.eh n2 ≤ rank C T ix N s.es.eh n' := by rw [← hr]; exact q3
        refine .of_strat (m0 := m0) (x := .ok ()) (e' := e2) (fun m hm => ?_) ⟨n2, q2, Nat.le_trans q3' h2, ?_⟩
        · have q1' : e1.recover C.env m = some e2 := q1 m hm
          rw [if_neg hb]
          cases e <;> first
            | exact h3.elim
            | simp only [ES.ruleEnd, r1, Option.bind_some, q1', Option.map_some]
        · rintro ⟨-, ht⟩
          have ht := ht.resolve_left hb
          show rank C T ix N e2.eh n2 < _
          rcases Nat.lt_or_eq_of_le h2 with hlt | heq
          · omega
          · have := rank_type (C := C) (ix := ix) W.eof hn0 h1.le heq
            have q4' : rank C T ix N e2.eh n2 < rank C T ix N e1.eh n' := q4 (by rw [this]; exact ht)
            omega

end Antlr.Gen
