import Verif.Gen.Sound

/-! # Soundness of generated parsers: the induction -/

namespace Antlr.Gen
open Antlr ParserSpec ParserLemmas ParserProps ErrorProps GenSpec

set_option linter.unusedSectionVars false
variable {I S : Type} [TokStream I] {C : Cfg I S} {T : Nat → Tok} {V : I → Nat → Prop}

theorem seq_clean {α β : Type} {r : Out I S α} {f : α → GS I S → Out I S β} {s s' : GS I S} {b : β}
    (h : andThen r f = some (.ok b, s')) (m1 : MildO s r) (m2 : ∀ a s1, MildO s1 (f a s1))
    (hm : s.es.eh.mode = false) (hr : reports s'.es = reports s.es) :
    ∃ a s1, r = some (.ok a, s1) ∧ reports s1.es = reports s.es ∧ s1.es.eh.mode = false ∧
      f a s1 = some (.ok b, s') ∧ reports s'.es = reports s1.es := by
  rcases andThen_some.1 h with ⟨a, s1, e1, e2⟩ | ⟨e, _, h⟩
  · have q1 := m1 _ _ e1
    have q2 := m2 _ _ _ _ e2
    have r1 : reports s1.es = reports s.es := by have := q1.1; have := q2.1; omega
    exact ⟨a, s1, e1, r1, q1.2 hm r1, e2, by omega⟩
  · cases h

theorem Done.weaken {G : Grammar} {e e' : Ebnf} {p p' : P I} {st : St} {c : Nat}
    (h : Done G T V e p st c p') (hy : ∀ x, Yields G e x → Yields G e' x) :
    Done G T V e' p st c p' := by
  obtain ⟨n, st', ev, a, b, d⟩ := h
  exact ⟨n, st', ev, a, hy _ b, d⟩

theorem yields_plus {G : Grammar} {a : Ebnf} {x : List Node} (h : Yields G (.seq a (.star a)) x) :
    Yields G (.star a) x := by
  cases h with
  | seq h1 h2 => exact .starCons h1 h2

theorem act_seq {β : Type} {s s' : GS I S} {f : P I → Option (P I)} {g : Unit → GS I S → Out I S β}
    {x : Except PErr β} (h : andThen (s.act f) g = some (x, s')) :
    ∃ s1, f s.es.p = some s1.es.p ∧ s1.es.eh = s.es.eh ∧ g () s1 = some (x, s') := by
  rcases andThen_some.1 h with ⟨a, s1, e1, e2⟩ | ⟨e, e1, _⟩
  · obtain ⟨-, h1, h2⟩ := act_some e1
    exact ⟨s1, h1, h2, e2⟩
  · obtain ⟨h, _⟩ := act_some e1
    cases h

theorem count_eq {s s' : GS I S} (h : s'.es.p.syntaxErrors = s.es.p.syntaxErrors) :
    reports s'.es = reports s.es := h

/-- The step of the loop: code added trees to the node being built. -/
theorem Loop.done {G : Grammar} {h0 : List Ctx} {o : Option Nat} {idx : Nat} {inv : Int} {start : Tok}
    {q : Int} {n0 : Nat} {base p p' : P I} {st : St} {label : Option Nat} {kids : List Node} {r : Nat}
    (hl : Loop G T V h0 o idx inv start q n0 base p st label kids r) {i : I} {n : Int}
    (hi : V i st.pos) (h : p' = { p with input := i, state := n }) :
    Loop G T V h0 o idx inv start q n0 base p' { st with state := n } label kids r := by
  subst h
  have hs := Step.look hl.here.here hi n
  have := hl.here.stepTo hs
  rw [List.append_nil] at this
  exact ⟨this, hl.sib.trans (Sib.ofStep hs), hl.tree, hl.toks⟩

theorem prec_of {p p' : P I} {q : Int} (h : Sib p p') (hq : p.precStack.getLast? = some q)
    {prec : Int} (hp : p'.precpred prec = true) : q ≤ prec := by
  obtain ⟨i, h, b, st, c, evs, rfl⟩ := h
  simpa [P.precpred, hq] using hp

theorem done_sib {G : Grammar} {e : Ebnf} {p p' : P I} {st : St} {c : Nat}
    (h : Done G T V e p st c p') : Sib p p' := by
  obtain ⟨n, st', ev, a, -⟩ := h
  exact Sib.ofStep a

/-- What is shown of the five functions, for code whose grammar is `grammar C.rules`. -/
structure AllOk (C : Cfg I S) (T : Nat → Tok) (V : I → Nat → Prop) (width : Nat → Nat) (m : Nat) :
    Prop where
  run : ∀ code, code.Fits width → ∀ (s s' : GS I S) st c, At V s.es.p st c →
    s.es.eh.mode = false → reports s'.es = reports s.es → run C m code s = some (.ok (), s') →
    Done (grammar C.rules) T V code.ebnf s.es.p st c s'.es.p
  loop : ∀ back ch exit bodyAlt body k, Code.Fits width body → ∀ (s s' : GS I S) st c,
    At V s.es.p st c → s.es.eh.mode = false → reports s'.es = reports s.es →
    loop C m back ch exit bodyAlt body k s = some (.ok (), s') →
    Done (grammar C.rules) T V (.star body.ebnf) s.es.p st c s'.es.p
  plusLoop : ∀ back ch exit bodyAlt body k, Code.Fits width body → ∀ (s s' : GS I S) st c,
    At V s.es.p st c → s.es.eh.mode = false → reports s'.es = reports s.es →
    plusLoop C m back ch exit bodyAlt body k s = some (.ok (), s') →
    Done (grammar C.rules) T V (.seq body.ebnf (.star body.ebnf)) s.es.p st c s'.es.p
  rule : ∀ r q (s s' : GS I S) st o root, Ready V s.es.p st o → s.es.eh.mode = false →
    reports s'.es = reports s.es → runRule C m r q s = some (.ok root, s') →
    ∃ i, root = some i ∧ Called (grammar C.rules) T V r q s.es.p st o i s'.es.p
  opLoop : ∀ r q ops inv start0 start h0 o n0 base back ch opSel k, base.precStack.getLast? = some q →
    (∃ prims, grammar C.rules r =
      some (.recursive prims (ops.map fun (o : OpAlt) => (o.label, o.prec, o.code.ebnf)))) →
    (∀ o ∈ ops, o.code.Fits width) → ∀ (s s' : GS I S) st label kids i,
    Loop (grammar C.rules) T V h0 o r inv start q n0 base s.es.p st label kids i →
    s.es.eh.mode = false → reports s'.es = reports s.es →
    opLoop C m r start0 o inv back ch opSel ops k s = some (.ok (), s') →
    ∃ st' label' kids' i',
      Loop (grammar C.rules) T V h0 o r inv start q n0 base s'.es.p st' label' kids' i'

section
variable {width : Nat → Nat}

theorem run_ok (hv : IsView T V) (hf : Fair C V width) {m : Nat} (ih : AllOk C T V width m)
    (code : Code) (hc : code.Fits width) (s s' : GS I S) (st : St) (c : Nat) (ha : At V s.es.p st c)
    (hm : s.es.eh.mode = false) (hr : reports s'.es = reports s.es)
    (h : run C (m + 1) code s = some (.ok (), s')) :
    Done (grammar C.rules) T V code.ebnf s.es.p st c s'.es.p := by
  obtain ⟨i1, i2, i3, i4, i5⟩ := mild_all (C := C) m
  cases code with
  | nop =>
    simp only [run, ret, Option.some.injEq, Prod.mk.injEq] at h
    rw [← h.2, Code.ebnf]
    exact .nil ha
  | seq a b =>
    rw [run] at h
    rw [Code.Fits] at hc
    obtain ⟨_, s1, e1, r1, m1, e2, r2⟩ := seq_clean h (i1 _ _) (fun _ _ => i1 _ _) hm hr
    rw [Code.ebnf]
    exact .seq ha (ih.run a hc.1 _ _ _ _ ha hm r1 e1) fun st1 ha1 => ih.run b hc.2 _ _ _ _ ha1 m1 r2 e2
  | tok n t =>
    rw [run] at h
    rw [Code.ebnf]
    refine .afterState ha n fun ha => ?_
    obtain ⟨_, s1, e1, r1, m1, e2, r2⟩ := seq_clean (s := s.setState n) h (mild_matchTok _ _) (fun _ _ => .ret _ _) hm hr
    simp only [ret, Option.some.injEq, Prod.mk.injEq] at e2
    rw [← e2.2]
    obtain ⟨ht, hc⟩ := matchTok_clean hv (n := st.pos) ha.view hm r1 e1
    refine .match hv ha hc ?_
    rw [← ht]
    exact .tok
  | set n ts invert =>
    rw [run] at h
    refine .afterState ha n fun ha => ?_
    obtain ⟨ht, i', hi, hc⟩ := matchSet_clean hv (n := st.pos) (s := s.setState n) ha.view hm hr h
    refine .after ha (n := n) hi rfl fun ha => ?_
    refine .match hv ha hc ?_
    rw [Code.ebnf]
    cases invert with
    | true =>
      simp only [inSet, if_true, Bool.and_eq_true, decide_eq_true_eq, Bool.not_eq_true',
        List.contains_eq_mem, decide_eq_false_iff_not] at ht
      exact .notSet ht.1 ht.2
    | false =>
      simp only [inSet, Bool.false_eq_true, if_false, List.contains_eq_mem, decide_eq_true_eq] at ht
      exact .set ht
  | any n =>
    rw [run] at h
    rw [Code.ebnf]
    refine .afterState ha n fun ha => ?_
    obtain ⟨_, s1, e1, r1, m1, e2, r2⟩ := seq_clean (s := s.setState n) h (mild_matchAny _) (fun _ _ => .ret _ _) hm hr
    simp only [ret, Option.some.injEq, Prod.mk.injEq] at e2
    rw [← e2.2]
    obtain ⟨ht, hc⟩ := matchAny_clean hv (n := st.pos) ha.view hm r1 e1
    exact .match hv ha hc (.any ht)
  | call n r q =>
    rw [run] at h
    rw [Code.ebnf]
    refine .afterState ha n fun ha => ?_
    obtain ⟨root, s1, e1, r1, m1, e2, r2⟩ := seq_clean (s := s.setState n) h (i4 _ _ _) (fun _ _ => .ret _ _) hm hr
    simp only [ret, Option.some.injEq, Prod.mk.injEq] at e2
    rw [← e2.2]
    obtain ⟨i, -, node, st', h1, h2, h3⟩ := ih.rule r q _ _ _ _ _ ha.ready hm r1 e1
    obtain ⟨evs, h4⟩ := h1.step ha
    refine ⟨_, _, _, h4, .rule h2, ?_⟩
    simpa [tokensAll] using h3
  | guard n k msg =>
    rw [run] at h
    rw [Code.ebnf]
    refine .afterState ha n fun ha => ?_
    split at h
    · simp only [ret, Option.some.injEq, Prod.mk.injEq] at h
      rw [← h.2]
      exact .nil ha
    · exact (failed_not_ok h).elim
  | block n ch alts =>
    rw [run] at h
    rw [Code.Fits] at hc
    rw [Code.ebnf]
    obtain ⟨k, s1, e1, r1, m1, e2, r2⟩ := seq_clean h (mild_head _ _ _ _)
      (fun k s1 => by
        show MildO s1 (match pick alts k with | some a => _ | none => _)
        split
        · exact i1 _ _
        · exact .ret _ _) hm hr
    obtain ⟨⟨i', hi, hp⟩, -, hw⟩ := head_clean hv hf (n := st.pos) ha.view hm r1 e1
    refine .after ha hi hp fun ha => ?_
    obtain ⟨a, hk⟩ := pick_some (l := alts) (hw _ hc.1)
    rw [hk] at e2
    have hmem := pick_mem hk
    exact (ih.run a (allFit_mem hc.2 a hmem) _ _ _ _ ha m1 r2 e2).weaken fun x hx => yields_alts hmem hx
  | opt n ch off alts =>
    rw [run] at h
    rw [Code.Fits] at hc
    rw [Code.ebnf]
    obtain ⟨k, s1, e1, r1, m1, e2, r2⟩ := seq_clean h (mild_head _ _ _ _)
      (fun k s1 => by
        show MildO s1 (match pick alts (k - off) with | some a => _ | none => _)
        split
        · exact i1 _ _
        · exact .ret _ _) hm hr
    obtain ⟨⟨i', hi, hp⟩, -, -⟩ := head_clean hv hf (n := st.pos) ha.view hm r1 e1
    refine .after ha hi hp fun ha => ?_
    cases hk : pick alts (k - off) with
    | none =>
      rw [hk] at e2
      simp only [ret, Option.some.injEq, Prod.mk.injEq] at e2
      rw [← e2.2]
      exact (Done.nil ha).weaken fun x hx => .altR hx
    | some a =>
      rw [hk] at e2
      have hmem := pick_mem hk
      exact (ih.run a (allFit_mem hc a hmem) _ _ _ _ ha m1 r2 e2).weaken
        fun x hx => .altL (yields_alts hmem hx)
  | star n back ch exit bodyAlt body =>
    rw [run] at h
    rw [Code.Fits] at hc
    rw [Code.ebnf]
    obtain ⟨k, s1, e1, r1, m1, e2, r2⟩ := seq_clean h (mild_head _ _ _ _)
      (fun k s1 => i2 _ _ _ _ _ _ _) hm hr
    obtain ⟨⟨i', hi, hp⟩, -, -⟩ := head_clean hv hf (n := st.pos) ha.view hm r1 e1
    exact .after ha hi hp fun ha => ih.loop _ _ _ _ _ _ hc _ _ _ _ ha m1 r2 e2
  | plus n back ch exit bodyAlt body =>
    rw [run] at h
    rw [Code.Fits] at hc
    rw [Code.ebnf]
    refine .afterState ha n fun ha => ?_
    obtain ⟨_, s1, e1, r1, m1, e2, r2⟩ := seq_clean (s := s.setState n) h (mild_sync _ _)
      (fun k s1 => i3 _ _ _ _ _ _ _) hm hr
    obtain ⟨i', hi, hp⟩ := sync_clean hv (n := st.pos) ha.view hm r1 e1
    refine .after ha (n := n) hi hp fun ha => ih.plusLoop _ _ _ _ _ _ hc _ _ _ _ ha m1 r2 e2

theorem loop_ok (hv : IsView T V) (hf : Fair C V width) {m : Nat} (ih : AllOk C T V width m)
    (back : Int) (ch : Choice) (exit bodyAlt : Int) (body : Code) (k : Int)
    (hc : body.Fits width) (s s' : GS I S) (st : St) (c : Nat) (ha : At V s.es.p st c)
    (hm : s.es.eh.mode = false) (hr : reports s'.es = reports s.es)
    (h : loop C (m + 1) back ch exit bodyAlt body k s = some (.ok (), s')) :
    Done (grammar C.rules) T V (.star body.ebnf) s.es.p st c s'.es.p := by
  obtain ⟨i1, i2, i3, i4, i5⟩ := mild_all (C := C) m
  rw [loop] at h
  split at h
  · simp only [ret, Option.some.injEq, Prod.mk.injEq] at h
    rw [← h.2]
    exact (Done.nil ha).weaken fun x hx => by cases hx; exact .starNil
  · obtain ⟨_, s1, e1, r1, m1, e2, r2⟩ := seq_clean h (mild_ite (i1 _ _) (.ret _ _))
      (fun _ s1 => .andThen (mild_head _ _ _ _) fun k s2 => i2 _ _ _ _ _ _ _) hm hr
    obtain ⟨k2, s2, e3, r3, m3, e4, r4⟩ := seq_clean e2 (mild_head _ _ _ _)
      (fun k s2 => i2 _ _ _ _ _ _ _) m1 r2
    have rest : ∀ st1, At V s1.es.p st1 c →
        Done (grammar C.rules) T V (.star body.ebnf) s1.es.p st1 c s'.es.p := by
      intro st1 ha1
      obtain ⟨⟨i', hi, hp⟩, -, -⟩ := head_clean hv hf (n := st1.pos) ha1.view m1 r3 e3
      exact .after ha1 hi hp fun ha => ih.loop _ _ _ _ _ _ hc _ _ _ _ ha m3 r4 e4
    split at e1
    · exact .starCons ha (ih.run _ hc _ _ _ _ ha hm r1 e1) rest
    · simp only [ret, Option.some.injEq, Prod.mk.injEq] at e1
      obtain ⟨-, rfl⟩ := e1
      exact rest _ ha

theorem plusLoop_ok (hv : IsView T V) (hf : Fair C V width) {m : Nat} (ih : AllOk C T V width m)
    (back : Int) (ch : Choice) (exit bodyAlt : Int) (body : Code) (k : Int)
    (hc : body.Fits width) (s s' : GS I S) (st : St) (c : Nat) (ha : At V s.es.p st c)
    (hm : s.es.eh.mode = false) (hr : reports s'.es = reports s.es)
    (h : plusLoop C (m + 1) back ch exit bodyAlt body k s = some (.ok (), s')) :
    Done (grammar C.rules) T V (.seq body.ebnf (.star body.ebnf)) s.es.p st c s'.es.p := by
  obtain ⟨i1, i2, i3, i4, i5⟩ := mild_all (C := C) m
  rw [plusLoop] at h
  obtain ⟨_, s1, e1, r1, m1, e2, r2⟩ := seq_clean h (mild_ite (i1 _ _) (mild_noViable _))
    (fun _ s1 => .andThen (mild_head _ _ _ _) fun k s2 => mild_ite (.ret _ _) (i3 _ _ _ _ _ _ _)) hm hr
  obtain ⟨k2, s2, e3, r3, m3, e4, r4⟩ := seq_clean e2 (mild_head _ _ _ _)
    (fun k s2 => mild_ite (.ret _ _) (i3 _ _ _ _ _ _ _)) m1 r2
  split at e1
  · refine .seq ha (ih.run _ hc _ _ _ _ ha hm r1 e1) fun st1 ha1 => ?_
    obtain ⟨⟨i', hi, hp⟩, -, -⟩ := head_clean hv hf (n := st1.pos) ha1.view m1 r3 e3
    refine .after ha1 hi hp fun ha => ?_
    split at e4
    · simp only [ret, Option.some.injEq, Prod.mk.injEq] at e4
      rw [← e4.2]
      exact (Done.nil ha).weaken fun x hx => by cases hx; exact .starNil
    · exact (ih.plusLoop _ _ _ _ _ _ hc _ _ _ _ ha m3 r4 e4).weaken fun x hx => yields_plus hx
  · exact (noViable_not_ok e1).elim

theorem opLoop_ok (hv : IsView T V) (hf : Fair C V width) {m : Nat} (ih : AllOk C T V width m)
    (r : Nat) (q : Int) (ops : List OpAlt) (inv start0 : Int) (start : Tok) (h0 : List Ctx)
    (o : Option Nat) (n0 : Nat) (base : P I) (back : Int) (ch : Choice)
    (opSel : Option (Int × Choice)) (k : Int) (hq : base.precStack.getLast? = some q)
    (hg : ∃ prims, grammar C.rules r =
      some (.recursive prims (ops.map fun (o : OpAlt) => (o.label, o.prec, o.code.ebnf))))
    (hops : ∀ o ∈ ops, o.code.Fits width) (s s' : GS I S) (st : St) (label : Option Nat)
    (kids : List Node) (i : Nat)
    (hl : Loop (grammar C.rules) T V h0 o r inv start q n0 base s.es.p st label kids i)
    (hm : s.es.eh.mode = false) (hr : reports s'.es = reports s.es)
    (h : opLoop C (m + 1) r start0 o inv back ch opSel ops k s = some (.ok (), s')) :
    ∃ st' label' kids' i',
      Loop (grammar C.rules) T V h0 o r inv start q n0 base s'.es.p st' label' kids' i' := by
  obtain ⟨i1, i2, i3, i4, i5⟩ := mild_all (C := C) m
  rw [opLoop] at h
  split at h
  · simp only [ret, Option.some.injEq, Prod.mk.injEq] at h
    rw [← h.2]
    exact ⟨_, _, _, _, hl⟩
  · have mOp : ∀ (a : Option OpAlt) (s2 : GS I S), MildO s2 (match a with
        | none => ret () s2
        | some o' => andThen (s2.act (pushCtx r o'.label o inv start0)) fun _ s =>
          andThen (precGuard C o' (s.setState o'.predState)) fun _ s => run C m o'.code s) := by
      intro a s2
      split
      · exact .ret _ _
      · refine .andThen (mild_act (pushCtx_count _ _ _ _ _)) fun _ s3 => ?_
        exact (mild_setState _ _).then (.andThen (mild_precGuard _ _) fun _ s4 => i1 _ _)
    obtain ⟨_, s1, e1, r1, m1, e2, r2⟩ := seq_clean h
      (mild_ite (.andThen (mild_act fun p p' h => (same_triggerExit h).2.2.2) fun _ s1 =>
        .andThen (mild_select _ _ _ _) mOp) (.ret _ _))
      (fun _ s1 => .andThen (mild_head _ _ _ _) fun k s2 => i5 _ _ _ _ _ _ _ _ _ _) hm hr
    obtain ⟨k2, s2, e3, r3, m3, e4, r4⟩ := seq_clean e2 (mild_head _ _ _ _)
      (fun k s2 => i5 _ _ _ _ _ _ _ _ _ _) m1 r2
    have rest : ∀ st1 label1 kids1 i1,
        Loop (grammar C.rules) T V h0 o r inv start q n0 base s1.es.p st1 label1 kids1 i1 →
        ∃ st' label' kids' i',
          Loop (grammar C.rules) T V h0 o r inv start q n0 base s'.es.p st' label' kids' i' := by
      intro st1 label1 kids1 i1 hl1
      obtain ⟨⟨i', hi, hp⟩, -, -⟩ := head_clean hv hf (n := st1.pos) hl1.here.here.view m1 r3 e3
      exact ih.opLoop r q ops inv start0 start h0 o n0 base back ch opSel k2 hq hg hops _ _ _ _ _ _
        (hl1.done hi hp) m3 r4 e4
    split at e1
    · obtain ⟨_, s3, e5, r5, m5, e6, r6⟩ := seq_clean e1
        (mild_act fun p p' h => (same_triggerExit h).2.2.2)
        (fun _ s1 => .andThen (mild_select _ _ _ _) mOp) hm r1
      obtain ⟨-, e5, -⟩ := act_some e5
      obtain ⟨p3, f3, sib3, l3⟩ := hl.here.exitEvent
      rw [f3, Option.some.injEq] at e5
      subst e5
      have hl3 : Loop (grammar C.rules) T V h0 o r inv start q n0 base s3.es.p st label kids i :=
        ⟨l3, hl.sib.trans sib3, hl.tree, hl.toks⟩
      obtain ⟨a, s4, e7, r7, m7, e8, r8⟩ := seq_clean e6 (mild_select _ _ _ _) mOp m5 r6
      obtain ⟨⟨n4, i4', hi4, hp4⟩, -, hmem, -⟩ :=
        select_clean hv hf (n := st.pos) hl3.here.here.view m5 r7 e7
      have hl4 := hl3.done hi4 hp4
      cases a with
      | none =>
        simp only [ret, Option.some.injEq, Prod.mk.injEq] at e8
        obtain ⟨-, rfl⟩ := e8
        exact rest _ _ _ _ hl4
      | some op =>
        have hop := hmem op rfl
        simp only at e8
        obtain ⟨_, s5, e9, r9, m9, e10, r10⟩ := seq_clean e8 (mild_act (pushCtx_count _ _ _ _ _))
          (fun _ s5 => (mild_setState _ _).then (.andThen (mild_precGuard _ _) fun _ s6 => i1 _ _)) m7 r8
        obtain ⟨-, e9, -⟩ := act_some e9
        obtain ⟨p5, i5', f5, sib5, l5⟩ := hl4.here.pushOp hv op.label start0
        rw [f5, Option.some.injEq] at e9
        subst e9
        obtain ⟨_, s6, e11, r11, m11, e12, r12⟩ := seq_clean (s := s5.setState op.predState) e10
          (mild_precGuard _ _) (fun _ s6 => i1 _ _) m9 r10
        have e13 : s5.es.p.precpred op.prec = true ∧ s6 = s5.setState op.predState := by
          unfold precGuard at e11
          split at e11
          · rename_i hp
            simp only [ret, Option.some.injEq, Prod.mk.injEq] at e11
            exact ⟨hp, e11.2.symm⟩
          · exact (failed_not_ok e11).elim
        obtain ⟨hp, rfl⟩ := e13
        have hsib := hl4.sib.trans sib5
        have hle := prec_of hsib hq hp
        have hat := at_setState l5.here op.predState
        have hrun := ih.run op.code (hops _ hop) _ _ _ _ hat m11 r12 e12
        obtain ⟨nodes, st7, evs, h7, y7, c7⟩ := hrun
        have l6 := l5.stepTo (Step.look l5.here l5.here.view op.predState)
        have l7 := l6.stepTo h7
        refine rest _ _ _ _ ⟨l7, (hsib.trans (Sib.ofStep (Step.look l5.here l5.here.view op.predState))).trans
          (Sib.ofStep h7), ?_, ?_⟩
        · intro inv' stop
          obtain ⟨prims, hg⟩ := hg
          refine .op hg (List.mem_map.2 ⟨op, hop, rfl⟩) hle (hl4.tree _ _) y7
        · simp only [List.append_nil, List.singleton_append, tokensAll, tokens]
          exact consumes_trans hl4.toks c7
    · simp only [ret, Option.some.injEq, Prod.mk.injEq] at e1
      obtain ⟨-, rfl⟩ := e1
      exact rest _ _ _ _ hl

theorem rule_ok (hv : IsView T V) (hf : Fair C V width) {m : Nat} (ih : AllOk C T V width m)
    (r : Nat) (q : Int) (s s' : GS I S) (st : St) (o root : Option Nat)
    (ha : Ready V s.es.p st o) (hm : s.es.eh.mode = false) (hr : reports s'.es = reports s.es)
    (h : runRule C (m + 1) r q s = some (.ok root, s')) :
    ∃ i, root = some i ∧ Called (grammar C.rules) T V r q s.es.p st o i s'.es.p := by
  obtain ⟨i1, i2, i3, i4, i5⟩ := mild_all (C := C) m
  rw [runRule] at h
  split at h
  · cases h
  · rename_i start sel alts hrule
    have hfit := hf.rules _ (List.mem_of_getElem? hrule)
    simp only [RuleFn.Fits] at hfit
    obtain ⟨s1, e1, q1, h⟩ := act_seq h
    obtain ⟨p1, f1, a1, n1, frame⟩ := plainFrame hv ha r start
    rw [f1, Option.some.injEq] at e1
    subst e1
    simp only [Option.bind_eq_some_iff, Prod.exists] at h
    obtain ⟨x, s2, eb, ef⟩ := h
    have mAlt : ∀ (a : Option Alt) (s3 : GS I S), MildO s3 (match a with
        | none => ret () s3
        | some a => andThen (s3.act (enterAlt a.label s.es.p.heap.length)) fun _ s => run C m a.code s) := by
      intro a s3
      split
      · exact .ret _ _
      · exact .andThen (mild_act (enterAlt_count _ _)) fun _ _ => i1 _ _
    have mEnd : ∀ (u : Unit) (s3 : GS I S), MildO s3
        (andThen (s3.act P.exitRule) fun _ s => ret s3.es.p.ctx s) := fun _ s3 =>
      .andThen (mild_act fun p p' h => count_op .exitRule rfl h) fun _ _ => .ret _ _
    have mild1 : Mild s1 s2 := MildO.andThen (mild_select _ _ _ _) mAlt _ _ eb
    have mild2 : Mild s2 s' := MildO.andThen (mild_finish _ _) mEnd _ _ ef
    have r1 : reports s1.es = reports s.es := n1
    have r2 : reports s2.es = reports s1.es := by have := mild1.1; have := mild2.1; omega
    have m1 : s1.es.eh.mode = false := by rw [q1]; exact hm
    have m2 := mild1.2 m1 r2
    obtain ⟨_, s3, e3, r3, m3, e4, r4⟩ := seq_clean ef (mild_finish _ _) mEnd m2 (by show reports s'.es = reports s2.es; omega)
    obtain ⟨rfl, rfl⟩ := finish_clean m2 r3 e3
    obtain ⟨a, s4, e5, r5, m5, e6, r6⟩ := seq_clean eb (mild_select _ _ _ _) mAlt m1 r2
    obtain ⟨⟨n4, i4', hi4, hp4⟩, -, hmem, hne⟩ := select_clean hv hf (n := st.pos) a1.view m1 r5 e5
    cases a with
    | none => exact absurd rfl (hne hfit.1)
    | some a =>
      simp only at e6
      obtain ⟨_, s5, e7, r7, m7, e8, r8⟩ := seq_clean e6 (mild_act (enterAlt_count _ _))
        (fun _ _ => i1 _ _) m5 r6
      obtain ⟨-, e7, -⟩ := act_some e7
      obtain ⟨p5, i5', f5, a5, frame⟩ := frame i4' n4 hi4 a.label
      rw [hp4, f5, Option.some.injEq] at e7
      subst e7
      obtain ⟨nodes, st6, evs, h6, y6, c6⟩ :=
        ih.run a.code (hfit.2 a (hmem a rfl)) _ _ _ _ a5 m7 r8 e8
      obtain ⟨p7, hctx, f7, hcall⟩ := frame _ _ _ _ h6
      obtain ⟨s7, e9, -, e10⟩ := act_seq e4
      rw [f7, Option.some.injEq] at e9
      simp only [ret, Option.some.injEq, Prod.mk.injEq, Except.ok.injEq] at e10
      obtain ⟨rfl, rfl⟩ := e10
      rw [← e9]
      refine ⟨i5', hctx, _, _, hcall, .plain (alts := alts.map fun a => (a.label, a.code.ebnf)) ?_
        (List.mem_map.2 ⟨a, hmem a rfl, rfl⟩) y6, ?_⟩
      · simp [grammar, hrule, RuleFn.rhs]
      · simpa [tokens] using c6
  · rename_i start sel prims entry back ch opSel ops hrule
    have hfit := hf.rules _ (List.mem_of_getElem? hrule)
    simp only [RuleFn.Fits] at hfit
    have hgr : grammar C.rules r = some (.recursive (prims.map fun a => (a.label, a.code.ebnf))
        (ops.map fun (o : OpAlt) => (o.label, o.prec, o.code.ebnf))) := by
      simp [grammar, hrule, RuleFn.rhs]
    obtain ⟨s1, e1, q1, h⟩ := act_seq h
    obtain ⟨p1, p2, f1, f2, n1, sib2, l2⟩ := recEnter hv ha r start q
    rw [f1, Option.some.injEq] at e1
    subst e1
    simp only [Option.bind_eq_some_iff, Prod.exists] at h
    obtain ⟨x, s2, eb, ef⟩ := h
    have mPrim : ∀ (a : Option Alt) (s3 : GS I S), MildO s3 (match a with
        | none => ret () s3
        | some a => andThen (s3.act (replaceCtx a.label s.es.p.heap.length)) fun _ s => run C m a.code s) := by
      intro a s3
      split
      · exact .ret _ _
      · exact .andThen (mild_act (replaceCtx_count _ _)) fun _ _ => i1 _ _
    have mLoop : ∀ (_ : Unit) (s6 : GS I S), MildO s6 (andThen (head C m entry ch s6) fun k s =>
        opLoop C m r start s.es.p.ctx s.es.p.state back ch opSel ops k s) := fun _ s6 =>
      .andThen (mild_head _ _ _ _) fun k s7 => i5 _ _ _ _ _ _ _ _ _ _
    have mLoop : ∀ (_ : Unit) (s6 : GS I S), MildO s6 (andThen (head C m entry ch s6) fun k s' =>
        opLoop C m r start s.es.p.ctx s.es.p.state back ch opSel ops k s') := fun _ s6 =>
      .andThen (mild_head _ _ _ _) fun k s7 => i5 _ _ _ _ _ _ _ _ _ _
    have mStop : ∀ (_ : Unit) (s5 : GS I S), MildO s5 (andThen (s5.act setStopTok) fun _ s6 =>
        andThen (head C m entry ch s6) fun k s' =>
        opLoop C m r start s.es.p.ctx s.es.p.state back ch opSel ops k s') := fun _ s5 =>
      .andThen (mild_act setStopTok_count) mLoop
    have mEnd : ∀ (u : Unit) (s3 : GS I S), MildO s3
        (andThen (s3.act fun p => p.unrollRecursionContext s.es.p.ctx) fun _ s => ret s3.es.p.ctx s) :=
      fun _ s3 => .andThen (mild_act fun p p' h => count_op (.unrollRecursionContext s.es.p.ctx) rfl h)
        fun _ _ => .ret _ _
    have mOuter : MildO s1 (s1.act fun p => p.enterOuterAlt none) :=
      mild_act fun p p' h => count_op (.enterOuterAlt none) rfl h
    have mBody := fun (_ : Unit) (s3 : GS I S) => (MildO.andThen (mild_select (C := C) m sel prims s3)
      fun a s4 => MildO.andThen (mPrim a s4) mStop)
    have mild1 : Mild s1 s2 := MildO.andThen mOuter mBody _ _ eb
    have mild2 : Mild s2 s' := MildO.andThen (mild_finish _ _) mEnd _ _ ef
    have r1 : reports s1.es = reports s.es := n1
    have r2 : reports s2.es = reports s1.es := by have := mild1.1; have := mild2.1; omega
    have m1 : s1.es.eh.mode = false := by rw [q1]; exact hm
    have m2 := mild1.2 m1 r2
    obtain ⟨_, s3, e3, r3, m3, e4, r4⟩ := seq_clean ef (mild_finish _ _) mEnd m2 (by show reports s'.es = reports s2.es; omega)
    obtain ⟨rfl, rfl⟩ := finish_clean m2 r3 e3
    -- the body
    obtain ⟨_, s4, e5, r5, m5, e6, r6⟩ := seq_clean eb mOuter mBody m1 r2
    obtain ⟨-, e5, -⟩ := act_some e5
    rw [f2, Option.some.injEq] at e5
    subst e5
    obtain ⟨a, s5, e7, r7, m7, e8, r8⟩ := seq_clean e6 (mild_select _ _ _ _)
      (fun a s4 => MildO.andThen (mPrim a s4) mStop) m5 r6
    obtain ⟨⟨n5, i5', hi5, hp5⟩, -, hmem, hne⟩ :=
      select_clean hv hf (n := st.pos) l2.here.view m5 r7 e7
    cases a with
    | none => exact absurd rfl (hne hfit.1)
    | some a =>
      have hst5 := Step.look l2.here hi5 n5
      rw [← hp5] at hst5
      have l5 := l2.stepTo hst5
      have sib5 := sib2.trans (Sib.ofStep hst5)
      obtain ⟨_, s6, e9, r9, m9, e10, r10⟩ := seq_clean e8 (mPrim (some a) s5) mStop m7 r8
      simp only at e9
      obtain ⟨_, s7, e11, r11, m11, e12, r12⟩ := seq_clean e9 (mild_act (replaceCtx_count _ _))
        (fun _ _ => i1 _ _) m7 r9
      obtain ⟨-, e11, -⟩ := act_some e11
      obtain ⟨p7, i7, f7, sib7, l7⟩ := LoopAt.replace a.label l5
      rw [f7, Option.some.injEq] at e11
      subst e11
      obtain ⟨nodes, st6, evs, h6, y6, c6⟩ :=
        ih.run a.code (hfit.2.1 a (hmem a rfl)) _ _ _ _ l7.here m11 r12 e12
      have l6 := l7.stepTo h6
      have sib6 := (sib5.trans sib7).trans (Sib.ofStep h6)
      rw [List.nil_append] at l6
      obtain ⟨_, s8, e13, r13, m13, e14, r14⟩ := seq_clean e10 (mild_act setStopTok_count) mLoop m9 r10
      obtain ⟨-, e13, -⟩ := act_some e13
      obtain ⟨p8, f8, sib8, l8⟩ := l6.setStop hv
      rw [f8, Option.some.injEq] at e13
      subst e13
      have hl8 : Loop (grammar C.rules) T V s.es.p.heap o r st.state (T st.pos) q st.pos
          { s.es.p with precStack := s.es.p.precStack ++ [q] } s8.es.p st6 a.label nodes i7 :=
        ⟨l8, sib6.trans sib8, fun inv' stop => .prim hgr (List.mem_map.2 ⟨a, hmem a rfl, rfl⟩) y6, c6⟩
      obtain ⟨k, s9, e15, r15, m15, e16, r16⟩ := seq_clean e14 (mild_head _ _ _ _)
        (fun k s7 => i5 _ _ _ _ _ _ _ _ _ _) m13 r14
      obtain ⟨⟨i9, hi9, hp9⟩, -, -⟩ := head_clean hv hf (n := st6.pos) l8.here.view m13 r15 e15
      have hl9 := hl8.done hi9 hp9
      rw [ha.ctx, ha.state] at e16
      obtain ⟨st', label', kids', i', hl'⟩ := ih.opLoop r q ops st.state start (T st.pos) s.es.p.heap o
        st.pos _ back ch opSel k (by simp) ⟨_, hgr⟩ hfit.2.2 _ _ _ _ _ _ hl9 m15 r16 e16
      obtain ⟨p10, hctx, f10, hcall⟩ := LoopAt.leave hv hl'.here ha.ctx hl'.sib
      obtain ⟨s10, e17, -, e18⟩ := act_seq e4
      rw [ha.ctx, f10, Option.some.injEq] at e17
      simp only [ret, Option.some.injEq, Prod.mk.injEq, Except.ok.injEq] at e18
      obtain ⟨rfl, rfl⟩ := e18
      rw [← e17]
      refine ⟨i', hctx, _, _, hcall, hl'.tree _ _, ?_⟩
      simpa [tokens] using hl'.toks

theorem all_ok (hv : IsView T V) (hf : Fair C V width) (m : Nat) : AllOk C T V width m := by
  induction m with
  | zero =>
    refine ⟨?_, ?_, ?_, ?_, ?_⟩
    · intro code _ s s' st c _ _ _ h; rw [run] at h; cases h
    · intro _ _ _ _ _ _ _ s s' st c _ _ _ h; rw [loop] at h; cases h
    · intro _ _ _ _ _ _ _ s s' st c _ _ _ h; rw [plusLoop] at h; cases h
    · intro _ _ s s' st o root _ _ _ h; rw [runRule] at h; cases h
    · intro _ _ _ _ _ _ _ _ _ _ _ _ _ _ _ _ _ s s' _ _ _ _ _ _ _ h; rw [opLoop] at h; cases h
  | succ m ih =>
    exact ⟨run_ok hv hf ih, loop_ok hv hf ih, plusLoop_ok hv hf ih, rule_ok hv hf ih, opLoop_ok hv hf ih⟩

end
end Antlr.Gen
