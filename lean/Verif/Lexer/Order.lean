import Verif.Lexer.OrderSpec
import Verif.Lexer.Prefix

/-!
# The simulator's configuration lists are the ways through the automaton, in order
-/

namespace Antlr.LexOrder
open Antlr Lexer LexSpec LexCache LexPaths

set_option linter.unusedSectionVars false

/-! ## The order -/

theorem append_lt {k l m : List Nat} : k ++ l < k ++ m ↔ l < m := by
  induction k with
  | nil => simp
  | cons a k ih => simp [List.cons_lt_cons_iff, ih]

theorem earlier_irrefl : ∀ p, ¬ Earlier p p
  | [] => by simp [Earlier]
  | s :: p => by
    simp only [Earlier, not_or, true_and]
    exact ⟨earlier_irrefl p, List.lt_irrefl s⟩

theorem earlier_trans : ∀ {p q r}, Earlier p q → Earlier q r → Earlier p r
  | [], _, _ => by simp [Earlier]
  | _ :: _, [], _ => by simp [Earlier]
  | _ :: _, _ :: _, [] => by simp [Earlier]
  | s :: p, t :: q, u :: r => by
    simp only [Earlier]
    rintro (h | ⟨rfl, h⟩) (h' | ⟨rfl, h'⟩)
    · exact .inl (earlier_trans h h')
    · exact .inl h
    · exact .inl h'
    · exact .inr ⟨rfl, List.lt_trans h h'⟩

theorem before_irrefl (w : Way) : ¬ Before w w := by
  rintro (h | ⟨-, h⟩)
  · omega
  · exact earlier_irrefl _ h

theorem before_trans {w u x : Way} (h : Before w u) (h' : Before u x) : Before w x := by
  rcases h with h | ⟨h1, h2⟩ <;> rcases h' with h' | ⟨h1', h2'⟩
  · exact .inl (by omega)
  · exact .inl (by omega)
  · exact .inl (by omega)
  · exact .inr ⟨h1.trans h1', earlier_trans h2 h2'⟩

theorem before_asymm {w u : Way} (h : Before w u) : ¬ Before u w := fun h' => before_irrefl _ (before_trans h h')

section
variable {q : Option (List LexerAction) → Option (List LexerAction)} {atn : ATN}
  {pred : Int → Int → Option Bool} {eof : Bool} {holds : Int → Int → Prop} {past : Prop}

/-! ## Ways -/

theorem choices_same {w u : Way} (h : Relation.ReflTransGen (Choice atn holds past) w u) :
    u.rule = w.rule ∧ u.before = w.before ∧ (∃ s, u.now = w.now ++ s) ∧ (w.passed = true → u.passed = true) := by
  induction h with
  | refl => exact ⟨rfl, rfl, ⟨[], by simp⟩, id⟩
  | tail _ h1 ih =>
    obtain ⟨i1, i2, ⟨s, i3⟩, i4⟩ := ih
    cases h1 with
    | @edge _ _ _ i => exact ⟨i1, i2, ⟨s ++ [i], by simp [Way.move, i3]⟩, fun h => by simp [Way.move, i4 h]⟩
    | ret => exact ⟨i1, i2, ⟨s ++ [0], by simp [Way.move, i3]⟩, fun h => by simp [Way.move, i4 h]⟩

theorem takes_same {t : Int} {w u : Way} (h : Takes atn holds past t w u) :
    u.rule = w.rule ∧ u.before = w.now :: w.before ∧ (w.passed = true → u.passed = true) := by
  obtain ⟨st, tr, -, -, -, h⟩ := h
  obtain ⟨h1, h2, -, h4⟩ := choices_same h
  exact ⟨h1, h2, fun h => h4 (by simp [Way.eat, h])⟩

theorem takes_before {t : Int} {w u w' u' : Way} (h : Takes atn holds past t w u) (h' : Takes atn holds past t w' u')
    (hb : Before w w') : Before u u' := by
  obtain ⟨h1, h2, -⟩ := takes_same h
  obtain ⟨h1', h2', -⟩ := takes_same h'
  rcases hb with hb | ⟨hb, hb'⟩
  · exact .inl (by rw [h1, h1']; exact hb)
  · exact .inr ⟨by rw [h1, h1', hb], by rw [h2, h2']; exact .inl hb'⟩

theorem accepts_worth {w : Way} (h : Accepts atn w) : Worth atn w.thread := by
  obtain ⟨st, h1, h2, h3⟩ := h
  exact ⟨st, h1, .inl ⟨h2, h3⟩⟩

theorem takes_reads (hg : Tidy atn) {t : Int} {w u : Way} (h : Takes atn holds past t w u) :
    Worth atn w.thread ∧ ¬ Accepts atn w := by
  obtain ⟨st, tr, h1, h2, h3, -⟩ := h
  obtain ⟨h4, h5, -⟩ := reads_worth hg h1 h2 h3
  refine ⟨⟨st, h1, .inr ⟨h4, h5⟩⟩, ?_⟩
  rintro ⟨st', h6, h7, -⟩
  rw [h1] at h6; injection h6 with h6; subst h6
  exact h4 h7

/-! ## Configurations -/

/-- The configuration stands for the way. -/
structure At (q : Option (List LexerAction) → Option (List LexerAction)) (c : Config) (w : Way) : Prop where
  rep : Rep q c w.thread
  alt : c.alt = w.rule
  passed : passedOf c = w.passed

theorem choosy_eq {t : Nat} {tst : ATNState} (h : atn.states[t]? = some tst) {c : Config} :
    checkNonGreedy c tst = (passedOf c || choosy atn t) := by
  simp only [checkNonGreedy, choosy, h]
  cases tst.stateType <;> rfl

theorem epsTarget_passed {c c' : Config} (hc : Plain c) {tr : Trans} {b : Bool}
    (h : epsTarget atn pred eof c tr = some (b, some c')) :
    passedOf c' = (passedOf c || choosy atn c'.state) ∧ c'.alt = c.alt := by
  simp only [epsTarget] at h
  obtain ⟨tst, ht, h⟩ := Option.bind_eq_some_iff.mp h
  have h1 : ∀ {t}, tr.target = t → passedOf (cloned c t tst) = (passedOf c || choosy atn (cloned c t tst).state) ∧
      (cloned c t tst).alt = c.alt := by
    intro t e
    rw [e] at ht
    exact ⟨by rw [passed_cloned hc, choosy_eq ht]; rfl, rfl⟩
  have sy : ∀ {t : Nat} {o : Option Bool}, tr.target = t →
      (if eof = true then o.map (fun m => (false, if m = true then some (cloned c t tst) else none))
        else some (false, none)) = some (b, some c') → c' = cloned c t tst := by
    intro t o e h
    split at h
    · simp only [Option.map_eq_some_iff, Prod.mk.injEq] at h
      obtain ⟨m, -, -, h⟩ := h
      split at h
      · simpa using h.symm
      · simp at h
    · simp at h
  cases tr with
  | epsilon t p =>
    simp only [Option.some.injEq, Prod.mk.injEq] at h
    rw [← h.2]; exact h1 rfl
  | rule t f r p =>
    simp only [Option.some.injEq, Prod.mk.injEq] at h
    rw [← h.2]; exact h1 (t := t) rfl
  | predicate t d r p =>
    simp only [Option.map_eq_some_iff, Prod.mk.injEq] at h
    obtain ⟨v, -, -, h⟩ := h
    split at h
    · simp only [Option.some.injEq] at h
      rw [← h]; exact h1 rfl
    · simp at h
  | action t d r a p =>
    simp only at h
    split at h
    · cases hkd : c.kind with
      | base => simp [hkd] at h
      | lexer e ps =>
        simp only [hkd, Option.map_eq_some_iff, Prod.mk.injEq, Option.some.injEq] at h
        obtain ⟨act, -, -, h2⟩ := h
        rw [← h2]
        exact ⟨by rw [passed_clonedExec hc, choosy_eq ht]; rfl, rfl⟩
    · simp only [Option.some.injEq, Prod.mk.injEq] at h
      rw [← h.2]; exact h1 rfl
  | range t a d => rw [sy rfl h]; exact h1 rfl
  | set t a => rw [sy rfl h]; exact h1 rfl
  | atom t a => rw [sy rfl h]; exact h1 rfl
  | wildcard => simp at h
  | notSet => simp at h
  | precedence => simp at h

theorem epsTarget_goes (hg : Tidy atn) (hp : ∀ r p v, pred r p = some v → (v = true ↔ holds r p))
    (he : eof = true ↔ past) {c : Config} {x y : Thread} {st : ATNState} {tr : Trans} {r : Bool × Option Config}
    (hx : atn.states[x.state]? = some st) (htr : tr ∈ st.transitions)
    (h : epsTarget atn pred eof c tr = some r) (hr : Sh c x) (hf : Free atn holds past tr x y) : r.2.isSome := by
  simp only [epsTarget] at h
  obtain ⟨tst, ht, h⟩ := Option.bind_eq_some_iff.mp h
  have sy : ∀ {t : Nat} {o : Option Bool}, tr.matches EOF LEXER_MIN_CHAR_VALUE LEXER_MAX_CHAR_VALUE = o →
      (if eof = true then o.map (fun m => (false, if m = true then some (cloned c t tst) else none))
        else some (false, none)) = some r →
      past → ReadsSym tr EOF → r.2.isSome := by
    intro t o e2 h h1 h2
    rw [if_pos (he.mpr h1)] at h
    simp only [Option.map_eq_some_iff] at h
    obtain ⟨m, hm, h⟩ := h
    rw [if_pos ((matches_iff tr (hg.sets _ _ hx tr htr) (e2.trans hm)).mpr h2)] at h
    rw [← h]; rfl
  cases tr with
  | epsilon t p => simp only [Option.some.injEq] at h; rw [← h]; rfl
  | rule t f a p => simp only [Option.some.injEq] at h; rw [← h]; rfl
  | predicate t d a p =>
    simp only [Option.map_eq_some_iff] at h
    obtain ⟨v, hv, h⟩ := h
    rw [if_pos ((hp a p v hv).mpr hf.1)] at h
    rw [← h]; rfl
  | action t d r' a p =>
    simp only at h
    split at h
    · obtain ⟨-, -, -, e, ps, hkd⟩ := hr.lin.plain
      simp only [hkd, Option.map_eq_some_iff] at h
      obtain ⟨act, -, h⟩ := h
      rw [← h]; rfl
    · simp only [Option.some.injEq] at h; rw [← h]; rfl
  | range t a d => exact sy rfl h hf.1 hf.2.1
  | set t a => exact sy rfl h hf.1 hf.2.1
  | atom t a => exact sy rfl h hf.1 hf.2.1
  | wildcard => exact absurd hf (by simp [Free])
  | notSet => exact absurd hf (by simp [Free])
  | precedence => exact absurd hf (by simp [Free])

theorem free_unique {tr : Trans} {x y z : Thread} (h : Free atn holds past tr x y) (h' : Free atn holds past tr x z) :
    y = z := by
  cases tr with
  | epsilon => simp only [Free] at h h'; rw [h, h']
  | rule => simp only [Free] at h h'; rw [h, h']
  | predicate => rw [h.2, h'.2]
  | action t d r a p =>
    simp only [Free] at h h'
    split at h
    · rename_i hk
      rw [if_pos hk] at h'
      obtain ⟨a1, -, h1, rfl⟩ := h
      obtain ⟨a2, -, h2, rfl⟩ := h'
      rw [h1] at h2; injection h2 with h2; rw [h2]
    · rename_i hk
      rw [if_neg hk] at h'
      rw [h, h']
  | atom => rw [h.2.2, h'.2.2]
  | range => rw [h.2.2, h'.2.2]
  | set => rw [h.2.2, h'.2.2]
  | wildcard => exact absurd h (by simp [Free])
  | notSet => exact absurd h (by simp [Free])
  | precedence => exact absurd h (by simp [Free])

/-! ## The traversal -/

/-- What is known of an event and a way. -/
structure Told (q : Option (List LexerAction) → Option (List LexerAction)) (atn : ATN) (e : Ev) (w : Way) : Prop where
  at_ : At q e.cfg w
  stop : (∃ c, e = .stop c) ↔ Accepts atn w
  worth : Worth atn w.thread

/-- The events are the ways that satisfy `P`, in order. -/
structure Listed (q : Option (List LexerAction) → Option (List LexerAction)) (atn : ATN) (P : Way → Prop)
    (Z : List (Ev × Way)) : Prop where
  told : ∀ z ∈ Z, Told q atn z.1 z.2
  sound : ∀ z ∈ Z, P z.2
  sorted : Z.Pairwise fun a b => Before a.2 b.2
  complete : ∀ u, P u → Worth atn u.thread → ∃ z ∈ Z, z.2 = u

theorem trace_listed (hq : Blur q) (hg : Tidy atn) (hp : ∀ r p v, pred r p = some v → (v = true ↔ holds r p))
    (he : eof = true ↔ past) (fuel : Nat) : ∀ {c : Config} {w : Way} {evs : List Ev} {b : Bool},
    trace atn pred eof fuel c = some (evs, b) → At q c w →
    ∃ Z, Z.map Prod.fst = evs ∧ Listed q atn (Relation.ReflTransGen (Choice atn holds past) w) Z := by
  induction fuel with
  | zero => intro c w evs b h; simp [trace] at h
  | succ fuel ih =>
    intro c w evs b h hr
    simp only [trace] at h
    obtain ⟨st, hst, h⟩ := Option.bind_eq_some_iff.mp h
    rw [hr.rep.state] at hst
    obtain ⟨hem, hie⟩ := lin_empty hr.rep.lin
    split at h
    · rename_i hstop
      cases hk : w.thread.stack with
      | nil =>
        rw [if_pos (by simp [hem, hie, hk])] at h
        simp only [Option.some.injEq, Prod.mk.injEq] at h
        refine ⟨[(.stop c, w)], h.1, ?_, ?_, by simp, ?_⟩
        · intro z hz
          simp only [List.mem_singleton] at hz; subst hz
          exact ⟨hr, ⟨fun _ => ⟨st, hst, hstop, hk⟩, fun _ => ⟨c, rfl⟩⟩, st, hst, .inl ⟨hstop, hk⟩⟩
        · intro z hz
          simp only [List.mem_singleton] at hz; subst hz; exact .refl
        · intro u hu _
          rcases Relation.ReflTransGen.cases_head hu with rfl | ⟨y, hy, -⟩
          · exact ⟨(Ev.stop c, w), by simp, rfl⟩
          · cases hy with
            | edge h1 h2 => rw [hst] at h1; injection h1 with h1; subst h1; exact absurd hstop h2
            | ret h1 h2 h3 => rw [hk] at h3; simp at h3
      | cons f k =>
        rw [if_neg (by simp [hem, hk])] at h
        have hc := ctx_cons (k := k) (hr.rep.lin.small f (by simp [hk]))
        simp only [Option.map_eq_some_iff] at h
        obtain ⟨⟨evs', b'⟩, h1, h2⟩ := h
        simp only [hr.rep.lin.ctx, hk, hc.1, hc.2.2, Bool.false_eq_true, if_false] at h1
        simp only [hr.rep.lin.ctx, hk, hc.2.1, Prod.mk.injEq, Bool.false_eq_true, if_false, List.nil_append] at h2
        have : evs = evs' := h2.1.symm
        subst this
        simp only [collect, Option.bind_some] at h1
        obtain ⟨r, h1, h3⟩ := Option.bind_eq_some_iff.mp h1
        simp only [Option.map_some, Option.some.injEq, Prod.mk.injEq, List.append_nil] at h3
        obtain ⟨rst, he4, he2⟩ := Option.bind_eq_some_iff.mp h1
        simp only [Int.toNat_natCast] at he2
        have he5 : atn.states[f]? = some rst := by
          simp only [ATN.stateAt] at he4
          split at he4
          · simpa using he4
          · simp at he4
        have hr' : At q (clonedCtx c f rst (ctxOf k)) (w.move atn 0 { w.thread with state := f, stack := k }) := by
          refine ⟨⟨⟨rfl, lin_clonedCtx hr.rep.lin fun g hg' => hr.rep.lin.small g (by simp [hk, hg'])⟩, ?_⟩, hr.alt, ?_⟩
          · show q (execOf (cloned c f rst)) = _
            rw [exec_cloned]; exact hr.rep.acts
          · show passedOf (cloned c f rst) = _
            rw [passed_cloned hr.rep.lin.plain, choosy_eq he5, hr.passed]; rfl
        have hstep : Choice atn holds past w (w.move atn 0 { w.thread with state := f, stack := k }) := .ret hst hstop hk
        obtain ⟨Z, hZ, hl⟩ := ih (evs := r.1) (b := r.2) he2 hr'
        refine ⟨Z, by rw [hZ, h3.1], hl.told, fun z hz => .head hstep (hl.sound z hz), hl.sorted, ?_⟩
        intro u hu hw
        rcases Relation.ReflTransGen.cases_head hu with rfl | ⟨y, hy, hyu⟩
        · obtain ⟨st', k1, k2⟩ := hw
          rw [hst] at k1; injection k1 with k1; subst k1
          rcases k2 with k2 | k2
          · rw [hk] at k2; simp at k2
          · exact absurd hstop k2.1
        · cases hy with
          | edge k1 k2 => rw [hst] at k1; injection k1 with k1; subst k1; exact absurd hstop k2
          | ret k1 k2 k3 =>
            rw [hk] at k3; injection k3 with k3 k4; subst k3; subst k4
            exact hl.complete u hyu hw
    · rename_i hstop
      simp only [Option.map_eq_some_iff] at h
      obtain ⟨⟨evs', b'⟩, h1, h2⟩ := h
      simp only [Prod.mk.injEq] at h2
      have key : ∀ (trs : List Trans) (i : Nat) (evs' : List Ev) (b' : Bool), (∀ j, trs[j]? = st.transitions[i + j]?) →
          collect (fun (tr : Trans) => (epsTarget atn pred eof c tr).bind fun r =>
            match r.2 with
            | none => some ([], r.1)
            | some c' => (trace atn pred eof fuel c').map fun q => (q.1, r.1 || q.2)) trs = some (evs', b') →
          ∃ Z, Z.map Prod.fst = evs' ∧ Listed q atn (fun u => ∃ j tr y, trs[j]? = some tr ∧
            Free atn holds past tr w.thread y ∧
            Relation.ReflTransGen (Choice atn holds past) (w.move atn (i + j) y) u) Z := by
        intro trs
        induction trs with
        | nil =>
          intro i evs' b' _ hcol
          simp only [collect, Option.some.injEq, Prod.mk.injEq] at hcol
          exact ⟨[], by simp [← hcol.1], by simp, by simp, by simp, by simp⟩
        | cons tr trs iht =>
          intro i evs' b' hsub hcol
          simp only [collect] at hcol
          obtain ⟨r, hr1, hcol⟩ := Option.bind_eq_some_iff.mp hcol
          simp only [Option.map_eq_some_iff] at hcol
          obtain ⟨⟨evs2, b2⟩, hc2, hcol⟩ := hcol
          simp only [Prod.mk.injEq] at hcol
          obtain ⟨Z2, hZ2, l2⟩ := iht (i + 1) evs2 b2 (fun j => by
            have := hsub (j + 1)
            rw [List.getElem?_cons_succ] at this
            rw [this]; congr 1; omega) hc2
          have hi : st.transitions[i]? = some tr := by simpa using (hsub 0).symm
          have htr : tr ∈ st.transitions := List.mem_of_getElem? hi
          have h1' : ∃ Z1, Z1.map Prod.fst = r.1 ∧ Listed q atn (fun u => ∃ y, Free atn holds past tr w.thread y ∧
              Relation.ReflTransGen (Choice atn holds past) (w.move atn i y) u) Z1 := by
            obtain ⟨⟨b1, o⟩, he4, he2⟩ := Option.bind_eq_some_iff.mp hr1
            cases o with
            | none =>
              simp only [Option.some.injEq] at he2
              refine ⟨[], by simp [← he2], by simp, by simp, by simp, ?_⟩
              rintro u ⟨y, hy, -⟩ _
              have := epsTarget_goes hg hp he hst htr he4 hr.rep.toSh hy
              simp at this
            | some c' =>
              simp only [Option.map_eq_some_iff] at he2
              obtain ⟨⟨evs1, b1'⟩, he5, he6⟩ := he2
              obtain ⟨y0, k1, k2⟩ := epsTarget_sound hq hg hp he hst htr he4 hr.rep
              obtain ⟨k3, k4⟩ := epsTarget_passed hr.rep.lin.plain he4
              have hat : At q c' (w.move atn i y0) :=
                ⟨k2, k4.trans hr.alt, by rw [k3, hr.passed, k2.state]; rfl⟩
              obtain ⟨Z1, hZ1, l1⟩ := ih he5 hat
              refine ⟨Z1, by rw [hZ1, ← he6], l1.told, fun z hz => ⟨y0, k1, l1.sound z hz⟩, l1.sorted, ?_⟩
              rintro u ⟨y, hy, hu⟩ hw
              rw [free_unique hy k1] at hu
              exact l1.complete u hu hw
          obtain ⟨Z1, hZ1, l1⟩ := h1'
          refine ⟨Z1 ++ Z2, by rw [List.map_append, hZ1, hZ2]; exact hcol.1, ?_, ?_, ?_, ?_⟩
          · intro z hz
            rcases List.mem_append.1 hz with hz | hz
            · exact l1.told z hz
            · exact l2.told z hz
          · intro z hz
            rcases List.mem_append.1 hz with hz | hz
            · obtain ⟨y, hy⟩ := l1.sound z hz
              exact ⟨0, tr, y, rfl, hy⟩
            · obtain ⟨j, tr', y, k1, k2, k3⟩ := l2.sound z hz
              exact ⟨j + 1, tr', y, by simpa using k1, k2, by rw [show i + (j + 1) = i + 1 + j by omega]; exact k3⟩
          · refine List.pairwise_append.2 ⟨l1.sorted, l2.sorted, ?_⟩
            intro z1 hz1 z2 hz2
            obtain ⟨y, -, hy⟩ := l1.sound z1 hz1
            obtain ⟨j, tr', y', -, -, hy'⟩ := l2.sound z2 hz2
            obtain ⟨a1, a2, ⟨s, a3⟩, -⟩ := choices_same hy
            obtain ⟨b1, b2, ⟨s', b3⟩, -⟩ := choices_same hy'
            refine .inr ⟨a1.trans b1.symm, .inr ⟨a2.trans b2.symm, ?_⟩⟩
            rw [a3, b3]
            simp only [Way.move, List.append_assoc, append_lt, List.singleton_append, List.cons_lt_cons_iff]
            omega
          · rintro u ⟨j, tr', y, k1, k2, k3⟩ hw
            cases j with
            | zero =>
              simp only [List.getElem?_cons_zero, Option.some.injEq] at k1
              subst k1
              obtain ⟨z, hz, hz'⟩ := l1.complete u ⟨y, k2, k3⟩ hw
              exact ⟨z, by simp [hz], hz'⟩
            | succ j =>
              obtain ⟨z, hz, hz'⟩ := l2.complete u ⟨j, tr', y, by simpa using k1, k2, by
                rw [show i + 1 + j = i + (j + 1) by omega]; exact k3⟩ hw
              exact ⟨z, by simp [hz], hz'⟩
      obtain ⟨Z, hZ, l⟩ := key st.transitions 0 evs' b' (by simp) h1
      have hnode : ∀ z ∈ (if st.epsilonOnly then [] else [(Ev.node c, w)]), z = (Ev.node c, w) ∧ st.epsilonOnly = false := by
        intro z hz
        split at hz
        · simp at hz
        · rename_i h0; exact ⟨by simpa using hz, by simpa using h0⟩
      refine ⟨(if st.epsilonOnly then [] else [(Ev.node c, w)]) ++ Z, ?_, ?_, ?_, ?_, ?_⟩
      · rw [List.map_append, hZ, ← h2.1]
        split <;> rfl
      · intro z hz
        rcases List.mem_append.1 hz with hz | hz
        · obtain ⟨rfl, h0⟩ := hnode z hz
          refine ⟨hr, ⟨fun ⟨c, hc⟩ => by simp at hc, ?_⟩, st, hst, .inr ⟨hstop, h0⟩⟩
          rintro ⟨st', k1, k2, -⟩
          rw [hst] at k1; injection k1 with k1; subst k1; exact absurd k2 hstop
        · exact l.told z hz
      · intro z hz
        rcases List.mem_append.1 hz with hz | hz
        · obtain ⟨rfl, h0⟩ := hnode z hz; exact .refl
        · obtain ⟨j, tr, y, k1, k2, k3⟩ := l.sound z hz
          rw [Nat.zero_add] at k3
          exact .head (.edge hst hstop k1 k2) k3
      · refine List.pairwise_append.2 ⟨by split <;> simp, l.sorted, ?_⟩
        intro z1 hz1 z2 hz2
        obtain ⟨rfl, -⟩ := hnode z1 hz1
        obtain ⟨j, tr', y', -, -, hy'⟩ := l.sound z2 hz2
        obtain ⟨b1, b2, ⟨s', b3⟩, -⟩ := choices_same hy'
        refine .inr ⟨b1.symm, .inr ⟨b2.symm, ?_⟩⟩
        rw [b3]
        simp only [Way.move, List.append_assoc]
        have := (append_lt (k := w.now) (l := []) (m := [0 + j] ++ s')).2 (by simp)
        simpa using this
      · intro u hu hw
        rcases Relation.ReflTransGen.cases_head hu with rfl | ⟨y, hy, hyu⟩
        · obtain ⟨st', k1, k2⟩ := hw
          rw [hst] at k1; injection k1 with k1; subst k1
          rcases k2 with k2 | k2
          · exact absurd k2.1 hstop
          · exact ⟨(Ev.node c, w), by simp [k2.2], rfl⟩
        · cases hy with
          | edge k1 k2 k3 k4 =>
            rw [hst] at k1; injection k1 with k1; subst k1
            obtain ⟨z, hz, hz'⟩ := l.complete u ⟨_, _, _, k3, k4, by rw [Nat.zero_add]; exact hyu⟩ hw
            exact ⟨z, by simp [hz], hz'⟩
          | ret k1 k2 => rw [hst] at k1; injection k1 with k1; subst k1; exact absurd k2 hstop

/-! ## What is added for the events -/

theorem emitted_ways {Z : List (Ev × Way)} (ht : ∀ z ∈ Z, Told q atn z.1 z.2)
    (hs : Z.Pairwise fun a b => Before a.2 b.2) : ∀ flag, ∃ Y : List (Config × Way),
      Y.map Prod.fst = (emitted flag (Z.map Prod.fst)).1 ∧ Y.Sublist (Z.map fun z => (z.1.cfg, z.2)) ∧
      (∀ y ∈ Y, ¬ Accepts atn y.2 → y.2.passed = true →
        flag = false ∧ ∀ z ∈ Z, Accepts atn z.2 → ¬ Before z.2 y.2) ∧
      (∀ z ∈ Z, (Accepts atn z.2 ∨ (z.2.passed = true →
        flag = false ∧ ∀ z' ∈ Z, Accepts atn z'.2 → ¬ Before z'.2 z.2)) → (z.1.cfg, z.2) ∈ Y) ∧
      ((emitted flag (Z.map Prod.fst)).2 = true ↔ flag = true ∨ ∃ z ∈ Z, Accepts atn z.2) := by
  induction Z with
  | nil => intro flag; exact ⟨[], by simp [emitted], by simp, by simp, by simp, by simp [emitted]⟩
  | cons z Z ih =>
    intro flag
    have ht' : ∀ z ∈ Z, Told q atn z.1 z.2 := fun x hx => ht x (by simp [hx])
    obtain ⟨hs1, hs2⟩ := List.pairwise_cons.1 hs
    have hz := ht z (by simp)
    obtain ⟨e, w⟩ := z
    cases e with
    | stop c =>
      have hacc : Accepts atn w := hz.stop.1 ⟨c, rfl⟩
      obtain ⟨Y, h1, h2, h3, h4, h5⟩ := ih ht' hs2 true
      refine ⟨(c, w) :: Y, by simp [emitted, h1], by simpa [Ev.cfg] using h2, ?_, ?_, ?_⟩
      · intro y hy hna hpa
        rcases List.mem_cons.1 hy with rfl | hy
        · exact absurd hacc hna
        · exact absurd (h3 y hy hna hpa).1 (by simp)
      · intro x hx hc
        rcases List.mem_cons.1 hx with rfl | hx
        · simp [Ev.cfg]
        · refine List.mem_cons_of_mem _ (h4 x hx ?_)
          rcases hc with hc | hc
          · exact .inl hc
          · exact .inr fun hpa => absurd (hs1 x hx) ((hc hpa).2 _ (by simp) hacc)
      · have h6 : (emitted true (Z.map Prod.fst)).2 = true := h5.2 (.inl rfl)
        simp only [List.map_cons, emitted, h6, true_iff]
        exact .inr ⟨(Ev.stop c, w), by simp, hacc⟩
    | node c =>
      have hacc : ¬ Accepts atn w := fun h => by
        obtain ⟨c', h'⟩ := hz.stop.2 h
        simp at h'
      have hpass : passedOf c = w.passed := hz.at_.passed
      obtain ⟨Y, h1, h2, h3, h4, h5⟩ := ih ht' hs2 flag
      refine ⟨(if !flag || !passedOf c then [(c, w)] else []) ++ Y, ?_, ?_, ?_, ?_, ?_⟩
      · simp only [List.map_cons, List.map_append, emitted, h1]
        split <;> simp
      · rw [List.map_cons]
        split
        · exact List.Sublist.cons_cons _ h2
        · exact List.Sublist.cons _ h2
      · intro y hy hna hpa
        rcases List.mem_append.1 hy with hy | hy
        · split at hy
          · rename_i h0
            simp only [List.mem_singleton] at hy; subst hy
            simp only at hpa
            rw [hpass, hpa] at h0
            refine ⟨by simpa using h0, ?_⟩
            intro x hx hax
            rcases List.mem_cons.1 hx with rfl | hx
            · exact absurd hax hacc
            · exact before_asymm (hs1 x hx)
          · simp at hy
        · obtain ⟨k1, k2⟩ := h3 y hy hna hpa
          refine ⟨k1, ?_⟩
          intro x hx hax
          rcases List.mem_cons.1 hx with rfl | hx
          · exact absurd hax hacc
          · exact k2 x hx hax
      · intro x hx hc
        rcases List.mem_cons.1 hx with rfl | hx
        · refine List.mem_append_left _ ?_
          rcases hc with hc | hc
          · exact absurd hc hacc
          · simp only at hc
            rw [if_pos]
            · simp [Ev.cfg]
            · rw [hpass]
              cases hw : w.passed with
              | false => simp
              | true => simp [(hc hw).1]
        · refine List.mem_append_right _ (h4 x hx ?_)
          rcases hc with hc | hc
          · exact .inl hc
          · exact .inr fun hpa => ⟨(hc hpa).1, fun z' hz' => (hc hpa).2 z' (by simp [hz'])⟩
      · simp only [List.map_cons, emitted, h5]
        constructor
        · rintro (h | ⟨x, hx, hax⟩)
          · exact .inl h
          · exact .inr ⟨x, by simp [hx], hax⟩
        · rintro (h | ⟨x, hx, hax⟩)
          · exact .inl h
          · rcases List.mem_cons.1 hx with rfl | hx
            · exact absurd hax hacc
            · exact .inr ⟨x, hx, hax⟩

/-! ## One configuration reads a symbol -/

theorem contrib_none (hg : Tidy atn) {fuel : Nat} {t off : Int} {c : Config} {s : Nat} {st : ATNState}
    (hx : atn.states[s]? = some st) {flag : Bool} : ∀ {trs : List Trans} (_ : ∀ tr ∈ trs, tr ∈ st.transitions)
    (_ : ∀ tr ∈ trs, ¬ ReadsSym tr t) {ys : List Config} {sem brk : Bool},
    contrib atn pred fuel t off c flag trs = some (ys, sem, brk) → ys = [] ∧ brk = false := by
  intro trs
  induction trs with
  | nil => intro _ _ ys sem brk h; simp [contrib] at h; exact ⟨h.1, h.2.2⟩
  | cons tr trs ih =>
    intro hsub hno ys sem brk h
    simp only [contrib] at h
    obtain ⟨m, hm, h⟩ := Option.bind_eq_some_iff.mp h
    simp only [Trans.getReachableTarget, Option.map_eq_some_iff] at hm
    obtain ⟨b, hb, hm⟩ := hm
    have hb' : b ≠ true := fun hb' =>
      hno tr (by simp) ((matches_iff tr (hg.sets _ _ hx tr (hsub tr (by simp))) hb).mp hb')
    rw [if_neg hb'] at hm
    subst hm
    exact ih (fun x hx => hsub x (by simp [hx])) (fun x hx => hno x (by simp [hx])) h

theorem contrib_ways (hq : Blur q) (hg : Tidy atn) (hp : ∀ r p v, pred r p = some v → (v = true ↔ holds r p))
    {fuel : Nat} {t off : Int} (he : t = EOF ↔ past) {c : Config} {w : Way} (hr : At q c w) {st : ATNState}
    (hx : atn.states[c.state]? = some st) {flag : Bool} {ys : List Config} {sem brk : Bool}
    (h : contrib atn pred fuel t off c flag st.transitions = some (ys, sem, brk)) :
    ∃ Y : List (Config × Way), Y.map Prod.fst = ys ∧ (Y.Pairwise fun a b => Before a.2 b.2) ∧
      (∀ y ∈ Y, At q y.1 y.2 ∧ Worth atn y.2.thread ∧ Takes atn holds past t w y.2) ∧
      (∀ y ∈ Y, ¬ Accepts atn y.2 → y.2.passed = true →
        flag = false ∧ ∀ u, Takes atn holds past t w u → Accepts atn u → ¬ Before u y.2) ∧
      (∀ u, Takes atn holds past t w u → Worth atn u.thread → (Accepts atn u ∨ (u.passed = true →
        flag = false ∧ ∀ u', Takes atn holds past t w u' → Accepts atn u' → ¬ Before u' u)) → ∃ y ∈ Y, y.2 = u) ∧
      (brk = true → flag = true ∨ ∃ u, Takes atn holds past t w u ∧ Accepts atn u) ∧
      ((∃ u, Takes atn holds past t w u ∧ Accepts atn u) → brk = true) := by
  have hx' := hx
  rw [hr.rep.state] at hx'
  by_cases hread : ∃ tr ∈ st.transitions, ReadsSym tr t
  · obtain ⟨tr, htr, hrd⟩ := hread
    obtain ⟨-, -, hone⟩ := reads_worth hg hx' htr hrd
    rw [hone] at h
    simp only [contrib] at h
    obtain ⟨m, hm, h⟩ := Option.bind_eq_some_iff.mp h
    simp only [Trans.getReachableTarget, Option.map_eq_some_iff] at hm
    obtain ⟨b, hb, hm⟩ := hm
    have hb' := (matches_iff tr (hg.sets _ _ hx' tr htr) hb).mpr hrd
    rw [if_pos hb'] at hm
    subst hm
    simp only at h
    obtain ⟨tst, hts, h⟩ := Option.bind_eq_some_iff.mp h
    obtain ⟨r, hrr, h⟩ := Option.bind_eq_some_iff.mp h
    have hat : At q (clonedExec c tr.target tst ((execOf c).map (fixOffset off))) (w.eat atn tr.target) := by
      refine ⟨⟨⟨rfl, lin_clonedExec hr.rep.lin⟩, ?_⟩, hr.alt, ?_⟩
      · rw [exec_clonedExec hr.rep.lin.plain, hq.fix]; exact hr.rep.acts
      · rw [passed_clonedExec hr.rep.lin.plain, choosy_eq hts, hr.passed]; rfl
    have htakes : ∀ u, Takes atn holds past t w u ↔
        Relation.ReflTransGen (Choice atn holds past) (w.eat atn tr.target) u := by
      intro u
      constructor
      · rintro ⟨st', tr', k1, k2, k3, k4⟩
        rw [hx'] at k1; injection k1 with k1; subst k1
        rw [hone, List.mem_singleton] at k2; subst k2; exact k4
      · intro k; exact ⟨st, tr, hx', htr, hrd, k⟩
    obtain ⟨Z, hZ, l⟩ := trace_listed hq hg hp (eof := decide (t = EOF)) (by simpa using he) fuel (evs := r.1) (b := r.2) hrr hat
    obtain ⟨Y, y1, y2, y3, y4, y5⟩ := emitted_ways l.told l.sorted flag
    rw [hZ] at y1 y5
    have hys : ys = (emitted flag r.1).1 ∧ brk = (emitted flag r.1).2 := by
      split at h
      · rename_i h0
        simp only [Option.some.injEq, Prod.mk.injEq] at h
        exact ⟨h.1.symm, by rw [h0, ← h.2.2]⟩
      · rename_i h0
        simp only [Option.map_some, Option.some.injEq, Prod.mk.injEq, List.append_nil] at h
        exact ⟨h.1.symm, by rw [← h.2.2]; simpa using h0⟩
    have hmem : ∀ y ∈ Y, ∃ z ∈ Z, (z.1.cfg, z.2) = y := fun y hy => List.mem_map.1 (y2.subset hy)
    have hacc : (∃ z ∈ Z, Accepts atn z.2) ↔ ∃ u, Takes atn holds past t w u ∧ Accepts atn u := by
      constructor
      · rintro ⟨z, hz, ha⟩; exact ⟨z.2, (htakes _).2 (l.sound z hz), ha⟩
      · rintro ⟨u, hu, ha⟩
        obtain ⟨z, hz, rfl⟩ := l.complete u ((htakes _).1 hu) (accepts_worth ha)
        exact ⟨z, hz, ha⟩
    refine ⟨Y, by rw [y1, hys.1], ?_, ?_, ?_, ?_, ?_, ?_⟩
    · refine List.Pairwise.sublist y2 ?_
      rw [List.pairwise_map]; exact l.sorted
    · intro y hy
      obtain ⟨z, hz, rfl⟩ := hmem y hy
      exact ⟨(l.told z hz).at_, (l.told z hz).worth, (htakes _).2 (l.sound z hz)⟩
    · intro y hy hna hpa
      obtain ⟨k1, k2⟩ := y3 y hy hna hpa
      refine ⟨k1, ?_⟩
      intro u hu ha
      obtain ⟨z, hz, rfl⟩ := l.complete u ((htakes _).1 hu) (accepts_worth ha)
      exact k2 z hz ha
    · intro u hu hw hc
      obtain ⟨z, hz, rfl⟩ := l.complete u ((htakes _).1 hu) hw
      refine ⟨_, y4 z hz ?_, rfl⟩
      rcases hc with hc | hc
      · exact .inl hc
      · exact .inr fun hpa => ⟨(hc hpa).1, fun z' hz' => (hc hpa).2 z'.2 ((htakes _).2 (l.sound z' hz'))⟩
    · intro hb; rw [hys.2, y5, hacc] at hb; exact hb
    · intro hb; rw [hys.2, y5, hacc]; exact .inr hb
  · obtain ⟨rfl, rfl⟩ := contrib_none hg hx' (fun _ h => h) (fun tr h1 h2 => hread ⟨tr, h1, h2⟩) h
    have hno : ∀ u, ¬ Takes atn holds past t w u := by
      rintro u ⟨st', tr', k1, k2, k3, k4⟩
      rw [hx'] at k1; injection k1 with k1; subst k1
      exact hread ⟨tr', k2, k3⟩
    exact ⟨[], rfl, by simp, by simp, by simp, fun u hu => absurd hu (hno u), by simp, fun ⟨u, hu, _⟩ => absurd hu (hno u)⟩

/-! ## The whole list -/

theorem reachList_ways (hq : Blur q) (hg : Tidy atn) (hp : ∀ r p v, pred r p = some v → (v = true ↔ holds r p))
    {fuel : Nat} {t off : Int} (he : t = EOF ↔ past) (W : List (Config × Way)) :
    ∀ {skip : Int} {ys : List Config} {b : Bool}, (∀ p ∈ W, At q p.1 p.2) → (W.Pairwise fun a b => Before a.2 b.2) →
    (∀ p ∈ W, skip ≤ p.2.rule) → reachList atn pred fuel t off (W.map Prod.fst) skip = some (ys, b) →
    ∃ Y : List (Config × Way), Y.map Prod.fst = ys ∧ (Y.Pairwise fun a b => Before a.2 b.2) ∧
      (∀ y ∈ Y, At q y.1 y.2 ∧ Worth atn y.2.thread ∧ ∃ p ∈ W, Takes atn holds past t p.2 y.2) ∧
      (∀ y ∈ Y, ¬ Accepts atn y.2 → y.2.passed = true → skip ≠ y.2.rule ∧ ∀ p ∈ W, ∀ u, Takes atn holds past t p.2 u →
        Accepts atn u → u.rule = y.2.rule → ¬ Before u y.2) ∧
      (∀ p ∈ W, ∀ u, Takes atn holds past t p.2 u → Worth atn u.thread → (u.passed = true → skip ≠ u.rule ∧
        ∀ p' ∈ W, ∀ u', Takes atn holds past t p'.2 u' → Accepts atn u' → u'.rule = u.rule → ¬ Before u' u) →
        ∃ y ∈ Y, y.2 = u) ∧
      (∀ p ∈ W, ∀ u, Takes atn holds past t p.2 u → Accepts atn u → skip ≠ u.rule →
        ∃ y ∈ Y, Accepts atn y.2 ∧ y.2.rule = u.rule ∧ (y.2 = u ∨ Before y.2 u)) := by
  induction W with
  | nil =>
    intro skip ys b _ _ _ h
    simp only [List.map_nil, reachList, Option.some.injEq, Prod.mk.injEq] at h
    exact ⟨[], by simp [← h.1], by simp, by simp, by simp, by simp, by simp⟩
  | cons cw W ih =>
    intro skip ys b hat hs hsk h
    obtain ⟨c, w⟩ := cw
    have hat' : ∀ p ∈ W, At q p.1 p.2 := fun p hp => hat p (by simp [hp])
    have hcw : At q c w := hat (c, w) (by simp)
    obtain ⟨hs1, hs2⟩ := List.pairwise_cons.1 hs
    have hskw : skip ≤ w.rule := hsk (c, w) (by simp)
    have hle : ∀ p ∈ W, w.rule ≤ p.2.rule := by
      intro p hp
      rcases hs1 p hp with h | h
      · simp only at h; omega
      · simp only at h; omega
    simp only [List.map_cons, reachList] at h
    split at h
    · rename_i h0
      simp only [Bool.and_eq_true, decide_eq_true_eq] at h0
      have e1 : w.rule = skip := by rw [← hcw.alt]; exact h0.1
      have e2 : w.passed = true := by rw [← hcw.passed]; exact h0.2
      obtain ⟨Y, y1, y2, y3, y4, y5, y6⟩ := ih hat' hs2 (fun p hp => hsk p (by simp [hp])) h
      refine ⟨Y, y1, y2, ?_, ?_, ?_, ?_⟩
      · intro y hy
        obtain ⟨k1, k2, p, k3, k4⟩ := y3 y hy
        exact ⟨k1, k2, p, by simp [k3], k4⟩
      · intro y hy hna hpa
        obtain ⟨k1, k2⟩ := y4 y hy hna hpa
        refine ⟨k1, ?_⟩
        intro p hp u hu ha hru
        rcases List.mem_cons.1 hp with rfl | hp
        · exact absurd (by rw [← e1, ← hru, (takes_same hu).1]) k1
        · exact k2 p hp u hu ha hru
      · intro p hp u hu hw hc
        rcases List.mem_cons.1 hp with rfl | hp
        · exact absurd (by rw [(takes_same hu).1, e1]) (hc ((takes_same hu).2.2 e2)).1
        · exact y5 p hp u hu hw fun hpa => ⟨(hc hpa).1, fun p' hp' => (hc hpa).2 p' (by simp [hp'])⟩
      · intro p hp u hu ha hru
        rcases List.mem_cons.1 hp with rfl | hp
        · exact absurd (by rw [(takes_same hu).1, e1]) hru
        · exact y6 p hp u hu ha hru
    · obtain ⟨st, hst, h⟩ := Option.bind_eq_some_iff.mp h
      obtain ⟨⟨ys1, sem, brk⟩, hr, h⟩ := Option.bind_eq_some_iff.mp h
      simp only [Option.map_eq_some_iff] at h
      obtain ⟨⟨ys2, b2⟩, hrest, h⟩ := h
      simp only [Prod.mk.injEq] at h
      obtain ⟨Y1, a1, a2, a3, a4, a5, a6, a7⟩ := contrib_ways hq hg hp he hcw hst hr
      have hsk' : ∀ p ∈ W, (if brk = true then c.alt else skip) ≤ p.2.rule := by
        intro p hp
        split
        · rw [hcw.alt]; exact hle p hp
        · exact hsk p (by simp [hp])
      obtain ⟨Y2, b1, b2, b3, b4, b5, b6⟩ := ih hat' hs2 hsk' hrest
      have hflag : decide (c.alt = skip) = false ↔ skip ≠ w.rule := by
        rw [hcw.alt]; simp [eq_comm]
      refine ⟨Y1 ++ Y2, by rw [List.map_append, a1, b1]; exact h.1, ?_, ?_, ?_, ?_, ?_⟩
      · refine List.pairwise_append.2 ⟨a2, b2, ?_⟩
        intro y hy y' hy'
        obtain ⟨-, -, p, hp, hp'⟩ := b3 y' hy'
        exact takes_before (a3 y hy).2.2 hp' (hs1 p hp)
      · intro y hy
        rcases List.mem_append.1 hy with hy | hy
        · exact ⟨(a3 y hy).1, (a3 y hy).2.1, (c, w), by simp, (a3 y hy).2.2⟩
        · obtain ⟨k1, k2, p, k3, k4⟩ := b3 y hy
          exact ⟨k1, k2, p, by simp [k3], k4⟩
      · intro y hy hna hpa
        rcases List.mem_append.1 hy with hy | hy
        · obtain ⟨k1, k2⟩ := a4 y hy hna hpa
          refine ⟨by rw [(takes_same (a3 y hy).2.2).1]; exact hflag.1 k1, ?_⟩
          intro p hp u hu ha hru
          rcases List.mem_cons.1 hp with rfl | hp
          · exact k2 u hu ha
          · exact before_asymm (takes_before (a3 y hy).2.2 hu (hs1 p hp))
        · obtain ⟨k1, k2⟩ := b4 y hy hna hpa
          obtain ⟨-, -, py, hpy, hpy'⟩ := b3 y hy
          have hry := (takes_same hpy').1
          have hwy := hle py hpy
          refine ⟨?_, ?_⟩
          · intro e
            split at k1
            · rw [hcw.alt] at k1; omega
            · exact k1 e
          · intro p hp u hu ha hru
            rcases List.mem_cons.1 hp with rfl | hp
            · rw [if_pos (a7 ⟨u, hu, ha⟩), hcw.alt] at k1
              exact absurd (by rw [← hru, (takes_same hu).1]) k1
            · exact k2 p hp u hu ha hru
      · intro p hp u hu hw hc
        rcases List.mem_cons.1 hp with rfl | hp
        · obtain ⟨y, hy, hy'⟩ := a5 u hu hw (.inr fun hpa => ⟨hflag.2 (by
            have := (hc hpa).1; rwa [(takes_same hu).1] at this), fun u' hu' ha' =>
            (hc hpa).2 (c, w) (by simp) u' hu' ha' (by rw [(takes_same hu').1, (takes_same hu).1])⟩)
          exact ⟨y, by simp [hy], hy'⟩
        · obtain ⟨y, hy, hy'⟩ := b5 p hp u hu hw fun hpa => by
            obtain ⟨k1, k2⟩ := hc hpa
            refine ⟨?_, fun p' hp' => k2 p' (by simp [hp'])⟩
            split
            · rename_i hbrk
              rw [hcw.alt]
              intro e
              rcases a6 hbrk with hf | ⟨u', hu', ha'⟩
              · rw [decide_eq_true_eq, hcw.alt] at hf
                exact k1 (by rw [← hf, e])
              · exact k2 (c, w) (by simp) u' hu' ha' (by rw [(takes_same hu').1, e]) (takes_before hu' hu (hs1 p hp))
            · exact k1
          exact ⟨y, by simp [hy], hy'⟩
      · intro p hp u hu ha hru
        rcases List.mem_cons.1 hp with rfl | hp
        · obtain ⟨y, hy, rfl⟩ := a5 u hu (accepts_worth ha) (.inl ha)
          exact ⟨y, by simp [hy], ha, rfl, .inl rfl⟩
        · by_cases hk : (if brk = true then c.alt else skip) = u.rule
          · split at hk
            · rename_i hbrk
              rw [hcw.alt] at hk
              rcases a6 hbrk with hf | ⟨u', hu', ha'⟩
              · rw [decide_eq_true_eq, hcw.alt] at hf
                exact absurd (by rw [← hf, hk]) hru
              · obtain ⟨y, hy, rfl⟩ := a5 u' hu' (accepts_worth ha') (.inl ha')
                exact ⟨y, by simp [hy], ha', by rw [(takes_same hu').1, hk], .inr (takes_before hu' hu (hs1 p hp))⟩
            · exact absurd hk hru
          · obtain ⟨y, hy, k⟩ := b6 p hp u hu ha hk
            exact ⟨y, by simp [hy], k⟩

end

end Antlr.LexOrder
