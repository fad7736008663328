import Verif.Lexer.Order
import Verif.Lexer.Longest

/-!
# The loop of the matcher finds the preferred way
-/

namespace Antlr.LexOrder
open Antlr Lexer LexSpec LexCache LexPaths LexProps

set_option linter.unusedSectionVars false

section
variable {q : Option (List LexerAction) → Option (List LexerAction)} {atn : ATN}
  {pred : Int → Int → Option Bool} {eof : Bool} {holds : Int → Int → Prop} {past : Prop}

/-! ## The start -/

theorem at_first (q : Option (List LexerAction) → Option (List LexerAction)) (tr : Trans) (i : Nat) :
    At q (startCfg tr i) (first i tr) := ⟨rep_start q tr i, rfl, rfl⟩

theorem startList_ways (hq : Blur q) (hg : Tidy atn) (hp : ∀ r p v, pred r p = some v → (v = true ↔ holds r p))
    (hn : ¬ past) {fuel : Nat} (trs : List Trans) : ∀ {i : Nat} {ys : List Config} {b : Bool},
    startList atn pred fuel trs i = some (ys, b) →
    ∃ Y : List (Config × Way), Y.map Prod.fst = ys ∧ (Y.Pairwise fun a b => Before a.2 b.2) ∧
      (∀ y ∈ Y, At q y.1 y.2 ∧ Worth atn y.2.thread ∧ ∃ j tr, trs[j]? = some tr ∧
        Relation.ReflTransGen (Choice atn holds past) (first (i + j) tr) y.2) ∧
      (∀ y ∈ Y, ¬ Accepts atn y.2 → y.2.passed = true → ∀ j tr u, trs[j]? = some tr →
        Relation.ReflTransGen (Choice atn holds past) (first (i + j) tr) u → Accepts atn u → u.rule = y.2.rule →
        ¬ Before u y.2) ∧
      (∀ j tr u, trs[j]? = some tr → Relation.ReflTransGen (Choice atn holds past) (first (i + j) tr) u →
        Worth atn u.thread → (Accepts atn u ∨ (u.passed = true → ∀ j tr u', trs[j]? = some tr →
          Relation.ReflTransGen (Choice atn holds past) (first (i + j) tr) u' → Accepts atn u' → u'.rule = u.rule →
          ¬ Before u' u)) → ∃ y ∈ Y, y.2 = u) := by
  induction trs with
  | nil =>
    intro i ys b h
    simp only [startList, Option.some.injEq, Prod.mk.injEq] at h
    exact ⟨[], by simp [← h.1], by simp, by simp, by simp, by simp⟩
  | cons tr trs ih =>
    intro i ys b h
    simp only [startList] at h
    obtain ⟨r, hr, h⟩ := Option.bind_eq_some_iff.mp h
    simp only [Option.map_eq_some_iff] at h
    obtain ⟨⟨ys', b'⟩, hq', h⟩ := h
    simp only [Prod.mk.injEq] at h
    obtain ⟨Z, hZ, l⟩ := trace_listed hq hg hp (eof := false) (by simpa using hn) fuel (evs := r.1) (b := r.2) hr
      (at_first q tr i)
    obtain ⟨Y1, y1, y2, y3, y4, -⟩ := emitted_ways l.told l.sorted false
    rw [hZ] at y1
    obtain ⟨Y2, b1, b2, b3, b4, b5⟩ := ih hq'
    have hmem : ∀ y ∈ Y1, ∃ z ∈ Z, (z.1.cfg, z.2) = y := fun y hy => List.mem_map.1 (y2.subset hy)
    have sh : ∀ j, i + (j + 1) = i + 1 + j := fun j => by omega
    have hrule : ∀ {j tr u}, Relation.ReflTransGen (Choice atn holds past) (first j tr) u → u.rule = ((j + 1 : Nat) : Int) :=
      fun h => (choices_same h).1
    refine ⟨Y1 ++ Y2, by rw [List.map_append, y1, b1]; exact h.1, ?_, ?_, ?_, ?_⟩
    · refine List.pairwise_append.2 ⟨List.Pairwise.sublist y2 (by rw [List.pairwise_map]; exact l.sorted), b2, ?_⟩
      intro y hy y' hy'
      obtain ⟨z, hz, rfl⟩ := hmem y hy
      obtain ⟨-, -, j, tr', -, k⟩ := b3 y' hy'
      refine .inl ?_
      have k1 := hrule (l.sound z hz)
      have k2 := hrule k
      simp only
      omega
    · intro y hy
      rcases List.mem_append.1 hy with hy | hy
      · obtain ⟨z, hz, rfl⟩ := hmem y hy
        exact ⟨(l.told z hz).at_, (l.told z hz).worth, 0, tr, rfl, l.sound z hz⟩
      · obtain ⟨k1, k2, j, tr', k3, k4⟩ := b3 y hy
        exact ⟨k1, k2, j + 1, tr', by simpa using k3, by rw [sh]; exact k4⟩
    · intro y hy hna hpa j tr' u hj hu ha hru
      rcases List.mem_append.1 hy with hy | hy
      · obtain ⟨z, hz, hz'⟩ := hmem y hy
        have e1 : y.2.rule = ((i + 1 : Nat) : Int) := by rw [← hz']; exact hrule (l.sound z hz)
        have e2 := hrule hu
        have e3 : j = 0 := by omega
        subst e3
        simp only [List.getElem?_cons_zero, Option.some.injEq] at hj
        subst hj
        obtain ⟨z', hz', rfl⟩ := l.complete u hu (accepts_worth ha)
        exact (y3 y hy hna hpa).2 z' hz' ha
      · obtain ⟨-, -, j', tr2, -, k⟩ := b3 y hy
        have e1 := hrule k
        have e2 := hrule hu
        cases j with
        | zero => omega
        | succ j => exact b4 y hy hna hpa j tr' u (by simpa using hj) (by rw [← sh]; exact hu) ha hru
    · intro j tr' u hj hu hw hc
      cases j with
      | zero =>
        simp only [List.getElem?_cons_zero, Option.some.injEq] at hj
        subst hj
        obtain ⟨z, hz, rfl⟩ := l.complete u hu hw
        refine ⟨_, List.mem_append_left _ (y4 z hz ?_), rfl⟩
        rcases hc with hc | hc
        · exact .inl hc
        · exact .inr fun hpa => ⟨rfl, fun z' hz' ha => hc hpa 0 tr z'.2 rfl (l.sound z' hz') ha (by
            rw [hrule (l.sound z' hz'), hrule hu])⟩
      | succ j =>
        obtain ⟨y, hy, hy'⟩ := b5 j tr' u (by simpa using hj) (by rw [← sh]; exact hu) hw (by
          rcases hc with hc | hc
          · exact .inl hc
          · exact .inr fun hpa j' tr2 u' k1 k2 => hc hpa (j' + 1) tr2 u' (by simpa using k1) (by rw [sh]; exact k2))
        exact ⟨y, by simp [hy], hy'⟩

/-! ## Ways at the same place -/

/-- At the same place, and not later. -/
structure Like (z u : Way) : Prop where
  rule : z.rule = u.rule
  state : z.thread.state = u.thread.state
  stack : z.thread.stack = u.thread.stack
  passed : z.passed = u.passed
  order : (z.now = u.now ∧ z.before = u.before) ∨ Before z u

theorem before_congr {z u x : Way} (h1 : z.rule = u.rule) (h2 : z.now = u.now) (h3 : z.before = u.before) :
    (Before z x ↔ Before u x) ∧ (Before x z ↔ Before x u) := by
  simp only [Before, h1, h2, h3, and_self]

theorem same_trans {z u x : Way} (h : Same z u ∨ Before z u) (h' : Same u x ∨ Before u x) : Same z x ∨ Before z x := by
  rcases h with ⟨a, b, c⟩ | h
  · rcases h' with ⟨a', b', c'⟩ | h'
    · exact .inl ⟨a.trans a', b.trans b', c.trans c'⟩
    · exact .inr ((before_congr a b c).1.2 h')
  · rcases h' with ⟨a', b', c'⟩ | h'
    · exact .inr ((before_congr a' b' c').2.1 h)
    · exact .inr (before_trans h h')

theorem Like.before_left {z u x : Way} (h : Like z u) (hb : Before u x) : Before z x := by
  rcases h.order with ⟨h1, h2⟩ | h1
  · exact (before_congr h.rule h1 h2).1.2 hb
  · exact before_trans h1 hb

theorem Like.before_right {z u x : Way} (h : Like z u) (hb : Before x z) : Before x u := by
  rcases h.order with ⟨h1, h2⟩ | h1
  · exact (before_congr h.rule h1 h2).2.1 hb
  · exact before_trans hb h1

theorem Like.trans {z u x : Way} (h : Like z u) (h' : Like u x) : Like z x := by
  refine ⟨h.rule.trans h'.rule, h.state.trans h'.state, h.stack.trans h'.stack, h.passed.trans h'.passed, ?_⟩
  rcases h'.order with ⟨h1, h2⟩ | h1
  · rcases h.order with ⟨h3, h4⟩ | h3
    · exact .inl ⟨h3.trans h1, h4.trans h2⟩
    · exact .inr (h'.before_right h3)
  · exact .inr (h.before_left h1)

theorem Like.accepts {z u : Way} (h : Like z u) (ha : Accepts atn u) : Accepts atn z := by
  obtain ⟨st, h1, h2, h3⟩ := ha
  exact ⟨st, by rw [h.state]; exact h1, h2, by rw [h.stack]; exact h3⟩

theorem Like.worth {z u : Way} (h : Like z u) (ha : Worth atn u.thread) : Worth atn z.thread := by
  obtain ⟨st, h1, h2⟩ := ha
  exact ⟨st, by rw [h.state]; exact h1, by rw [h.stack]; exact h2⟩

/-- ... decided before the last symbol read. -/
structure Like' (z u : Way) : Prop where
  rule : z.rule = u.rule
  state : z.thread.state = u.thread.state
  stack : z.thread.stack = u.thread.stack
  passed : z.passed = u.passed
  order : (z.now = u.now ∧ z.before = u.before) ∨ Earlier z.before u.before

theorem Like'.like {z u : Way} (h : Like' z u) : Like z u :=
  ⟨h.rule, h.state, h.stack, h.passed, h.order.imp id fun k => .inr ⟨h.rule, .inl k⟩⟩

theorem free_like {tr : Trans} {x x' y : Thread} (hk : x'.stack = x.stack) (h : Free atn holds past tr x y) :
    ∃ y', Free atn holds past tr x' y' ∧ y'.state = y.state ∧ y'.stack = y.stack := by
  cases tr with
  | epsilon => simp only [Free] at h ⊢; exact ⟨_, rfl, by rw [h], by rw [h]; exact hk⟩
  | rule => simp only [Free] at h ⊢; exact ⟨_, rfl, by rw [h], by rw [h]; simp [hk]⟩
  | predicate => obtain ⟨h1, h⟩ := h; exact ⟨_, ⟨h1, rfl⟩, by rw [h], by rw [h]; exact hk⟩
  | action t d r a p =>
    simp only [Free, hk] at h ⊢
    split at h
    · rename_i h0
      obtain ⟨act, h1, h2, h⟩ := h
      refine ⟨{ x' with state := t, acts := x'.acts ++ [act] }, ?_, by rw [h], by rw [h]; exact hk⟩
      rw [if_pos h0]
      exact ⟨act, h1, h2, by rw [← hk]⟩
    · rename_i h0
      refine ⟨{ x' with state := t }, ?_, by rw [h], by rw [h]; exact hk⟩
      rw [if_neg h0, ← hk]
  | atom => obtain ⟨h1, h2, h⟩ := h; exact ⟨_, ⟨h1, h2, rfl⟩, by rw [h], by rw [h]; exact hk⟩
  | range => obtain ⟨h1, h2, h⟩ := h; exact ⟨_, ⟨h1, h2, rfl⟩, by rw [h], by rw [h]; exact hk⟩
  | set => obtain ⟨h1, h2, h⟩ := h; exact ⟨_, ⟨h1, h2, rfl⟩, by rw [h], by rw [h]; exact hk⟩
  | wildcard => exact absurd h (by simp [Free])
  | notSet => exact absurd h (by simp [Free])
  | precedence => exact absurd h (by simp [Free])

theorem choices_like {z u v : Way} (h : Like' z u) (hu : Relation.ReflTransGen (Choice atn holds past) u v) :
    ∃ z', Relation.ReflTransGen (Choice atn holds past) z z' ∧ Like' z' v := by
  induction hu with
  | refl => exact ⟨z, .refl, h⟩
  | tail _ h1 ih =>
    obtain ⟨z', h2, h3⟩ := ih
    have mv : ∀ {i : Nat} {y y' : Thread} {b : Way}, Like' z' b → y'.state = y.state → y'.stack = y.stack →
        Like' (z'.move atn i y') (b.move atn i y) := by
      intro i y y' b h3 e1 e2
      refine ⟨h3.rule, e1, e2, by simp only [Way.move, h3.passed, e1], h3.order.imp ?_ id⟩
      rintro ⟨k1, k2⟩
      exact ⟨by simp only [Way.move, k1], k2⟩
    cases h1 with
    | edge k1 k2 k3 k4 =>
      obtain ⟨y', k5, k6, k7⟩ := free_like h3.stack k4
      exact ⟨_, h2.tail (.edge (by rw [h3.state]; exact k1) k2 k3 k5), mv h3 k6 k7⟩
    | ret k1 k2 k3 =>
      exact ⟨_, h2.tail (.ret (by rw [h3.state]; exact k1) k2 (by rw [h3.stack]; exact k3)), mv h3 rfl rfl⟩

theorem takes_like {t : Int} {z u v : Way} (h : Like z u) (hu : Takes atn holds past t u v) :
    ∃ z', Takes atn holds past t z z' ∧ Like z' v := by
  obtain ⟨st, tr, h1, h2, h3, h4⟩ := hu
  have he : Like' (z.eat atn tr.target) (u.eat atn tr.target) := by
    refine ⟨h.rule, rfl, h.stack, by simp only [Way.eat, h.passed], ?_⟩
    rcases h.order with ⟨k1, k2⟩ | k
    · exact .inl ⟨rfl, by simp only [Way.eat, k1, k2]⟩
    · rcases k with k | k
      · have := h.rule; omega
      · exact .inr k.2
  obtain ⟨z', k1, k2⟩ := choices_like he h4
  exact ⟨z', ⟨st, tr, by rw [h.state]; exact h1, h2, h3, k1⟩, k2.like⟩

/-! ## Duplicates -/

theorem ctxOf_inj : ∀ {k k' : List Nat}, ctxOf k = ctxOf k' → (∀ f ∈ k, (f : Int) < PC.EMPTY_RS) →
    (∀ f ∈ k', (f : Int) < PC.EMPTY_RS) → k = k'
  | [], [], _, _, _ => rfl
  | [], f :: k', h, _, hs => by
    have h1 := ctx_nil.1
    rw [h, (ctx_cons (k := k') (hs f (by simp))).1] at h1; simp at h1
  | f :: k, [], h, hs, _ => by
    have h1 := ctx_nil.1
    rw [← h, (ctx_cons (k := k) (hs f (by simp))).1] at h1; simp at h1
  | f :: k, f' :: k', h, hs, hs' => by
    simp only [ctxOf, PC.single.injEq, Option.some.injEq] at h
    rw [ctxOf_inj h.1 (fun g hg => hs g (by simp [hg])) (fun g hg => hs' g (by simp [hg]))]
    congr 1
    have := h.2; omega

theorem at_er (hq : Blur q) {c : Config} {w : Way} (h : At q c w) : At q (er q c) w :=
  ⟨(rep_er hq).2 h.rep, h.alt, passed_er.trans h.passed⟩

theorem at_like {c : Config} {z u : Way} (h : At q c z) (h' : At q c u) (ho : z = u ∨ Before z u) : Like z u :=
  ⟨h.alt.symm.trans h'.alt, h.rep.state.symm.trans h'.rep.state,
    ctxOf_inj (h.rep.lin.ctx.symm.trans h'.rep.lin.ctx) h.rep.lin.small h'.rep.lin.small,
    h.passed.symm.trans h'.passed, ho.imp (fun e => by rw [e]; exact ⟨rfl, rfl⟩) id⟩

theorem abs_ways {Y : List (Config × Way)} (hs : Y.Pairwise fun a b => Before a.2 b.2) :
    ∃ Z : List (Config × Way), Z.map Prod.fst = abs q (Y.map Prod.fst) ∧
      Z.Sublist (Y.map fun y => (er q y.1, y.2)) ∧
      ∀ y ∈ Y, ∃ z ∈ Z, z.1 = er q y.1 ∧ (z.2 = y.2 ∨ Before z.2 y.2) := by
  simp only [abs]
  induction Y using List.reverseRecOn with
  | nil => exact ⟨[], by simp [firsts], by simp, by simp⟩
  | append_singleton Y y ih =>
    obtain ⟨hs1, -, hs2⟩ := List.pairwise_append.1 hs
    obtain ⟨Z, h1, h2, h3⟩ := ih hs1
    simp only [List.map_append, List.map_cons, List.map_nil, firsts_snoc]
    split
    · rename_i h0
      refine ⟨Z, h1, h2.trans (List.sublist_append_left _ _), ?_⟩
      intro x hx
      rcases List.mem_append.1 hx with hx | hx
      · exact h3 x hx
      · simp only [List.mem_singleton] at hx; subst hx
        rw [← h1] at h0
        obtain ⟨z, hz, hz'⟩ := List.mem_map.1 h0
        obtain ⟨y', hy', rfl⟩ := List.mem_map.1 (h2.subset hz)
        exact ⟨_, hz, hz', .inr (hs2 y' hy' x (by simp))⟩
    · refine ⟨Z ++ [(er q y.1, y.2)], by simp [h1], List.Sublist.append h2 (List.Sublist.refl _), ?_⟩
      intro x hx
      rcases List.mem_append.1 hx with hx | hx
      · obtain ⟨z, hz, k⟩ := h3 x hx
        exact ⟨z, by simp [hz], k⟩
      · simp only [List.mem_singleton] at hx; subst hx
        exact ⟨(er q x.1, x.2), by simp, rfl, .inl rfl⟩

end

section
variable {q : Option (List LexerAction) → Option (List LexerAction)} {D : Type} [InputData D]
  {d : D} {cs : List Int} {ix : Nat → Int} {sl : Nat → Nat → D}
  {env : Env D} {L : Lex D} {n : Nat} {st : ATNState}

/-! ## The ways after some symbols -/

theorem reached_rule : ∀ {k : Nat} {w : Way}, Reached env L cs ix n st k w → 0 < w.rule
  | 0, w, ⟨i, tr, _, h⟩ => by rw [(choices_same h).1]; simp only [first]; omega
  | k + 1, w, ⟨u, h1, _, _, h2⟩ => by rw [(takes_same h2).1]; exact reached_rule h1

theorem reached_range : ∀ {k : Nat} {w : Way}, n ≤ cs.length → Reached env L cs ix n st k w → n + k ≤ cs.length + 1
  | 0, w, hn, _ => by omega
  | k + 1, w, _, ⟨u, _, _, h, _⟩ => by omega

theorem reached_choices {k : Nat} {w u : Way} (h : Reached env L cs ix n st (k + 1) w)
    (hs : Relation.ReflTransGen (Choice env.atn (holdsAt env L cs ix (n + k + 1)) (cs.length < n + k + 1)) w u) :
    Reached env L cs ix n st (k + 1) u := by
  obtain ⟨x, h1, h2, h3, s, tr, h4, h5, h6, h7⟩ := h
  exact ⟨x, h1, h2, h3, s, tr, h4, h5, h6, h7.trans hs⟩

/-- The configurations are the ways after `k` symbols, in order. -/
def Ways (q : Option (List LexerAction) → Option (List LexerAction)) (env : Env D) (L : Lex D) (cs : List Int)
    (ix : Nat → Int) (n : Nat) (st : ATNState) (k : Nat) (m : List Config) : Prop :=
  ∃ Z : List (Config × Way), Z.map Prod.fst = m ∧ (Z.Pairwise fun a b => Before a.2 b.2) ∧
    (∀ z ∈ Z, At q z.1 z.2 ∧ Worth env.atn z.2.thread ∧ Reached env L cs ix n st k z.2 ∧
      (Accepts env.atn z.2 ∨ ¬ Cut env.atn (Reached env L cs ix n st k) z.2)) ∧
    (∀ u, Reached env L cs ix n st k u → Worth env.atn u.thread → ¬ Cut env.atn (Reached env L cs ix n st k) u →
      ∃ z ∈ Z, Like z.2 u) ∧
    (∀ u, Reached env L cs ix n st k u → Accepts env.atn u → ∃ z ∈ Z, Accepts env.atn z.2 ∧ (Same z.2 u ∨ Before z.2 u))

/-- From the list with duplicates. -/
theorem ways_abs (hq : Blur q) {k : Nat} {Y : List (Config × Way)} (hs : Y.Pairwise fun a b => Before a.2 b.2)
    (h1 : ∀ z ∈ Y, At q z.1 z.2 ∧ Worth env.atn z.2.thread ∧ Reached env L cs ix n st k z.2 ∧
      (Accepts env.atn z.2 ∨ ¬ Cut env.atn (Reached env L cs ix n st k) z.2))
    (h2 : ∀ u, Reached env L cs ix n st k u → Worth env.atn u.thread → ¬ Cut env.atn (Reached env L cs ix n st k) u →
      ∃ z ∈ Y, Like z.2 u)
    (h3 : ∀ u, Reached env L cs ix n st k u → Accepts env.atn u → ∃ z ∈ Y, Accepts env.atn z.2 ∧
      (Same z.2 u ∨ Before z.2 u)) : Ways q env L cs ix n st k (abs q (Y.map Prod.fst)) := by
  obtain ⟨Z, z1, z2, z3⟩ := abs_ways (q := q) hs
  have like : ∀ y ∈ Y, ∃ z ∈ Z, Like z.2 y.2 ∧ (z.2 = y.2 ∨ Before z.2 y.2) := by
    intro y hy
    obtain ⟨z, hz, e, ho⟩ := z3 y hy
    obtain ⟨y', hy', rfl⟩ := List.mem_map.1 (z2.subset hz)
    have k1 := at_er hq (h1 y' hy').1
    have k2 := at_er hq (h1 y hy).1
    rw [← e] at k2
    exact ⟨_, hz, at_like k1 k2 ho, ho⟩
  refine ⟨Z, z1, List.Pairwise.sublist z2 (by rw [List.pairwise_map]; exact hs), ?_, ?_, ?_⟩
  · intro z hz
    obtain ⟨y, hy, rfl⟩ := List.mem_map.1 (z2.subset hz)
    obtain ⟨k1, k2⟩ := h1 y hy
    exact ⟨at_er hq k1, k2⟩
  · intro u hu hw hc
    obtain ⟨y, hy, hy'⟩ := h2 u hu hw hc
    obtain ⟨z, hz, hz', -⟩ := like y hy
    exact ⟨z, hz, hz'.trans hy'⟩
  · intro u hu ha
    obtain ⟨y, hy, hy', ho⟩ := h3 u hu ha
    obtain ⟨z, hz, hz', ho'⟩ := like y hy
    refine ⟨z, hz, hz'.accepts hy', ?_⟩
    exact same_trans (ho'.imp (fun e => by rw [e]; exact ⟨rfl, rfl, rfl⟩) id) ho

theorem ways_step (hq : Blur q) (hg : Tidy env.atn) (R : Reads d cs ix sl) (hd : L.cur.input.data = d) {fc k : Nat}
    (hv : n + k ≤ cs.length) {m : List Config} (h : Ways q env L cs ix n st k m) {r : List Config × Bool}
    (hr : pstep q env.atn (fun r p => predValue (fun r p c => env.sempred r p { L with cur := c }) r p true
      (at_ d cs ix (n + k))) fc (symAt cs (n + k)) m = some r) : Ways q env L cs ix n st (k + 1) r.1 := by
  simp only [pstep, Option.map_eq_some_iff] at hr
  obtain ⟨⟨ys, b⟩, hr, rfl⟩ := hr
  obtain ⟨Z, rfl, z2, z3, z4, z5⟩ := h
  obtain ⟨Y, rfl, y2, y3, y4, y5, y6⟩ := reachList_ways hq hg (spec_pred (env := env) (L := L) R hd hv) (sym_past R hv) Z
    (fun p hp => (z3 p hp).1) z2 (fun p hp => by have := reached_rule (z3 p hp).2.2.1; omega) hr
  have reach : ∀ p ∈ Z, ∀ u, Takes env.atn (holdsAt env L cs ix (n + k + 1)) (cs.length < n + k + 1) (symAt cs (n + k)) p.2 u →
      Reached env L cs ix n st (k + 1) u := by
    intro p hp u hu
    obtain ⟨-, -, k1, k2⟩ := z3 p hp
    exact ⟨p.2, k1, k2.resolve_left (takes_reads hg hu).2, hv, hu⟩
  have back : ∀ u, Reached env L cs ix n st (k + 1) u → ∃ p ∈ Z, ∃ u',
      Takes env.atn (holdsAt env L cs ix (n + k + 1)) (cs.length < n + k + 1) (symAt cs (n + k)) p.2 u' ∧ Like u' u := by
    rintro u ⟨u0, k1, k2, -, k3⟩
    obtain ⟨p, hp, hl⟩ := z4 u0 k1 (takes_reads hg k3).1 k2
    obtain ⟨u', k4, k5⟩ := takes_like hl k3
    exact ⟨p, hp, u', k4, k5⟩
  refine ways_abs hq y2 ?_ ?_ ?_
  · intro y hy
    obtain ⟨k1, k2, p, hp, hp'⟩ := y3 y hy
    refine ⟨k1, k2, reach p hp _ hp', ?_⟩
    by_cases ha : Accepts env.atn y.2
    · exact .inl ha
    · refine .inr ?_
      rintro ⟨hpa, u, hu, hau, hru, hb⟩
      obtain ⟨p', hp', u', hu', hl⟩ := back u hu
      exact (y4 y hy ha hpa).2 p' hp' u' hu' (hl.accepts hau) (hl.rule.trans hru) (hl.before_left hb)
  · intro u hu hw hc
    obtain ⟨p, hp, u', hu', hl⟩ := back u hu
    obtain ⟨y, hy, rfl⟩ := y5 p hp u' hu' (hl.worth hw) (by
      intro hpa
      refine ⟨by have := reached_rule (reach p hp u' hu'); omega, ?_⟩
      intro p' hp' x hx hax hrx hb
      exact hc ⟨by rw [← hl.passed]; exact hpa, x, reach p' hp' x hx, hax, hrx.trans hl.rule, hl.before_right hb⟩)
    exact ⟨y, hy, hl⟩
  · intro u hu ha
    obtain ⟨p, hp, u', hu', hl⟩ := back u hu
    obtain ⟨y, hy, hya, -, ho⟩ := y6 p hp u' hu' (hl.accepts ha) (by have := reached_rule (reach p hp u' hu'); omega)
    exact ⟨y, hy, hya, same_trans (ho.imp (fun e => by rw [e]; exact ⟨rfl, rfl, rfl⟩) id)
      (hl.order.imp (fun e => ⟨hl.rule, e⟩) id)⟩

/-! ## The accepting configuration -/

theorem accOf_first {atn : ATN} {l : List Config} {tt : Int} {e} (h : accOf q atn l = some (some (tt, e))) :
    ∃ l1 c l2 st, l = l1 ++ c :: l2 ∧ atn.states[c.state]? = some st ∧ st.stateType = .ruleStop ∧
      atn.ruleToTokenType[st.ruleIndex]? = some tt ∧ e = q (execOf c) ∧
      ∀ c' ∈ l1, ∀ st', atn.states[c'.state]? = some st' → st'.stateType ≠ .ruleStop := by
  induction l with
  | nil => simp [accOf, firstStop] at h
  | cons c l ih =>
    rw [accOf_cons] at h
    obtain ⟨st, hst, h⟩ := Option.bind_eq_some_iff.mp h
    split at h
    · rename_i h0
      simp only [Option.map_eq_some_iff, Option.some.injEq, Prod.mk.injEq] at h
      obtain ⟨tt', h1, rfl, rfl⟩ := h
      exact ⟨[], c, l, st, rfl, hst, h0, h1, rfl, by simp⟩
    · rename_i h0
      obtain ⟨l1, c1, l2, st1, rfl, h2, h3, h4, h5, h6⟩ := ih h
      refine ⟨c :: l1, c1, l2, st1, rfl, h2, h3, h4, h5, ?_⟩
      intro c' hc st' hst'
      simp only [List.mem_cons] at hc
      rcases hc with rfl | hc
      · rw [hst] at hst'; injection hst' with hst'; subst hst'; exact h0
      · exact h6 c' hc st' hst'

theorem at_stop {atn : ATN} {c : Config} {w : Way} (h : At q c w) (ha : Accepts atn w) :
    ∃ t, atn.states[c.state]? = some t ∧ t.stateType = .ruleStop := by
  obtain ⟨t, h1, h2, -⟩ := ha
  exact ⟨t, by rw [h.rep.state]; exact h1, h2⟩

theorem stop_at {atn : ATN} {c : Config} {w : Way} (h : At q c w) (hw : Worth atn w.thread) {t : ATNState}
    (ht : atn.states[c.state]? = some t) (hs : t.stateType = .ruleStop) : Accepts atn w := by
  obtain ⟨t', h1, h2⟩ := hw
  rw [← h.rep.state, ht] at h1
  injection h1 with h1; subst h1
  rcases h2 with h2 | h2
  · exact ⟨t, by rw [← h.rep.state]; exact ht, h2⟩
  · exact absurd hs h2.1

/-- Nothing matches `k` symbols. -/
def NoHit (env : Env D) (L : Lex D) (cs : List Int) (ix : Nat → Int) (n : Nat) (st : ATNState) (k : Nat) : Prop :=
  ∀ w, ¬ Hit env L cs ix n st k w

theorem acc_nohit {k : Nat} {m : List Config} (h : Ways q env L cs ix n st k m) (ha : accOf q env.atn m = some none) :
    NoHit env L cs ix n st k := by
  obtain ⟨Z, rfl, -, z3, -, z5⟩ := h
  rintro w ⟨h1, h2⟩
  obtain ⟨z, hz, hz', -⟩ := z5 w h1 h2
  obtain ⟨t, k1, k2⟩ := at_stop (z3 z hz).1 hz'
  exact accOf_none ha z.1 (List.mem_map_of_mem hz) t k1 k2

theorem acc_hit {k : Nat} {m : List Config} (h : Ways q env L cs ix n st k m) {tt : Int} {e}
    (ha : accOf q env.atn m = some (some (tt, e))) :
    ∃ w t, Hit env L cs ix n st k w ∧ env.atn.states[w.thread.state]? = some t ∧
      env.atn.ruleToTokenType[t.ruleIndex]? = some tt ∧ e = q (execFrom w.thread.acts) ∧
      ∀ u, Hit env L cs ix n st k u → Same w u ∨ Before w u := by
  obtain ⟨Z, rfl, z2, z3, -, z5⟩ := h
  obtain ⟨l1, c, l2, t, hl, h1, h2, h3, h4, h5⟩ := accOf_first ha
  obtain ⟨Z1, Z', rfl, hZ1, hZ'⟩ := List.map_eq_append_iff.1 hl
  obtain ⟨z, Z2, rfl, rfl, hZ2⟩ := List.map_eq_cons_iff.1 hZ'
  have hz := z3 z (by simp)
  have hza := stop_at hz.1 hz.2.1 h1 h2
  refine ⟨z.2, t, ⟨hz.2.2.1, hza⟩, by rw [← hz.1.rep.state]; exact h1, h3, by rw [h4]; exact hz.1.rep.acts, ?_⟩
  rintro u ⟨k1, k2⟩
  obtain ⟨x, hx, hxa, ho⟩ := z5 u k1 k2
  have hxz : Same z.2 x.2 ∨ Before z.2 x.2 := by
    rcases List.mem_append.1 hx with hx1 | hx1
    · obtain ⟨t', k3, k4⟩ := at_stop (z3 x hx).1 hxa
      exact absurd k4 (h5 x.1 (by rw [← hZ1]; exact List.mem_map_of_mem hx1) t' k3)
    · rcases List.mem_cons.1 hx1 with rfl | hx1
      · exact .inl ⟨rfl, rfl, rfl⟩
      · exact .inr ((List.pairwise_cons.1 (List.pairwise_append.1 z2).2.1).1 x hx1)
  exact same_trans hxz ho

/-! ## The best match so far -/

/-- `b` is the preferred match of at most `k` symbols. -/
def BestWay (q : Option (List LexerAction) → Option (List LexerAction)) (env : Env D) (L : Lex D) (cs : List Int)
    (ix : Nat → Int) (n : Nat) (st : ATNState) (k : Nat) : Option PAcc → Prop
  | none => ∀ j, j ≤ k → NoHit env L cs ix n st j
  | some b => ∃ j w t, j ≤ k ∧ Hit env L cs ix n st j w ∧ env.atn.states[w.thread.state]? = some t ∧
      env.atn.ruleToTokenType[t.ruleIndex]? = some b.ttype ∧ b.index = ix (min (n + j) cs.length) ∧
      b.line = lineOf cs (min (n + j) cs.length) ∧ b.col = colOf cs (min (n + j) cs.length) ∧
      q b.exec = q (execFrom w.thread.acts) ∧ (∀ i, j < i → i ≤ k → NoHit env L cs ix n st i) ∧
      ∀ u, Hit env L cs ix n st j u → Same w u ∨ Before w u

theorem bestWay_more {k : Nat} {p : Option PAcc} (h : BestWay q env L cs ix n st k p) {k' : Nat} (hk : k ≤ k')
    (hn : ∀ j, k < j → j ≤ k' → NoHit env L cs ix n st j) : BestWay q env L cs ix n st k' p := by
  cases p with
  | none => intro j hj; exact if hc : j ≤ k then h j hc else hn j (by omega) hj
  | some b =>
    obtain ⟨j, w, t, h1, h2, h3, h4, h5, h6, h7, h8, h9, h10⟩ := h
    refine ⟨j, w, t, by omega, h2, h3, h4, h5, h6, h7, h8, ?_, h10⟩
    intro i k1 k2
    exact if hc : i ≤ k then h9 i k1 hc else hn i (by omega) k2

theorem bestWay_note (hq : Blur q) {k : Nat} {m : List Config} (h : Ways q env L cs ix n st k m) {p : Option PAcc}
    (hb : (k = 0 ∧ p = none) ∨ (0 < k ∧ BestWay q env L cs ix n st (k - 1) p))
    {a : Option (Int × Option (List LexerAction))} (ha : accOf q env.atn m = some a) {c : Cursor D} (d : D)
    (hc : c = at_ d cs ix (min (n + k) cs.length)) : BestWay q env L cs ix n st k (note a c p) := by
  cases a with
  | none =>
    have h0 := acc_nohit h ha
    simp only [note]
    rcases hb with ⟨rfl, rfl⟩ | ⟨h1, h2⟩
    · intro j hj
      rw [show j = 0 by omega]; exact h0
    · refine bestWay_more h2 (by omega) ?_
      intro j k1 k2
      rw [show j = k by omega]; exact h0
  | some x =>
    obtain ⟨tt, e⟩ := x
    obtain ⟨w, t, h1, h2, h3, h4, h5⟩ := acc_hit h ha
    subst hc
    refine ⟨k, w, t, Nat.le_refl _, h1, h2, h3, rfl, rfl, rfl, ?_, fun i k1 k2 => by omega, h5⟩
    show q e = _
    rw [h4, hq.idem]

/-! ## The loop -/

/-- What is known when the loop stops. -/
def Ended (q : Option (List LexerAction) → Option (List LexerAction)) (env : Env D) (L : Lex D) (d : D) (cs : List Int)
    (ix : Nat → Int) (n : Nat) (st : ATNState) (x : PStop D) : Prop :=
  BestWay q env L cs ix n st (cs.length + 1 - n) x.prev ∧ ∃ k, n + k ≤ cs.length ∧ x.cur = at_ d cs ix (n + k) ∧
    x.symbol = symAt cs (n + k)

theorem lift_silent {atn : ATN} {holds : Int → Int → Prop} {past : Prop} {x y : Thread} (h : Relation.ReflTransGen (Silent atn holds past) x y)
    {w : Way} (hw : w.thread = x) : ∃ u, Relation.ReflTransGen (Choice atn holds past) w u ∧ u.thread = y := by
  induction h with
  | refl => exact ⟨w, .refl, hw⟩
  | tail _ h1 ih =>
    obtain ⟨u, h2, rfl⟩ := ih
    cases h1 with
    | edge k1 k2 k3 k4 =>
      obtain ⟨i, hi⟩ := List.mem_iff_getElem?.1 k3
      exact ⟨_, h2.tail (.edge k1 k2 hi k4), rfl⟩
    | ret k1 k2 k3 => exact ⟨_, h2.tail (.ret k1 k2 k3), rfl⟩

theorem ended_past (hq : Blur q) (hg : Tidy env.atn) (R : Reads d cs ix sl) (hd : L.cur.input.data = d) {fc k : Nat}
    (hk : n + k = cs.length) (hno : NoHit env L cs ix n st (k + 1)) (fuel : Nat) :
    ∀ {m : List Config} {p : Option PAcc} {x : PStop D},
    (∀ c ∈ m, ∃ w, Rep q c w.thread ∧ Reached env L cs ix n st (k + 1) w ∧ Worth env.atn w.thread) →
    BestWay q env L cs ix n st (k + 1) p →
    prun q env.atn (fun r p c => env.sempred r p { L with cur := c }) fc fuel (at_ d cs ix cs.length) m EOF p = some x →
    Ended q env L d cs ix n st x := by
  induction fuel with
  | zero => intro m p x _ _ h; simp [prun] at h
  | succ fuel ih =>
    intro m p x hs hb h
    have fin : Ended q env L d cs ix n st ⟨at_ d cs ix cs.length, p, EOF⟩ :=
      ⟨by rw [show cs.length + 1 - n = k + 1 by omega]; exact hb, k, by omega, by rw [hk],
        by rw [hk]; exact ((symAt_eof_iff R (Nat.le_refl _)).mpr rfl).symm⟩
    simp only [prun] at h
    obtain ⟨r, hr, h⟩ := Option.bind_eq_some_iff.mp h
    have hs' : ∀ c ∈ r.1, ∃ w, Rep q c w.thread ∧ Reached env L cs ix n st (k + 1) w ∧ Worth env.atn w.thread := by
      simp only [pstep, Option.map_eq_some_iff] at hr
      obtain ⟨⟨ys, b⟩, hr, rfl⟩ := hr
      have hp := spec_pred (env := env) (L := L) R hd (Nat.le_refl cs.length)
      have he : (EOF = EOF) ↔ cs.length < cs.length + 1 := by simp
      intro c hc
      obtain ⟨y, hy, rfl⟩ := mem_abs.mp hc
      obtain ⟨c0, h1, -, h3⟩ := reachList_sound hq hg hp he m (fun c hc => by
        obtain ⟨x, hx, _⟩ := hs c hc; exact ⟨_, hx⟩) hr y hy
      obtain ⟨w, hw, hl, -⟩ := hs c0 h1
      obtain ⟨z, z1, z2, z3⟩ := h3 _ hw
      obtain ⟨u, u1, rfl⟩ := lift_silent (steps_past hg (by omega) z1) (w := w) rfl
      exact ⟨u, (rep_er hq).mpr z2, reached_choices hl (by
        rw [show n + k + 1 = cs.length + 1 by omega]; exact u1), z3⟩
    split at h
    · simp only [Option.some.injEq] at h
      rw [← h]; exact fin
    · obtain ⟨a, ha, h⟩ := Option.bind_eq_some_iff.mp h
      cases a with
      | some y =>
        obtain ⟨tt, e⟩ := y
        obtain ⟨l1, c, l2, t, hl, h1, h2, -⟩ := accOf_first ha
        obtain ⟨w, k1, k2, t', k3, k4⟩ := hs' c (by rw [hl]; simp)
        rw [← k1.state, h1] at k3
        injection k3 with k3; subst k3
        rcases k4 with k4 | k4
        · exact absurd ⟨k2, t, by rw [← k1.state]; exact h1, k4⟩ (hno w)
        · exact absurd h2 k4.1
      | none =>
        simp only [ne_eq, not_true_eq_false, if_false, Option.bind_some, Option.isSome_none, Bool.false_and,
          Bool.false_eq_true, la_at R (Nat.le_refl _), note] at h
        rw [(symAt_eof_iff R (Nat.le_refl _)).mpr rfl] at h
        exact ih hs' hb h

/-- Nothing is reached after a position where nothing is left. -/
theorem reached_dead (hg : Tidy env.atn) {k : Nat} (hd : Ways q env L cs ix n st k []) : ∀ j, ∀ w,
    ¬ Reached env L cs ix n st (k + 1 + j) w := by
  intro j
  induction j with
  | zero =>
    rintro w ⟨u, h1, h2, -, h3⟩
    obtain ⟨Z, hZ, -, -, z4, -⟩ := hd
    obtain ⟨z, hz, -⟩ := z4 u h1 (takes_reads hg h3).1 h2
    rw [List.map_eq_nil_iff] at hZ
    rw [hZ] at hz; simp at hz
  | succ j ih => rintro w ⟨u, h1, -⟩; exact ih u h1

theorem ended_run (hq : Blur q) (hg : Tidy env.atn) (R : Reads d cs ix sl) (hd : L.cur.input.data = d) {fc : Nat}
    (fuel : Nat) : ∀ {k : Nat} {m : List Config} {p : Option PAcc} {x : PStop D}, n + k ≤ cs.length →
    Ways q env L cs ix n st k m → BestWay q env L cs ix n st k p →
    prun q env.atn (fun r p c => env.sempred r p { L with cur := c }) fc fuel (at_ d cs ix (n + k)) m (symAt cs (n + k)) p
      = some x → Ended q env L d cs ix n st x := by
  induction fuel with
  | zero => intro k m p x _ _ _ h; simp [prun] at h
  | succ fuel ih =>
    intro k m p x hv hi hb h
    simp only [prun] at h
    obtain ⟨r, hr, h⟩ := Option.bind_eq_some_iff.mp h
    have hi' := ways_step hq hg R hd hv hi hr
    split at h
    · rename_i h0
      simp only [Option.some.injEq] at h
      rw [h0] at hi'
      rw [← h]
      refine ⟨bestWay_more hb (by omega) ?_, k, hv, rfl, rfl⟩
      rintro j k1 k2 w ⟨hw1, hw2⟩
      by_cases e : j = k + 1
      · subst e
        obtain ⟨Z, hZ, -, -, -, z5⟩ := hi'
        obtain ⟨z, hz, -⟩ := z5 w hw1 hw2
        rw [List.map_eq_nil_iff] at hZ
        rw [hZ] at hz; simp at hz
      · exact reached_dead hg hi' (j - (k + 2)) w (by rw [show k + 1 + 1 + (j - (k + 2)) = j by omega]; exact hw1)
    · rename_i hnil
      obtain ⟨a, ha, h⟩ := Option.bind_eq_some_iff.mp h
      have hnote : ∀ c : Cursor D, c = at_ d cs ix (min (n + (k + 1)) cs.length) →
          BestWay q env L cs ix n st (k + 1) (note a c p) := fun c hc =>
        bestWay_note hq hi' (.inr ⟨by omega, by simpa using hb⟩) ha d hc
      by_cases hlt : n + k < cs.length
      · have hsym : symAt cs (n + k) ≠ EOF := by
          intro h0; have := (symAt_eof_iff R hv).mp h0; omega
        simp only [ne_eq, hsym, not_false_eq_true, if_true, consume_at R hlt, Option.bind_some, decide_false,
          Bool.and_false, Bool.false_eq_true, if_false, la_at R (show n + k + 1 ≤ cs.length by omega)] at h
        exact ih (by omega) hi' (hnote _ (by rw [Nat.min_eq_left (by omega)]; rfl)) h
      · have e : n + k = cs.length := by omega
        have hsym : symAt cs (n + k) = EOF := (symAt_eof_iff R hv).mpr e
        simp only [hsym, ne_eq, not_true_eq_false, if_false, Option.bind_some, decide_true, Bool.and_true,
          la_at R hv] at h
        have hb' := hnote (at_ d cs ix (n + k)) (by rw [Nat.min_eq_right (by omega), e])
        cases a with
        | none =>
          simp only [Option.isSome_none, Bool.false_eq_true, if_false] at h
          refine ended_past hq hg R hd e (acc_nohit hi' ha) fuel ?_ hb' (by rw [← e]; exact h)
          intro c hc
          obtain ⟨Z, hZ, -, z3, -⟩ := hi'
          rw [← hZ] at hc
          obtain ⟨z, hz, rfl⟩ := List.mem_map.1 hc
          obtain ⟨k1, k2, k3, -⟩ := z3 z hz
          exact ⟨z.2, k1.rep, k3, k2⟩
        | some y =>
          simp only [Option.isSome_some, if_true, Option.some.injEq] at h
          rw [← h]
          exact ⟨by rw [show cs.length + 1 - n = k + 1 by omega]; exact hb', k, hv, rfl, hsym.symm⟩

/-- The matcher without a cache. -/
theorem pmatch_ended (hq : Blur q) (hg : Tidy env.atn) (R : Reads d cs ix sl) (hn : n ≤ cs.length)
    (hc : L.cur = at_ d cs ix n) {fc fe : Nat} {ss : Nat} (hss : env.atn.modeToStartState[L.mode]? = some ss)
    (hst : env.atn.states[ss]? = some st) {o : Option (PStop D)} (h : pmatch q env fc fe L = some o) :
    ∃ x, o = some x ∧ Ended q env L d cs ix n st x := by
  have hd : L.cur.input.data = d := by rw [hc]; rfl
  simp only [pmatch, hss, hst, Option.bind_some] at h
  obtain ⟨⟨ys, b⟩, hy, h⟩ := Option.bind_eq_some_iff.mp h
  obtain ⟨a, ha, h⟩ := Option.bind_eq_some_iff.mp h
  obtain ⟨t, ht, h⟩ := Option.bind_eq_some_iff.mp h
  simp only [Option.map_eq_some_iff] at h
  obtain ⟨x, hx, rfl⟩ := h
  refine ⟨x, rfl, ?_⟩
  have hp : ∀ r p v, predValue (fun r p c => env.sempred r p { L with cur := c }) r p false L.cur = some v →
      (v = true ↔ holdsAt env L cs ix n r p) := by
    intro r p v hv
    simp only [predValue, evaluatePredicate, Bool.false_eq_true, if_false, Option.map_some, Option.some.injEq] at hv
    rw [← hv, holdsAt, hd, Nat.min_eq_left hn, ← hc]
  have hpast : ¬ (cs.length < n) := by omega
  have hi : Ways q env L cs ix n st 0 (abs q ys) := by
    obtain ⟨Y, rfl, y2, y3, y4, y5⟩ := startList_ways hq hg hp hpast _ hy
    simp only [Nat.zero_add] at y3 y4 y5
    refine ways_abs hq y2 ?_ ?_ ?_
    · intro y hy
      obtain ⟨k1, k2, j, tr, k3, k4⟩ := y3 y hy
      refine ⟨k1, k2, ⟨j, tr, k3, k4⟩, ?_⟩
      by_cases hacc : Accepts env.atn y.2
      · exact .inl hacc
      · refine .inr ?_
        rintro ⟨hpa, u, ⟨j', tr', k5, k6⟩, hau, hru, hb⟩
        exact y4 y hy hacc hpa j' tr' u k5 k6 hau hru hb
    · rintro u ⟨j, tr, k1, k2⟩ hw hcut
      obtain ⟨y, hy, rfl⟩ := y5 j tr u k1 k2 hw (.inr fun hpa j' tr' u' k3 k4 k5 k6 k7 =>
        hcut ⟨hpa, u', ⟨j', tr', k3, k4⟩, k5, k6, k7⟩)
      exact ⟨y, hy, rfl, rfl, rfl, rfl, .inl ⟨rfl, rfl⟩⟩
    · rintro u ⟨j, tr, k1, k2⟩ hau
      obtain ⟨y, hy, rfl⟩ := y5 j tr u k1 k2 (accepts_worth hau) (.inl hau)
      exact ⟨y, hy, hau, .inl ⟨rfl, rfl, rfl⟩⟩
  have hb : BestWay q env L cs ix n st 0 (note a L.cur none) :=
    bestWay_note hq hi (.inl ⟨rfl, rfl⟩) ha d (by rw [Nat.add_zero, Nat.min_eq_left hn]; exact hc)
  rw [hc, la_at R hn] at ht
  injection ht with ht
  subst ht
  rw [hc] at hx
  rw [hc] at hb
  exact ended_run hq hg R hd fe (k := 0) hn hi hb hx

end

end Antlr.LexOrder
