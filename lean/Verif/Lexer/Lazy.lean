import Verif.Lexer.LazySpec
import Verif.Lexer.OrderRun

/-!
# The ways through a rule `OPEN .*? CLOSE`
-/

namespace Antlr.LexLazy
open Antlr Lexer LexSpec LexPaths LexOrder

set_option linter.unusedSectionVars false

/-! ## Words in the text -/

theorem stands_nil {cs : List Int} {p : Nat} : Stands cs p [] := List.nil_prefix

theorem stands_append {cs : List Int} {p : Nat} {l l' : List Int} :
    Stands cs p (l ++ l') ↔ Stands cs p l ∧ Stands cs (p + l.length) l' := by
  simp only [Stands]
  constructor
  · rintro ⟨t, h⟩
    refine ⟨⟨l' ++ t, by rw [← h, List.append_assoc]⟩, t, ?_⟩
    rw [← List.drop_drop, ← h, List.append_assoc, List.drop_left]
  · rintro ⟨⟨t, h⟩, t', h'⟩
    refine ⟨t', ?_⟩
    rw [← List.drop_drop, ← h, List.drop_left] at h'
    rw [List.append_assoc, h', h]

theorem stands_one {cs : List Int} {p : Nat} {c : Int} : Stands cs p [c] ↔ cs[p]? = some c := by
  simp only [Stands]
  rw [← List.head?_drop]
  cases h : cs.drop p with
  | nil => simp
  | cons a t => simp [List.cons_prefix_cons, eq_comm]

theorem stands_take {cs : List Int} {p k : Nat} (h : p + k ≤ cs.length) : Stands cs p ((cs.drop p).take k) ∧
    ((cs.drop p).take k).length = k := by
  refine ⟨List.take_prefix _ _, ?_⟩
  rw [List.length_take, List.length_drop]; omega

section
variable {D : Type} [InputData D] {cs : List Int} {ix : Nat → Int} {env : Env D} {L : Lex D} {n : Nat} {st : ATNState}

/-! ## Steps -/

/-- `w` goes on to `u`, all at the position after `k` symbols. -/
abbrev Goes (env : Env D) (L : Lex D) (cs : List Int) (ix : Nat → Int) (n k : Nat) : Way → Way → Prop :=
  Relation.ReflTransGen (Choice env.atn (holdsAt env L cs ix (n + k)) (cs.length < n + k))

theorem goes_reached {k : Nat} {w u : Way} (h : Reached env L cs ix n st k w) (hg : Goes env L cs ix n k w u) :
    Reached env L cs ix n st k u := by
  cases k with
  | zero => obtain ⟨i, tr, h1, h2⟩ := h; exact ⟨i, tr, h1, h2.trans hg⟩
  | succ k => exact reached_choices h hg

theorem choice_at {atn : ATN} {holds : Int → Int → Prop} {past : Prop} {w u : Way} (h : Choice atn holds past w u)
    {s : ATNState} (hs : atn.states[w.thread.state]? = some s) (hk : w.thread.stack = []) :
    s.stateType ≠ .ruleStop ∧ ∃ i tr y, s.transitions[i]? = some tr ∧ Free atn holds past tr w.thread y ∧ u = w.move atn i y := by
  cases h with
  | edge h1 h2 h3 h4 =>
    rw [hs] at h1; injection h1 with h1; subst h1
    exact ⟨h2, _, _, _, h3, h4, rfl⟩
  | ret h1 h2 h3 => rw [hk] at h3; simp at h3

theorem one_edge {α : Type} {l : List α} {a b : α} {i : Nat} (hl : l = [a]) (h : l[i]? = some b) : i = 0 ∧ b = a := by
  subst hl
  rcases i with _ | i
  · simpa [eq_comm] using h
  · simp at h

theorem two_edges {α : Type} {l : List α} {a b c : α} {i : Nat} (hl : l = [a, b]) (h : l[i]? = some c) :
    (i = 0 ∧ c = a) ∨ (i = 1 ∧ c = b) := by
  subst hl
  rcases i with _ | _ | i
  · left; simpa [eq_comm] using h
  · right; simpa [eq_comm] using h
  · simp at h

theorem skips_free {tr : Trans} (h : Skips env tr) {holds : Int → Int → Prop} {past : Prop} {x y : Thread}
    (hf : Free env.atn holds past tr x y) : y.state = tr.target ∧ y.stack = x.stack := by
  cases tr with
  | epsilon => simp only [Free] at hf; rw [hf]; exact ⟨rfl, rfl⟩
  | predicate => rw [hf.2]; exact ⟨rfl, rfl⟩
  | action t d r a p =>
    simp only [Free] at hf
    split at hf
    · obtain ⟨act, -, -, rfl⟩ := hf; exact ⟨rfl, rfl⟩
    · rw [hf]; exact ⟨rfl, rfl⟩
  | _ => exact h.elim

theorem skips_goes {tr : Trans} (h : Skips env tr) {p : Nat} {past : Prop} (x : Thread) :
    ∃ y, Free env.atn (holdsAt env L cs ix p) past tr x y ∧ y.state = tr.target ∧ y.stack = x.stack := by
  cases tr with
  | epsilon t _ => exact ⟨{ x with state := t }, rfl, rfl, rfl⟩
  | predicate t _ _ _ => exact ⟨{ x with state := t }, ⟨h _, rfl⟩, rfl, rfl⟩
  | action t d r a p =>
    by_cases hx : x.stack = []
    · refine ⟨{ x with state := t, acts := x.acts ++ [env.atn.lexerActions[a.toNat]'h.2] }, ?_, rfl, rfl⟩
      simp only [Free, if_pos hx]
      exact ⟨_, h.1, by simp, rfl⟩
    · exact ⟨{ x with state := t }, by simp only [Free, if_neg hx], rfl, rfl⟩
  | _ => exact h.elim

theorem skips_reads {tr : Trans} (h : Skips env tr) {t : Int} : ¬ ReadsSym tr t := by
  cases tr <;> simp_all [Skips, ReadsSym]

theorem dot_free {tr : Trans} (h : Dot tr) {holds : Int → Int → Prop} {past : Prop} {x y : Thread} :
    ¬ Free env.atn holds past tr x y := by
  cases tr <;> simp_all [Dot, Free]

theorem dot_range {tr : Trans} (h : Dot tr) {t : Int} (hr : ReadsSym tr t) : t ≠ EOF := by
  rintro rfl
  cases tr <;> simp_all [Dot, ReadsSym, EOF]

/-! ## Along a line -/

theorem line_choice {s t : Nat} {word : List Int} (h : Line env s word t) {holds : Int → Int → Prop} {past : Prop} {w u : Way}
    (hs : w.thread.state = s) (hk : w.thread.stack = []) (hc : Choice env.atn holds past w u) :
    (s = t ∧ word = []) ∨ (Line env u.thread.state word t ∧ u.thread.stack = [] ∧
      ∃ i y, u = w.move env.atn i y) := by
  cases h with
  | done => exact .inl ⟨rfl, rfl⟩
  | pass h1 h2 h3 h4 h5 =>
    obtain ⟨-, i, tr, y, k1, k2, rfl⟩ := choice_at hc (by rw [hs]; exact h1) hk
    obtain ⟨rfl, rfl⟩ := one_edge h3 k1
    obtain ⟨e1, e2⟩ := skips_free h4 k2
    exact .inr ⟨by show Line env y.state _ _; rw [e1]; exact h5, by show y.stack = []; rw [e2, hk], 0, y, rfl⟩
  | read h1 h2 h3 h4 h5 =>
    obtain ⟨-, i, tr, y, k1, k2, rfl⟩ := choice_at hc (by rw [hs]; exact h1) hk
    obtain ⟨rfl, rfl⟩ := one_edge h3 k1
    exact absurd k2.2.1.symm h4

theorem line_reads {s t : Nat} {word : List Int} (h : Line env s word t) {a : ATNState} {tr : Trans} {c : Int}
    (hs : env.atn.states[s]? = some a) (ht : tr ∈ a.transitions) (hr : ReadsSym tr c) :
    (s = t ∧ word = []) ∨ ∃ word', word = c :: word' ∧ c ≠ EOF ∧ Line env tr.target word' t := by
  cases h with
  | done => exact .inl ⟨rfl, rfl⟩
  | pass h1 h2 h3 h4 h5 =>
    rw [h1] at hs; injection hs with hs; subst hs
    rw [h3, List.mem_singleton] at ht; subst ht
    exact absurd hr (skips_reads h4)
  | read h1 h2 h3 h4 h5 =>
    rw [h1] at hs; injection hs with hs; subst hs
    rw [h3, List.mem_singleton] at ht; subst ht
    simp only [ReadsSym] at hr; subst hr
    exact .inr ⟨_, rfl, h4, h5⟩

theorem line_stop {s t : Nat} {word : List Int} (h : Line env s word t) {a : ATNState} (hs : env.atn.states[s]? = some a)
    (ha : a.stateType = .ruleStop) : s = t ∧ word = [] := by
  cases h with
  | done => exact ⟨rfl, rfl⟩
  | pass h1 h2 => rw [h1] at hs; injection hs with hs; subst hs; exact absurd ha h2
  | read h1 h2 => rw [h1] at hs; injection hs with hs; subst hs; exact absurd ha h2

/-- A line that reads no more is followed to its end. -/
theorem line_end {s t : Nat} {word : List Int} (h : Line env s word t) (hw : word = []) {k : Nat} : ∀ {w : Way},
    w.thread.state = s → w.thread.stack = [] → ∃ u, Goes env L cs ix n k w u ∧ u.thread.state = t ∧ u.thread.stack = [] := by
  induction h with
  | done => intro w h1 h2; exact ⟨w, .refl, h1, h2⟩
  | pass h1 h2 h3 h4 h5 ih =>
    intro w k1 k2
    obtain ⟨y, y1, y2, y3⟩ := skips_goes (L := L) (cs := cs) (ix := ix) (p := n + k) (past := cs.length < n + k) h4 w.thread
    obtain ⟨u, u1, u2⟩ := ih hw (w := w.move env.atn 0 y) y2 (by show y.stack = []; rw [y3, k2])
    exact ⟨u, .head (.edge (by rw [k1]; exact h1) h2 (by rw [h3]; rfl) y1) u1, u2⟩
  | read => simp at hw

/-- ... and one that reads, to the state that does. -/
theorem line_next {s t : Nat} {word : List Int} (h : Line env s word t) {c : Int} {rest : List Int} (hw : word = c :: rest)
    {k : Nat} : ∀ {w : Way}, w.thread.state = s → w.thread.stack = [] → ∃ u a v, Goes env L cs ix n k w u ∧
      u.thread.stack = [] ∧ env.atn.states[u.thread.state]? = some a ∧ Trans.atom v c ∈ a.transitions ∧ Line env v rest t := by
  induction h with
  | done => simp at hw
  | pass h1 h2 h3 h4 h5 ih =>
    intro w k1 k2
    obtain ⟨y, y1, y2, y3⟩ := skips_goes (L := L) (cs := cs) (ix := ix) (p := n + k) (past := cs.length < n + k) h4 w.thread
    obtain ⟨u, a, v, u1, u2⟩ := ih hw (w := w.move env.atn 0 y) y2 (by show y.stack = []; rw [y3, k2])
    exact ⟨u, a, v, .head (.edge (by rw [k1]; exact h1) h2 (by rw [h3]; rfl) y1) u1, u2⟩
  | read h1 h2 h3 h4 h5 =>
    intro w k1 k2
    injection hw with e1 e2; subst e1; subst e2
    exact ⟨w, _, _, .refl, k2, by rw [k1]; exact h1, by rw [h3]; simp, h5⟩

/-! ## Continuations -/

/-- `w`, after `k` symbols, goes on from `y`, after `q` symbols, and is not given up in between. -/
inductive From (env : Env D) (L : Lex D) (cs : List Int) (ix : Nat → Int) (n : Nat) (st : ATNState) (q : Nat) (y : Way) :
    Nat → Way → Prop
  | here {w : Way} : Goes env L cs ix n q y w → From env L cs ix n st q y q w
  | later {k : Nat} {v w : Way} : From env L cs ix n st q y k v → ¬ Cut env.atn (Reached env L cs ix n st k) v →
      n + k ≤ cs.length →
      Takes env.atn (holdsAt env L cs ix (n + k + 1)) (cs.length < n + k + 1) ((cs[n + k]?).getD EOF) v w →
      From env L cs ix n st q y (k + 1) w

variable {q : Nat} {y : Way}

theorem From.le {k : Nat} {w : Way} (h : From env L cs ix n st q y k w) : q ≤ k := by
  induction h with
  | here => exact Nat.le_refl _
  | later _ _ _ _ ih => omega

theorem From.goes {k : Nat} {w u : Way} (h : From env L cs ix n st q y k w) (hg : Goes env L cs ix n k w u) :
    From env L cs ix n st q y k u := by
  cases h with
  | here h => exact .here (h.trans hg)
  | later h1 h2 h3 h4 =>
    obtain ⟨s, tr, k1, k2, k3, k4⟩ := h4
    exact .later h1 h2 h3 ⟨s, tr, k1, k2, k3, k4.trans hg⟩

theorem From.reached {k : Nat} {w : Way} (h : From env L cs ix n st q y k w) (hy : Reached env L cs ix n st q y) :
    Reached env L cs ix n st k w := by
  induction h with
  | here h => exact goes_reached hy h
  | later _ h2 h3 h4 ih => exact ⟨_, ih, h2, h3, h4⟩

theorem From.passed {k : Nat} {w : Way} (h : From env L cs ix n st q y k w) (hy : y.passed = true) : w.passed = true := by
  induction h with
  | here h => exact (choices_same h).2.2.2 hy
  | later _ _ _ h4 ih => exact (takes_same h4).2.2 ih

theorem From.rule {k : Nat} {w : Way} (h : From env L cs ix n st q y k w) : w.rule = y.rule := by
  induction h with
  | here h => exact (choices_same h).1
  | later _ _ _ h4 ih => rw [(takes_same h4).1, ih]

theorem From.history {k : Nat} {w : Way} (h : From env L cs ix n st q y k w) : ∃ hist r, hist.length = k - q ∧
    w.now :: w.before = hist ++ (y.now ++ r) :: y.before := by
  induction h with
  | here h =>
    obtain ⟨-, h2, ⟨s, h3⟩, -⟩ := choices_same h
    exact ⟨[], s, by simp, by rw [h2, h3]; rfl⟩
  | @later k v w h0 _ _ h4 ih =>
    obtain ⟨hist, r, e1, e2⟩ := ih
    have := h0.le
    exact ⟨w.now :: hist, r, by rw [List.length_cons, e1]; omega, by rw [(takes_same h4).2.1, e2]; rfl⟩

/-- What is continued has come by every position in between. -/
theorem From.between {k : Nat} {w : Way} (h : From env L cs ix n st q y k w) : ∀ j, q ≤ j → j < k →
    ∃ v, From env L cs ix n st q y j v ∧ ¬ Cut env.atn (Reached env L cs ix n st j) v := by
  induction h with
  | here => intro j h1 h2; omega
  | @later k v w h0 h1 _ _ ih =>
    intro j k1 k2
    by_cases e : j = k
    · subst e; exact ⟨v, h0, h1⟩
    · exact ih j k1 (by omega)

theorem earlier_diverge {a b : List Nat} {p : List (List Nat)} (hab : a < b) : ∀ {h h' : List (List Nat)},
    h.length = h'.length → Earlier (h ++ a :: p) (h' ++ b :: p)
  | [], [], _ => .inr ⟨rfl, hab⟩
  | _ :: h, _ :: h', e => .inl (earlier_diverge hab (by simpa using e))

/-- Ways that chose the first edge are before those that chose the second. -/
theorem diverge {k : Nat} {u v : Way} {t t' : Thread} (hu : From env L cs ix n st q (y.move env.atn 0 t) k u)
    (hv : From env L cs ix n st q (y.move env.atn 1 t') k v) : u.rule = v.rule ∧ Before u v := by
  have e : u.rule = v.rule := by rw [hu.rule, hv.rule]; rfl
  obtain ⟨h1, r1, k1, k2⟩ := hu.history
  obtain ⟨h2, r2, k3, k4⟩ := hv.history
  refine ⟨e, .inr ⟨e, ?_⟩⟩
  rw [k2, k4]
  refine earlier_diverge ?_ (by rw [k1, k3])
  show y.now ++ [0] ++ r1 < y.now ++ [1] ++ r2
  rw [List.append_assoc, List.append_assoc]
  exact append_lt.2 (by simp [List.cons_lt_cons_iff])

/-! ## Where a way is -/

section
variable {s0 : Nat} {op cl : List Int} {dot : Trans} {e x b d z : Nat} {num p p' : Int} {kind : DecisionState}
  {se sd sz : ATNState} {i : Nat} {tr0 : Trans}

/-- At the decisions after `OPEN`, up to position `m`, the loop was taken. -/
def Looped (env : Env D) (L : Lex D) (cs : List Int) (ix : Nat → Int) (n : Nat) (st : ATNState) (op : List Int) (e b : Nat)
    (m k : Nat) (w : Way) : Prop :=
  ∀ q, op.length ≤ q → q < m → ∃ y, Reached env L cs ix n st q y ∧ y.passed = true ∧ y.thread.state = e ∧
    y.thread.stack = [] ∧ From env L cs ix n st q (y.move env.atn 1 { y.thread with state := b }) k w

theorem Looped.goes {m k : Nat} {w u : Way} (h : Looped env L cs ix n st op e b m k w) (hg : Goes env L cs ix n k w u) :
    Looped env L cs ix n st op e b m k u := by
  intro q h1 h2
  obtain ⟨y, k1, k2, k3, k4, k5⟩ := h q h1 h2
  exact ⟨y, k1, k2, k3, k4, k5.goes hg⟩

theorem Looped.takes {m k : Nat} {w u : Way} (h : Looped env L cs ix n st op e b m k w)
    (hc : ¬ Cut env.atn (Reached env L cs ix n st k) w) (hk : n + k ≤ cs.length)
    (ht : Takes env.atn (holdsAt env L cs ix (n + k + 1)) (cs.length < n + k + 1) ((cs[n + k]?).getD EOF) w u) :
    Looped env L cs ix n st op e b m (k + 1) u := by
  intro q h1 h2
  obtain ⟨y, k1, k2, k3, k4, k5⟩ := h q h1 h2
  exact ⟨y, k1, k2, k3, k4, .later k5 hc hk ht⟩

/-- In `OPEN`, in the loop, or in `CLOSE`. -/
inductive Spot (env : Env D) (L : Lex D) (cs : List Int) (ix : Nat → Int) (n : Nat) (st : ATNState) (op cl : List Int)
    (e b d z : Nat) (k : Nat) (w : Way) : Prop
  | opening {o1 o2 : List Int} : op = o1 ++ o2 → k = o1.length → Stands cs n o1 → Line env w.thread.state o2 e →
      Spot env L cs ix n st op cl e b d z k w
  | back : op.length ≤ k → Stands cs n op → n + k ≤ cs.length → Line env w.thread.state [] e →
      Looped env L cs ix n st op e b k k w → Spot env L cs ix n st op cl e b d z k w
  | body : op.length ≤ k → Stands cs n op → n + k ≤ cs.length → Line env w.thread.state [] d →
      Looped env L cs ix n st op e b (k + 1) k w → Spot env L cs ix n st op cl e b d z k w
  | closing {q : Nat} {c1 c2 : List Int} : op.length ≤ q → Stands cs n op → n + q ≤ cs.length → cl = c1 ++ c2 → k = q + c1.length →
      Stands cs (n + q) c1 → Line env w.thread.state c2 z → Looped env L cs ix n st op e b q k w →
      Spot env L cs ix n st op cl e b d z k w

variable (hg : Tidy env.atn) (he : env.atn.states[e]? = some se) (he1 : se.stateType = .decision num true kind)
  (he2 : se.transitions = [.epsilon x p, .epsilon b p']) (hb : Line env b [] d) (hd : env.atn.states[d]? = some sd)
  (hd2 : sd.transitions = [dot]) (hdot : Dot dot)
  (hf : Line env dot.target [] e) (hx : Line env x cl z) (hz : env.atn.states[z]? = some sz) (hz1 : sz.stateType = .ruleStop)
include hg he he1 he2 hb hd hd2 hdot hf hx hz hz1

theorem choosy_e : choosy env.atn e = true := by
  simp [choosy, he, he1]

theorem stands_len {cs : List Int} {p : Nat} {l : List Int} (h : Stands cs p l) (hl : l ≠ []) : p + l.length ≤ cs.length := by
  have := h.length_le
  rw [List.length_drop] at this
  have : 0 < l.length := List.length_pos_iff.2 hl
  omega

/-- The decision. -/
theorem decide_step {k : Nat} {w u : Way} (hr : Reached env L cs ix n st k w) (hw : w.passed = true)
    (hs : w.thread.state = e) (hk : w.thread.stack = []) (hlen : op.length ≤ k) (hop : Stands cs n op)
    (hnk : n + k ≤ cs.length) (hl : Looped env L cs ix n st op e b k k w)
    (hc : Choice env.atn (holdsAt env L cs ix (n + k)) (cs.length < n + k) w u) :
    Spot env L cs ix n st op cl e b d z k u ∧ u.thread.stack = [] := by
  obtain ⟨-, j, tr, y, k1, k2, rfl⟩ := choice_at hc (by rw [hs]; exact he) hk
  rcases two_edges he2 k1 with ⟨rfl, rfl⟩ | ⟨rfl, rfl⟩
  · simp only [Free] at k2; subst k2
    exact ⟨.closing (q := k) (c1 := []) (c2 := cl) hlen hop hnk rfl rfl stands_nil hx (hl.goes (.single hc)), hk⟩
  · simp only [Free] at k2; subst k2
    refine ⟨.body hlen hop hnk hb ?_, hk⟩
    intro q h1 h2
    by_cases e' : q = k
    · subst e'
      exact ⟨w, hr, hw, hs, hk, .here .refl⟩
    · exact hl.goes (.single hc) q h1 (by omega)

theorem spot_choice {k : Nat} (hn : n ≤ cs.length) {w u : Way} (hr : Reached env L cs ix n st k w)
    (h : Spot env L cs ix n st op cl e b d z k w) (hk : w.thread.stack = []) (hp : w.thread.state = e → w.passed = true)
    (hc : Choice env.atn (holdsAt env L cs ix (n + k)) (cs.length < n + k) w u) :
    Spot env L cs ix n st op cl e b d z k u ∧ u.thread.stack = [] ∧ (u.thread.state = e → u.passed = true) := by
  have hpu : ∀ {j y}, (w.move env.atn j y).thread.state = e → (w.move env.atn j y).passed = true := by
    intro j y h
    have h' : y.state = e := h
    have h2 : choosy env.atn y.state = true := by
      rw [h']; simp [choosy, he, he1]
    simp [Way.move, h2]
  have hpu' : u.thread.state = e → u.passed = true := by
    cases hc with
    | edge => exact hpu
    | ret => exact hpu
  cases h with
  | @opening o1 o2 h1 h2 h3 h4 =>
    rcases line_choice h4 rfl hk hc with ⟨k1, k2⟩ | ⟨k1, k2, -⟩
    · subst k2
      rw [List.append_nil] at h1; subst h1
      have hnk : n + k ≤ cs.length := by
        by_cases e0 : op = []
        · simp [h2, e0]; exact hn
        · rw [h2]; exact stands_len hg he he1 he2 hb hd hd2 hdot hf hx hz hz1 h3 e0
      obtain ⟨a1, a2⟩ := decide_step hg he he1 he2 hb hd hd2 hdot hf hx hz hz1 hr (hp k1) k1 hk (by omega) h3 hnk
        (fun q q1 q2 => by omega) hc
      exact ⟨a1, a2, hpu'⟩
    · exact ⟨.opening h1 h2 h3 k1, k2, hpu'⟩
  | back h1 h2 h3 h4 h5 =>
    rcases line_choice h4 rfl hk hc with ⟨k1, -⟩ | ⟨k1, k2, -⟩
    · obtain ⟨a1, a2⟩ := decide_step hg he he1 he2 hb hd hd2 hdot hf hx hz hz1 hr (hp k1) k1 hk h1 h2 h3 h5 hc
      exact ⟨a1, a2, hpu'⟩
    · exact ⟨.back h1 h2 h3 k1 (h5.goes (.single hc)), k2, hpu'⟩
  | body h1 h2 h3 h4 h5 =>
    rcases line_choice h4 rfl hk hc with ⟨k1, -⟩ | ⟨k1, k2, -⟩
    · obtain ⟨-, j, tr, y, a1, a2, -⟩ := choice_at hc (by rw [k1]; exact hd) hk
      obtain ⟨rfl, rfl⟩ := one_edge hd2 a1
      exact absurd a2 (dot_free hdot)
    · exact ⟨.body h1 h2 h3 k1 (h5.goes (.single hc)), k2, hpu'⟩
  | closing h1 h2 h0 h3 h4 h5 h6 h7 =>
    rcases line_choice h6 rfl hk hc with ⟨k1, -⟩ | ⟨k1, k2, -⟩
    · obtain ⟨a1, -⟩ := choice_at hc (by rw [k1]; exact hz) hk
      exact absurd hz1 a1
    · exact ⟨.closing h1 h2 h0 h3 h4 h5 k1 (h7.goes (.single hc)), k2, hpu'⟩

theorem spot_goes {k : Nat} (hn : n ≤ cs.length) {w u : Way} (hr : Reached env L cs ix n st k w)
    (h : Spot env L cs ix n st op cl e b d z k w) (hk : w.thread.stack = []) (hp : w.thread.state = e → w.passed = true)
    (hc : Goes env L cs ix n k w u) :
    Spot env L cs ix n st op cl e b d z k u ∧ u.thread.stack = [] ∧ (u.thread.state = e → u.passed = true) := by
  induction hc with
  | refl => exact ⟨h, hk, hp⟩
  | tail h0 h1 ih =>
    obtain ⟨i1, i2, i3⟩ := ih
    exact spot_choice hg he he1 he2 hb hd hd2 hdot hf hx hz hz1 hn (goes_reached hr h0) i1 i2 i3 h1

/-- Every way of the rule is in one of these places. -/
theorem spot (hn : n ≤ cs.length) (hi : st.transitions[i]? = some tr0) (hs0 : tr0.target ≠ e) (ho : Line env tr0.target op e)
    {k : Nat} : ∀ {w : Way}, Reached env L cs ix n st k w → w.rule = ((i + 1 : Nat) : Int) →
    Spot env L cs ix n st op cl e b d z k w ∧ w.thread.stack = [] ∧ (w.thread.state = e → w.passed = true) := by
  induction k with
  | zero =>
    rintro w ⟨j, tr, h1, h2⟩ hr
    rw [(choices_same h2).1] at hr
    have : j = i := by simp only [first] at hr; omega
    subst this
    rw [hi] at h1; injection h1 with h1; subst h1
    exact spot_goes hg he he1 he2 hb hd hd2 hdot hf hx hz hz1 hn (w := first j tr0) ⟨j, tr0, hi, .refl⟩
      (.opening (o1 := []) (o2 := op) rfl rfl stands_nil ho) rfl (fun h => absurd h hs0) h2
  | succ k ih =>
    rintro w ⟨u, h1, h2, h3, s, tr, k1, k2, k3, k4⟩ hr
    have hru : u.rule = ((i + 1 : Nat) : Int) := by rw [← hr, (choices_same k4).1]; rfl
    obtain ⟨i1, i2, -⟩ := ih h1 hru
    have hT : Takes env.atn (holdsAt env L cs ix (n + k + 1)) (cs.length < n + k + 1) ((cs[n + k]?).getD EOF) u
        (u.eat env.atn tr.target) := ⟨s, tr, k1, k2, k3, .refl⟩
    have hR : Reached env L cs ix n st (k + 1) (u.eat env.atn tr.target) := ⟨u, h1, h2, h3, hT⟩
    have hpe : (u.eat env.atn tr.target).thread.state = e → (u.eat env.atn tr.target).passed = true := by
      intro h
      have h' : tr.target = e := h
      have hch : choosy env.atn tr.target = true := by rw [h']; simp [choosy, he, he1]
      simp [Way.eat, hch]
    have sym : ∀ {c : Int}, (cs[n + k]?).getD EOF = c → c ≠ EOF → cs[n + k]? = some c := by
      intro c hc hc'
      cases hh : cs[n + k]? with
      | none => rw [hh] at hc; exact absurd hc.symm hc'
      | some a => rw [hh] at hc; rw [← hc]; rfl
    refine spot_goes hg he he1 he2 hb hd hd2 hdot hf hx hz hz1 hn hR ?_ i2 hpe k4
    have noe : u.thread.state = e → False := by
      intro h
      rw [h, he] at k1; injection k1 with k1; subst k1
      rw [he2] at k2
      simp only [List.mem_cons, List.not_mem_nil, or_false] at k2
      rcases k2 with rfl | rfl <;> exact k3
    cases i1 with
    | @opening o1 o2 e1 e2 e3 e4 =>
      rcases line_reads e4 k1 k2 k3 with ⟨q1, -⟩ | ⟨o3, q1, q2, q3⟩
      · exact (noe q1).elim
      · have := sym rfl q2
        subst q1
        refine .opening (o1 := o1 ++ [(cs[n + k]?).getD EOF]) (o2 := o3) (by rw [e1, List.append_assoc]; rfl) (by simp [e2]) ?_ q3
        rw [stands_append, stands_one, ← e2]
        exact ⟨e3, this⟩
    | back e1 e2 e3 e4 e5 =>
      rcases line_reads e4 k1 k2 k3 with ⟨q1, -⟩ | ⟨o3, q1, -⟩
      · exact (noe q1).elim
      · simp at q1
    | body e1 e2 e3 e4 e5 =>
      rcases line_reads e4 k1 k2 k3 with ⟨q1, -⟩ | ⟨o3, q1, -⟩
      · rw [q1, hd] at k1; injection k1 with k1; subst k1
        rw [hd2, List.mem_singleton] at k2; subst k2
        have := sym rfl (dot_range hdot k3)
        have hlt : n + k < cs.length := (List.getElem?_eq_some_iff.1 this).1
        exact .back (by omega) e2 (by omega) hf (e5.takes h2 h3 hT)
      · simp at q1
    | @closing q c1 c2 e1 e2 e0 e3 e4 e5 e6 e7 =>
      rcases line_reads e6 k1 k2 k3 with ⟨q1, -⟩ | ⟨o3, q1, q2, q3⟩
      · obtain ⟨a1, -⟩ := reads_worth hg k1 k2 k3
        rw [q1, hz] at k1; injection k1 with k1; subst k1
        exact absurd hz1 a1
      · have := sym rfl q2
        subst q1
        refine .closing (q := q) (c1 := c1 ++ [(cs[n + k]?).getD EOF]) (c2 := o3) e1 e2 e0 (by rw [e3, List.append_assoc]; rfl)
          (by simp only [List.length_append, List.length_singleton]; omega) ?_ q3 (e7.takes h2 h3 hT)
        rw [stands_append, stands_one, Nat.add_assoc, ← e4]
        exact ⟨e5, this⟩

/-- Leaving the loop at `y` instead: as long as `CLOSE` can be read, this is not given up. -/
theorem close_goes {q : Nat} {y : Way} (hr : Reached env L cs ix n st q y) (hy : y.passed = true) (hs : y.thread.state = e)
    (hk : y.thread.stack = []) {k : Nat} {w : Way}
    (hw : From env L cs ix n st q (y.move env.atn 1 { y.thread with state := b }) k w) {c1 c2 : List Int} (hcl : cl = c1 ++ c2)
    (ht : Stands cs (n + q) c1) (hlt : q + c1.length < k) : ∃ u, Reached env L cs ix n st (q + c1.length) u ∧
      From env L cs ix n st q (y.move env.atn 0 { y.thread with state := x }) (q + c1.length) u ∧
      u.thread.stack = [] ∧ Line env u.thread.state c2 z := by
  induction c1 using List.reverseRecOn generalizing c2 with
  | nil =>
    have hc : Choice env.atn (holdsAt env L cs ix (n + q)) (cs.length < n + q) y (y.move env.atn 0 { y.thread with state := x }) :=
      .edge (tr := .epsilon x p) (by rw [hs]; exact he) (by rw [he1]; simp) (by rw [he2]; rfl) rfl
    refine ⟨_, goes_reached hr (.single hc), .here .refl, hk, ?_⟩
    rw [← show cl = c2 from hcl]; exact hx
  | append_singleton c1 c ih =>
    rw [stands_append, stands_one] at ht
    simp only [List.length_append, List.length_singleton] at hlt
    obtain ⟨u, u1, u2, u3, u4⟩ := ih (c2 := c :: c2) (by rw [hcl]; simp) ht.1 (by omega)
    obtain ⟨u', a, v, a1, a2, a3, a4, a5⟩ := line_next (L := L) (cs := cs) (ix := ix) (n := n) (k := q + c1.length) u4 rfl rfl u3
    obtain ⟨v', v1, v2⟩ := hw.between (q + c1.length) (by omega) (by omega)
    have hfr := u2.goes a1
    obtain ⟨d1, d2⟩ := diverge hfr v1
    have hnc : ¬ Cut env.atn (Reached env L cs ix n st (q + c1.length)) u' := by
      rintro ⟨-, g, g1, g2, g3, g4⟩
      refine v2 ⟨v1.passed (by simp [Way.move, hy]), g, g1, g2, by rw [g3, d1], before_trans g4 d2⟩
    have hlen : n + (q + c1.length) ≤ cs.length := by
      have := (List.getElem?_eq_some_iff.1 ht.2).1; omega
    have hT : Takes env.atn (holdsAt env L cs ix (n + (q + c1.length) + 1)) (cs.length < n + (q + c1.length) + 1)
        ((cs[n + (q + c1.length)]?).getD EOF) u' (u'.eat env.atn v) := by
      refine ⟨a, .atom v c, a3, a4, ?_, .refl⟩
      rw [← Nat.add_assoc, ht.2]; rfl
    have hfin := From.later hfr hnc hlen hT
    have hre : Reached env L cs ix n st (q + c1.length + 1) (u'.eat env.atn v) := ⟨u', goes_reached u1 a1, hnc, hlen, hT⟩
    refine ⟨u'.eat env.atn v, ?_, ?_, a2, a5⟩
    · rw [List.length_append]; exact hre
    · rw [List.length_append]; exact hfin

/-- A match of the rule ends with the first `CLOSE`. -/
theorem closed (hn : n ≤ cs.length) (hi : st.transitions[i]? = some tr0) (hs0 : tr0.target ≠ e) (ho : Line env tr0.target op e)
    {k : Nat} {w : Way} (h : Hit env L cs ix n st k w) (hr : w.rule = ((i + 1 : Nat) : Int)) : ClosedAt cs n op cl k := by
  obtain ⟨h1, a, h2, h3, h4⟩ := h
  obtain ⟨hs, -, -⟩ := spot hg he he1 he2 hb hd hd2 hdot hf hx hz hz1 hn hi hs0 ho h1 hr
  have note : ∀ {s : Nat} {sx : ATNState}, env.atn.states[s]? = some sx → sx.stateType ≠ .ruleStop → w.thread.state ≠ s := by
    intro s sx q1 q2 q3
    rw [q3, q1] at h2; injection h2 with h2; subst h2; exact q2 h3
  have hse : se.stateType ≠ .ruleStop := by rw [he1]; simp
  have hsd : w.thread.state ≠ d := by
    intro q3
    rw [q3, hd] at h2; injection h2 with h2; subst h2
    have := hg.free d sd hd (.inr h3) dot (by rw [hd2]; simp)
    cases dot <;> simp_all [Dot, Trans.isEpsilon]
  cases hs with
  | opening _ _ _ e4 => exact absurd (line_stop e4 h2 h3).1 (note he hse)
  | back _ _ _ e4 => exact absurd (line_stop e4 h2 h3).1 (note he hse)
  | body _ _ _ e4 => exact absurd (line_stop e4 h2 h3).1 hsd
  | @closing q c1 c2 e1 e2 e0 e3 e4 e5 e6 e7 =>
    obtain ⟨-, rfl⟩ := line_stop e6 h2 h3
    rw [List.append_nil] at e3; subst e3
    obtain ⟨b1, b2⟩ := stands_take (cs := cs) (p := n + op.length) (k := q - op.length) (by omega)
    refine ⟨(cs.drop (n + op.length)).take (q - op.length), ?_, ?_, ?_⟩
    · rw [List.length_append, List.length_append, b2]; omega
    · rw [stands_append, stands_append]
      refine ⟨⟨e2, b1⟩, ?_⟩
      rw [List.length_append, b2, show n + (op.length + (q - op.length)) = n + q by omega]
      exact e5
    · intro q' g1 g2
      by_contra hlt
      obtain ⟨y, y1, y2, y3, y4, y5⟩ := e7 q' g1 (by omega)
      obtain ⟨u, u1, u2, u3, u4⟩ := close_goes hg he he1 he2 hb hd hd2 hdot hf hx hz hz1 y1 y2 y3 y4 y5 (c1 := cl) (c2 := [])
        (by simp) g2 (by omega)
      obtain ⟨u', v1, v2, v3⟩ := line_end (L := L) (cs := cs) (ix := ix) (n := n) (k := q' + cl.length) u4 rfl rfl u3
      obtain ⟨v, w1, w2⟩ := y5.between (q' + cl.length) (by omega) (by omega)
      obtain ⟨d1, d2⟩ := diverge (u2.goes v1) w1
      exact w2 ⟨w1.passed (by simp [Way.move, y2]), u', goes_reached u1 v1, ⟨sz, by rw [v2]; exact hz, hz1, v3⟩, d1, d2⟩
omit hg he he1 he2 hb hd hd2 hdot hf hx hz hz1 in
/-- A line is followed as long as the rule's ways are not given up. -/
theorem line_follow {k : Nat} {a : Int} (hU : ∀ j, j < k → ∀ u, Reached env L cs ix n st j u → u.rule = a →
      ¬ Cut env.atn (Reached env L cs ix n st j) u) {s t : Nat} {word : List Int} (h : Line env s word t) :
    ∀ {j : Nat} {w : Way}, Reached env L cs ix n st j w → w.rule = a → w.thread.state = s → w.thread.stack = [] →
    Stands cs (n + j) word → j + word.length ≤ k → ∃ u, Reached env L cs ix n st (j + word.length) u ∧ u.rule = a ∧
      u.thread.state = t ∧ u.thread.stack = [] := by
  induction h with
  | done => intro j w h1 h2 h3 h4 _ _; exact ⟨w, h1, h2, h3, h4⟩
  | pass h1 h2 h3 h4 h5 ih =>
    intro j w k1 k2 k3 k4 k5 k6
    obtain ⟨y, y1, y2, y3⟩ := skips_goes (L := L) (cs := cs) (ix := ix) (p := n + j) (past := cs.length < n + j) h4 w.thread
    exact ih (goes_reached k1 (.single (.edge (y := y) (by rw [k3]; exact h1) h2 (i := 0) (by rw [h3]; rfl) y1))) k2 y2
      (by show y.stack = []; rw [y3, k4]) k5 k6
  | @read s t stt u c word h1 h2 h3 h4 h5 ih =>
    intro j w k1 k2 k3 k4 k5 k6
    rw [List.length_cons] at k6
    rw [show c :: word = [c] ++ word from rfl, stands_append, stands_one] at k5
    have hlt := (List.getElem?_eq_some_iff.1 k5.1).1
    have hR : Reached env L cs ix n st (j + 1) (w.eat env.atn u) :=
      ⟨w, k1, hU j (by omega) w k1 k2, by omega, stt, .atom u c, by rw [k3]; exact h1, by rw [h3]; simp,
        by rw [k5.1]; rfl, .refl⟩
    obtain ⟨v, v1, v2⟩ := ih hR k2 rfl k4 k5.2 (by omega)
    exact ⟨v, by rw [List.length_cons, show j + (word.length + 1) = j + 1 + word.length by omega]; exact v1, v2⟩

/-- Where the text has `OPEN`, a body of symbols the loop reads, and the first `CLOSE`, the rule matches. -/
theorem found (hn : n ≤ cs.length) (hi : st.transitions[i]? = some tr0) (hs0 : tr0.target ≠ e) (ho : Line env tr0.target op e)
    {body : List Int} (ht : Stands cs n (op ++ body ++ cl)) (hbody : ∀ c ∈ body, ReadsSym dot c)
    (hfirst : ∀ q, op.length ≤ q → Stands cs (n + q) cl → (op ++ body ++ cl).length ≤ q + cl.length) :
    ∃ w, Hit env L cs ix n st (op ++ body ++ cl).length w ∧ w.rule = ((i + 1 : Nat) : Int) := by
  have hU : ∀ j, j < (op ++ body ++ cl).length → ∀ u, Reached env L cs ix n st j u → u.rule = ((i + 1 : Nat) : Int) →
      ¬ Cut env.atn (Reached env L cs ix n st j) u := by
    rintro j hj u - hu ⟨-, a, a1, a2, a3, -⟩
    obtain ⟨body', b1, b2, b3⟩ := closed hg he he1 he2 hb hd hd2 hdot hf hx hz hz1 hn hi hs0 ho ⟨a1, a2⟩ (a3.trans hu)
    rw [stands_append] at b2
    have := hfirst (op ++ body').length (by simp) b2.2
    rw [b1] at hj
    simp only [List.length_append] at this hj
    omega
  have hse : se.stateType ≠ .ruleStop := by rw [he1]; simp
  rw [stands_append, stands_append] at ht
  obtain ⟨w0, r0, s0, t0, u0⟩ := line_follow hU ho (j := 0) (w := first i tr0) ⟨i, tr0, hi, .refl⟩ rfl rfl rfl ht.1.1 (by simp)
  rw [Nat.zero_add] at r0
  have loop : ∀ b1 b2, body = b1 ++ b2 → ∃ w, Reached env L cs ix n st (op.length + b1.length) w ∧
      w.rule = ((i + 1 : Nat) : Int) ∧ w.thread.state = e ∧ w.thread.stack = [] := by
    intro b1
    induction b1 using List.reverseRecOn with
    | nil => intro b2 _; exact ⟨w0, r0, s0, t0, u0⟩
    | append_singleton b1 c ih =>
      intro b2 hb2
      obtain ⟨w, q1, q2, q3, q4⟩ := ih (c :: b2) (by rw [hb2]; simp)
      have hlen : op.length + b1.length < (op ++ body ++ cl).length := by
        rw [hb2]; simp only [List.length_append, List.length_singleton]; omega
      have hst : cs[n + op.length + b1.length]? = some c := by
        have := ht.1.2
        rw [hb2, stands_append, stands_append, stands_one] at this
        exact this.1.2
      have hb1 := goes_reached q1 (.single (.edge (y := { w.thread with state := b }) (tr := .epsilon b p')
        (by rw [q3]; exact he) hse (i := 1) (by rw [he2]; rfl) rfl))
      obtain ⟨w1, p1, p2, p3, p4⟩ := line_follow hU hb hb1 q2 rfl q4 stands_nil (by simp only [List.length_nil]; omega)
      have hlt := (List.getElem?_eq_some_iff.1 hst).1
      have hR : Reached env L cs ix n st (op.length + b1.length + 1) (w1.eat env.atn dot.target) :=
        ⟨w1, p1, hU _ hlen w1 p1 p2, by omega, sd, dot, by rw [p3]; exact hd, by rw [hd2]; simp,
          by rw [← Nat.add_assoc, hst]; exact hbody c (by rw [hb2]; simp), .refl⟩
      obtain ⟨w2, o1, o2⟩ := line_follow hU hf hR p2 rfl p4 stands_nil (by simp only [List.length_nil]; omega)
      exact ⟨w2, by rw [List.length_append]; exact o1, o2⟩
  obtain ⟨w, q1, q2, q3, q4⟩ := loop body [] (by simp)
  have hx1 := goes_reached q1 (.single (.edge (y := { w.thread with state := x }) (tr := .epsilon x p)
    (by rw [q3]; exact he) hse (i := 0) (by rw [he2]; rfl) rfl))
  obtain ⟨w1, p1, p2, p3, p4⟩ := line_follow hU hx hx1 q2 rfl q4 (by
    rw [← List.length_append]; exact ht.2) (by simp only [List.length_append]; omega)
  refine ⟨w1, ⟨?_, sz, by rw [p3]; exact hz, hz1, p4⟩, p2⟩
  rw [List.length_append, List.length_append]; exact p1

end
end

end Antlr.LexLazy
