import Verif.Lexer.TotalSpec
import Verif.Lexer.Prefix

/-!
# The traversals of the lexer simulator return
-/

namespace Antlr.LexTotal
open Antlr Lexer LexPaths LexCache LexSpec IntervalSpec IntervalSet

set_option linter.unusedSectionVars false

/-! ## Chains of idle steps -/

section
variable {atn : ATN}

theorem chain_mono {n : Nat} : ∀ {x : Thread}, Chain atn (n + 1) x → Chain atn n x := by
  induction n with
  | zero => intro x _; trivial
  | succ n ih =>
    rintro x ⟨y, h1, h2⟩
    exact ⟨y, h1, ih h2⟩

theorem chain_le {m n : Nat} (h : m ≤ n) {x : Thread} (hc : Chain atn n x) : Chain atn m x := by
  induction h with
  | refl => exact hc
  | step _ ih => exact ih (chain_mono hc)

/-- What an idle step does to the stack does not depend on the actions, nor on what is deeper in the
stack, unless it returns there. -/
theorem idle_split (hw : Whole atn) {s : Nat} {k1 k2 : List Nat} {a : List LexerAction} {y : Thread}
    (h : Idle atn ⟨s, k1 ++ k2, a⟩ y) :
    (∃ k1' a', y.stack = k1' ++ k2 ∧ Idle atn ⟨s, k1, []⟩ ⟨y.state, k1', a'⟩) ∨
    (k1 = [] ∧ k2 = y.state :: y.stack) := by
  cases h with
  | @edge _ st tr h1 h2 h3 h4 =>
    left
    have go : ∀ (k1' : List Nat) (a' : List LexerAction), y.stack = k1' ++ k2 →
        Free atn (fun _ _ => True) True tr ⟨s, k1, []⟩ ⟨y.state, k1', a'⟩ →
        ∃ k1' a', y.stack = k1' ++ k2 ∧ Idle atn ⟨s, k1, []⟩ ⟨y.state, k1', a'⟩ :=
      fun k1' a' e f => ⟨k1', a', e, .edge h1 h2 h3 f⟩
    cases tr with
    | epsilon t p => simp only [Free] at h4; subst h4; exact go k1 [] rfl rfl
    | rule t f r p => simp only [Free] at h4; subst h4; exact go (f :: k1) [] rfl rfl
    | predicate t b r p => obtain ⟨-, rfl⟩ := h4; exact go k1 [] rfl ⟨trivial, rfl⟩
    | action t b r i p =>
      have hy : y.state = t ∧ y.stack = k1 ++ k2 := by
        simp only [Free] at h4
        split at h4
        · obtain ⟨act, _, _, rfl⟩ := h4; exact ⟨rfl, rfl⟩
        · subst h4; exact ⟨rfl, rfl⟩
      by_cases hk : k1 = []
      · obtain ⟨i1, i2⟩ := hw.action _ _ h1 t b r i p h3
        refine go k1 [atn.lexerActions[i.toNat]] hy.2 ?_
        simp only [Free, if_pos hk]
        exact ⟨_, i1, List.getElem?_eq_getElem i2, by rw [hy.1]; rfl⟩
      · refine go k1 [] hy.2 ?_
        simp only [Free, if_neg hk, hy.1]
    | atom t l => obtain ⟨-, h5, rfl⟩ := h4; exact go k1 [] rfl ⟨trivial, h5, rfl⟩
    | range t l u => obtain ⟨-, h5, rfl⟩ := h4; exact go k1 [] rfl ⟨trivial, h5, rfl⟩
    | set t l => obtain ⟨-, h5, rfl⟩ := h4; exact go k1 [] rfl ⟨trivial, h5, rfl⟩
    | notSet => exact absurd h4 (by simp [Free])
    | wildcard => exact absurd h4 (by simp [Free])
    | precedence => exact absurd h4 (by simp [Free])
  | @ret st f k h1 h2 h3 =>
    cases k1 with
    | nil => right; exact ⟨rfl, h3⟩
    | cons g k1 =>
      left
      simp only [List.cons_append, List.cons.injEq] at h3
      obtain ⟨rfl, rfl⟩ := h3
      exact ⟨k1, [], rfl, .ret h1 h2 rfl⟩

theorem chain_acts (n : Nat) : ∀ {s : Nat} {k : List Nat} {a a' : List LexerAction},
    Chain atn n ⟨s, k, a⟩ ↔ Chain atn n ⟨s, k, a'⟩ := by
  have one : ∀ (n : Nat) {s : Nat} {k : List Nat} {a a' : List LexerAction},
      Chain atn n ⟨s, k, a⟩ → Chain atn n ⟨s, k, a'⟩ := by
    intro n
    induction n with
    | zero => intros; trivial
    | succ n ih =>
      rintro s k a a' ⟨⟨ys, yk, ya⟩, h1, h2⟩
      have : ∃ b, Idle atn ⟨s, k, a'⟩ ⟨ys, yk, b⟩ := by
        cases h1 with
        | @edge _ st tr h1 h2 h3 h4 =>
          suffices ∃ b, Free atn (fun _ _ => True) True tr ⟨s, k, a'⟩ ⟨ys, yk, b⟩ by
            obtain ⟨b, h⟩ := this; exact ⟨b, .edge h1 h2 h3 h⟩
          cases tr with
          | epsilon t p => simp only [Free, Thread.mk.injEq] at h4 ⊢; exact ⟨a', h4.1, h4.2.1, rfl⟩
          | rule t f r p => simp only [Free, Thread.mk.injEq] at h4 ⊢; exact ⟨a', h4.1, h4.2.1, rfl⟩
          | predicate t b r p => simp only [Free, Thread.mk.injEq] at h4 ⊢; exact ⟨a', trivial, h4.2.1, h4.2.2.1, rfl⟩
          | action t b r i p =>
            simp only [Free, Thread.mk.injEq] at h4 ⊢
            by_cases hk : k = []
            · rw [if_pos hk] at h4
              obtain ⟨act, i1, i2, i3, i4, _⟩ := h4
              exact ⟨a' ++ [act], by rw [if_pos hk]; exact ⟨act, i1, i2, i3, i4, rfl⟩⟩
            · rw [if_neg hk] at h4
              exact ⟨a', by rw [if_neg hk]; exact ⟨h4.1, h4.2.1, rfl⟩⟩
          | atom t l => simp only [Free, Thread.mk.injEq] at h4 ⊢; exact ⟨a', trivial, h4.2.1, h4.2.2.1, h4.2.2.2.1, rfl⟩
          | range t l u => simp only [Free, Thread.mk.injEq] at h4 ⊢; exact ⟨a', trivial, h4.2.1, h4.2.2.1, h4.2.2.2.1, rfl⟩
          | set t l => simp only [Free, Thread.mk.injEq] at h4 ⊢; exact ⟨a', trivial, h4.2.1, h4.2.2.1, h4.2.2.2.1, rfl⟩
          | notSet => exact absurd h4 (by simp [Free])
          | wildcard => exact absurd h4 (by simp [Free])
          | precedence => exact absurd h4 (by simp [Free])
        | @ret st f k' g1 g2 g3 => exact ⟨a', .ret g1 g2 g3⟩
      obtain ⟨b, hb⟩ := this
      exact ⟨_, hb, ih h2⟩
  exact fun {s k a a'} => ⟨one n, one n⟩

theorem chain_split (hw : Whole atn) {f : Nat} {k2 : List Nat} (n : Nat) :
    ∀ {s : Nat} {k1 : List Nat} {a : List LexerAction}, Chain atn n ⟨s, k1 ++ f :: k2, a⟩ →
    (∃ a', Chain atn n ⟨s, k1, a'⟩) ∨
    ∃ m n' a' a'', n = m + 1 + n' ∧ Chain atn m ⟨s, k1, a'⟩ ∧ Chain atn n' ⟨f, k2, a''⟩ := by
  induction n with
  | zero => intro s k1 a _; exact .inl ⟨[], trivial⟩
  | succ n ih =>
    rintro s k1 a ⟨⟨ys, yk, ya⟩, h1, h2⟩
    rcases idle_split hw h1 with ⟨k1', a', e1, e2⟩ | ⟨rfl, e⟩
    · simp only at e1 e2
      subst e1
      rcases ih h2 with ⟨a1, h3⟩ | ⟨m, n', a1, a2, rfl, h3, h4⟩
      · refine .inl ⟨[], _, e2, ?_⟩
        exact (chain_acts n).mpr h3
      · refine .inr ⟨m + 1, n', [], a2, by omega, ⟨_, e2, (chain_acts m).mpr h3⟩, h4⟩
    · simp only [List.cons.injEq] at e
      obtain ⟨rfl, rfl⟩ := e
      exact .inr ⟨0, n, [], ya, by omega, trivial, h2⟩
theorem chain_bound (hw : Whole atn) {N : Nat} (hl : ∀ s, ¬ Chain atn N ⟨s, [], []⟩) (k : List Nat) :
    ∀ (s : Nat) (a : List LexerAction), ¬ Chain atn (N * (k.length + 1)) ⟨s, k, a⟩ := by
  have h0 : ∀ s a, ¬ Chain atn N ⟨s, [], a⟩ := fun s a h => hl s ((chain_acts N).mp h)
  induction k with
  | nil => intro s a h; exact h0 s a (by simpa using h)
  | cons f k ih =>
    intro s a h
    have e : N * ((f :: k).length + 1) = N * (k.length + 1) + N := by
      simp only [List.length_cons]; exact Nat.mul_succ _ _
    rcases chain_split hw (f := f) (k2 := k) (k1 := []) _ h with ⟨a', h1⟩ | ⟨m, n', a', a'', e', h1, h2⟩
    · exact h0 s a' (chain_le (by rw [e]; omega) h1)
    · have : m < N := by
        by_contra hm
        exact h0 s a' (chain_le (by omega) h1)
      exact ih f a'' (chain_le (by omega) h2)

/-! ## Bounds -/

/-- The states of the thread exist. -/
def Inside (atn : ATN) (x : Thread) : Prop := x.state < atn.states.length ∧ ∀ f ∈ x.stack, f < atn.states.length

/-- All but `K` of the stack was pushed since something was last read, in a run of less than `N` steps; so
the stack cannot become longer than `K + N` without reading. -/
def Bounded (atn : ATN) (N K : Nat) (x : Thread) : Prop :=
  ∃ k1 k2 m, x.stack = k1 ++ k2 ∧ k2.length ≤ K ∧ ¬ Chain atn m ⟨x.state, k1, []⟩ ∧ k1.length + m ≤ N

theorem idle_inside (hw : Whole atn) {x y : Thread} (hx : Inside atn x) (h : Idle atn x y) :
    Inside atn y ∧ y.stack.length ≤ x.stack.length + 1 := by
  cases h with
  | @edge _ st tr h1 h2 h3 h4 =>
    have ht := hw.target _ _ h1 tr h3
    cases tr with
    | epsilon t p => simp only [Free] at h4; subst h4; exact ⟨⟨ht, hx.2⟩, by simp⟩
    | rule t f r p =>
      simp only [Free] at h4; subst h4
      refine ⟨⟨ht, ?_⟩, by simp⟩
      intro g hg
      simp only [List.mem_cons] at hg
      rcases hg with rfl | hg
      · exact (hw.follow _ _ h1 t g r p h3).1
      · exact hx.2 g hg
    | predicate t b r p => obtain ⟨-, rfl⟩ := h4; exact ⟨⟨ht, hx.2⟩, by simp⟩
    | action t b r i p =>
      simp only [Free] at h4
      split at h4
      · obtain ⟨act, _, _, rfl⟩ := h4; exact ⟨⟨ht, hx.2⟩, by simp⟩
      · subst h4; exact ⟨⟨ht, hx.2⟩, by simp⟩
    | atom t l => obtain ⟨-, -, rfl⟩ := h4; exact ⟨⟨ht, hx.2⟩, by simp⟩
    | range t l u => obtain ⟨-, -, rfl⟩ := h4; exact ⟨⟨ht, hx.2⟩, by simp⟩
    | set t l => obtain ⟨-, -, rfl⟩ := h4; exact ⟨⟨ht, hx.2⟩, by simp⟩
    | notSet => exact absurd h4 (by simp [Free])
    | wildcard => exact absurd h4 (by simp [Free])
    | precedence => exact absurd h4 (by simp [Free])
  | @ret st f k h1 h2 h3 =>
    refine ⟨⟨hx.2 f (by simp [h3]), fun g hg => hx.2 g (by simp at hg; simp [h3, hg])⟩, by simp [h3]; omega⟩

theorem bounded_idle (hw : Whole atn) {N K : Nat} (hl : ∀ s, ¬ Chain atn N ⟨s, [], []⟩) {x y : Thread}
    (hx : Inside atn x) (hb : Bounded atn N K x) (h : Idle atn x y) : Bounded atn N K y := by
  obtain ⟨k1, k2, m, h1, h2, h3, h4⟩ := hb
  have h5 := (idle_inside hw hx h).2
  obtain ⟨s, k, a⟩ := x
  simp only at h1 h3 h5
  subst h1
  rcases idle_split hw h with ⟨k1', a', e1, e2⟩ | ⟨rfl, rfl⟩
  · cases m with
    | zero => exact absurd trivial h3
    | succ m =>
      refine ⟨k1', k2, m, e1, h2, fun hc => h3 ⟨_, e2, (chain_acts m).mp hc⟩, ?_⟩
      rw [e1] at h5
      simp only [List.length_append] at h5
      omega
  · exact ⟨[], y.stack, N, rfl, by simp at h2; omega, hl _, by simp⟩

theorem bounded_idles (hw : Whole atn) {N K : Nat} (hl : ∀ s, ¬ Chain atn N ⟨s, [], []⟩) {x y : Thread}
    (hx : Inside atn x) (hb : Bounded atn N K x)
    (h : Relation.ReflTransGen (Idle atn) x y) : Inside atn y ∧ Bounded atn N K y := by
  induction h with
  | refl => exact ⟨hx, hb⟩
  | tail _ h1 ih => exact ⟨(idle_inside hw ih.1 h1).1, bounded_idle hw hl ih.1 ih.2 h1⟩

theorem bounded_length {N K : Nat} {x : Thread} (hb : Bounded atn N K x) : x.stack.length ≤ K + N := by
  obtain ⟨k1, k2, m, h1, h2, h3, h4⟩ := hb
  rw [h1, List.length_append]; omega

theorem bounded_fresh {N : Nat} (hl : ∀ s, ¬ Chain atn N ⟨s, [], []⟩) {K : Nat} {x : Thread}
    (h : x.stack.length ≤ K) : Bounded atn N K x := ⟨[], x.stack, N, rfl, h, hl _, by simp⟩

theorem bounded_chain (hw : Whole atn) {N K : Nat} (hl : ∀ s, ¬ Chain atn N ⟨s, [], []⟩) {x : Thread}
    (hb : Bounded atn N K x) : ¬ Chain atn (N * (K + N + 1)) x := by
  have := bounded_length hb
  intro hc
  exact chain_bound hw hl x.stack x.state x.acts (chain_le (Nat.mul_le_mul_left _ (by omega)) hc)

/-! ## The traversal -/

/-- The configuration is at the place of the thread. -/
structure At (c : Config) (x : Thread) : Prop where
  state : c.state = x.state
  ctx : c.ctx = ctxOf x.stack
  plain : Plain c

theorem collect_ok {α ε : Type} {P : ε → Prop} {f : α → Option (List ε × Bool)} {l : List α}
    (h : ∀ a ∈ l, ∃ r, f a = some r ∧ ∀ e ∈ r.1, P e) : ∃ r, collect f l = some r ∧ ∀ e ∈ r.1, P e := by
  induction l with
  | nil => exact ⟨_, rfl, by simp⟩
  | cons a l ih =>
    obtain ⟨r, h1, h2⟩ := h a (by simp)
    obtain ⟨q, h3, h4⟩ := ih fun b hb => h b (by simp [hb])
    refine ⟨_, by simp only [collect, h1, h3, Option.bind_some, Option.map_some]; rfl, ?_⟩
    intro e he
    simp only [List.mem_append] at he
    rcases he with he | he
    · exact h2 e he
    · exact h4 e he

theorem collect_pre {α ε : Type} {P : ε → Prop} {f : α → Option (List ε × Bool)} {l : List α} {pre : List ε}
    (hp : ∀ e ∈ pre, P e) (h : ∀ a ∈ l, ∃ r, f a = some r ∧ ∀ e ∈ r.1, P e) :
    ∃ r, (collect f l).map (fun r => (pre ++ r.1, r.2)) = some r ∧ ∀ e ∈ r.1, P e := by
  obtain ⟨r, h1, h2⟩ := collect_ok h
  refine ⟨_, by rw [h1]; rfl, ?_⟩
  intro e he
  simp only [List.mem_append] at he
  rcases he with he | he
  · exact hp e he
  · exact h2 e he

theorem matches_eof {tr : Trans} (h : tr.matches EOF LEXER_MIN_CHAR_VALUE LEXER_MAX_CHAR_VALUE = some true) :
    ReadsSym tr EOF ∧ ((∃ t l, tr = .atom t l) ∨ (∃ t l u, tr = .range t l u) ∨ ∃ t s, tr = .set t s) := by
  cases tr with
  | set t s =>
    simp only [Trans.matches, Option.some.injEq] at h
    exact ⟨contains_sound s _ h, by simp⟩
  | atom t l => simp only [Trans.matches, Option.some.injEq] at h; simpa [ReadsSym] using h
  | range t l u => simp only [Trans.matches, Option.some.injEq] at h; simpa [ReadsSym] using h
  | notSet t s => simp [Trans.matches, EOF, LEXER_MIN_CHAR_VALUE] at h
  | wildcard t => simp [Trans.matches, EOF, LEXER_MIN_CHAR_VALUE] at h
  | _ => simp [Trans.matches] at h

variable {pred : Int → Int → Option Bool} {eof : Bool}

/-- The predicates of the automaton have values. -/
def Decided (atn : ATN) (pred : Int → Int → Option Bool) : Prop :=
  ∀ (s : Nat) (st : ATNState), atn.states[s]? = some st → ∀ t b r p, Trans.predicate t b r p ∈ st.transitions →
    ∃ v, pred r p = some v

theorem epsTarget_ok (hw : Whole atn) (hp : Decided atn pred) {c : Config} {x : Thread} {st : ATNState} {tr : Trans}
    (hx : atn.states[x.state]? = some st) (hns : st.stateType ≠ .ruleStop) (htr : tr ∈ st.transitions) (ha : At c x)
    (hin : Inside atn x) :
    ∃ r, epsTarget atn pred eof c tr = some r ∧ ∀ c', r.2 = some c' → ∃ y, Idle atn x y ∧ At c' y := by
  have ht := hw.target _ _ hx tr htr
  have hts : atn.states[tr.target]? = some atn.states[tr.target] := List.getElem?_eq_getElem ht
  have step : ∀ {y : Thread}, Free atn (fun _ _ => True) True tr x y → Idle atn x y := fun h => .edge hx hns htr h
  have jump : ∀ t tst, At (cloned c t tst) { x with state := t } := fun t tst =>
    ⟨rfl, ha.ctx, plain_cloned ha.plain _ _⟩
  have he : c.ctx.hasEmptyPath = decide (x.stack = []) := by
    rw [ha.ctx]
    cases hk : x.stack with
    | nil => simpa using ctx_nil.2
    | cons f k =>
      have h1 := hin.2 f (by simp [hk])
      have h2 := hw.small
      simpa using (ctx_cons (f := f) (k := k) (by omega)).2.1
  simp only [epsTarget, hts, Option.bind_some]
  have read : ∀ (t : Nat), (tr.matches EOF LEXER_MIN_CHAR_VALUE LEXER_MAX_CHAR_VALUE).isSome = true →
      (tr.matches EOF LEXER_MIN_CHAR_VALUE LEXER_MAX_CHAR_VALUE = some true →
        Free atn (fun _ _ => True) True tr x { x with state := t }) →
      ∃ r, (if eof = true then (tr.matches EOF LEXER_MIN_CHAR_VALUE LEXER_MAX_CHAR_VALUE).map fun m =>
            (false, if m = true then some (cloned c t atn.states[tr.target]) else none)
          else some (false, none)) = some r ∧ ∀ c', r.2 = some c' → ∃ y, Idle atn x y ∧ At c' y := by
    intro t h1 h2
    obtain ⟨m, hm⟩ := Option.isSome_iff_exists.mp h1
    rw [hm] at h2 ⊢
    split
    · cases m with
      | false => exact ⟨_, rfl, by simp⟩
      | true =>
        refine ⟨_, rfl, ?_⟩
        intro c' h
        simp only [if_true, Option.some.injEq] at h
        subst h
        exact ⟨_, step (h2 rfl), jump _ _⟩
    · exact ⟨_, rfl, by simp⟩
  cases tr with
  | epsilon t p =>
    refine ⟨_, rfl, ?_⟩
    intro c' h; simp only [Option.some.injEq] at h; subst h
    exact ⟨_, step rfl, jump _ _⟩
  | rule t f r p =>
    refine ⟨_, rfl, ?_⟩
    intro c' h; simp only [Option.some.injEq] at h; subst h
    exact ⟨{ x with state := t, stack := f :: x.stack }, step rfl, rfl, by rw [ha.ctx]; rfl, plain_clonedCtx ha.plain _ _ _⟩
  | predicate t b r p =>
    obtain ⟨v, hv⟩ := hp _ _ hx t b r p htr
    simp only [hv, Option.map_some]
    refine ⟨_, rfl, ?_⟩
    intro c' h
    cases v with
    | false => simp at h
    | true =>
      simp only [if_true, Option.some.injEq] at h
      subst h
      exact ⟨_, step ⟨trivial, rfl⟩, jump _ _⟩
  | action t b r a p =>
    simp only [he, decide_eq_true_eq]
    obtain ⟨i1, i2⟩ := hw.action _ _ hx t b r a p htr
    by_cases hk : x.stack = []
    · rw [if_pos hk]
      obtain ⟨-, -, -, e, ps, hkd⟩ := ha.plain
      simp only [hkd, if_pos i1, List.getElem?_eq_getElem i2, Option.map_some]
      refine ⟨_, rfl, ?_⟩
      intro c' h; simp only [Option.some.injEq] at h; subst h
      refine ⟨{ x with state := t, acts := x.acts ++ [atn.lexerActions[a.toNat]] }, step ?_, rfl, ha.ctx,
        plain_clonedExec ha.plain _ _ _⟩
      simp only [Free, if_pos hk]
      exact ⟨_, i1, List.getElem?_eq_getElem i2, rfl⟩
    · rw [if_neg hk]
      refine ⟨_, rfl, ?_⟩
      intro c' h; simp only [Option.some.injEq] at h; subst h
      exact ⟨{ x with state := t }, step (by simp [Free, if_neg hk]), jump _ _⟩
  | atom t l => exact read t rfl fun h => ⟨trivial, (matches_eof h).1, rfl⟩
  | range t l u => exact read t rfl fun h => ⟨trivial, (matches_eof h).1, rfl⟩
  | set t l => exact read t rfl fun h => ⟨trivial, (matches_eof h).1, rfl⟩
  | notSet t s => exact ⟨_, rfl, by simp⟩
  | wildcard t => exact ⟨_, rfl, by simp⟩
  | precedence t p => exact absurd htr (hw.parserOnly _ _ hx t p)

/-- The traversal returns. -/
theorem trace_ok (hw : Whole atn) (hp : Decided atn pred) (n : Nat) : ∀ {fuel : Nat} {c : Config} {x : Thread},
    At c x → Inside atn x → ¬ Chain atn n x → n ≤ fuel → ∃ r, trace atn pred eof fuel c = some r ∧
      ∀ e ∈ r.1, ∃ y, Relation.ReflTransGen (Idle atn) x y ∧ At e.cfg y ∧ Worth atn y := by
  induction n with
  | zero => intro fuel c x _ _ h; exact absurd trivial h
  | succ n ih =>
    intro fuel c x ha hin hc hf
    obtain ⟨fuel, rfl⟩ : ∃ f, fuel = f + 1 := ⟨fuel - 1, by omega⟩
    obtain ⟨st, hst⟩ : ∃ st, atn.states[x.state]? = some st := ⟨_, List.getElem?_eq_getElem hin.1⟩
    have next : ∀ {y : Thread}, Idle atn x y → ¬ Chain atn n y := fun h hy => hc ⟨_, h, hy⟩
    simp only [trace, ha.state, hst, Option.bind_some]
    split
    · rename_i hstop
      cases hk : x.stack with
      | nil =>
        have h1 : c.ctx.hasEmptyPath = true ∧ c.ctx.isEmpty = true := by rw [ha.ctx, hk]; exact ⟨ctx_nil.2, ctx_nil.1⟩
        rw [if_pos (by simp [h1])]
        refine ⟨_, rfl, ?_⟩
        intro e he
        simp only [List.mem_singleton] at he
        subst he
        exact ⟨x, .refl, ha, st, hst, .inl ⟨hstop, hk⟩⟩
      | cons f k =>
        have hf0 := hin.2 f (by simp [hk])
        have h2 := hw.small
        obtain ⟨k1, k2, k3⟩ := ctx_cons (f := f) (k := k) (by omega)
        rw [← hk, ← ha.ctx] at k1 k2 k3
        have hret : Idle atn x { x with state := f, stack := k } := .ret hst hstop hk
        have hsf : atn.stateAt (f : Int) = some atn.states[f] := by
          simp [ATN.stateAt, List.getElem?_eq_getElem hf0]
        obtain ⟨r, r1, r2⟩ := ih (fuel := fuel) (c := clonedCtx c f atn.states[f] (ctxOf k)) (x := { x with state := f, stack := k })
          ⟨rfl, rfl, plain_clonedCtx ha.plain _ _ _⟩ (idle_inside hw hin hret).1 (next hret) (by omega)
        rw [if_neg (by simp [k2])]
        simp only [k1, k2, k3, Bool.false_eq_true, if_false, collect, Option.bind_some, hsf, Int.toNat_natCast, r1,
          Option.map_some]
        refine ⟨_, rfl, ?_⟩
        intro e he
        simp only [List.append_nil, List.nil_append] at he
        obtain ⟨y, y1, y2⟩ := r2 e he
        exact ⟨y, .head hret y1, y2⟩
    · rename_i hns
      refine collect_pre (P := fun e : Ev => ∃ y, Relation.ReflTransGen (Idle atn) x y ∧ At e.cfg y ∧ Worth atn y) ?_ ?_
      · intro e he
        split at he
        · simp at he
        · rename_i hep
          simp only [List.mem_singleton] at he
          subst he
          exact ⟨x, .refl, ha, st, hst, .inr ⟨hns, by simpa using hep⟩⟩
      · intro tr htr
        obtain ⟨⟨b, o⟩, h1, h2⟩ := epsTarget_ok (eof := eof) hw hp hst hns htr ha hin
        rw [h1]
        cases o with
        | none => exact ⟨_, rfl, by simp⟩
        | some c' =>
          obtain ⟨y, y1, y2⟩ := h2 c' rfl
          obtain ⟨r, r1, r2⟩ := ih (fuel := fuel) y2 (idle_inside hw hin y1).1 (next y1) (by omega)
          simp only [Option.bind_some, r1, Option.map_some]
          refine ⟨_, rfl, ?_⟩
          intro e he
          obtain ⟨z, z1, z2⟩ := r2 e he
          exact ⟨z, .head y1 z1, z2⟩

/-! ## Steps -/

/-- The thread reads `t` and goes on. -/
def Goes (atn : ATN) (t : Int) (x z : Thread) : Prop :=
  ∃ st tr, atn.states[x.state]? = some st ∧ tr ∈ st.transitions ∧
    tr.matches t LEXER_MIN_CHAR_VALUE LEXER_MAX_CHAR_VALUE = some true ∧
    Relation.ReflTransGen (Idle atn) { x with state := tr.target } z

/-- Predicates have values, or nothing can be read. -/
def Askable (atn : ATN) (pred : Int → Int → Option Bool) (t : Int) : Prop :=
  Decided atn pred ∨ ∀ (s : Nat) (st : ATNState), atn.states[s]? = some st → ∀ tr ∈ st.transitions,
    tr.matches t LEXER_MIN_CHAR_VALUE LEXER_MAX_CHAR_VALUE ≠ some true

theorem matches_worth (hw : Whole atn) {x : Thread} (hx : Worth atn x) {st : ATNState}
    (hst : atn.states[x.state]? = some st) {tr : Trans} (htr : tr ∈ st.transitions) (t : Int) :
    ∃ b, tr.matches t LEXER_MIN_CHAR_VALUE LEXER_MAX_CHAR_VALUE = some b := by
  cases tr with
  | rule t f r p =>
    exfalso
    obtain ⟨st', h1, h2⟩ := hx
    rw [hst] at h1; injection h1 with h1; subst h1
    rcases h2 with ⟨h2, -⟩ | ⟨-, h2⟩
    · obtain ⟨a, b, h⟩ := (hw.stop _ _ hst h2).2 _ htr
      simp at h
    · rw [(hw.follow _ _ hst t f r p htr).2] at h2; simp at h2
  | _ => exact ⟨_, rfl⟩

theorem contrib_ok (hw : Whole atn) {fuel : Nat} {t off : Int} (hp : Askable atn pred t) {c : Config} {x : Thread}
    (ha : At c x) (hin : Inside atn x) (hx : Worth atn x) (hf : ∀ s, ¬ Chain atn fuel { x with state := s })
    {st : ATNState} (hst : atn.states[x.state]? = some st) {flag : Bool} (trs : List Trans)
    (hsub : ∀ tr ∈ trs, tr ∈ st.transitions) :
    ∃ r, contrib atn pred fuel t off c flag trs = some r ∧
      ∀ y ∈ r.1, ∃ z, Goes atn t x z ∧ At y z ∧ Worth atn z := by
  induction trs with
  | nil => exact ⟨_, rfl, by simp⟩
  | cons tr trs ih =>
    obtain ⟨q, q1, q2⟩ := ih fun a h => hsub a (by simp [h])
    have htr := hsub tr (by simp)
    obtain ⟨b, hb⟩ := matches_worth hw hx hst htr t
    simp only [contrib, Trans.getReachableTarget, hb, Option.map_some, Option.bind_some]
    cases b with
    | false => simp only [Bool.false_eq_true, if_false]; exact ⟨q, q1, q2⟩
    | true =>
      have hd : Decided atn pred := by
        rcases hp with h | h
        · exact h
        · exact absurd hb (h _ _ hst tr htr)
      have ht := hw.target _ _ hst tr htr
      obtain ⟨r, r1, r2⟩ := trace_ok (eof := decide (t = EOF)) (c := clonedExec c tr.target atn.states[tr.target] ((execOf c).map (fixOffset off)))
        hw hd fuel (x := { x with state := tr.target }) ⟨rfl, ha.ctx, plain_clonedExec ha.plain _ _ _⟩ ⟨ht, hin.2⟩
        (hf _) (Nat.le_refl _)
      simp only [if_true, List.getElem?_eq_getElem ht, Option.bind_some, r1]
      have key : ∀ y ∈ (emitted flag r.1).1, ∃ z, Goes atn t x z ∧ At y z ∧ Worth atn z := by
        intro y hy
        obtain ⟨e, e1, e2⟩ := mem_emitted hy
        obtain ⟨z, z1, z2, z3⟩ := r2 e e1
        exact ⟨z, ⟨st, tr, hst, htr, hb, z1⟩, by rw [← e2]; exact z2, z3⟩
      split
      · exact ⟨_, rfl, key⟩
      · rw [q1]
        refine ⟨_, rfl, ?_⟩
        intro y hy
        simp only [List.mem_append] at hy
        rcases hy with hy | hy
        · exact key y hy
        · exact q2 y hy

theorem reachList_ok (hw : Whole atn) {fuel : Nat} {t off : Int} (hp : Askable atn pred t) {P : Thread → Prop}
    (l : List Config) : ∀ {skip : Int}, (∀ c ∈ l, ∃ x, At c x ∧ Inside atn x ∧ Worth atn x ∧
      (∀ s, ¬ Chain atn fuel { x with state := s }) ∧ P x) →
    ∃ r, reachList atn pred fuel t off l skip = some r ∧
      ∀ y ∈ r.1, ∃ x z, P x ∧ Inside atn x ∧ Goes atn t x z ∧ At y z ∧ Worth atn z := by
  induction l with
  | nil => intro skip _; exact ⟨_, rfl, by simp⟩
  | cons c rest ih =>
    intro skip hl
    have hl' := fun c hc => hl c (List.mem_cons_of_mem _ hc)
    simp only [reachList]
    split
    · exact ih hl'
    · obtain ⟨x, ha, hin, hx, hf, hP⟩ := hl c (by simp)
      obtain ⟨st, hst⟩ : ∃ st, atn.states[x.state]? = some st := ⟨_, List.getElem?_eq_getElem hin.1⟩
      obtain ⟨r, r1, r2⟩ := contrib_ok (off := off) (flag := decide (c.alt = skip)) hw hp ha hin hx hf hst
        st.transitions (fun _ h => h)
      obtain ⟨q, q1, q2⟩ := ih (skip := if r.2.2 then c.alt else skip) hl'
      simp only [ha.state, hst, Option.bind_some, r1, q1, Option.map_some]
      refine ⟨_, rfl, ?_⟩
      intro y hy
      simp only [List.mem_append] at hy
      rcases hy with hy | hy
      · obtain ⟨z, z1, z2⟩ := r2 y hy
        exact ⟨x, z, hP, hin, z1, z2⟩
      · exact q2 y hy

theorem startList_ok (hw : Whole atn) (hp : Decided atn pred) {fuel : Nat} (trs : List Trans) :
    ∀ {i : Nat}, (∀ tr ∈ trs, tr.target < atn.states.length ∧ ¬ Chain atn fuel ⟨tr.target, [], []⟩) →
    ∃ r, startList atn pred fuel trs i = some r ∧
      ∀ y ∈ r.1, ∃ tr ∈ trs, ∃ z, Relation.ReflTransGen (Idle atn) ⟨tr.target, [], []⟩ z ∧ At y z ∧ Worth atn z := by
  induction trs with
  | nil => intro i _; exact ⟨_, rfl, by simp⟩
  | cons tr trs ih =>
    intro i h
    obtain ⟨q, q1, q2⟩ := ih (i := i + 1) fun a ha => h a (by simp [ha])
    obtain ⟨h1, h2⟩ := h tr (by simp)
    have hr := (rep_start nothing tr i)
    obtain ⟨r, r1, r2⟩ := trace_ok (eof := false) hw hp fuel (c := startCfg tr i) (x := ⟨tr.target, [], []⟩)
      ⟨rfl, rfl, hr.lin.plain⟩ ⟨h1, by simp⟩ h2 (Nat.le_refl _)
    simp only [startList, r1, q1, Option.bind_some, Option.map_some]
    refine ⟨_, rfl, ?_⟩
    intro y hy
    simp only [List.mem_append] at hy
    rcases hy with hy | hy
    · obtain ⟨e, e1, e2⟩ := mem_emitted hy
      obtain ⟨z, z1, z2, z3⟩ := r2 e e1
      exact ⟨tr, by simp, z, z1, by rw [← e2]; exact z2, z3⟩
    · obtain ⟨tr', h3, h4⟩ := q2 y hy
      exact ⟨tr', by simp [h3], h4⟩

end

end Antlr.LexTotal
