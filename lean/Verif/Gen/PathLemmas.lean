import Verif.Gen.PathSpec
import Verif.Prediction.Family

/-! # Following a path through the machine -/

namespace Antlr.GenSpec
open Antlr LL1Spec PredictionSpec Gen Prediction

variable {atn : ATN} {E : Nat → Prop} {w : Nat → Int}

theorem Path.trans {k l n n1 n2 : Nat} {p q r : Pos} (h1 : Path atn w k n p n1 q) (h2 : Path atn w l n1 q n2 r) :
    Path atn w (k + l) n p n2 r := by
  induction h1 with
  | nil => simpa using h2
  | step h _ ih => rw [Nat.succ_add]; exact .step h (ih h2)
  | read h1 h _ ih => rw [Nat.succ_add]; exact .read h1 h (ih h2)
  | eof h1 h _ ih => rw [Nat.succ_add]; exact .eof h1 h (ih h2)

theorem Path.one {n : Nat} {p q : Pos} (h : Step atn p q) : Path atn w 1 n p n q := .step h .nil

/-- What a winning path does next. -/
theorem Wins.cases {k n : Nat} {p : Pos} (h : Wins atn E w k n p) :
    (Ended atn p ∧ w n = TOKEN_EOF ∧ E p.1) ∨
    ∃ l, k = l + 1 ∧ ((∃ q, Step atn p q ∧ Wins atn E w l n q) ∨
      (∃ q, w n ≠ TOKEN_EOF ∧ ReadStep atn (w n) p q ∧ Wins atn E w l (n + 1) q) ∨
      (∃ q, w n = TOKEN_EOF ∧ ReadStep atn TOKEN_EOF p q ∧ Wins atn E w l n q)) := by
  obtain ⟨n', q, hp, he, hw⟩ := h
  cases hp with
  | nil => exact .inl ⟨he, hw⟩
  | step h hp => exact .inr ⟨_, rfl, .inl ⟨_, h, _, _, hp, he, hw⟩⟩
  | read h1 h hp => exact .inr ⟨_, rfl, .inr (.inl ⟨_, h1, h, _, _, hp, he, hw⟩)⟩
  | eof h1 h hp => exact .inr ⟨_, rfl, .inr (.inr ⟨_, h1, h, _, _, hp, he, hw⟩)⟩

theorem Wins.step {k n : Nat} {p q : Pos} (hs : Step atn p q) (h : Wins atn E w k n q) : Wins atn E w (k + 1) n p := by
  obtain ⟨n', r, hp, he, hw⟩ := h
  exact ⟨n', r, .step hs hp, he, hw⟩

theorem Path.wins {k l n n' : Nat} {p q : Pos} (h1 : Path atn w k n p n' q) (h2 : Wins atn E w l n' q) :
    Wins atn E w (k + l) n p := by
  obtain ⟨n2, r, hp, he, hw⟩ := h2
  exact ⟨n2, r, h1.trans hp, he, hw⟩

/-- A winning path from a position whose stack calls can leave behind. -/
def Go (atn : ATN) (E : Nat → Prop) (w : Nat → Int) (k n : Nat) (p : Pos) : Prop := Wins atn E w k n p ∧ Fair atn p

theorem Go.cases (ha : Plain atn) {k n : Nat} {p : Pos} (h : Go atn E w k n p) :
    (Ended atn p ∧ w n = TOKEN_EOF ∧ E p.1) ∨
    ∃ l, k = l + 1 ∧ ((∃ q, Step atn p q ∧ Go atn E w l n q) ∨
      (∃ q, w n ≠ TOKEN_EOF ∧ ReadStep atn (w n) p q ∧ Go atn E w l (n + 1) q) ∨
      (∃ q, w n = TOKEN_EOF ∧ ReadStep atn TOKEN_EOF p q ∧ Go atn E w l n q)) := by
  rcases h.1.cases with h1 | ⟨l, rfl, ⟨q, hs, hw⟩ | ⟨q, he, hr, hw⟩ | ⟨q, he, hr, hw⟩⟩
  · exact .inl h1
  · exact .inr ⟨l, rfl, .inl ⟨q, hs, hw, h.2.step ha hs⟩⟩
  · exact .inr ⟨l, rfl, .inr (.inl ⟨q, he, hr, hw, h.2.read ha hr⟩)⟩
  · exact .inr ⟨l, rfl, .inr (.inr ⟨q, he, hr, hw, h.2.read ha hr⟩)⟩

/-- The path leaves a decision by one of its transitions. -/
theorem Go.decide {k n a : Nat} {τ : List Nat} {dec : ATNState} (ha : Plain atn) (hd : Decision atn a dec)
    (h : Go atn E w k n (a, τ)) : ∃ (l i : Nat) (tr : Trans), k = l + 1 ∧ dec.transitions[i]? = some tr ∧ Go atn E w l n (tr.target, τ) := by
  rcases h.cases ha with ⟨⟨-, st, h1, h2⟩, -⟩ | ⟨l, rfl, ⟨q, hs, hw⟩ | ⟨q, -, hr, -⟩ | ⟨q, -, hr, -⟩⟩
  · dsimp only at h1
    rw [hd.state, Option.some.injEq] at h1
    subst h1; exact absurd h2 hd.inner
  · cases hs with
    | free h1 h2 h3 h4 =>
      rw [hd.state, Option.some.injEq] at h1
      subst h1
      obtain ⟨i, hi⟩ := List.getElem?_of_mem h3
      exact ⟨l, i, _, rfl, hi, hw⟩
    | call h1 h2 h3 =>
      rw [hd.state, Option.some.injEq] at h1
      subst h1
      obtain ⟨t, x, e⟩ := hd.silent _ h3
      cases e
    | ret h1 h2 =>
      rw [hd.state, Option.some.injEq] at h1
      subst h1; exact absurd h2 hd.inner
  all_goals
    obtain ⟨st, tr, h1, h2, h3, h4, -⟩ := hr
    dsimp only at h1
    rw [hd.state, Option.some.injEq] at h1
    subst h1
    obtain ⟨t, x, rfl⟩ := hd.silent _ h3
    cases h4

/-- … and from a state with a single transition by it. -/
theorem Go.sole {k n a : Nat} {τ : List Nat} {tr : Trans} (ha : Plain atn) (hd : Single atn a tr)
    (h : Go atn E w k n (a, τ)) : ∃ l, k = l + 1 ∧
      ((Free tr ∧ Go atn E w l n (tr.target, τ)) ∨
       (∃ t f r p, tr = .rule t f r p ∧ Go atn E w l n (t, f :: τ)) ∨
       (w n ≠ TOKEN_EOF ∧ Takes atn.maxTokenType tr (w n) ∧ Go atn E w l (n + 1) (tr.target, τ)) ∨
       (w n = TOKEN_EOF ∧ Takes atn.maxTokenType tr TOKEN_EOF ∧ Go atn E w l n (tr.target, τ))) := by
  obtain ⟨st, h0, hi, ht⟩ := hd
  rcases h.cases ha with ⟨⟨-, st', h1, h2⟩, -⟩ | ⟨l, rfl, ⟨q, hs, hw⟩ | ⟨q, he, hr, hw⟩ | ⟨q, he, hr, hw⟩⟩
  · dsimp only at h1
    rw [h0, Option.some.injEq] at h1
    subst h1; exact absurd h2 hi
  · refine ⟨l, rfl, ?_⟩
    cases hs with
    | free h1 h2 h3 h4 =>
      rw [h0, Option.some.injEq] at h1
      subst h1
      rw [ht, List.mem_singleton] at h3
      subst h3
      exact .inl ⟨h4, hw⟩
    | call h1 h2 h3 =>
      rw [h0, Option.some.injEq] at h1
      subst h1
      rw [ht, List.mem_singleton] at h3
      exact .inr (.inl ⟨_, _, _, _, h3.symm, hw⟩)
    | ret h1 h2 =>
      rw [h0, Option.some.injEq] at h1
      subst h1; exact absurd h2 hi
  all_goals
    refine ⟨l, rfl, ?_⟩
    obtain ⟨st, tr', h1, h2, h3, h4, rfl⟩ := hr
    dsimp only at h1
    rw [h0, Option.some.injEq] at h1
    subst h1
    rw [ht, List.mem_singleton] at h3
    subst h3
    first
      | exact .inr (.inr (.inl ⟨he, h4, hw⟩))
      | exact .inr (.inr (.inr ⟨he, h4, hw⟩))

theorem Plainly.sole {a b : Nat} (h : Plainly atn a b) : ∃ tr, Single atn a tr ∧ Free tr ∧ tr.target = b := by
  obtain ⟨st, tr, h1, h2, h3, h4, h5⟩ := h
  exact ⟨tr, ⟨st, h1, h2, h3⟩, h4, h5⟩

theorem free_takes {tr : Trans} (h : Free tr) (max x : Int) : ¬ Takes max tr x := by
  cases tr <;> simp_all [Free, Takes]

theorem Go.plainly {k n a b : Nat} {τ : List Nat} (ha : Plain atn) (hd : Plainly atn a b) (h : Go atn E w k n (a, τ)) :
    ∃ l, k = l + 1 ∧ Go atn E w l n (b, τ) := by
  obtain ⟨tr, h1, h2, rfl⟩ := hd.sole
  obtain ⟨l, rfl, ⟨-, hw⟩ | ⟨t, f, r, p, rfl, -⟩ | ⟨-, h3, -⟩ | ⟨-, h3, -⟩⟩ := h.sole ha h1
  · exact ⟨l, rfl, hw⟩
  · cases h2
  · exact absurd h3 (free_takes h2 _ _)
  · exact absurd h3 (free_takes h2 _ _)

/-- At the end of a rule the path goes back to the caller. -/
theorem Go.ret {k n a f : Nat} {τ : List Nat} {st : ATNState} (ha : Plain atn) (h1 : atn.states[a]? = some st)
    (h2 : st.stateType = .ruleStop) (h : Go atn E w k n (a, f :: τ)) : ∃ l, k = l + 1 ∧ Go atn E w l n (f, τ) := by
  rcases h.cases ha with ⟨⟨h3, -⟩, -⟩ | ⟨l, rfl, ⟨q, hs, hw⟩ | ⟨q, -, hr, -⟩ | ⟨q, -, hr, -⟩⟩
  · cases h3
  · refine ⟨l, rfl, ?_⟩
    cases hs with
    | free h3 h4 => rw [h1, Option.some.injEq] at h3; subst h3; exact absurd h2 h4
    | call h3 h4 => rw [h1, Option.some.injEq] at h3; subst h3; exact absurd h2 h4
    | ret h3 h4 => exact hw
  all_goals
    obtain ⟨st, tr, h3, h4, -⟩ := hr
    dsimp only at h3
    rw [h1, Option.some.injEq] at h3
    subst h3; exact absurd h2 h4

/-- At the end of the outermost rule the path ends. -/
theorem Go.last {k n a : Nat} {st : ATNState} (ha : Plain atn) (h1 : atn.states[a]? = some st)
    (h2 : st.stateType = .ruleStop) (h : Go atn E w k n (a, [])) : w n = TOKEN_EOF := by
  rcases h.cases ha with ⟨-, h3⟩ | ⟨l, rfl, ⟨q, hs, hw⟩ | ⟨q, -, hr, -⟩ | ⟨q, -, hr, -⟩⟩
  · exact h3.1
  · cases hs with
    | free h3 h4 => rw [h1, Option.some.injEq] at h3; subst h3; exact absurd h2 h4
    | call h3 h4 => rw [h1, Option.some.injEq] at h3; subst h3; exact absurd h2 h4
  all_goals
    obtain ⟨st, tr, h3, h4, -⟩ := hr
    dsimp only at h3
    rw [h1, Option.some.injEq] at h3
    subst h3; exact absurd h2 h4

/-! ## The next token -/

/-- The position from which the next token is read, or the end. -/
theorem Go.next (ha : Plain atn) {k n : Nat} {p : Pos} (h : Go atn E w k n p) : ∃ q, Reach atn p q ∧
    ((Ended atn q ∧ w n = TOKEN_EOF ∧ E q.1) ∨ ∃ r, ReadStep atn (w n) q r) := by
  induction k generalizing p with
  | zero =>
    rcases h.cases ha with h | ⟨l, h, -⟩
    · exact ⟨p, .refl, .inl h⟩
    · cases h
  | succ k ih =>
    rcases h.cases ha with h | ⟨l, h, ⟨q, hs, hw⟩ | ⟨q, -, hr, -⟩ | ⟨q, he, hr, -⟩⟩
    · exact ⟨p, .refl, .inl h⟩
    · cases h
      obtain ⟨q', h1, h2⟩ := ih hw
      refine ⟨q', ?_, h2⟩
      clear ih h2 hw
      induction h1 with
      | refl => exact .tail .refl hs
      | tail _ h ih => exact .tail ih h
    · exact ⟨p, .refl, .inr ⟨q, hr⟩⟩
    · exact ⟨p, .refl, .inr ⟨q, by rw [he]; exact hr⟩⟩

theorem live_reach {dec : ATNState} {σ : List Nat} {j : Int} {v : List Int} {p q : Pos}
    (h : Live atn dec σ j v p) (hr : Reach atn p q) : Live atn dec σ j v q := by
  induction hr with
  | refl => exact h
  | tail _ hs ih => exact .silent ih hs

/-- The alternative of the path reads the next token, or ends. -/
theorem Go.live (ha : Plain atn) {k n : Nat} {i : Nat} {dec : ATNState} {tr : Trans} {τ : List Nat}
    (ht : dec.transitions[i]? = some tr) (h : Go atn E w k n (tr.target, τ)) :
    ∃ p, Live atn dec τ ((i + 1 : Nat) : Int) [w n] p ∨
      (w n = TOKEN_EOF ∧ Live atn dec τ ((i + 1 : Nat) : Int) [] p ∧ Ended atn p ∧ E p.1) := by
  obtain ⟨q, h1, h2⟩ := h.next ha
  have hl := live_reach (Live.start (atn := atn) (σ := τ) ht) h1
  rcases h2 with ⟨h2, h3, h4⟩ | ⟨r, h2⟩
  · exact ⟨q, .inr ⟨h3, hl, h2, h4⟩⟩
  · exact ⟨r, .inl (.read (v := []) hl h2)⟩

end Antlr.GenSpec
