import Verif.Gen.Main

/-!
# Predictors that keep an invariant

A predictor whose answers are in range only as long as its memory is in order may be replaced by one
that never gives an answer out of range.
-/

namespace Antlr.Gen
open Antlr

set_option linter.unusedSectionVars false
variable {I S : Type} [TokStream I] {C : Cfg I S} {Inv : S → Prop} {width : Nat → Nat}

/-- The predictor of `C`, with answers out of range left out. -/
def inRange (C : Cfg I S) (width : Nat → Nat) (m d : Nat) (p : P I) (σ : S) :
    Option (Except PErr Int × I × S) :=
  (C.predict m d p σ).bind fun x => match x.1 with
    | .ok k => if 1 ≤ k ∧ k ≤ width d then some x else none
    | .error _ => some x

/-- `C` with such a predictor. -/
def Cfg.restrict (C : Cfg I S) (width : Nat → Nat) : Cfg I S :=
  { C with predict := inRange C width }

/-- As long as the invariant holds, answers are in range and the invariant is kept. -/
structure Steady (C : Cfg I S) (Inv : S → Prop) (width : Nat → Nat) : Prop where
  range : ∀ m d p σ k i' σ', Inv σ → C.predict m d p σ = some (.ok k, i', σ') → 1 ≤ k ∧ k ≤ width d
  keeps : ∀ m d p σ x i' σ', Inv σ → C.predict m d p σ = some (x, i', σ') → Inv σ'

/-- The same result, with the invariant. -/
def Agree (Inv : S → Prop) {α : Type} (a b : Out I S α) : Prop :=
  a = b ∧ ∀ x s', a = some (x, s') → Inv s'.sim

theorem Agree.andThen {α β : Type} {a b : Out I S α} {f g : α → GS I S → Out I S β} (h1 : Agree Inv a b)
    (h2 : ∀ x s, Inv s.sim → Agree Inv (f x s) (g x s)) : Agree Inv (andThen a f) (andThen b g) := by
  obtain ⟨rfl, h1⟩ := h1
  cases a with
  | none => exact ⟨rfl, by simp [Gen.andThen]⟩
  | some r =>
    obtain ⟨x, s⟩ := r
    have := h1 x s rfl
    cases x with
    | ok x => exact h2 x s this
    | error e =>
      refine ⟨rfl, ?_⟩
      intro x' s' h
      simp only [Gen.andThen, Option.bind_some, Option.some.injEq, Prod.mk.injEq] at h
      rw [← h.2]; exact this

theorem Agree.bind {α β : Type} {a b : Out I S α} {f g : Except PErr α × GS I S → Out I S β} (h1 : Agree Inv a b)
    (h2 : ∀ x, Inv x.2.sim → Agree Inv (f x) (g x)) : Agree Inv (a.bind f) (b.bind g) := by
  obtain ⟨rfl, h1⟩ := h1
  cases a with
  | none => exact ⟨rfl, by simp⟩
  | some r => exact h2 r (h1 r.1 r.2 rfl)

theorem Agree.ret {α : Type} (a : α) {s : GS I S} (h : Inv s.sim) : Agree Inv (ret a s) (Gen.ret a s) := by
  refine ⟨rfl, ?_⟩
  intro x s' e
  simp only [Gen.ret, Option.some.injEq, Prod.mk.injEq] at e
  rw [← e.2]; exact h

theorem Agree.none {α : Type} : Agree (α := α) (I := I) Inv none none := ⟨rfl, by simp⟩

theorem Agree.ite {α : Type} {c : Prop} [Decidable c] {a b a' b' : Out I S α} (h1 : Agree Inv a a')
    (h2 : Agree Inv b b') : Agree Inv (if c then a else b) (if c then a' else b') := by
  split
  · exact h1
  · exact h2

theorem agree_strat {α : Type} {s : GS I S} (h : Inv s.sim) (r : Option (Except PErr α × ES I)) :
    Agree Inv (s.strat r) (s.strat r) := by
  refine ⟨rfl, ?_⟩
  intro x s' e
  obtain ⟨y, -, e⟩ := Option.map_eq_some_iff.1 e
  simp only [Prod.mk.injEq] at e
  rw [← e.2]; exact h

theorem agree_act {s : GS I S} (h : Inv s.sim) (f : P I → Option (P I)) : Agree Inv (s.act f) (s.act f) := by
  refine ⟨rfl, ?_⟩
  intro x s' e
  obtain ⟨y, -, e⟩ := Option.map_eq_some_iff.1 e
  simp only [Prod.mk.injEq] at e
  rw [← e.2]; exact h

theorem agree_sync {s : GS I S} (h : Inv s.sim) (m : Nat) :
    Agree Inv (sync C m s) (sync (C.restrict width) m s) := agree_strat h _

theorem agree_matchTok {s : GS I S} (h : Inv s.sim) (t : Int) :
    Agree Inv (matchTok C t s) (matchTok (C.restrict width) t s) := agree_strat h _

theorem agree_matchAny {s : GS I S} (h : Inv s.sim) :
    Agree Inv (matchAny C s) (matchAny (C.restrict width) s) := agree_strat h _

theorem agree_finish {m : Nat} {x : Except PErr Unit × GS I S} (h : Inv x.2.sim) :
    Agree Inv (finish C m x) (finish (C.restrict width) m x) := agree_strat h _

theorem agree_matchSet {s : GS I S} (h : Inv s.sim) (ts : List Int) (b : Bool) :
    Agree Inv (matchSet C ts b s) (matchSet (C.restrict width) ts b s) := by
  refine ⟨rfl, ?_⟩
  intro x s' e
  simp only [matchSet, Option.bind_eq_some_iff, Prod.exists] at e
  obtain ⟨t, p, h1, e⟩ := e
  split at e
  · simp only [Option.bind_eq_some_iff, Prod.exists, Option.map_eq_some_iff, Prod.mk.injEq] at e
    obtain ⟨t', p', h3, y, h4, _, rfl⟩ := e
    exact h
  · simp only [Option.map_eq_some_iff, Prod.exists, Prod.mk.injEq] at e
    obtain ⟨r, y, h3, h4, rfl⟩ := e
    exact h

theorem agree_noViable {α : Type} {s : GS I S} (h : Inv s.sim) : Agree Inv (noViable (α := α) s) (noViable s) := by
  refine ⟨rfl, ?_⟩
  intro x s' e
  simp only [noViable, Option.bind_eq_some_iff, Option.map_eq_some_iff, Prod.mk.injEq] at e
  obtain ⟨t, -, y, -, -, rfl⟩ := e
  exact h

theorem agree_failed {α : Type} {s : GS I S} (h : Inv s.sim) (msg : List Char) :
    Agree Inv (failedPredicate (α := α) C msg s) (failedPredicate (C.restrict width) msg s) := by
  refine ⟨rfl, ?_⟩
  intro x s' e
  simp only [failedPredicate, Option.bind_eq_some_iff, Option.map_eq_some_iff, Prod.mk.injEq] at e
  obtain ⟨t, -, y, -, z, -, -, rfl⟩ := e
  exact h

section
variable (hs : Steady C Inv width)
include hs

theorem agree_choose {s : GS I S} (h : Inv s.sim) (m : Nat) (ch : Choice) :
    Agree Inv (choose C m ch s) (choose (C.restrict width) m ch s) := by
  cases ch with
  | predict d =>
    have e : inRange C width m d s.es.p s.sim = C.predict m d s.es.p s.sim := by
      unfold inRange
      cases hp : C.predict m d s.es.p s.sim with
      | none => rfl
      | some x =>
        obtain ⟨x, i', σ'⟩ := x
        cases x with
        | ok k => simp only [Option.bind_some]; rw [if_pos (hs.range _ _ _ _ _ _ _ h hp)]
        | error e => rfl
    refine ⟨?_, ?_⟩
    · simp only [choose, Cfg.restrict, e]
    · intro x s' e1
      simp only [choose, Option.map_eq_some_iff, Prod.exists, Prod.mk.injEq] at e1
      obtain ⟨y, i', σ', hp, -, rfl⟩ := e1
      exact hs.keeps _ _ _ _ _ _ _ h hp
  | look sets other =>
    refine ⟨rfl, ?_⟩
    intro x s' e
    simp only [choose, Option.bind_eq_some_iff, Prod.exists] at e
    obtain ⟨t, p, -, e⟩ := e
    split at e
    · exact (Agree.ret (Inv := Inv) (s := ⟨⟨s.es.eh, p⟩, s.sim⟩) _ h).2 _ _ e
    · exact (Agree.ret (Inv := Inv) (s := ⟨⟨s.es.eh, p⟩, s.sim⟩) _ h).2 _ _ e
    · exact (agree_noViable (Inv := Inv) (s := ⟨⟨s.es.eh, p⟩, s.sim⟩) h).2 _ _ e

theorem agree_head {s : GS I S} (h : Inv s.sim) (m : Nat) (st : Int) (ch : Choice) :
    Agree Inv (head C m st ch s) (head (C.restrict width) m st ch s) :=
  .andThen (agree_sync (s := s.setState st) h m) fun _ s1 h1 => agree_choose hs h1 m ch

theorem agree_select {α : Type} {s : GS I S} (h : Inv s.sim) (m : Nat) (sel : Option (Int × Choice)) (alts : List α) :
    Agree Inv (select C m sel alts s) (select (C.restrict width) m sel alts s) := by
  unfold select
  split
  · exact .ret _ h
  · exact .andThen (agree_head hs h _ _ _) fun _ _ h1 => .ret _ h1

theorem agree_precGuard {s : GS I S} (h : Inv s.sim) (o : OpAlt) :
    Agree Inv (precGuard C o s) (precGuard (C.restrict width) o s) :=
  .ite (.ret _ h) (agree_failed h _)

theorem agree_all (m : Nat) :
    (∀ c (s : GS I S), Inv s.sim → Agree Inv (run C m c s) (run (C.restrict width) m c s)) ∧
    (∀ back ch exit ba body k (s : GS I S), Inv s.sim →
      Agree Inv (loop C m back ch exit ba body k s) (loop (C.restrict width) m back ch exit ba body k s)) ∧
    (∀ back ch exit ba body k (s : GS I S), Inv s.sim →
      Agree Inv (plusLoop C m back ch exit ba body k s) (plusLoop (C.restrict width) m back ch exit ba body k s)) ∧
    (∀ r q (s : GS I S), Inv s.sim → Agree Inv (runRule C m r q s) (runRule (C.restrict width) m r q s)) ∧
    (∀ r start parent inv back ch opSel ops k (s : GS I S), Inv s.sim →
      Agree Inv (opLoop C m r start parent inv back ch opSel ops k s)
        (opLoop (C.restrict width) m r start parent inv back ch opSel ops k s)) := by
  induction m with
  | zero =>
    refine ⟨?_, ?_, ?_, ?_, ?_⟩
    · intro c s h; simp only [run]; exact .none
    · intro a b c d e f s h; simp only [loop]; exact .none
    · intro a b c d e f s h; simp only [plusLoop]; exact .none
    · intro r q s h; simp only [runRule]; exact .none
    · intro a b c d e f g h' i s h; simp only [opLoop]; exact .none
  | succ m ih =>
    obtain ⟨i1, i2, i3, i4, i5⟩ := ih
    refine ⟨?_, ?_, ?_, ?_, ?_⟩
    · intro c s h
      cases c with
      | nop => simp only [run]; exact .ret _ h
      | seq a b => simp only [run]; exact .andThen (i1 _ _ h) fun _ _ h => i1 _ _ h
      | tok st t =>
        simp only [run]
        exact .andThen (agree_matchTok (s := s.setState st) h t) fun _ _ h => .ret _ h
      | set st ts b => simp only [run]; exact agree_matchSet (s := s.setState st) h ts b
      | any st =>
        simp only [run]
        exact .andThen (agree_matchAny (s := s.setState st) h) fun _ _ h => .ret _ h
      | call st r q =>
        simp only [run]
        exact .andThen (i4 r q (s.setState st) h) fun _ _ h => .ret _ h
      | guard st k msg =>
        simp only [run]
        exact .ite (.ret (s := s.setState st) _ h) (agree_failed (s := s.setState st) h _)
      | block st ch alts =>
        simp only [run]
        refine .andThen (agree_head hs h _ _ _) fun k s1 h1 => ?_
        split
        · exact i1 _ _ h1
        · exact .ret _ h1
      | opt st ch off alts =>
        simp only [run]
        refine .andThen (agree_head hs h _ _ _) fun k s1 h1 => ?_
        split
        · exact i1 _ _ h1
        · exact .ret _ h1
      | star st back ch exit ba body =>
        simp only [run]
        exact .andThen (agree_head hs h _ _ _) fun k s1 h1 => i2 _ _ _ _ _ _ _ h1
      | plus st back ch exit ba body =>
        simp only [run]
        exact .andThen (agree_sync (s := s.setState st) h m) fun k s1 h1 => i3 _ _ _ _ _ _ _ h1
    · intro back ch exit ba body k s h
      simp only [loop]
      refine .ite (.ret _ h) (.andThen (.ite (i1 _ _ h) (.ret _ h)) fun _ s1 h1 => ?_)
      exact .andThen (agree_head hs h1 _ _ _) fun k s2 h2 => i2 _ _ _ _ _ _ _ h2
    · intro back ch exit ba body k s h
      simp only [plusLoop]
      refine .andThen (.ite (i1 _ _ h) (agree_noViable h)) fun _ s1 h1 => ?_
      refine .andThen (agree_head hs h1 _ _ _) fun k s2 h2 => ?_
      exact .ite (.ret _ h2) (i3 _ _ _ _ _ _ _ h2)
    · intro r q s h
      simp only [runRule, show (C.restrict width).rules = C.rules from rfl]
      rcases C.rules[r]? with _ | (⟨start, sel, alts⟩ | ⟨start, sel, prims, entry, back, ch, opSel, ops⟩) <;> dsimp only
      · exact .none
      · refine .andThen (agree_act h _) fun _ s1 h1 => ?_
        refine .bind (.andThen (agree_select hs h1 _ _ _) fun a s2 h2 => ?_) fun x hx => ?_
        · split
          · exact .ret _ h2
          · exact .andThen (agree_act h2 _) fun _ _ h3 => i1 _ _ h3
        · refine .andThen (agree_finish hx) fun _ s3 h3 => ?_
          exact .andThen (agree_act h3 _) fun _ _ h4 => .ret _ h4
      · refine .andThen (agree_act h _) fun _ s1 h1 => ?_
        refine .bind ?_ fun x hx => ?_
        · refine .andThen (agree_act h1 _) fun _ s2 h2 => ?_
          refine .andThen (agree_select hs h2 _ _ _) fun a s3 h3 => ?_
          refine .andThen ?_ fun _ s4 h4 => ?_
          · split
            · exact .ret _ h3
            · exact .andThen (agree_act h3 _) fun _ _ h4 => i1 _ _ h4
          · refine .andThen (agree_act h4 _) fun _ s5 h5 => ?_
            exact .andThen (agree_head hs h5 _ _ _) fun k s6 h6 => i5 _ _ _ _ _ _ _ _ _ _ h6
        · refine .andThen (agree_finish hx) fun _ s3 h3 => ?_
          exact .andThen (agree_act h3 _) fun _ _ h4 => .ret _ h4
    · intro r start parent inv back ch opSel ops k s h
      simp only [opLoop]
      refine .ite (.ret _ h) (.andThen (.ite ?_ (.ret _ h)) fun _ s1 h1 => ?_)
      · refine .andThen (agree_act h _) fun _ s1 h1 => ?_
        refine .andThen (agree_select hs h1 _ _ _) fun o s2 h2 => ?_
        rcases o with _ | o
        · exact .ret _ h2
        · refine .andThen (agree_act h2 _) fun _ s3 h3 => ?_
          exact .andThen (agree_precGuard hs (s := s3.setState o.predState) h3 o) fun _ s4 h4 => i1 _ _ h4
      · exact .andThen (agree_head hs h1 _ _ _) fun k s2 h2 => i5 _ _ _ _ _ _ _ _ _ _ h2

end
end Antlr.Gen
