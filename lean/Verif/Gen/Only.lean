import Verif.Gen.Agree

/-!
# Predictors whose memory shows what happened

If the final memory of a parse is `fine`, and memory that is not fine never becomes fine, then it was fine
all the time, and results with memory that is not fine may be left out.
-/

namespace Antlr.Gen
open Antlr

set_option linter.unusedSectionVars false
variable {I S : Type} [TokStream I] {C : Cfg I S} {fine : S → Bool}

/-- `C` with a predictor that only returns with fine memory. -/
def Cfg.only (C : Cfg I S) (fine : S → Bool) : Cfg I S :=
  { C with predict := fun m d p σ => (C.predict m d p σ).bind fun x => if fine x.2.2 then some x else none }

/-- What is not fine stays so. -/
def Backward (C : Cfg I S) (fine : S → Bool) : Prop :=
  ∀ m d p σ x i' σ', C.predict m d p σ = some (x, i', σ') → fine σ' = true → fine σ = true

/-- `C` with another predictor. -/
def Cfg.via (C : Cfg I S) (f : Nat → Nat → P I → S → Option (Except PErr Int × I × S)) : Cfg I S := { C with predict := f }

variable {f : Nat → Nat → P I → S → Option (Except PErr Int × I × S)}

/-- Fine answers of the predictor of `C` are answers of `f`, and the memory was fine before. -/
def Heeds (C : Cfg I S) (f : Nat → Nat → P I → S → Option (Except PErr Int × I × S)) (fine : S → Bool) : Prop :=
  ∀ m d p σ x i' σ', C.predict m d p σ = some (x, i', σ') → fine σ' = true →
    f m d p σ = some (x, i', σ') ∧ fine σ = true

theorem Backward.heeds (h : Backward C fine) : Heeds C (C.only fine).predict fine := by
  intro m d p σ x i' σ' hp hf
  exact ⟨by simp only [Cfg.only, hp, Option.bind_some, hf, if_true], h _ _ _ _ _ _ _ hp hf⟩

/-- A fine result of the first is a result of the second, and the memory was fine before. -/
def Only (fine : S → Bool) (s : GS I S) {α : Type} (a b : Out I S α) : Prop :=
  ∀ x s', a = some (x, s') → fine s'.sim = true → b = some (x, s') ∧ fine s.sim = true

theorem Only.andThen {α β : Type} {s : GS I S} {a b : Out I S α} {f g : α → GS I S → Out I S β} (h1 : Only fine s a b)
    (h2 : ∀ x s, Only fine s (f x s) (g x s)) : Only fine s (andThen a f) (andThen b g) := by
  intro x s' e hf
  cases ha : a with
  | none => rw [ha] at e; simp [Gen.andThen] at e
  | some r =>
    obtain ⟨y, s1⟩ := r
    rw [ha] at e
    cases y with
    | ok y =>
      have e' : f y s1 = some (x, s') := e
      obtain ⟨e1, hf1⟩ := h2 y s1 x s' e' hf
      obtain ⟨e2, hf2⟩ := h1 _ _ ha hf1
      refine ⟨?_, hf2⟩
      rw [e2]; exact e1
    | error y =>
      simp only [Gen.andThen, Option.bind_some, Option.some.injEq, Prod.mk.injEq] at e
      obtain ⟨rfl, rfl⟩ := e
      obtain ⟨e2, hf2⟩ := h1 _ _ ha hf
      refine ⟨?_, hf2⟩
      rw [e2]; rfl

theorem Only.bind {α β : Type} {s : GS I S} {a b : Out I S α} {f g : Except PErr α × GS I S → Out I S β}
    (h1 : Only fine s a b) (h2 : ∀ x, Only fine x.2 (f x) (g x)) : Only fine s (a.bind f) (b.bind g) := by
  intro x s' e hf
  obtain ⟨r, ha, e⟩ := Option.bind_eq_some_iff.1 e
  obtain ⟨e1, hf1⟩ := h2 r x s' e hf
  obtain ⟨e2, hf2⟩ := h1 _ _ ha hf1
  exact ⟨by rw [e2]; exact e1, hf2⟩

theorem Only.ret {α : Type} (a : α) {s : GS I S} : Only fine s (ret a s) (Gen.ret a s) := by
  intro x s' e hf
  refine ⟨e, ?_⟩
  simp only [Gen.ret, Option.some.injEq, Prod.mk.injEq] at e
  rw [e.2]; exact hf

theorem Only.none {α : Type} {s : GS I S} {b : Out I S α} : Only fine s none b := by
  intro x s' e; cases e

theorem Only.ite {α : Type} {s : GS I S} {c : Prop} [Decidable c] {a b a' b' : Out I S α} (h1 : Only fine s a a')
    (h2 : Only fine s b b') : Only fine s (if c then a else b) (if c then a' else b') := by
  split
  · exact h1
  · exact h2

/-- What does not touch the memory. -/
theorem Only.same {α : Type} {s : GS I S} {a b : Out I S α} (hb : a = b) (h : ∀ x s', a = some (x, s') → s'.sim = s.sim) :
    Only fine s a b := by
  intro x s' e hf
  exact ⟨by rw [← hb]; exact e, by rw [← h x s' e]; exact hf⟩

theorem only_strat {α : Type} {s : GS I S} (r : Option (Except PErr α × ES I)) :
    Only fine s (s.strat r) (s.strat r) := by
  refine .same rfl ?_
  intro x s' e
  obtain ⟨y, -, e⟩ := Option.map_eq_some_iff.1 e
  simp only [Prod.mk.injEq] at e
  rw [← e.2]

theorem only_act {s : GS I S} (f : P I → Option (P I)) : Only fine s (s.act f) (s.act f) := by
  refine .same rfl ?_
  intro x s' e
  obtain ⟨y, -, e⟩ := Option.map_eq_some_iff.1 e
  simp only [Prod.mk.injEq] at e
  rw [← e.2]

/-- The state set before a step does not matter. -/
theorem Only.setState {α : Type} {s : GS I S} {st : Int} {a b : Out I S α} (h : Only fine (s.setState st) a b) :
    Only fine s a b := h

theorem only_sync {s : GS I S} (m : Nat) : Only fine s (sync C m s) (sync (C.via f) m s) := only_strat _

theorem only_matchTok {s : GS I S} (t : Int) : Only fine s (matchTok C t s) (matchTok (C.via f) t s) := only_strat _

theorem only_matchAny {s : GS I S} : Only fine s (matchAny C s) (matchAny (C.via f) s) := only_strat _

theorem only_finish {m : Nat} {x : Except PErr Unit × GS I S} :
    Only fine x.2 (finish C m x) (finish (C.via f) m x) := only_strat _

theorem only_matchSet {s : GS I S} (ts : List Int) (b : Bool) :
    Only fine s (matchSet C ts b s) (matchSet (C.via f) ts b s) := by
  refine .same rfl ?_
  intro x s' e
  simp only [matchSet, Option.bind_eq_some_iff, Prod.exists] at e
  obtain ⟨t, p, h1, e⟩ := e
  split at e
  · simp only [Option.bind_eq_some_iff, Prod.exists, Option.map_eq_some_iff, Prod.mk.injEq] at e
    obtain ⟨t', p', h3, y, h4, _, rfl⟩ := e
    rfl
  · simp only [Option.map_eq_some_iff, Prod.exists, Prod.mk.injEq] at e
    obtain ⟨r, y, h3, h4, rfl⟩ := e
    rfl

theorem only_noViable {α : Type} {s : GS I S} : Only fine s (noViable (α := α) s) (noViable s) := by
  refine .same rfl ?_
  intro x s' e
  simp only [noViable, Option.bind_eq_some_iff, Option.map_eq_some_iff, Prod.mk.injEq] at e
  obtain ⟨t, -, y, -, -, rfl⟩ := e
  rfl

theorem only_failed {α : Type} {s : GS I S} (msg : List Char) :
    Only fine s (failedPredicate (α := α) C msg s) (failedPredicate (C.via f) msg s) := by
  refine .same rfl ?_
  intro x s' e
  simp only [failedPredicate, Option.bind_eq_some_iff, Option.map_eq_some_iff, Prod.mk.injEq] at e
  obtain ⟨t, -, y, -, z, -, -, rfl⟩ := e
  rfl

section
variable (hs : Heeds C f fine)
include hs

theorem only_choose {s : GS I S} (m : Nat) (ch : Choice) :
    Only fine s (choose C m ch s) (choose (C.via f) m ch s) := by
  cases ch with
  | predict d =>
    intro x s' e hf
    simp only [choose, Option.map_eq_some_iff, Prod.exists, Prod.mk.injEq] at e
    obtain ⟨y, i', σ', hp, rfl, rfl⟩ := e
    have hf' : fine σ' = true := hf
    obtain ⟨h1, h2⟩ := hs _ _ _ _ _ _ _ hp hf'
    refine ⟨?_, h2⟩
    simp only [choose, Cfg.via, h1, Option.map_some]
  | look sets other =>
    refine .same rfl ?_
    intro x s' e
    simp only [choose, Option.bind_eq_some_iff, Prod.exists] at e
    obtain ⟨t, p, -, e⟩ := e
    split at e
    · simp only [Gen.ret, Option.some.injEq, Prod.mk.injEq] at e
      rw [← e.2]
    · simp only [Gen.ret, Option.some.injEq, Prod.mk.injEq] at e
      rw [← e.2]
    · simp only [noViable, Option.bind_eq_some_iff, Option.map_eq_some_iff, Prod.mk.injEq] at e
      obtain ⟨t, -, y, -, -, rfl⟩ := e
      rfl

theorem only_head {s : GS I S} (m : Nat) (st : Int) (ch : Choice) :
    Only fine s (head C m st ch s) (head (C.via f) m st ch s) :=
  .andThen (only_sync (s := s.setState st) m).setState fun _ s1 => only_choose hs m ch

theorem only_select {α : Type} {s : GS I S} (m : Nat) (sel : Option (Int × Choice)) (alts : List α) :
    Only fine s (select C m sel alts s) (select (C.via f) m sel alts s) := by
  unfold select
  split
  · exact .ret _
  · exact .andThen (only_head hs _ _ _) fun _ _ => .ret _

theorem only_precGuard {s : GS I S} (o : OpAlt) :
    Only fine s (precGuard C o s) (precGuard (C.via f) o s) :=
  .ite (.ret _) (only_failed _)

theorem via_all (m : Nat) :
    (∀ c (s : GS I S), Only fine s (run C m c s) (run (C.via f) m c s)) ∧
    (∀ back ch exit ba body k (s : GS I S),
      Only fine s (loop C m back ch exit ba body k s) (loop (C.via f) m back ch exit ba body k s)) ∧
    (∀ back ch exit ba body k (s : GS I S),
      Only fine s (plusLoop C m back ch exit ba body k s) (plusLoop (C.via f) m back ch exit ba body k s)) ∧
    (∀ r q (s : GS I S), Only fine s (runRule C m r q s) (runRule (C.via f) m r q s)) ∧
    (∀ r start parent inv back ch opSel ops k (s : GS I S),
      Only fine s (opLoop C m r start parent inv back ch opSel ops k s)
        (opLoop (C.via f) m r start parent inv back ch opSel ops k s)) := by
  induction m with
  | zero =>
    refine ⟨?_, ?_, ?_, ?_, ?_⟩
    · intro c s; simp only [run]; exact .none
    · intro a b c d e f s; simp only [loop]; exact .none
    · intro a b c d e f s; simp only [plusLoop]; exact .none
    · intro r q s; simp only [runRule]; exact .none
    · intro a b c d e f g h' i s; simp only [opLoop]; exact .none
  | succ m ih =>
    obtain ⟨i1, i2, i3, i4, i5⟩ := ih
    refine ⟨?_, ?_, ?_, ?_, ?_⟩
    · intro c s
      cases c with
      | nop => simp only [run]; exact .ret _
      | seq a b => simp only [run]; exact .andThen (i1 _ _) fun _ _ => i1 _ _
      | tok st t =>
        simp only [run]
        exact .andThen (only_matchTok (s := s.setState st) t).setState fun _ _ => .ret _
      | set st ts b => simp only [run]; exact (only_matchSet (s := s.setState st) ts b).setState
      | any st =>
        simp only [run]
        exact .andThen (only_matchAny (s := s.setState st)).setState fun _ _ => .ret _
      | call st r q =>
        simp only [run]
        exact .andThen (i4 r q (s.setState st)).setState fun _ _ => .ret _
      | guard st k msg =>
        simp only [run]
        exact .ite (Only.ret (s := s.setState st) _).setState (only_failed (s := s.setState st) _).setState
      | block st ch alts =>
        simp only [run]
        refine .andThen (only_head hs _ _ _) fun k s1 => ?_
        split
        · exact i1 _ _
        · exact .ret _
      | opt st ch off alts =>
        simp only [run]
        refine .andThen (only_head hs _ _ _) fun k s1 => ?_
        split
        · exact i1 _ _
        · exact .ret _
      | star st back ch exit ba body =>
        simp only [run]
        exact .andThen (only_head hs _ _ _) fun k s1 => i2 _ _ _ _ _ _ _
      | plus st back ch exit ba body =>
        simp only [run]
        exact .andThen (only_sync (s := s.setState st) m).setState fun k s1 => i3 _ _ _ _ _ _ _
    · intro back ch exit ba body k s
      simp only [loop]
      refine .ite (.ret _) (.andThen (.ite (i1 _ _) (.ret _)) fun _ s1 => ?_)
      exact .andThen (only_head hs _ _ _) fun k s2 => i2 _ _ _ _ _ _ _
    · intro back ch exit ba body k s
      simp only [plusLoop]
      refine .andThen (.ite (i1 _ _) only_noViable) fun _ s1 => ?_
      refine .andThen (only_head hs _ _ _) fun k s2 => ?_
      exact .ite (.ret _) (i3 _ _ _ _ _ _ _)
    · intro r q s
      simp only [runRule, show (C.via f).rules = C.rules from rfl]
      rcases C.rules[r]? with _ | (⟨start, sel, alts⟩ | ⟨start, sel, prims, entry, back, ch, opSel, ops⟩) <;> dsimp only
      · exact .none
      · refine .andThen (only_act _) fun _ s1 => ?_
        refine .bind (.andThen (only_select hs _ _ _) fun a s2 => ?_) fun x => ?_
        · split
          · exact .ret _
          · exact .andThen (only_act _) fun _ _ => i1 _ _
        · refine .andThen only_finish fun _ s3 => ?_
          exact .andThen (only_act _) fun _ _ => .ret _
      · refine .andThen (only_act _) fun _ s1 => ?_
        refine .bind ?_ fun x => ?_
        · refine .andThen (only_act _) fun _ s2 => ?_
          refine .andThen (only_select hs _ _ _) fun a s3 => ?_
          refine .andThen ?_ fun _ s4 => ?_
          · split
            · exact .ret _
            · exact .andThen (only_act _) fun _ _ => i1 _ _
          · refine .andThen (only_act _) fun _ s5 => ?_
            exact .andThen (only_head hs _ _ _) fun k s6 => i5 _ _ _ _ _ _ _ _ _ _
        · refine .andThen only_finish fun _ s3 => ?_
          exact .andThen (only_act _) fun _ _ => .ret _
    · intro r start parent inv back ch opSel ops k s
      simp only [opLoop]
      refine .ite (.ret _) (.andThen (.ite ?_ (.ret _)) fun _ s1 => ?_)
      · refine .andThen (only_act _) fun _ s1 => ?_
        refine .andThen (only_select hs _ _ _) fun o s2 => ?_
        rcases o with _ | o
        · exact .ret _
        · refine .andThen (only_act _) fun _ s3 => ?_
          exact .andThen (only_precGuard hs (s := s3.setState o.predState) o).setState fun _ s4 => i1 _ _
      · exact .andThen (only_head hs _ _ _) fun k s2 => i5 _ _ _ _ _ _ _ _ _ _

end

theorem only_all (hs : Backward C fine) (m : Nat) :
    (∀ c (s : GS I S), Only fine s (run C m c s) (run (C.only fine) m c s)) ∧
    (∀ back ch exit ba body k (s : GS I S),
      Only fine s (loop C m back ch exit ba body k s) (loop (C.only fine) m back ch exit ba body k s)) ∧
    (∀ back ch exit ba body k (s : GS I S),
      Only fine s (plusLoop C m back ch exit ba body k s) (plusLoop (C.only fine) m back ch exit ba body k s)) ∧
    (∀ r q (s : GS I S), Only fine s (runRule C m r q s) (runRule (C.only fine) m r q s)) ∧
    (∀ r start parent inv back ch opSel ops k (s : GS I S),
      Only fine s (opLoop C m r start parent inv back ch opSel ops k s)
        (opLoop (C.only fine) m r start parent inv back ch opSel ops k s)) := via_all hs.heeds m

end Antlr.Gen
