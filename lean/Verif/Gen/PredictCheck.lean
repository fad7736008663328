import Verif.Gen.Check
import Verif.Gen.ReturnCheck
import Verif.Gen.PredictSpec

/-!
# A check what predictions can answer

`firsts` collects for each state the token types that can be read next before the rule ends, and whether it can end
before that; `answers` are the alternatives that prediction can answer.
-/

namespace Antlr.GenSpec
open Antlr LL1Spec PredictionSpec Gen Prediction

/-- For each state the token types that can come next, and whether the rule can end before. -/
abbrev Firsts := List (List Int × Bool)

/-- What is known about a state goes into what is known about one before it. -/
def subB (a b : List Int × Bool) : Bool := a.1.all b.1.contains && (!a.2 || b.2)

section
variable (atn : ATN) (types : List Int)

/-- `F` is closed under the steps of the automaton. -/
def firstsB (F : Firsts) : Bool :=
  (List.range atn.states.length).all fun s => (atn.states[s]?).any fun st => (F[s]?).any fun x =>
    if st.stateType = .ruleStop then x.2
    else st.transitions.all fun tr => match tr with
      | .rule t f _ _ => (F[t]?).any fun y => y.1.all x.1.contains && (!y.2 || (F[f]?).any fun z => subB z x)
      | tr => if freeB tr then (F[tr.target]?).any fun y => subB y x
        else types.all fun t => !takesB atn.maxTokenType tr t || x.1.contains t

def join (a b : List Int × Bool) : List Int × Bool := (a.1 ++ b.1.filter (fun t => !a.1.contains t), a.2 || b.2)

/-- One round. -/
def grow (F : Firsts) : Firsts :=
  (List.range atn.states.length).map fun s => match atn.states[s]? with
    | none => ([], false)
    | some st => if st.stateType = .ruleStop then ([], true)
      else st.transitions.foldl (fun x tr => join x <| match tr with
        | .rule t f _ _ => match (F[t]?).getD ([], false) with
          | (l, true) => join (l, false) ((F[f]?).getD ([], false))
          | y => y
        | tr => if freeB tr then (F[tr.target]?).getD ([], false)
          else (types.filter fun t => takesB atn.maxTokenType tr t, false)) ([], false)

def firsts : Nat → Firsts
  | 0 => []
  | n + 1 => grow atn types (firsts n)

/-- The alternatives of decision `d` that prediction can answer if the next token is of type `t`. -/
def answers (F : Firsts) (d : Nat) (t : Int) : List Int :=
  match (atn.decisionToState[d]?).bind fun a => atn.states[a]? with
  | none => []
  | some dec => dec.transitions.zipIdx.filterMap fun x =>
      if (F[x.1.target]?).any fun y => y.1.contains t || y.2 then some ((x.2 + 1 : Nat) : Int) else none

def predictB (r : Nat) : Choice → Bool
  | .look .. => true
  | .predict d => (atn.decisionToState[d]?).any fun a => (decisionOf atn a).isSome &&
      (atn.states[a]?).any fun dec => dec.ruleIndex == r

end

section
variable {atn : ATN} {types : List Int} {F : Firsts}

/-- The token type can come next. -/
def Next (F : Firsts) (t : Int) : Nat → List Nat → Prop
  | s, [] => ∃ x, F[s]? = some x ∧ t ∈ x.1
  | s, f :: k => ∃ x, F[s]? = some x ∧ (t ∈ x.1 ∨ (x.2 = true ∧ Next F t f k))

/-- The end can come next. -/
def Done (F : Firsts) : Nat → List Nat → Prop
  | s, [] => ∃ x, F[s]? = some x ∧ x.2 = true
  | s, f :: k => ∃ x, F[s]? = some x ∧ x.2 = true ∧ Done F f k

theorem next_sub {t : Int} {a b : Nat} {x y : List Int × Bool} (hx : F[a]? = some x) (hy : F[b]? = some y) (h : subB x y = true)
    {k : List Nat} : (Next F t a k → Next F t b k) ∧ (Done F a k → Done F b k) := by
  simp only [subB, Bool.and_eq_true, List.all_eq_true, List.contains_iff_mem, Bool.or_eq_true, Bool.not_eq_true'] at h
  have h2 : x.2 = true → y.2 = true := fun e => by
    rcases h.2 with h | h
    · rw [e] at h; cases h
    · exact h
  cases k with
  | nil =>
    refine ⟨?_, ?_⟩
    · rintro ⟨x', e, h'⟩
      rw [hx, Option.some.injEq] at e
      subst e
      exact ⟨y, hy, h.1 _ h'⟩
    · rintro ⟨x', e, h'⟩
      rw [hx, Option.some.injEq] at e
      subst e
      exact ⟨y, hy, h2 h'⟩
  | cons f k =>
    refine ⟨?_, ?_⟩
    · rintro ⟨x', e, h'⟩
      rw [hx, Option.some.injEq] at e
      subst e
      exact ⟨y, hy, h'.imp (h.1 _) fun h => ⟨h2 h.1, h.2⟩⟩
    · rintro ⟨x', e, h'⟩
      rw [hx, Option.some.injEq] at e
      subst e
      exact ⟨y, hy, h2 h'.1, h'.2⟩

theorem firstsB_at (h : firstsB atn types F = true) {s : Nat} {st : ATNState} (hs : atn.states[s]? = some st) :
    ∃ x, F[s]? = some x ∧ (st.stateType = .ruleStop → x.2 = true) ∧ (st.stateType ≠ .ruleStop → ∀ tr ∈ st.transitions,
      (match tr with
      | .rule t f _ _ => (F[t]?).any fun y => y.1.all x.1.contains && (!y.2 || (F[f]?).any fun z => subB z x)
      | tr => if freeB tr then (F[tr.target]?).any fun y => subB y x
        else types.all fun t => !takesB atn.maxTokenType tr t || x.1.contains t) = true) := by
  have := List.all_eq_true.1 h s (List.mem_range.2 (List.getElem?_eq_some_iff.1 hs).1)
  rw [hs, Option.any_some, Option.any_eq_true] at this
  obtain ⟨x, hx, h1⟩ := this
  refine ⟨x, hx, fun e => ?_, fun e tr htr => ?_⟩
  · rwa [if_pos e] at h1
  · rw [if_neg e] at h1
    exact List.all_eq_true.1 h1 tr htr

theorem next_step (h : firstsB atn types F = true) {t : Int} {p q : Pos} (hs : Step atn p q) :
    (Next F t q.1 q.2 → Next F t p.1 p.2) ∧ (Done F q.1 q.2 → Done F p.1 p.2) := by
  cases hs with
  | @free s k st tr h1 h2 h3 h4 =>
    obtain ⟨x, hx, -, h5⟩ := firstsB_at h h1
    have h6 := h5 h2 tr h3
    have : (F[tr.target]?).any (fun y => subB y x) = true := by
      cases tr <;> simp_all [Free, freeB]
    rw [Option.any_eq_true] at this
    obtain ⟨y, hy, h7⟩ := this
    exact next_sub hy hx h7
  | @call s k st t' f r p' h1 h2 h3 =>
    obtain ⟨x, hx, -, h5⟩ := firstsB_at h h1
    have h6 := h5 h2 _ h3
    simp only [Option.any_eq_true, Bool.and_eq_true, List.all_eq_true, List.contains_iff_mem, Bool.or_eq_true,
      Bool.not_eq_true'] at h6
    obtain ⟨y, hy, h7, h8⟩ := h6
    refine ⟨?_, ?_⟩
    · rintro ⟨y', e, h9⟩
      rw [hy, Option.some.injEq] at e
      subst e
      rcases h9 with h9 | ⟨h9, h10⟩
      · cases k with
        | nil => exact ⟨x, hx, h7 _ h9⟩
        | cons => exact ⟨x, hx, .inl (h7 _ h9)⟩
      · rcases h8 with h8 | ⟨z, hz, h8⟩
        · rw [h9] at h8; cases h8
        · exact (next_sub hz hx h8).1 h10
    · rintro ⟨y', e, h9, h10⟩
      rw [hy, Option.some.injEq] at e
      subst e
      rcases h8 with h8 | ⟨z, hz, h8⟩
      · rw [h9] at h8; cases h8
      · exact (next_sub (t := t) hz hx h8).2 h10
  | @ret s f k st h1 h2 =>
    obtain ⟨x, hx, h5, -⟩ := firstsB_at h h1
    exact ⟨fun h => ⟨x, hx, .inr ⟨h5 h2, h⟩⟩, fun h => ⟨x, hx, h5 h2, h⟩⟩

theorem next_reach (h : firstsB atn types F = true) {t : Int} {p q : Pos} (hs : Reach atn p q) :
    (Next F t q.1 q.2 → Next F t p.1 p.2) ∧ (Done F q.1 q.2 → Done F p.1 p.2) := by
  induction hs with
  | refl => exact ⟨id, id⟩
  | tail _ hs ih => exact ⟨fun g => ih.1 ((next_step h hs).1 g), fun g => ih.2 ((next_step (t := t) h hs).2 g)⟩

theorem canTake_next (h : firstsB atn types F = true) {t : Int} (ht : t ∈ types) {s : Nat} (hc : CanTake atn (s, []) t) :
    ∃ x, F[s]? = some x ∧ t ∈ x.1 := by
  obtain ⟨q, r, h1, st, tr, h2, h3, h4, h5, -⟩ := hc
  refine (next_reach h h1).1 ?_
  obtain ⟨x, hx, -, h6⟩ := firstsB_at h h2
  have h7 := h6 h3 tr h4
  have h8 : types.all (fun t => !takesB atn.maxTokenType tr t || x.1.contains t) = true := by
    cases tr <;> simp_all [Takes, freeB]
  have h9 := List.all_eq_true.1 h8 t ht
  rw [takesB_iff.2 h5] at h9
  have h9 : t ∈ x.1 := by simpa using h9
  cases hk : q.2 with
  | nil => exact ⟨x, hx, h9⟩
  | cons => exact ⟨x, hx, .inl h9⟩

theorem canEnd_done (h : firstsB atn types F = true) {s : Nat} (hc : CanEnd atn (s, [])) :
    ∃ x, F[s]? = some x ∧ x.2 = true := by
  obtain ⟨q, st, h1, h2, h3⟩ := hc
  obtain ⟨x, hx, h4, -⟩ := firstsB_at h h2
  exact (next_reach (t := 0) h h1).2 ⟨x, hx, h4 h3⟩

theorem begun_answers (h : firstsB atn types F = true) {d : Nat} {t k : Int} (ht : t ∈ types) (hb : Begun atn d t k) :
    k ∈ answers atn F d t := by
  obtain ⟨a, dec, h1, h2, i, tr, rfl, h3, h4⟩ := hb
  simp only [answers, h1, Option.bind_some, h2, List.mem_filterMap]
  refine ⟨(tr, i), ?_, ?_⟩
  · rw [List.mem_zipIdx_iff_getElem?]
    exact h3
  · have : (F[tr.target]?).any (fun y => y.1.contains t || y.2) = true := by
      rcases h4 with h4 | h4
      · obtain ⟨x, hx, h5⟩ := canTake_next h ht h4
        rw [hx]; simp [h5]
      · obtain ⟨x, hx, h5⟩ := canEnd_done h h4
        rw [hx]; simp [h5]
    dsimp only
    rw [if_pos this]

theorem predict_of {r : Nat} {ch : Choice} (h : predictB atn r ch = true) : IsLook r ch ∨ IsPredict atn r ch := by
  cases ch with
  | look s o => exact .inl ⟨s, o, rfl⟩
  | predict d =>
    right
    simp only [predictB, Option.any_eq_true, Bool.and_eq_true, beq_iff_eq, Option.isSome_iff_exists] at h
    obtain ⟨a, h1, ⟨ts, h2⟩, dec, h3, h4⟩ := h
    obtain ⟨dec', h5, -⟩ := decisionOf_ok h2
    have := h5.state
    rw [h3, Option.some.injEq] at this
    subst this
    exact ⟨d, a, dec, rfl, h1, h5, h4⟩

end
end Antlr.GenSpec
