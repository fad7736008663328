import Verif.Lexer.TotalSpec

/-!
# Checks for the conditions of C69

`heights` gives each state a number that drops along every step without reading; `nulls` tells from which
states the end of the rule may be reached without reading.
-/

namespace Antlr.LexTotal
open Antlr Lexer LexPaths IntervalSpec

/-- The edge reads EOF. -/
def readsEof : Trans → Bool
  | .atom _ l => decide (EOF = l)
  | .range _ a b => decide (a ≤ EOF ∧ EOF ≤ b)
  | .set _ s => decide (Mem s.intervals EOF)
  | _ => false

theorem readsEof_iff {tr : Trans} : ReadsSym tr EOF ↔ readsEof tr = true := by
  cases tr <;> simp only [ReadsSym, readsEof, decide_eq_true_eq, Bool.false_eq_true, iff_false] <;>
    · simp only [EOF]; omega

def heightCheck (heights : List Nat) (nulls : List Bool) (s : Nat) (st : ATNState) : Bool :=
  let h := fun i => heights.getD i 0
  let e := fun i => nulls.getD i false
  if st.stateType = .ruleStop then e s && decide (1 ≤ h s)
  else st.transitions.all fun tr => match tr with
    | .rule t f _ _ =>
      if e t then decide (h t + h f < h s) && (!e f || e s) else decide (h t < h s)
    | .epsilon t _ | .predicate t _ _ _ | .action t _ _ _ _ => decide (h t < h s) && (!e t || e s)
    | .atom t _ | .range t _ _ | .set t _ => !readsEof tr || (decide (h t < h s) && (!e t || e s))
    | _ => true

def loopCheck (atn : ATN) (heights : List Nat) (nulls : List Bool) : Bool :=
  atn.states.zipIdx.all fun p => heightCheck heights nulls p.2 p.1

/-- The height of a thread. -/
def height (heights : List Nat) (nulls : List Bool) : Nat → List Nat → Nat
  | s, [] => heights.getD s 0
  | s, f :: k => heights.getD s 0 + if nulls.getD s false then height heights nulls f k else 0

theorem height_eq (heights : List Nat) (nulls : List Bool) (k : List Nat) : ∃ r, ∀ s, height heights nulls s k =
    heights.getD s 0 + if nulls.getD s false then r else 0 := by
  cases k with
  | nil => exact ⟨0, by simp [height]⟩
  | cons f k => exact ⟨height heights nulls f k, by simp [height]⟩

theorem height_jump {heights : List Nat} {nulls : List Bool} {s t : Nat} (k : List Nat)
    (h : (decide (heights.getD t 0 < heights.getD s 0) && (!nulls.getD t false || nulls.getD s false)) = true) :
    height heights nulls t k < height heights nulls s k := by
  simp only [Bool.and_eq_true, decide_eq_true_eq, Bool.or_eq_true, Bool.not_eq_true'] at h
  obtain ⟨r, hr⟩ := height_eq heights nulls k
  rw [hr, hr]
  rcases h with ⟨h1, h2 | h2⟩
  · simp only [h2, Bool.false_eq_true, if_false]; omega
  · simp only [h2, if_true]; split <;> omega

theorem check_state {atn : ATN} {heights : List Nat} {nulls : List Bool} (h : loopCheck atn heights nulls = true)
    {s : Nat} {st : ATNState} (hs : atn.states[s]? = some st) : heightCheck heights nulls s st = true := by
  simp only [loopCheck, List.all_eq_true] at h
  exact h (st, s) (by rw [List.mk_mem_zipIdx_iff_getElem?]; exact hs)

theorem height_idle {atn : ATN} {heights : List Nat} {nulls : List Bool} (h : loopCheck atn heights nulls = true)
    {x y : Thread} (hi : Idle atn x y) : height heights nulls y.state y.stack < height heights nulls x.state x.stack := by
  cases hi with
  | @edge _ st tr h1 h2 h3 h4 =>
    have hc := check_state h h1
    simp only [heightCheck, if_neg h2, List.all_eq_true] at hc
    replace hc := hc tr h3
    cases tr with
    | epsilon t p => simp only [Free] at h4; subst h4; exact height_jump _ hc
    | rule t f r p =>
      simp only [Free] at h4; subst h4
      simp only at hc ⊢
      obtain ⟨w, hw⟩ := height_eq heights nulls x.stack
      rw [height, hw, hw]
      split at hc
      · rename_i ht
        simp only [Bool.and_eq_true, decide_eq_true_eq, Bool.or_eq_true, Bool.not_eq_true'] at hc
        simp only [ht, if_true]
        rcases hc with ⟨h5, h6 | h6⟩
        · simp only [h6, Bool.false_eq_true, if_false]; omega
        · simp only [h6, if_true]; split <;> omega
      · rename_i ht
        simp only [decide_eq_true_eq] at hc
        rw [if_neg ht]
        omega
    | predicate t b r p => obtain ⟨-, rfl⟩ := h4; exact height_jump _ hc
    | action t b r i p =>
      have hy : y.state = t ∧ y.stack = x.stack := by
        simp only [Free] at h4
        split at h4
        · obtain ⟨act, _, _, rfl⟩ := h4; exact ⟨rfl, rfl⟩
        · subst h4; exact ⟨rfl, rfl⟩
      rw [hy.1, hy.2]; exact height_jump _ hc
    | atom t l =>
      obtain ⟨-, h5, rfl⟩ := h4
      simp only [readsEof_iff.mp h5, Bool.not_true, Bool.false_or] at hc
      exact height_jump _ hc
    | range t l u =>
      obtain ⟨-, h5, rfl⟩ := h4
      simp only [readsEof_iff.mp h5, Bool.not_true, Bool.false_or] at hc
      exact height_jump _ hc
    | set t l =>
      obtain ⟨-, h5, rfl⟩ := h4
      simp only [readsEof_iff.mp h5, Bool.not_true, Bool.false_or] at hc
      exact height_jump _ hc
    | notSet => exact absurd h4 (by simp [Free])
    | wildcard => exact absurd h4 (by simp [Free])
    | precedence => exact absurd h4 (by simp [Free])
  | @ret st f k h1 h2 h3 =>
    have hc := check_state h h1
    simp only [heightCheck, if_pos h2, Bool.and_eq_true, decide_eq_true_eq] at hc
    rw [h3, height, if_pos hc.1]
    simp only
    omega

theorem chain_height {atn : ATN} {heights : List Nat} {nulls : List Bool} (h : loopCheck atn heights nulls = true)
    (n : Nat) : ∀ {x : Thread}, Chain atn n x → n ≤ height heights nulls x.state x.stack := by
  induction n with
  | zero => intro x _; omega
  | succ n ih =>
    rintro x ⟨y, h1, h2⟩
    have := height_idle h h1
    have := ih h2
    omega

theorem loopCheck_ok {atn : ATN} {heights : List Nat} {nulls : List Bool} {n : Nat}
    (h : loopCheck atn heights nulls = true) (hn : heights.all (· < n) = true) (h0 : 0 < n) : NoLoop atn n := by
  intro s hc
  have := chain_height h n hc
  simp only [height, List.getD_eq_getElem?_getD] at this
  simp only [List.all_eq_true, decide_eq_true_eq] at hn
  cases hs : heights[s]? with
  | none => rw [hs] at this; simp at this; omega
  | some v =>
    rw [hs] at this
    have := hn v (List.mem_of_getElem? hs)
    simp at *
    omega

/-- The end may be reached without reading. -/
def Hollow (nulls : List Bool) (x : Thread) : Prop :=
  nulls.getD x.state false = true ∧ ∀ f ∈ x.stack, nulls.getD f false = true

theorem hollow_jump {heights : List Nat} {nulls : List Bool} {s t : Nat}
    (h : (decide (heights.getD t 0 < heights.getD s 0) && (!nulls.getD t false || nulls.getD s false)) = true)
    (ht : nulls.getD t false = true) : nulls.getD s false = true := by
  simp only [Bool.and_eq_true, Bool.or_eq_true, ht, Bool.not_true, Bool.false_eq_true, false_or] at h
  exact h.2

theorem hollow_idle {atn : ATN} {heights : List Nat} {nulls : List Bool} (h : loopCheck atn heights nulls = true)
    {x y : Thread} (hi : Idle atn x y) (hy : Hollow nulls y) : Hollow nulls x := by
  cases hi with
  | @edge _ st tr h1 h2 h3 h4 =>
    have hc := check_state h h1
    simp only [heightCheck, if_neg h2, List.all_eq_true] at hc
    replace hc := hc tr h3
    cases tr with
    | epsilon t p => simp only [Free] at h4; subst h4; exact ⟨hollow_jump hc hy.1, hy.2⟩
    | rule t f r p =>
      simp only [Free] at h4; subst h4
      have ht : nulls.getD t false = true := hy.1
      have hf : nulls.getD f false = true := hy.2 f (by simp)
      simp only [ht, if_true, Bool.and_eq_true, hf, Bool.not_true, Bool.false_or] at hc
      exact ⟨hc.2, fun g hg => hy.2 g (by simp [hg])⟩
    | predicate t b r p => obtain ⟨-, rfl⟩ := h4; exact ⟨hollow_jump hc hy.1, hy.2⟩
    | action t b r i p =>
      have hy' : y.state = t ∧ y.stack = x.stack := by
        simp only [Free] at h4
        split at h4
        · obtain ⟨act, _, _, rfl⟩ := h4; exact ⟨rfl, rfl⟩
        · subst h4; exact ⟨rfl, rfl⟩
      rw [Hollow, hy'.1, hy'.2] at hy
      exact ⟨hollow_jump hc hy.1, hy.2⟩
    | atom t l =>
      obtain ⟨-, h5, rfl⟩ := h4
      simp only [readsEof_iff.mp h5, Bool.not_true, Bool.false_or] at hc
      exact ⟨hollow_jump hc hy.1, hy.2⟩
    | range t l u =>
      obtain ⟨-, h5, rfl⟩ := h4
      simp only [readsEof_iff.mp h5, Bool.not_true, Bool.false_or] at hc
      exact ⟨hollow_jump hc hy.1, hy.2⟩
    | set t l =>
      obtain ⟨-, h5, rfl⟩ := h4
      simp only [readsEof_iff.mp h5, Bool.not_true, Bool.false_or] at hc
      exact ⟨hollow_jump hc hy.1, hy.2⟩
    | notSet => exact absurd h4 (by simp [Free])
    | wildcard => exact absurd h4 (by simp [Free])
    | precedence => exact absurd h4 (by simp [Free])
  | @ret st f k h1 h2 h3 =>
    have hc := check_state h h1
    simp only [heightCheck, if_pos h2, Bool.and_eq_true] at hc
    refine ⟨hc.1, ?_⟩
    intro g hg
    rw [h3, List.mem_cons] at hg
    rcases hg with rfl | hg
    · exact hy.1
    · exact hy.2 g hg

def emptyCheck (atn : ATN) (nulls : List Bool) : Bool :=
  atn.modeToStartState.all fun ss => ((atn.states[ss]?).toList.flatMap (·.transitions)).all fun tr =>
    !nulls.getD tr.target false

theorem emptyCheck_ok {atn : ATN} {heights : List Nat} {nulls : List Bool} (h : loopCheck atn heights nulls = true)
    (he : emptyCheck atn nulls = true) : NoEmpty atn := by
  intro ss hss st hst tr htr s acts t ht hstop hr
  have hend : Hollow nulls ⟨s, [], acts⟩ := by
    have hc := check_state h ht
    simp only [heightCheck, if_pos hstop, Bool.and_eq_true] at hc
    exact ⟨hc.1, by simp⟩
  have hstart : Hollow nulls ⟨tr.target, [], []⟩ := by
    generalize (⟨tr.target, [], []⟩ : Thread) = x at hr
    induction hr using Relation.ReflTransGen.head_induction_on with
    | refl => exact hend
    | head h1 _ ih => exact hollow_idle h h1 ih
  simp only [emptyCheck, List.all_eq_true] at he
  have := he ss hss tr (by simp [hst, htr])
  rw [hstart.1] at this
  simp at this

/-- A check for `Whole`. -/
def wholeCheck (atn : ATN) : Bool :=
  decide ((atn.states.length : Int) ≤ PC.EMPTY_RS) && atn.modeToStartState.all (· < atn.states.length) &&
  (atn.states.all (fun st => st.transitions.all fun tr => match tr with | .predicate _ _ _ _ => false | _ => true) ||
    atn.states.all fun st => st.transitions.all fun tr => !readsEof tr) &&
  atn.states.all fun st =>
    (!decide (st.stateType = .ruleStop) || (decide (st.ruleIndex < atn.ruleToTokenType.length) &&
      st.transitions.all fun tr => match tr with | .epsilon _ _ => true | _ => false)) &&
    st.transitions.all fun tr => decide (tr.target < atn.states.length) && match tr with
      | .rule _ f _ _ => decide (f < atn.states.length) && st.epsilonOnly
      | .action _ _ _ a _ => decide (0 ≤ a) && decide (a.toNat < atn.lexerActions.length)
      | .precedence _ _ => false
      | _ => true

theorem wholeCheck_ok {atn : ATN} (h : wholeCheck atn = true) : Whole atn := by
  simp only [wholeCheck, Bool.and_eq_true, decide_eq_true_eq, List.all_eq_true, Bool.or_eq_true] at h
  obtain ⟨⟨⟨h1, h2⟩, h3⟩, h4⟩ := h
  have h' : ∀ (s : Nat) (st : ATNState), atn.states[s]? = some st → _ := fun s st hs => h4 st (List.mem_of_getElem? hs)
  refine ⟨h1, ?_, ?_, ?_, ?_, ?_, h2, ?_⟩
  · intro s st hs tr htr
    exact ((h' s st hs).2 tr htr).1
  · intro s st hs t f r p htr
    simpa using ((h' s st hs).2 _ htr).2
  · intro s st hs t b r a p htr
    simpa using ((h' s st hs).2 _ htr).2
  · intro s st hs t p htr
    simpa using ((h' s st hs).2 _ htr).2
  · intro s st hs hst
    rcases (h' s st hs).1 with h5 | h5
    · simp [hst] at h5
    · refine ⟨h5.1, fun tr htr => ?_⟩
      have := h5.2 tr htr
      cases tr <;> simp_all
  · rcases h3 with h3 | h3
    · left
      intro s st hs t b r p htr
      simpa using h3 st (List.mem_of_getElem? hs) _ htr
    · right
      intro s st hs tr htr hr
      have := h3 st (List.mem_of_getElem? hs) tr htr
      rw [readsEof_iff.mp hr] at this
      simp at this

end Antlr.LexTotal
