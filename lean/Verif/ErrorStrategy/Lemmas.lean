import Verif.ErrorStrategy.Spec

/-! # Lemmas about the error strategy -/

namespace Antlr.ErrorLemmas
open Antlr ParserSpec ErrorSpec

variable {I : Type} [TokStream I] {T : Nat → Tok} {V : I → Nat → Prop} {ix : Nat → Int}

theorem modify_id (h : List Ctx) (c : Nat) (f : Ctx → Ctx) (hf : ∀ x, f x = x) : h.modify c f = h := by
  apply List.ext_getElem?
  intro i
  rw [List.getElem?_modify]
  cases h[i]? <;> simp [hf]

omit [TokStream I] in
theorem after_nil (p : P I) (i : I) (c : Nat) : after p i c [] [] = { p with input := i } := by
  simp only [after, List.map_nil, List.append_nil, List.flatMap_nil, List.length_nil, Nat.add_zero]
  congr 1
  split
  · exact modify_id _ _ _ (fun x => rfl)
  · rfl

omit [TokStream I] in
theorem after_self (p : P I) (c : Nat) : after p p.input c [] [] = p := by rw [after_nil]

omit [TokStream I] in
theorem after_after (p : P I) (i i' : I) (c : Nat) (l l' : List (Tok × Bool))
    (r r' : List (Tok × List Char)) :
    after (after p i c l r) i' c l' r' = after p i' c (l ++ l') (r ++ r') := by
  simp only [after, List.map_append, List.flatMap_append, List.length_append, List.append_assoc,
    Nat.add_assoc]
  congr 1
  split
  · rw [List.modify_modify_eq]
    congr 1
    funext x
    simp
  · rfl

omit [TokStream I] in
theorem after_len (p : P I) (i : I) (c : Nat) (l r) : (after p i c l r).heap.length = p.heap.length := by
  simp only [after]; split <;> simp

omit [TokStream I] in
theorem ready_after {p : P I} {n c : Nat} (h : Ready V p n c) {i : I} {m : Nat} (hv : V i m)
    (l r) : Ready V (after p i c l r) m c :=
  ⟨hv, h.ctx, by rw [after_len]; exact h.mem⟩

/-! ## Single actions -/

theorem cur_eq (hv : IsView T V) {p : P I} {n c : Nat} (h : Ready V p n c) :
    p.getCurrentToken = some (T n) := hv.current _ _ h.view

theorem consume_after (hv : IsView T V) {p : P I} {n c : Nat} (h : Ready V p n c) (m : Bool) :
    ∃ i', p.consume m = some (after p i' c [(T n, m)] []) ∧ V i' (next T n) := by
  have key : ∀ i' : I,
      (if p.buildTrees ∨ p.listeners ≠ [] then
          p.ctx.bind fun c => (P.addChild { p with input := i' } c (.leaf (T n) m)).map fun p =>
            { p with log := p.log ++ p.listeners.map fun l => (l.who, .leaf (T n) m) }
         else some { p with input := i' }) = some (after p i' c [(T n, m)] []) := by
    intro i'
    have hm := h.mem
    by_cases hb : p.buildTrees ∨ p.listeners ≠ []
    · rw [if_pos hb, h.ctx, Option.bind_some]
      simp only [P.addChild, P.modify, List.getElem?_eq_getElem hm, Option.map_some, after, if_pos hb]
      simp only [List.map_cons, List.map_nil, List.flatMap_cons, List.flatMap_nil, List.append_nil,
        List.length_nil, Nat.add_zero, h.ctx, Option.some.injEq]
      congr 1
      apply List.ext_getElem?
      intro j
      rw [List.getElem?_modify, List.getElem?_set]
      by_cases hj : c = j
      · subst hj; simp [hm]
      · simp [hj]
    · rw [if_neg hb]
      simp only [after, if_neg hb]
      have hl : p.listeners = [] := by simpa using fun hh => hb (Or.inr hh)
      simp [hl]
  unfold P.consume
  rw [cur_eq hv h, Option.bind_some]
  by_cases he : (T n).ttype = TOKEN_EOF
  · rw [if_neg (by simpa using he), Option.bind_some]
    exact ⟨p.input, key p.input, by simpa [next, he] using h.view⟩
  · obtain ⟨i', hc, hv'⟩ := hv.consume _ _ h.view he
    rw [if_pos he, hc, Option.map_some, Option.bind_some]
    exact ⟨i', key i', by simpa [next, he] using hv'⟩

theorem la_after (hv : IsView T V) {p : P I} {n c : Nat} (h : Ready V p n c) (k : Nat) (hk : 1 ≤ k) :
    ∃ i', p.la k = some ((T (n + k - 1)).ttype, after p i' c [] []) ∧ V i' n := by
  obtain ⟨s', h1, h2⟩ := hv.la _ _ k h.view hk
  exact ⟨s', by simp [P.la, h1, after_nil], h2⟩

theorem notify_after (hv : IsIndexed T V ix) {p : P I} {n c : Nat} (h : Ready V p n c)
    (msg : List Char) : p.notifyErrorListeners msg (some (T n).index) =
      some (after p p.input c [] [(T n, msg)]) := by
  have e : TokStream.get p.input (T n).index = some (T n) := by
    rw [hv.tokIndex, ← hv.index _ _ h.view]; exact hv.current _ _ h.view
  simp only [P.notifyErrorListeners, e, Option.map_some, after, List.map_nil, List.append_nil,
    List.flatMap_nil, List.flatMap_cons, List.length_cons, List.length_nil, Option.some.injEq]
  congr 1
  split
  · exact (modify_id _ _ _ (fun x => rfl)).symm
  · rfl

/-! ## What does not depend on leaves -/

/-- Same parents and invoking states. -/
def SameLinks (h h' : List Ctx) : Prop :=
  h'.length = h.length ∧
    ∀ i : Nat, (h'[i]?).map (fun (c : Ctx) => (c.parent, c.invoking, c.rule)) =
      (h[i]?).map fun (c : Ctx) => (c.parent, c.invoking, c.rule)

theorem SameLinks.get {h h' : List Ctx} (hl : SameLinks h h') (i : Nat) :
    (h[i]? = none ∧ h'[i]? = none) ∨ ∃ c c', h[i]? = some c ∧ h'[i]? = some c' ∧
      c'.parent = c.parent ∧ c'.invoking = c.invoking := by
  have := hl.2 i
  cases h1 : h[i]? <;> cases h2 : h'[i]? <;> simp_all

omit [TokStream I] in
theorem after_links (p : P I) (i : I) (c : Nat) (l r) : SameLinks p.heap (after p i c l r).heap := by
  refine ⟨after_len p i c l r, fun j => ?_⟩
  simp only [after]
  split
  · rw [List.getElem?_modify]
    cases p.heap[j]? with
    | none => rfl
    | some x => by_cases hj : c = j <;> simp [hj]
  · rfl

theorem statesStackFrom_links {h h' : List Ctx} (hl : SameLinks h h') (fuel i : Nat) :
    P.statesStackFrom h' fuel i = P.statesStackFrom h fuel i := by
  induction fuel generalizing i with
  | zero => rfl
  | succ fuel ih =>
    rcases hl.get i with ⟨h1, h2⟩ | ⟨c, c', h1, h2, h3, h4⟩
    · simp [P.statesStackFrom, h1, h2]
    · simp only [P.statesStackFrom, h1, h2, Option.bind_some, h3, h4]
      split
      · rfl
      · cases c.parent <;> simp [ih]

theorem chainFrom_links {h h' : List Ctx} (hl : SameLinks h h') (fuel : Nat) (i : Option Nat) :
    P.chainFrom h' fuel i = P.chainFrom h fuel i := by
  induction fuel generalizing i with
  | zero => cases i <;> rfl
  | succ fuel ih =>
    cases i with
    | none => rfl
    | some i =>
      rcases hl.get i with ⟨h1, h2⟩ | ⟨c, c', h1, h2, h3, h4⟩
      · simp [P.chainFrom, h1, h2]
      · simp [P.chainFrom, h1, h2, h3, h4, ih]

omit [TokStream I] in
theorem recoverySetLoop_links (env : EEnv I) {h h' : List Ctx} (hl : SameLinks h h') (fuel : Nat)
    (i : Option Nat) (set : IntervalSet) :
    ES.recoverySetLoop env h' fuel i set = ES.recoverySetLoop env h fuel i set := by
  induction fuel generalizing i set with
  | zero => cases i <;> rfl
  | succ fuel ih =>
    cases i with
    | none => rfl
    | some i =>
      rcases hl.get i with ⟨h1, h2⟩ | ⟨c, c', h1, h2, h3, h4⟩
      · simp [ES.recoverySetLoop, h1, h2]
      · simp only [ES.recoverySetLoop, h1, h2, Option.bind_some, h3, h4, ih]

section
variable (env : EEnv I) (p : P I) (i : I) (c : Nat) (l : List (Tok × Bool))
  (r : List (Tok × List Char))

omit [TokStream I] in
theorem stack_after (j : Nat) : (after p i c l r).statesStack j = p.statesStack j := by
  rw [P.statesStack, P.statesStack, after_len, statesStackFrom_links (after_links p i c l r)]

omit [TokStream I] in
theorem expected_after : (after p i c l r).getExpectedTokens env = p.getExpectedTokens env := by
  simp only [P.getExpectedTokens, stack_after]
  rfl

omit [TokStream I] in
theorem recoverySet_after : ES.recoverySet env (after p i c l r) = ES.recoverySet env p := by
  simp only [ES.recoverySet, after_len, recoverySetLoop_links env (after_links p i c l r)]
  rfl

omit [TokStream I] in
theorem afterExpected_after : ES.afterExpected env (after p i c l r) = ES.afterExpected env p := by
  simp only [ES.afterExpected, after_len, chainFrom_links (after_links p i c l r)]
  rfl

end

/-! ## Reports -/

theorem reportUnwanted_after (hv : IsIndexed T V ix) (env : EEnv I) {s : ES I} {n c : Nat}
    (h : Ready V s.p n c) {E : IntervalSet} (hE : s.p.getExpectedTokens env = some E) :
    ES.reportUnwanted env s = some ⟨s.eh.begin, after s.p s.p.input c []
      (unlessRecovering s.eh (T n, extraneous env.display E (T n)))⟩ := by
  unfold ES.reportUnwanted unlessRecovering
  by_cases hm : s.eh.mode = true
  · rw [if_pos hm, if_pos hm, after_self, EH.begin, ← hm]
  · rw [if_neg hm, if_neg hm, hE, Option.bind_some, cur_eq hv.toIsView h, Option.bind_some,
      notify_after hv h]
    rfl

theorem reportMissing_after (hv : IsIndexed T V ix) (env : EEnv I) {s : ES I} {n c : Nat}
    (h : Ready V s.p n c) {E : IntervalSet} (hE : s.p.getExpectedTokens env = some E) :
    ES.reportMissing env s = some ⟨s.eh.begin, after s.p s.p.input c []
      (unlessRecovering s.eh (T n, missing env.display E (T n)))⟩ := by
  unfold ES.reportMissing unlessRecovering
  by_cases hm : s.eh.mode = true
  · rw [if_pos hm, if_pos hm, after_self, EH.begin, ← hm]
  · rw [if_neg hm, if_neg hm, hE, Option.bind_some, cur_eq hv.toIsView h, Option.bind_some,
      notify_after hv h]
    rfl

/-! ## Deletion, insertion, skipping -/

theorem deletion_yes (hv : IsIndexed T V ix) (env : EEnv I) {s : ES I} {n c : Nat}
    (h : Ready V s.p n c) {E : IntervalSet} (hE : s.p.getExpectedTokens env = some E)
    (hc : E.contains (T (n + 1)).ttype = true) :
    ∃ i', ES.singleTokenDeletion env s = some (some (T (next T n)),
        ⟨s.eh.end_, after s.p i' c [(T n, true)]
          (unlessRecovering s.eh (T n, extraneous env.display E (T n)))⟩) ∧ V i' (next T n) := by
  obtain ⟨i1, h1, v1⟩ := la_after hv.toIsView h 2 (by omega)
  rw [show ((2 : Nat) : Int) = 2 from rfl] at h1
  have r1 := ready_after h v1 [] []
  have u := reportUnwanted_after hv env (s := ⟨s.eh, after s.p i1 c [] []⟩) r1
    (by rw [expected_after]; exact hE)
  rw [after_after] at u
  have r2 : Ready V (after s.p i1 c [] (unlessRecovering s.eh (T n, extraneous env.display E (T n)))) n c :=
    ready_after h v1 _ _
  obtain ⟨i2, h2, v2⟩ := consume_after hv.toIsView r2 true
  refine ⟨i2, ?_, v2⟩
  unfold ES.singleTokenDeletion
  rw [h1, Option.bind_some]
  simp only [expected_after, hE, Option.bind_some]
  rw [show n + 2 - 1 = n + 1 by omega, if_pos hc, u, Option.bind_some, ES.consume]
  simp only [EH.begin, List.nil_append]
  have e : (after s.p i1 c [] []).input = i1 := rfl
  rw [e, h2]
  simp only [Option.map_some, Option.bind_some, ES.reportMatch]
  rw [after_after]
  have r3 := ready_after h v2 [(T n, true)] (unlessRecovering s.eh (T n, extraneous env.display E (T n)))
  simp only [List.nil_append, List.append_nil]
  rw [cur_eq hv.toIsView r3]
  rfl

theorem deletion_no (hv : IsIndexed T V ix) (env : EEnv I) {s : ES I} {n c : Nat}
    (h : Ready V s.p n c) {E : IntervalSet} (hE : s.p.getExpectedTokens env = some E)
    (hc : E.contains (T (n + 1)).ttype = false) :
    ∃ i', ES.singleTokenDeletion env s = some (none, ⟨s.eh, after s.p i' c [] []⟩) ∧ V i' n := by
  obtain ⟨i1, h1, v1⟩ := la_after hv.toIsView h 2 (by omega)
  rw [show ((2 : Nat) : Int) = 2 from rfl] at h1
  refine ⟨i1, ?_, v1⟩
  unfold ES.singleTokenDeletion
  rw [h1, Option.bind_some]
  simp only [expected_after, hE, Option.bind_some]
  rw [show n + 2 - 1 = n + 1 by omega, if_neg (by simp [hc])]

theorem insertion_after (hv : IsIndexed T V ix) (env : EEnv I) {s : ES I} {n c : Nat}
    (h : Ready V s.p n c) {E L : IntervalSet} (hE : s.p.getExpectedTokens env = some E)
    (hL : ES.afterExpected env s.p = some L) :
    ∃ i', ES.singleTokenInsertion env s =
      some (if L.contains (T n).ttype then
          (true, ⟨s.eh.begin, after s.p i' c []
            (unlessRecovering s.eh (T n, missing env.display E (T n)))⟩)
        else (false, ⟨s.eh, after s.p i' c [] []⟩)) ∧ V i' n := by
  obtain ⟨i1, h1, v1⟩ := la_after hv.toIsView h 1 (by omega)
  refine ⟨i1, ?_, v1⟩
  unfold ES.singleTokenInsertion
  rw [show ((1 : Nat) : Int) = 1 from rfl] at h1
  rw [h1, Option.bind_some]
  simp only [afterExpected_after, hL, Option.bind_some]
  rw [show n + 1 - 1 = n by omega]
  by_cases hc : L.contains (T n).ttype = true
  · rw [if_pos hc, if_pos hc]
    have r1 := ready_after h v1 [] []
    have u := reportMissing_after hv env (s := ⟨s.eh, after s.p i1 c [] []⟩) r1
      (by rw [expected_after]; exact hE)
    rw [after_after] at u
    rw [u]
    rfl
  · rw [if_neg hc, if_neg hc]

theorem consumeUntil_after (hv : IsView T V) (set : IntervalSet) (m : Nat) :
    ∀ {s : ES I} {n c : Nat} (_ : Ready V s.p n c) (_ : Skips T set n m) (fuel : Nat) (_ : m < fuel),
    ∃ i', ES.consumeUntil set fuel s =
      some ⟨s.eh, after s.p i' c (skipped T n m s.eh.mode) []⟩ ∧ V i' (n + m) := by
  induction m with
  | zero =>
    intro s n c h hs fuel hf
    obtain ⟨fuel, rfl⟩ : ∃ f, fuel = f + 1 := ⟨fuel - 1, by omega⟩
    obtain ⟨i1, h1, v1⟩ := la_after hv h 1 (by omega)
    rw [show ((1 : Nat) : Int) = 1 from rfl, show n + 1 - 1 = n by omega] at h1
    refine ⟨i1, ?_, v1⟩
    have hstop := hs.2
    simp only [Nat.add_zero] at hstop
    rw [ES.consumeUntil, h1, Option.bind_some]
    simp only []
    rw [if_neg (by rcases hstop with h | h <;> simp [h])]
    rfl
  | succ m ih =>
    intro s n c h hs fuel hf
    obtain ⟨fuel, rfl⟩ : ∃ f, fuel = f + 1 := ⟨fuel - 1, by omega⟩
    obtain ⟨i1, h1, v1⟩ := la_after hv h 1 (by omega)
    rw [show ((1 : Nat) : Int) = 1 from rfl, show n + 1 - 1 = n by omega] at h1
    have h0 := hs.1 0 (by omega)
    simp only [Nat.add_zero] at h0
    have r1 := ready_after h v1 [] []
    obtain ⟨i2, h2, v2⟩ := consume_after hv r1 s.eh.mode
    rw [after_after] at h2
    have hnext : next T n = n + 1 := by simp [next, h0.1]
    rw [hnext] at v2
    have hs' : Skips T set (n + 1) m := by
      refine ⟨fun j hj => ?_, ?_⟩
      · have := hs.1 (j + 1) (by omega)
        rwa [show n + (j + 1) = n + 1 + j by omega] at this
      · have := hs.2
        rwa [show n + (m + 1) = n + 1 + m by omega] at this
    obtain ⟨i3, h3, v3⟩ := ih (s := ⟨s.eh, after s.p i2 c [(T n, s.eh.mode)] []⟩)
      (ready_after h v2 _ _) hs' fuel (by omega)
    refine ⟨i3, ?_, by rwa [show n + 1 + m = n + (m + 1) by omega] at v3⟩
    rw [ES.consumeUntil, h1, Option.bind_some]
    simp only []
    rw [if_pos (by simp [h0]), ES.consume]
    simp only []
    rw [h2]
    simp only [Option.map_some, Option.bind_some, List.nil_append]
    rw [h3, after_after]
    simp only [skipped, List.range_succ_eq_map, List.map_cons, List.map_map, Nat.add_zero,
      List.append_nil, List.singleton_append]
    congr 5
    funext j
    simp only [Function.comp_apply]
    rw [show n + 1 + j = n + (j + 1) by omega]

end Antlr.ErrorLemmas
