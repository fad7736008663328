import Verif.PredictionContext.Lemmas

/-!
# `merge` hands on the merge cache it is given
-/

namespace Antlr.PC
open Antlr StackSpec

theorem remember_isSome (c : Option Cache) (a b r : PC) : (remember c a b r).isSome = c.isSome := by
  cases c <;> rfl

theorem mergeLoop_keeps (w : Bool) (la lb : List (Option PC × Int))
    (ih : ∀ p q r, (some p, r) ∈ la → (some q, r) ∈ lb → ∀ c m c', merge p q w c = some (m, c') → c'.isSome = c.isSome)
    (c : Option Cache) (m : List (Option PC × Int)) (c' : Option Cache) (h : mergeLoop la lb w c = some (m, c')) :
    c'.isSome = c.isSome := by
  match la, lb with
  | [], lb => rw [mergeLoop.eq_def] at h; simp at h; rw [h.2]
  | (pa, ra) :: la, [] => rw [mergeLoop.eq_def] at h; simp at h; rw [h.2]
  | (pa, ra) :: la, (pb, rb) :: lb =>
    rw [mergeLoop.eq_def] at h
    dsimp only at h
    split at h
    · rename_i hr
      subst hr
      split at h
      · split at h
        · simp at h
        · rename_i m1 c1 h1
          simp only [Option.some.injEq, Prod.mk.injEq] at h
          obtain ⟨-, rfl⟩ := h
          exact mergeLoop_keeps w la lb
            (fun p q r h1 h2 => ih p q r (List.mem_cons_of_mem _ h1) (List.mem_cons_of_mem _ h2)) c _ _ h1
      · rcases pa with _ | p
        · simp at h
        · rcases pb with _ | q
          · simp at h
          dsimp only at h
          split at h
          · simp at h
          · rename_i mp c1 h1
            split at h
            · simp at h
            · rename_i m1 c2 h2
              simp only [Option.some.injEq, Prod.mk.injEq] at h
              obtain ⟨-, rfl⟩ := h
              exact (mergeLoop_keeps w la lb
                (fun p q r h1 h2 => ih p q r (List.mem_cons_of_mem _ h1) (List.mem_cons_of_mem _ h2)) c1 _ _ h2).trans
                (ih p q ra (by simp) (by simp) c _ _ h1)
    · split at h
      · split at h
        · simp at h
        · rename_i m1 c1 h1
          simp only [Option.some.injEq, Prod.mk.injEq] at h
          obtain ⟨-, rfl⟩ := h
          exact mergeLoop_keeps w la ((pb, rb) :: lb)
            (fun p q r h1 h2 => ih p q r (List.mem_cons_of_mem _ h1) h2) c _ _ h1
      · split at h
        · simp at h
        · rename_i m1 c1 h1
          simp only [Option.some.injEq, Prod.mk.injEq] at h
          obtain ⟨-, rfl⟩ := h
          exact mergeLoop_keeps w ((pa, ra) :: la) lb
            (fun p q r h1 h2 => ih p q r h1 (List.mem_cons_of_mem _ h2)) c _ _ h1
termination_by la.length + lb.length

theorem merge_keeps (w : Bool) (a b : PC) (c : Option Cache) (r : PC) (c' : Option Cache)
    (h : merge a b w c = some (r, c')) : c'.isSome = c.isSome := by
  have ih : ∀ p q r, (some p, r) ∈ a.entries → (some q, r) ∈ b.entries →
      ∀ c m c', merge p q w c = some (m, c') → c'.isSome = c.isSome := by
    intro p q r h1 h2 c m c' h
    have := size_lt_of_mem h1
    have := size_lt_of_mem h2
    exact merge_keeps w p q c m c' h
  rw [merge.eq_def] at h
  split at h
  · simp only [Option.some.injEq, Prod.mk.injEq] at h; rw [h.2]
  split at h
  · simp only [Option.some.injEq, Prod.mk.injEq] at h; rw [h.2]
  have arrays : (if w && (a.isEmpty || b.isEmpty) then some (EMPTY, c)
            else match mergeLoop a.entries b.entries w c with
              | none => none
              | some (m, c) => some (.array m, remember c a b (.array m))) = some (r, c') →
      c'.isSome = c.isSome := by
    intro h
    split at h
    · simp only [Option.some.injEq, Prod.mk.injEq] at h; rw [h.2]
    · split at h
      · simp at h
      · rename_i m c1 hm
        simp only [Option.some.injEq, Prod.mk.injEq] at h
        obtain ⟨-, rfl⟩ := h
        rw [remember_isSome]
        exact mergeLoop_keeps w _ _ ih c _ _ hm
  split at h
  · rename_i pa ra pb rb _ _
    split at h
    · simp only [Option.some.injEq, Prod.mk.injEq] at h
      rw [← h.2, remember_isSome]
    · split at h
      · rename_i hr
        rcases pa with _ | p
        · simp at h
        · rcases pb with _ | q
          · simp at h
          dsimp only at h
          split at h
          · simp at h
          · rename_i m c1 h1
            simp only [Option.some.injEq, Prod.mk.injEq] at h
            obtain ⟨-, rfl⟩ := h
            rw [remember_isSome]
            exact ih p q ra (by simp [entries]) (by simp [entries, hr]) c _ _ h1
      · simp only [Option.some.injEq, Prod.mk.injEq] at h
        rw [← h.2, remember_isSome]
  · exact arrays h
termination_by size a + size b

end Antlr.PC
