import Verif.PredictionContext.Lemmas

/-!
# Merging makes up no stacks

Whatever the mode, and whatever mode filled the merge cache, a stack of the result is a stack of one of
the arguments.
-/

namespace Antlr
open StackSpec PC

/-- Every stack of `r` is one of `a` or of `b`. -/
def Within (a b r : PC) : Prop := ∀ s, HasStack r s → HasStack a s ∨ HasStack b s

/-- The cached results make up no stacks. -/
def CacheWithin (c : Option Cache) : Prop := ∀ cc, c = some cc → ∀ x ∈ cc, Within x.1.1 x.1.2 x.2

theorem CacheWithin.nil : CacheWithin (some []) := by rintro _ h x hx; cases h; simp at hx

theorem CacheWithin.remember {c : Option Cache} (h : CacheWithin c) {a b r : PC} (hr : Within a b r) :
    CacheWithin (remember c a b r) := by
  rintro cc hcc x hx
  cases c with
  | none => simp [PC.remember] at hcc
  | some c =>
    simp only [PC.remember, Option.map_some, Option.some.injEq] at hcc
    subst hcc
    rcases List.mem_cons.1 hx with rfl | hx
    · exact hr
    · exact h c rfl x hx

theorem lookup_within {c : Option Cache} (h : CacheWithin c) {a b r : PC} (hl : lookup c a b = some r) :
    Within a b r := by
  cases c with
  | none => simp [lookup] at hl
  | some c =>
    simp only [lookup] at hl
    have mem : ∀ {k : PC × PC} {r : PC}, c.lookup k = some r → (k, r) ∈ c := by
      intro k r hk
      clear hl h
      induction c with
      | nil => simp at hk
      | cons e c ih =>
        obtain ⟨k', r'⟩ := e
        rw [List.lookup_cons] at hk
        split at hk
        · rename_i he
          simp only [beq_iff_eq] at he
          simp only [Option.some.injEq] at hk
          subst he; subst hk
          simp
        · exact List.mem_cons_of_mem _ (ih hk)
    cases h1 : c.lookup (a, b) with
    | some r' =>
      rw [h1] at hl
      simp only [Option.some_or, Option.some.injEq] at hl
      subst hl
      exact h c rfl _ (mem h1)
    | none =>
      rw [h1] at hl
      simp only [Option.none_or] at hl
      exact fun s hs => (h c rfl _ (mem hl) s hs).symm

theorem within_entries {a b r : PC}
    (h : ∀ e ∈ r.entries, ∀ s, EDen false e s → (∃ e ∈ a.entries, EDen false e s) ∨ ∃ e ∈ b.entries, EDen false e s) :
    Within a b r := by
  intro s hs
  rw [hasStack_iff] at hs ⊢
  rw [hasStack_iff b]
  obtain ⟨e, he, hs⟩ := hs
  exact h e he s hs

theorem wf_isEmpty_stack {a : PC} (h : WF a) (he : a.isEmpty = true) : HasStack a [] := by
  rw [(wf_isEmpty h).1 he]; exact .bottomS

/-- What is to be shown of `merge`. -/
def MergeWithin (w : Bool) (a b : PC) : Prop :=
  ∀ c r c', CacheWithin c → merge a b w c = some (r, c') → Within a b r ∧ CacheWithin c'

theorem mergeLoop_within (w : Bool) (la lb : List (Option PC × Int))
    (ih : ∀ p q r, (some p, r) ∈ la → (some q, r) ∈ lb → MergeWithin w p q) (c : Option Cache)
    (hc : CacheWithin c) (m : List (Option PC × Int)) (c' : Option Cache) (h : mergeLoop la lb w c = some (m, c')) :
    CacheWithin c' ∧ ∀ e ∈ m, ∀ s, EDen false e s → (∃ e ∈ la, EDen false e s) ∨ ∃ e ∈ lb, EDen false e s := by
  match la, lb with
  | [], lb =>
    simp only [mergeLoop, Option.some.injEq, Prod.mk.injEq] at h
    obtain ⟨rfl, rfl⟩ := h
    exact ⟨hc, fun e he s hs => .inr ⟨e, he, hs⟩⟩
  | a :: la, [] =>
    simp only [mergeLoop, Option.some.injEq, Prod.mk.injEq] at h
    obtain ⟨rfl, rfl⟩ := h
    exact ⟨hc, fun e he s hs => .inl ⟨e, he, hs⟩⟩
  | (pa, ra) :: la, (pb, rb) :: lb =>
    rw [mergeLoop.eq_def] at h
    dsimp only at h
    split at h
    · rename_i hr
      subst hr
      split at h
      · split at h
        · simp at h
        · rename_i m1 c1 h1
          simp only [Option.some.injEq, Prod.mk.injEq] at h
          obtain ⟨rfl, rfl⟩ := h
          obtain ⟨g1, g2⟩ := mergeLoop_within w la lb
            (fun p q r h1 h2 => ih p q r (List.mem_cons_of_mem _ h1) (List.mem_cons_of_mem _ h2)) c hc _ _ h1
          refine ⟨g1, ?_⟩
          intro e he s hs
          rcases List.mem_cons.1 he with rfl | he
          · exact .inl ⟨_, by simp, hs⟩
          · rcases g2 e he s hs with ⟨x, hx, h⟩ | ⟨x, hx, h⟩
            · exact .inl ⟨x, List.mem_cons_of_mem _ hx, h⟩
            · exact .inr ⟨x, List.mem_cons_of_mem _ hx, h⟩
      · rcases pa with _ | p
        · simp at h
        · rcases pb with _ | q
          · simp at h
          dsimp only at h
          split at h
          · simp at h
          · rename_i mp c1 h1
            split at h
            · simp at h
            · rename_i m1 c2 h2
              simp only [Option.some.injEq, Prod.mk.injEq] at h
              obtain ⟨rfl, rfl⟩ := h
              obtain ⟨k1, k2⟩ := ih p q ra (by simp) (by simp) c _ _ hc h1
              obtain ⟨g1, g2⟩ := mergeLoop_within w la lb
                (fun p q r h1 h2 => ih p q r (List.mem_cons_of_mem _ h1) (List.mem_cons_of_mem _ h2)) c1 k2 _ _ h2
              refine ⟨g1, ?_⟩
              intro e he s hs
              rcases List.mem_cons.1 he with rfl | he
              · simp only [EDen, Den] at hs
                obtain ⟨s', rfl, hs⟩ := hs
                rcases k1 s' hs with h | h
                · exact .inl ⟨_, List.mem_cons_self, s', rfl, h⟩
                · exact .inr ⟨_, List.mem_cons_self, s', rfl, h⟩
              · rcases g2 e he s hs with ⟨x, hx, h⟩ | ⟨x, hx, h⟩
                · exact .inl ⟨x, List.mem_cons_of_mem _ hx, h⟩
                · exact .inr ⟨x, List.mem_cons_of_mem _ hx, h⟩
    · split at h
      · split at h
        · simp at h
        · rename_i m1 c1 h1
          simp only [Option.some.injEq, Prod.mk.injEq] at h
          obtain ⟨rfl, rfl⟩ := h
          obtain ⟨g1, g2⟩ := mergeLoop_within w la ((pb, rb) :: lb)
            (fun p q r h1 h2 => ih p q r (List.mem_cons_of_mem _ h1) h2) c hc _ _ h1
          refine ⟨g1, ?_⟩
          intro e he s hs
          rcases List.mem_cons.1 he with rfl | he
          · exact .inl ⟨_, by simp, hs⟩
          · rcases g2 e he s hs with ⟨x, hx, h⟩ | h
            · exact .inl ⟨x, List.mem_cons_of_mem _ hx, h⟩
            · exact .inr h
      · split at h
        · simp at h
        · rename_i m1 c1 h1
          simp only [Option.some.injEq, Prod.mk.injEq] at h
          obtain ⟨rfl, rfl⟩ := h
          obtain ⟨g1, g2⟩ := mergeLoop_within w ((pa, ra) :: la) lb
            (fun p q r h1 h2 => ih p q r h1 (List.mem_cons_of_mem _ h2)) c hc _ _ h1
          refine ⟨g1, ?_⟩
          intro e he s hs
          rcases List.mem_cons.1 he with rfl | he
          · exact .inr ⟨_, by simp, hs⟩
          · rcases g2 e he s hs with h | ⟨x, hx, h⟩
            · exact .inl h
            · exact .inr ⟨x, List.mem_cons_of_mem _ hx, h⟩
termination_by la.length + lb.length

theorem merge_within (w : Bool) (a b : PC) (ha : WF a) (hb : WF b) : MergeWithin w a b := by
  intro c r c' hc h
  rw [merge.eq_def] at h
  split at h
  · simp only [Option.some.injEq, Prod.mk.injEq] at h
    obtain ⟨rfl, rfl⟩ := h
    exact ⟨fun s hs => .inl hs, hc⟩
  rename_i hab
  split at h
  · rename_i old hl
    simp only [Option.some.injEq, Prod.mk.injEq] at h
    obtain ⟨rfl, rfl⟩ := h
    exact ⟨lookup_within hc hl, hc⟩
  have ih : ∀ p q r, (some p, r) ∈ a.entries → (some q, r) ∈ b.entries → MergeWithin w p q := by
    intro p q r h1 h2
    have := size_lt_of_mem h1
    have := size_lt_of_mem h2
    exact merge_within w p q ((wf_entries ha).2 _ h1).2 ((wf_entries hb).2 _ h2).2
  have arrays : (if w && (a.isEmpty || b.isEmpty) then some (EMPTY, c)
            else match mergeLoop a.entries b.entries w c with
              | none => none
              | some (m, c) => some (.array m, remember c a b (.array m))) = some (r, c') →
      Within a b r ∧ CacheWithin c' := by
    intro h
    split at h
    · rename_i hw
      simp only [Option.some.injEq, Prod.mk.injEq] at h
      obtain ⟨rfl, rfl⟩ := h
      rw [Bool.and_eq_true, Bool.or_eq_true] at hw
      refine ⟨?_, hc⟩
      intro s hs
      cases hs
      rcases hw.2 with h | h
      · exact .inl (wf_isEmpty_stack ha h)
      · exact .inr (wf_isEmpty_stack hb h)
    · split at h
      · simp at h
      · rename_i m c1 hm
        simp only [Option.some.injEq, Prod.mk.injEq] at h
        obtain ⟨rfl, rfl⟩ := h
        obtain ⟨g1, g2⟩ := mergeLoop_within w _ _ ih c hc _ _ hm
        have hg : Within a b (.array m) := within_entries g2
        exact ⟨hg, g1.remember hg⟩
  split at h
  · rename_i pa ra pb rb _
    split at h
    · rename_i r0 hroot
      simp only [Option.some.injEq, Prod.mk.injEq] at h
      obtain ⟨rfl, rfl⟩ := h
      have hg : Within (.single pa ra) (.single pb rb) r0 := by
        unfold mergeRoot at hroot
        repeat' split at hroot
        all_goals simp only [Option.some.injEq, reduceCtorEq] at hroot
        all_goals subst hroot
        · rename_i h
          intro s hs
          cases hs
          rw [Bool.or_eq_true] at h
          rcases h with h | h
          · exact .inl (wf_isEmpty_stack ha h)
          · exact .inr (wf_isEmpty_stack hb h)
        · rename_i h
          rw [Bool.and_eq_true] at h
          intro s hs
          cases hs
          exact .inl (wf_isEmpty_stack ha h.1)
        · rename_i h
          rw [isEmpty_single h]
          refine within_entries ?_
          intro e he s hs
          simp only [entries, List.mem_cons, List.not_mem_nil, or_false] at he
          rcases he with rfl | rfl
          · exact .inr ⟨_, by simp [entries], hs⟩
          · exact .inl ⟨_, by simp [entries, EMPTY], hs⟩
        · rename_i h
          rw [isEmpty_single h]
          refine within_entries ?_
          intro e he s hs
          simp only [entries, List.mem_cons, List.not_mem_nil, or_false] at he
          rcases he with rfl | rfl
          · exact .inl ⟨_, by simp [entries], hs⟩
          · exact .inr ⟨_, by simp [entries, EMPTY], hs⟩
      exact ⟨hg, hc.remember hg⟩
    · split at h
      · rename_i hr
        subst hr
        rcases pa with _ | p
        · simp at h
        · rcases pb with _ | q
          · simp at h
          dsimp only at h
          split at h
          · simp at h
          · rename_i m c1 hm
            simp only [Option.some.injEq, Prod.mk.injEq] at h
            obtain ⟨rfl, rfl⟩ := h
            obtain ⟨k1, k2⟩ := ih p q ra (by simp [entries]) (by simp [entries]) c _ _ hc hm
            have hg : Within (.single (some p) ra) (.single (some q) ra) (.single (some m) ra) := by
              intro s hs
              cases hs with
              | pushS hs =>
                rcases k1 _ hs with h | h
                · exact .inl (.pushS h)
                · exact .inr (.pushS h)
            exact ⟨hg, k2.remember hg⟩
      · simp only [Option.some.injEq, Prod.mk.injEq] at h
        obtain ⟨rfl, rfl⟩ := h
        have hg : Within (.single pa ra) (.single pb rb)
            (if ra ≤ rb then PC.array [(pa, ra), (pb, rb)] else .array [(pb, rb), (pa, ra)]) := by
          refine within_entries ?_
          intro e he s hs
          have : e = (pa, ra) ∨ e = (pb, rb) := by
            split at he <;> simp [entries] at he <;> tauto
          rcases this with rfl | rfl
          · exact .inl ⟨_, by simp [entries], hs⟩
          · exact .inr ⟨_, by simp [entries], hs⟩
        exact ⟨hg, hc.remember hg⟩
  · exact arrays h
termination_by size a + size b

/-! ### Contexts of the local mode

The bottom of a stack stands for any caller, so a context has it as its only stack or inside of none of
its arrays. -/

/-- The empty marker occurs only alone. -/
inductive Loc : PC → Prop
  | empty : Loc EMPTY
  | push {c : PC} : (∀ r, (none, r) ∉ c.entries) → (∀ p r, (some p, r) ∈ c.entries → Loc p) → Loc c

theorem loc_cases {c : PC} (h : Loc c) (hne : c ≠ EMPTY) : ∀ e ∈ c.entries, ∃ p, e.1 = some p ∧ Loc p := by
  cases h with
  | empty => exact absurd rfl hne
  | push h1 h2 =>
    rintro ⟨o, r⟩ he
    cases o with
    | none => exact absurd he (h1 r)
    | some p => exact ⟨p, rfl, h2 p r he⟩

theorem loc_of {c : PC} (h : ∀ e ∈ c.entries, ∃ p, e.1 = some p ∧ Loc p) : Loc c := by
  refine .push ?_ ?_
  · intro r he; obtain ⟨p, h, -⟩ := h _ he; simp at h
  · intro p r he
    obtain ⟨q, h, hl⟩ := h _ he
    simp only [Option.some.injEq] at h
    exact h ▸ hl

theorem loc_path {c : PC} (h : Loc c) (hw : WF c) (he : c.hasEmptyPath = true) : c = EMPTY := by
  by_contra hne
  have hall := loc_cases h hne
  simp only [hasEmptyPath, Option.any_eq_true] at he
  obtain ⟨e, he, hr⟩ := he
  have hm : e ∈ c.entries := List.mem_of_getLast? he
  obtain ⟨p, hp, -⟩ := hall e hm
  have := (wf_entries hw).2 e hm
  obtain ⟨o, r⟩ := e
  dsimp only at hp hr
  subst hp
  simp only [EOk] at this
  simp only [beq_iff_eq] at hr
  omega

/-- The cached results are contexts of the local mode. -/
def CacheLoc (c : Option Cache) : Prop := ∀ cc, c = some cc → ∀ x ∈ cc, Loc x.2

theorem CacheLoc.nil : CacheLoc (some []) := by rintro _ h x hx; cases h; simp at hx

theorem CacheLoc.remember {c : Option Cache} (h : CacheLoc c) {a b r : PC} (hr : Loc r) :
    CacheLoc (remember c a b r) := by
  rintro cc hcc x hx
  cases c with
  | none => simp [PC.remember] at hcc
  | some c =>
    simp only [PC.remember, Option.map_some, Option.some.injEq] at hcc
    subst hcc
    rcases List.mem_cons.1 hx with rfl | hx
    · exact hr
    · exact h c rfl x hx

theorem lookup_loc {c : Option Cache} (h : CacheLoc c) {a b r : PC} (hl : lookup c a b = some r) : Loc r := by
  cases c with
  | none => simp [lookup] at hl
  | some c =>
    simp only [lookup] at hl
    have mem : ∀ {k : PC × PC} {r : PC}, c.lookup k = some r → (k, r) ∈ c := by
      intro k r hk
      clear hl h
      induction c with
      | nil => simp at hk
      | cons e c ih =>
        obtain ⟨k', r'⟩ := e
        rw [List.lookup_cons] at hk
        split at hk
        · rename_i he
          simp only [beq_iff_eq] at he
          simp only [Option.some.injEq] at hk
          subst he; subst hk
          simp
        · exact List.mem_cons_of_mem _ (ih hk)
    cases h1 : c.lookup (a, b) with
    | some r' =>
      rw [h1] at hl
      simp only [Option.some_or, Option.some.injEq] at hl
      subst hl
      exact h c rfl _ (mem h1)
    | none =>
      rw [h1] at hl
      simp only [Option.none_or] at hl
      exact h c rfl _ (mem hl)

/-- What is to be shown of `merge`. -/
def MergeLoc (a b : PC) : Prop :=
  ∀ c r c', CacheLoc c → merge a b true c = some (r, c') → Loc r ∧ CacheLoc c'

theorem mergeLoop_loc (la lb : List (Option PC × Int))
    (ha : ∀ e ∈ la, ∃ p, e.1 = some p ∧ Loc p) (hb : ∀ e ∈ lb, ∃ p, e.1 = some p ∧ Loc p)
    (ih : ∀ p q r, (some p, r) ∈ la → (some q, r) ∈ lb → MergeLoc p q) (c : Option Cache)
    (hc : CacheLoc c) (m : List (Option PC × Int)) (c' : Option Cache) (h : mergeLoop la lb true c = some (m, c')) :
    CacheLoc c' ∧ ∀ e ∈ m, ∃ p, e.1 = some p ∧ Loc p := by
  match la, lb with
  | [], lb =>
    simp only [mergeLoop, Option.some.injEq, Prod.mk.injEq] at h
    obtain ⟨rfl, rfl⟩ := h
    exact ⟨hc, hb⟩
  | a :: la, [] =>
    simp only [mergeLoop, Option.some.injEq, Prod.mk.injEq] at h
    obtain ⟨rfl, rfl⟩ := h
    exact ⟨hc, ha⟩
  | (pa, ra) :: la, (pb, rb) :: lb =>
    have ha0 := ha _ List.mem_cons_self
    have hb0 := hb _ List.mem_cons_self
    have ha1 := fun e he => ha e (List.mem_cons_of_mem _ he)
    have hb1 := fun e he => hb e (List.mem_cons_of_mem _ he)
    rw [mergeLoop.eq_def] at h
    dsimp only at h
    split at h
    · rename_i hr
      subst hr
      split at h
      · split at h
        · simp at h
        · rename_i m1 c1 h1
          simp only [Option.some.injEq, Prod.mk.injEq] at h
          obtain ⟨rfl, rfl⟩ := h
          obtain ⟨g1, g2⟩ := mergeLoop_loc la lb ha1 hb1
            (fun p q r h1 h2 => ih p q r (List.mem_cons_of_mem _ h1) (List.mem_cons_of_mem _ h2)) c hc _ _ h1
          refine ⟨g1, ?_⟩
          intro e he
          rcases List.mem_cons.1 he with rfl | he
          · exact ha0
          · exact g2 e he
      · rcases pa with _ | p
        · simp at h
        · rcases pb with _ | q
          · simp at h
          dsimp only at h
          split at h
          · simp at h
          · rename_i mp c1 h1
            split at h
            · simp at h
            · rename_i m1 c2 h2
              simp only [Option.some.injEq, Prod.mk.injEq] at h
              obtain ⟨rfl, rfl⟩ := h
              obtain ⟨k1, k2⟩ := ih p q ra (by simp) (by simp) c _ _ hc h1
              obtain ⟨g1, g2⟩ := mergeLoop_loc la lb ha1 hb1
                (fun p q r h1 h2 => ih p q r (List.mem_cons_of_mem _ h1) (List.mem_cons_of_mem _ h2)) c1 k2 _ _ h2
              refine ⟨g1, ?_⟩
              intro e he
              rcases List.mem_cons.1 he with rfl | he
              · exact ⟨mp, rfl, k1⟩
              · exact g2 e he
    · split at h
      · split at h
        · simp at h
        · rename_i m1 c1 h1
          simp only [Option.some.injEq, Prod.mk.injEq] at h
          obtain ⟨rfl, rfl⟩ := h
          obtain ⟨g1, g2⟩ := mergeLoop_loc la ((pb, rb) :: lb) ha1 hb
            (fun p q r h1 h2 => ih p q r (List.mem_cons_of_mem _ h1) h2) c hc _ _ h1
          refine ⟨g1, ?_⟩
          intro e he
          rcases List.mem_cons.1 he with rfl | he
          · exact ha0
          · exact g2 e he
      · split at h
        · simp at h
        · rename_i m1 c1 h1
          simp only [Option.some.injEq, Prod.mk.injEq] at h
          obtain ⟨rfl, rfl⟩ := h
          obtain ⟨g1, g2⟩ := mergeLoop_loc ((pa, ra) :: la) lb ha hb1
            (fun p q r h1 h2 => ih p q r h1 (List.mem_cons_of_mem _ h2)) c hc _ _ h1
          refine ⟨g1, ?_⟩
          intro e he
          rcases List.mem_cons.1 he with rfl | he
          · exact hb0
          · exact g2 e he
termination_by la.length + lb.length

theorem merge_loc (a b : PC) (ha : Loc a) (hb : Loc b) : MergeLoc a b := by
  intro c r c' hc h
  rw [merge.eq_def] at h
  split at h
  · simp only [Option.some.injEq, Prod.mk.injEq] at h
    obtain ⟨rfl, rfl⟩ := h
    exact ⟨ha, hc⟩
  rename_i hab
  split at h
  · rename_i old hl
    simp only [Option.some.injEq, Prod.mk.injEq] at h
    obtain ⟨rfl, rfl⟩ := h
    exact ⟨lookup_loc hc hl, hc⟩
  have ih : a ≠ EMPTY → b ≠ EMPTY → ∀ p q r, (some p, r) ∈ a.entries → (some q, r) ∈ b.entries → MergeLoc p q := by
    intro hane hbne p q r h1 h2
    have := size_lt_of_mem h1
    have := size_lt_of_mem h2
    obtain ⟨p', e1, l1⟩ := loc_cases ha hane _ h1
    obtain ⟨q', e2, l2⟩ := loc_cases hb hbne _ h2
    simp only [Option.some.injEq] at e1 e2
    exact merge_loc p q (e1 ▸ l1) (e2 ▸ l2)
  have arrays : (if true && (a.isEmpty || b.isEmpty) then some (EMPTY, c)
            else match mergeLoop a.entries b.entries true c with
              | none => none
              | some (m, c) => some (.array m, remember c a b (.array m))) = some (r, c') →
      Loc r ∧ CacheLoc c' := by
    intro h
    split at h
    · simp only [Option.some.injEq, Prod.mk.injEq] at h
      obtain ⟨rfl, rfl⟩ := h
      exact ⟨.empty, hc⟩
    · rename_i hne
      have hane : a ≠ EMPTY := by rintro rfl; simp [EMPTY, isEmpty] at hne
      have hbne : b ≠ EMPTY := by rintro rfl; simp [EMPTY, isEmpty] at hne
      split at h
      · simp at h
      · rename_i m c1 hm
        simp only [Option.some.injEq, Prod.mk.injEq] at h
        obtain ⟨rfl, rfl⟩ := h
        obtain ⟨g1, g2⟩ := mergeLoop_loc _ _ (loc_cases ha hane) (loc_cases hb hbne) (ih hane hbne) c hc _ _ hm
        have hg : Loc (.array m) := loc_of g2
        exact ⟨hg, g1.remember hg⟩
  split at h
  · rename_i pa ra pb rb _
    split at h
    · rename_i r0 hroot
      simp only [Option.some.injEq, Prod.mk.injEq] at h
      obtain ⟨rfl, rfl⟩ := h
      have hg : r0 = EMPTY := by
        unfold mergeRoot at hroot
        simp only [if_true] at hroot
        split at hroot
        · simpa using hroot.symm
        · simp at hroot
      subst hg
      exact ⟨.empty, hc.remember .empty⟩
    · rename_i hroot
      have hne : (single pa ra).isEmpty = false ∧ (single pb rb).isEmpty = false := by
        unfold mergeRoot at hroot
        simp only [if_true] at hroot
        split at hroot
        · simp at hroot
        · rename_i h; simpa using h
      have hane : PC.single pa ra ≠ EMPTY := by intro e; rw [e] at hne; simp [EMPTY, isEmpty] at hne
      have hbne : PC.single pb rb ≠ EMPTY := by intro e; rw [e] at hne; simp [EMPTY, isEmpty] at hne
      split at h
      · rename_i hr
        subst hr
        rcases pa with _ | p
        · simp at h
        · rcases pb with _ | q
          · simp at h
          dsimp only at h
          split at h
          · simp at h
          · rename_i m c1 hm
            simp only [Option.some.injEq, Prod.mk.injEq] at h
            obtain ⟨rfl, rfl⟩ := h
            obtain ⟨k1, k2⟩ := ih hane hbne p q ra (by simp [entries]) (by simp [entries]) c _ _ hc hm
            have hg : Loc (.single (some m) ra) := loc_of (by simp [entries, k1])
            exact ⟨hg, k2.remember hg⟩
      · simp only [Option.some.injEq, Prod.mk.injEq] at h
        obtain ⟨rfl, rfl⟩ := h
        have hg : Loc (if ra ≤ rb then PC.array [(pa, ra), (pb, rb)] else .array [(pb, rb), (pa, ra)]) := by
          have l1 := loc_cases ha hane (pa, ra) (by simp [entries])
          have l2 := loc_cases hb hbne (pb, rb) (by simp [entries])
          refine loc_of ?_
          intro e he
          have : e = (pa, ra) ∨ e = (pb, rb) := by
            split at he <;> simp [entries] at he <;> tauto
          rcases this with rfl | rfl
          · exact l1
          · exact l2
        exact ⟨hg, hc.remember hg⟩
  · exact arrays h
termination_by size a + size b

end Antlr
