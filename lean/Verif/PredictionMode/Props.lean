import Verif.PredictionMode.Model
import Verif.ConfigSet.Props

/-!
# Properties of conflict detection (C36)
-/

namespace Antlr.PredictionModeProps
open Antlr PredictionMode StackSpec StackProps ConfigSetProps

/-! ### Maps from keys to sets of alternatives -/

/-- `alts` is the set of alternatives of the configurations with key `k`. -/
def IsAlts {κ} (f : Config → κ) (configs : List Config) (k : κ) (alts : List Nat) : Prop :=
  BitSorted alts ∧ ∀ n, n ∈ alts ↔ ∃ c ∈ configs, f c = k ∧ asUsize c.alt = n

theorem addAlt_keys {κ} [DecidableEq κ] (m : List (κ × List Nat)) (k : κ) (a : Nat) :
    (addAlt m k a).map (·.1) = if k ∈ m.map (·.1) then m.map (·.1) else m.map (·.1) ++ [k] := by
  induction m with
  | nil => simp [addAlt]
  | cons e m ih =>
    obtain ⟨k', l⟩ := e
    simp only [addAlt]
    split
    · rename_i h; subst h; simp
    · rename_i h
      simp only [List.map_cons, ih, List.mem_cons, h, false_or]
      split <;> simp

theorem addAlt_mem {κ} [DecidableEq κ] (m : List (κ × List Nat)) (k : κ) (a : Nat)
    (hn : (m.map (·.1)).Nodup) (e : κ × List Nat) (he : e ∈ addAlt m k a) :
    (e.1 ≠ k ∧ e ∈ m) ∨ (e.1 = k ∧ ∃ l, (k, l) ∈ m ∧ e.2 = bitInsert a l) ∨
      (e.1 = k ∧ k ∉ m.map (·.1) ∧ e.2 = [a]) := by
  induction m with
  | nil => simp [addAlt] at he; subst he; simp
  | cons x m ih =>
    obtain ⟨k', l⟩ := x
    simp only [List.map_cons, List.nodup_cons] at hn
    simp only [addAlt] at he
    split at he
    · rename_i h
      subst h
      rcases List.mem_cons.mp he with rfl | he
      · exact .inr (.inl ⟨rfl, l, by simp, rfl⟩)
      · refine .inl ⟨?_, by simp [he]⟩
        intro h; apply hn.1; rw [← h]; exact List.mem_map_of_mem he
    · rename_i h
      rcases List.mem_cons.mp he with rfl | he
      · exact .inl ⟨fun h' => h h'.symm, by simp⟩
      · rcases ih hn.2 he with ⟨h1, h2⟩ | ⟨h1, l', h2, h3⟩ | ⟨h1, h2, h3⟩
        · exact .inl ⟨h1, by simp [h2]⟩
        · exact .inr (.inl ⟨h1, l', by simp [h2], h3⟩)
        · refine .inr (.inr ⟨h1, ?_, h3⟩)
          simp only [List.map_cons, List.mem_cons, not_or]
          exact ⟨h, h2⟩

theorem altMap_spec {κ} [DecidableEq κ] (f : Config → κ) (configs : List Config) :
    (altMap f configs).map (·.1) = firsts (configs.map f) ∧
    ∀ e ∈ altMap f configs, IsAlts f configs e.1 e.2 := by
  induction configs using List.reverseRecOn with
  | nil => simp [altMap, firsts]
  | append_singleton l c ih =>
    obtain ⟨h1, h2⟩ := ih
    have hs : altMap f (l ++ [c]) = addAlt (altMap f l) (f c) (asUsize c.alt) := by
      simp [altMap, List.foldl_append]
    constructor
    · rw [hs, addAlt_keys, h1]
      simp only [List.map_append, List.map_cons, List.map_nil]
      rw [firsts_snoc]
    · intro e he
      rw [hs] at he
      have hn : ((altMap f l).map (·.1)).Nodup := by rw [h1]; exact (firsts_spec _).1
      rcases addAlt_mem _ _ _ hn e he with ⟨hne, hm⟩ | ⟨hk, l', hm, he2⟩ | ⟨hk, hnm, he2⟩
      · have := h2 e hm
        refine ⟨this.1, fun n => ?_⟩
        rw [this.2]
        constructor
        · rintro ⟨c', h, h'⟩; exact ⟨c', by simp [h], h'⟩
        · rintro ⟨c', h, h', h''⟩
          rcases List.mem_append.mp h with h | h
          · exact ⟨c', h, h', h''⟩
          · simp at h; subst h; exact absurd h'.symm hne
      · have := h2 _ hm
        rw [hk, he2]
        refine ⟨bitInsert_sorted _ _ this.1, fun n => ?_⟩
        rw [mem_bitInsert, this.2]
        constructor
        · rintro (rfl | ⟨c', h, h'⟩)
          · exact ⟨c, by simp, rfl, rfl⟩
          · exact ⟨c', by simp [h], h'⟩
        · rintro ⟨c', h, h', h''⟩
          rcases List.mem_append.mp h with h | h
          · exact .inr ⟨c', h, h', h''⟩
          · simp at h; subst h; exact .inl h''.symm
      · rw [hk, he2]
        refine ⟨by simp, fun n => ?_⟩
        rw [List.mem_singleton]
        constructor
        · rintro rfl; exact ⟨c, by simp, rfl, rfl⟩
        · rintro ⟨c', h, h', h''⟩
          rcases List.mem_append.mp h with h | h
          · exfalso; apply hnm
            rw [h1, (firsts_spec _).2, ← h']
            exact List.mem_map_of_mem h
          · simp at h; subst h; exact h''.symm

/-- Number of distinct elements: more than one iff two differ. -/
theorem one_lt_length_iff (l : List Nat) (h : BitSorted l) :
    1 < l.length ↔ ∃ a ∈ l, ∃ b ∈ l, a ≠ b := by
  match l with
  | [] => simp
  | [x] => simp
  | x :: y :: l =>
    have : x < y := (List.pairwise_cons.mp h).1 y (by simp)
    simp only [List.length_cons]
    refine ⟨fun _ => ⟨x, by simp, y, by simp, by omega⟩, fun _ => by omega⟩

theorem length_eq_one_iff (l : List Nat) (h : BitSorted l) :
    l.length = 1 ↔ ∃ a ∈ l, ∀ b ∈ l, b = a := by
  match l with
  | [] => simp
  | [x] => simp
  | x :: y :: l =>
    have : x < y := (List.pairwise_cons.mp h).1 y (by simp)
    simp only [List.length_cons]
    constructor
    · intro h; omega
    · rintro ⟨a, _, h⟩
      have h1 := h x (by simp)
      have h2 := h y (by simp)
      omega

/-! ## C36 -/

/-- Alternatives are machine integers. -/
def AltsOk (configs : List Config) : Prop := ∀ c ∈ configs, -(2 ^ 63) ≤ c.alt ∧ c.alt < 2 ^ 63

theorem asUsize_inj {a b : Int} (ha : -(2 ^ 63) ≤ a ∧ a < 2 ^ 63) (hb : -(2 ^ 63) ≤ b ∧ b < 2 ^ 63) :
    asUsize a = asUsize b ↔ a = b := by
  constructor
  · intro h; unfold asUsize at h; omega
  · rintro rfl; rfl

/-- The conflicting alternative subsets, in whatever order the hash map yields them, are exactly the
sets of alternatives sharing a state and a stack: one for each such pair. -/
theorem C36_subsets (s : ConfigSet) (altsets : List (List Nat))
    (h : altsets.Perm (conflictingAltSubsets s)) :
    (∀ A ∈ altsets, ∃ c ∈ s.configs, IsAlts (fun c => (c.state, c.ctx)) s.configs (c.state, c.ctx) A) ∧
    (∀ c ∈ s.configs, ∃ A ∈ altsets, IsAlts (fun c => (c.state, c.ctx)) s.configs (c.state, c.ctx) A) ∧
    altsets.length = (firsts (s.configs.map fun c => (c.state, c.ctx))).length := by
  obtain ⟨h1, h2⟩ := altMap_spec (fun c => (c.state, c.ctx)) s.configs
  refine ⟨?_, ?_, ?_⟩
  · intro A hA
    rw [h.mem_iff, conflictingAltSubsets, List.mem_map] at hA
    obtain ⟨e, he, rfl⟩ := hA
    have : e.1 ∈ s.configs.map (fun c => (c.state, c.ctx)) := by
      rw [← (firsts_spec _).2, ← h1]; exact List.mem_map_of_mem he
    rw [List.mem_map] at this
    obtain ⟨c, hc, hk⟩ := this
    exact ⟨c, hc, by rw [hk]; exact h2 e he⟩
  · intro c hc
    have : (c.state, c.ctx) ∈ (altMap (fun c => (c.state, c.ctx)) s.configs).map (·.1) := by
      rw [h1, (firsts_spec _).2]
      exact List.mem_map_of_mem (f := fun c : Config => (c.state, c.ctx)) hc
    rw [List.mem_map] at this
    obtain ⟨e, he, hk⟩ := this
    refine ⟨e.2, ?_, by rw [← hk]; exact h2 e he⟩
    rw [h.mem_iff, conflictingAltSubsets]; exact List.mem_map_of_mem he
  · rw [h.length_eq, conflictingAltSubsets, List.length_map, ← h1, List.length_map]

/-- Some two configurations agree on state and stack but not on the alternative. -/
def Ambiguous (configs : List Config) : Prop :=
  ∃ c ∈ configs, ∃ c' ∈ configs, c.state = c'.state ∧ c.ctx = c'.ctx ∧ c.alt ≠ c'.alt

/-- Some state occurs with only one alternative. -/
def StateWithOneAlt (configs : List Config) : Prop :=
  ∃ c ∈ configs, ∀ c' ∈ configs, c'.state = c.state → c'.alt = c.alt

theorem any_conflicting_iff (s : ConfigSet) (h : AltsOk s.configs) :
    hasConflictingAltSet (conflictingAltSubsets s) = true ↔ Ambiguous s.configs := by
  obtain ⟨h1, h2, _⟩ := C36_subsets s _ (List.Perm.refl _)
  simp only [hasConflictingAltSet, List.any_eq_true, decide_eq_true_eq]
  constructor
  · rintro ⟨A, hA, hlen⟩
    obtain ⟨c, hc, hi⟩ := h1 A hA
    rw [one_lt_length_iff A hi.1] at hlen
    obtain ⟨a, ha, b, hb, hab⟩ := hlen
    obtain ⟨x, hx, hxk, rfl⟩ := (hi.2 a).mp ha
    obtain ⟨y, hy, hyk, rfl⟩ := (hi.2 b).mp hb
    simp only [Prod.mk.injEq] at hxk hyk
    exact ⟨x, hx, y, hy, by rw [hxk.1, hyk.1], by rw [hxk.2, hyk.2], fun e => hab (by rw [e])⟩
  · rintro ⟨x, hx, y, hy, h3, h4, h5⟩
    obtain ⟨A, hA, hi⟩ := h2 x hx
    refine ⟨A, hA, ?_⟩
    rw [one_lt_length_iff A hi.1]
    refine ⟨asUsize x.alt, (hi.2 _).mpr ⟨x, hx, rfl, rfl⟩, asUsize y.alt,
      (hi.2 _).mpr ⟨y, hy, by simp [h3, h4], rfl⟩, ?_⟩
    rw [Ne, asUsize_inj (h x hx) (h y hy)]; exact h5

theorem one_alt_iff (s : ConfigSet) (h : AltsOk s.configs) :
    hasStateAssociatedWithOneAlt s = true ↔ StateWithOneAlt s.configs := by
  obtain ⟨h1, h2⟩ := altMap_spec (fun c => c.state) s.configs
  simp only [hasStateAssociatedWithOneAlt, List.any_eq_true, beq_iff_eq]
  constructor
  · rintro ⟨e, he, hlen⟩
    have hi := h2 e he
    rw [length_eq_one_iff _ hi.1] at hlen
    obtain ⟨a, ha, hall⟩ := hlen
    obtain ⟨c, hc, hk, rfl⟩ := (hi.2 a).mp ha
    refine ⟨c, hc, fun c' hc' hs => ?_⟩
    have := hall _ ((hi.2 _).mpr ⟨c', hc', hs.trans hk, rfl⟩)
    exact (asUsize_inj (h c' hc') (h c hc)).mp this
  · rintro ⟨c, hc, hall⟩
    have : c.state ∈ (altMap (fun c => c.state) s.configs).map (·.1) := by
      rw [h1, (firsts_spec _).2]
      exact List.mem_map_of_mem (f := fun c : Config => c.state) hc
    rw [List.mem_map] at this
    obtain ⟨e, he, hk⟩ := this
    have hi := h2 e he
    refine ⟨e, he, ?_⟩
    rw [length_eq_one_iff _ hi.1]
    refine ⟨asUsize c.alt, (hi.2 _).mpr ⟨c, hc, hk.symm, rfl⟩, ?_⟩
    intro b hb
    obtain ⟨c', hc', hk', rfl⟩ := (hi.2 b).mp hb
    rw [hall c' hc' (hk'.trans hk)]

/-- SLL stops exactly when some two configurations agree on state and stack but not on the
alternative, and no state is tied to one alternative. -/
theorem C36_sll_stop (mode : PredictionMode) (s : ConfigSet) (h : AltsOk s.configs)
    (hm : mode ≠ .SLL ∨ s.hasSem = false) :
    ∃ b, hasSllConflictTerminatingPrediction mode s = some b ∧
      (b = true ↔ Ambiguous s.configs ∧ ¬ StateWithOneAlt s.configs) := by
  refine ⟨hasConflictingAltSet (conflictingAltSubsets s) && !hasStateAssociatedWithOneAlt s, ?_, ?_⟩
  · unfold hasSllConflictTerminatingPrediction
    rw [if_neg]
    rintro ⟨h1, h2⟩
    rcases hm with hm | hm
    · exact hm h1
    · rw [hm] at h2; simp at h2
  · rw [Bool.and_eq_true, Bool.not_eq_true', any_conflicting_iff s h, ← one_alt_iff s h]
    simp

/-- In SLL mode with predicates present, the same is decided on the configurations with their
predicates dropped and merged. -/
theorem C36_sll_stop_predicates (s : ConfigSet) (h : AltsOk s.configs)
    (hwf : ∀ c ∈ s.configs, WF c.ctx) (hsem : s.hasSem = true) :
    ∃ b t, hasSllConflictTerminatingPrediction .SLL s = some b ∧
      Collected false (s.configs.map strip) t ∧
      (b = true ↔ Ambiguous t.configs ∧ ¬ StateWithOneAlt t.configs) := by
  obtain ⟨t, mc, h1, h2⟩ := C33_collects true (s.configs.map strip)
    (by
      intro c hc
      rw [List.mem_map] at hc
      obtain ⟨d, hd, rfl⟩ := hc
      exact hwf d hd) none (by simp)
  have ht : AltsOk t.configs := by
    intro c hc
    have : ident c ∈ t.configs.map ident := List.mem_map_of_mem hc
    rw [h2.idents, (firsts_spec _).2, List.mem_map] at this
    obtain ⟨d, hd, hi⟩ := this
    rw [List.mem_map] at hd
    obtain ⟨e, he, rfl⟩ := hd
    simp only [ident, strip, Prod.mk.injEq] at hi
    rw [← hi.2.1]; exact h e he
  refine ⟨hasConflictingAltSet (conflictingAltSubsets t) && !hasStateAssociatedWithOneAlt t, t, ?_, h2, ?_⟩
  · unfold hasSllConflictTerminatingPrediction
    rw [if_pos ⟨rfl, hsem⟩, h1]; rfl
  · rw [Bool.and_eq_true, Bool.not_eq_true', any_conflicting_iff t ht, ← one_alt_iff t ht]
    simp

/-- Alternatives 1 and 2 reach state 3 with the same stack: a conflict; the second set has a further
state tied to alternative 1. -/
def conflictSet : ConfigSet :=
  { fullCtx := false, configs := [{ state := 3, alt := 1, ctx := ctx1 }, { state := 3, alt := 2, ctx := ctx1 }] }
def freeSet : ConfigSet :=
  { conflictSet with configs := conflictSet.configs ++ [{ state := 4, alt := 1, ctx := ctx1 }] }

example : AltsOk conflictSet.configs ∧ hasSllConflictTerminatingPrediction .LL conflictSet = some true ∧
    hasSllConflictTerminatingPrediction .LL freeSet = some false ∧
    hasSllConflictTerminatingPrediction .SLL { conflictSet with hasSem := true } = some true := by
  refine ⟨?_, by decide +kernel, by decide +kernel, by decide +kernel⟩
  intro c hc
  simp only [conflictSet, List.mem_cons, List.not_mem_nil, or_false] at hc
  rcases hc with rfl | rfl <;> exact ⟨by decide, by decide⟩

/-- `m` is the least member of `A`. -/
def IsMin (m : Nat) (A : List Nat) : Prop := m ∈ A ∧ ∀ x ∈ A, m ≤ x

theorem head_isMin (A : List Nat) (h : BitSorted A) (m : Nat) : A.head? = some m ↔ IsMin m A := by
  cases A with
  | nil => simp [IsMin]
  | cons x A =>
    have h' := List.pairwise_cons.mp h
    simp only [List.head?_cons, Option.some.injEq, IsMin]
    constructor
    · rintro rfl
      refine ⟨by simp, ?_⟩
      intro y hy
      rcases List.mem_cons.mp hy with rfl | hy
      · omega
      · have := h'.1 y hy; omega
    · rintro ⟨h1, h2⟩
      have := h2 x (by simp)
      rcases List.mem_cons.mp h1 with rfl | h1
      · rfl
      · have := h'.1 _ h1; omega

theorem singleViableLoop_spec (altsets : List (List Nat)) (hs : ∀ A ∈ altsets, BitSorted A)
    (hne : ∀ A ∈ altsets, A ≠ []) (m : Nat) :
    ((∀ A ∈ altsets, IsMin m A) → singleViableLoop altsets [m] m = some (m : Int)) ∧
    ((∃ A ∈ altsets, ¬ IsMin m A) → singleViableLoop altsets [m] m = some 0) := by
  induction altsets with
  | nil => simp [singleViableLoop]
  | cons A l ih =>
    have ih := ih (fun x hx => hs x (by simp [hx])) (fun x hx => hne x (by simp [hx]))
    obtain ⟨a, ha⟩ : ∃ a, A.head? = some a := by
      have := hne A (by simp)
      cases A with
      | nil => simp at this
      | cons x _ => exact ⟨x, rfl⟩
    have hamin := (head_isMin A (hs A (by simp)) a).mp ha
    by_cases ham : a = m
    · subst ham
      have h1 : bitInsert a [a] = [a] := by simp [bitInsert]
      constructor
      · intro hall
        simp only [singleViableLoop, ha, Option.bind_some, h1]
        simp only [List.length_singleton, Nat.lt_irrefl, if_false]
        exact ih.1 (fun x hx => hall x (by simp [hx]))
      · rintro ⟨B, hB, hn⟩
        simp only [singleViableLoop, ha, Option.bind_some, h1]
        simp only [List.length_singleton, Nat.lt_irrefl, if_false]
        apply ih.2
        rcases List.mem_cons.mp hB with rfl | hB
        · exact absurd hamin hn
        · exact ⟨B, hB, hn⟩
    · have hlen : 1 < (bitInsert a [m]).length := by
        rw [one_lt_length_iff _ (bitInsert_sorted _ _ (by simp))]
        exact ⟨a, by simp [mem_bitInsert], m, by simp [mem_bitInsert], ham⟩
      constructor
      · intro hall
        have hm := hall A (by simp)
        have := (head_isMin A (hs A (by simp)) m).mpr hm
        rw [ha] at this; simp at this; exact absurd this ham
      · intro _
        simp only [singleViableLoop, ha, Option.bind_some, if_pos hlen, INVALID_ALT]

/-- The single viable alternative: whatever the order of the (non-empty) subsets, the result is the
common minimum if there is one, and 0 (no alternative) otherwise; no panic. -/
theorem C36_single_viable (altsets : List (List Nat)) (hs : ∀ A ∈ altsets, BitSorted A)
    (hne : ∀ A ∈ altsets, A ≠ []) :
    ∃ r : Nat, getSingleViableAlt altsets = some (r : Int) ∧
      ∀ m, m ≠ 0 → (r = m ↔ altsets ≠ [] ∧ ∀ A ∈ altsets, IsMin m A) := by
  cases altsets with
  | nil => exact ⟨0, rfl, fun m hm => by simp; omega⟩
  | cons A l =>
    obtain ⟨a, ha⟩ : ∃ a, A.head? = some a := by
      have := hne A (by simp)
      cases A with
      | nil => simp at this
      | cons x _ => exact ⟨x, rfl⟩
    have hamin := (head_isMin A (hs A (by simp)) a).mp ha
    have hspec := singleViableLoop_spec l (fun x hx => hs x (by simp [hx]))
      (fun x hx => hne x (by simp [hx])) a
    have hstep : getSingleViableAlt (A :: l) = singleViableLoop l [a] a := by
      simp only [getSingleViableAlt, singleViableLoop, ha, Option.bind_some]
      simp [bitInsert]
    have hmin : ∀ m, IsMin m A → m = a := by
      intro m hm
      have := (head_isMin A (hs A (by simp)) m).mpr hm
      rw [ha] at this; simp at this; exact this.symm
    by_cases hall : ∀ B ∈ l, IsMin a B
    · refine ⟨a, by rw [hstep, hspec.1 hall], fun m _ => ⟨?_, ?_⟩⟩
      · rintro rfl
        refine ⟨by simp, fun B hB => ?_⟩
        rcases List.mem_cons.mp hB with rfl | hB
        · exact hamin
        · exact hall B hB
      · rintro ⟨_, h⟩; exact (hmin m (h A (by simp))).symm
    · have hex : ∃ B ∈ l, ¬ IsMin a B := by
        by_contra hcon
        apply hall
        intro B hB
        by_contra hn
        exact hcon ⟨B, hB, hn⟩
      refine ⟨0, by rw [hstep, hspec.2 hex]; rfl, fun m hm => ⟨fun h => absurd h.symm hm, ?_⟩⟩
      rintro ⟨_, h⟩
      exfalso
      apply hall
      intro B hB
      have h1 := hmin m (h A (by simp))
      rw [← h1]; exact h B (by simp [hB])

example : getSingleViableAlt [[1, 2], [1, 3], [1]] = some 1 ∧ getSingleViableAlt [[1, 2], [2]] = some 0 := by
  decide +kernel

/-- The subsets that occur are non-empty and sorted, as the previous theorem requires. -/
theorem C36_subsets_ok (s : ConfigSet) (altsets : List (List Nat))
    (h : altsets.Perm (conflictingAltSubsets s)) : ∀ A ∈ altsets, BitSorted A ∧ A ≠ [] := by
  intro A hA
  obtain ⟨c, hc, hi⟩ := (C36_subsets s altsets h).1 A hA
  refine ⟨hi.1, ?_⟩
  rintro rfl
  have := (hi.2 (asUsize c.alt)).mpr ⟨c, hc, rfl, rfl⟩
  simp at this

/-- Exact ambiguity detection: all subsets conflict and are equal iff every configuration's state and
stack is shared by exactly the same set of at least two alternatives. -/
theorem C36_exact_ambiguity (s : ConfigSet) (altsets : List (List Nat))
    (h : altsets.Perm (conflictingAltSubsets s)) :
    (allSubsetsConflict altsets && allSubsetsEqual altsets) = true ↔
      ∀ A ∈ altsets, 1 < A.length ∧ ∀ B ∈ altsets, B = A := by
  have hok := C36_subsets_ok s altsets h
  rw [Bool.and_eq_true]
  simp only [allSubsetsConflict, hasNonConflictingAltSet, Bool.not_eq_true', List.any_eq_false,
    beq_iff_eq]
  have heq : allSubsetsEqual altsets = true ↔ ∀ A ∈ altsets, ∀ B ∈ altsets, B = A := by
    cases altsets with
    | nil => simp [allSubsetsEqual]
    | cons f l =>
      simp only [allSubsetsEqual, List.all_eq_true, beq_iff_eq]
      constructor
      · intro h A hA B hB
        have e : ∀ X ∈ f :: l, X = f := by
          intro X hX
          rcases List.mem_cons.mp hX with rfl | hX
          · rfl
          · exact h X hX
        rw [e A hA, e B hB]
      · intro h X hX; exact h f (by simp) X (by simp [hX])
  rw [heq]
  constructor
  · rintro ⟨h1, h2⟩ A hA
    refine ⟨?_, h2 A hA⟩
    have := h1 A hA
    have hn := (hok A hA).2
    have : A.length ≠ 0 := by simpa using hn
    omega
  · intro hall
    exact ⟨fun A hA => by have := (hall A hA).1; omega, fun A hA => (hall A hA).2⟩

example : (conflictingAltSubsets conflictSet) = [[1, 2]] ∧ (conflictingAltSubsets freeSet) = [[1, 2], [1]] := by
  decide +kernel

/-- `get_alts` is the union. -/
theorem C36_get_alts (altsets : List (List Nat)) :
    BitSorted (getAlts altsets) ∧ ∀ n, n ∈ getAlts altsets ↔ ∃ A ∈ altsets, n ∈ A := by
  have key : ∀ (l : List (List Nat)) (acc : List Nat), BitSorted acc →
      BitSorted (l.foldl bitUnion acc) ∧ ∀ n, n ∈ l.foldl bitUnion acc ↔ n ∈ acc ∨ ∃ A ∈ l, n ∈ A := by
    intro l
    induction l with
    | nil => intro acc h; simp [h]
    | cons A l ih =>
      intro acc h
      obtain ⟨h1, h2⟩ := ih (bitUnion acc A) (bitUnion_sorted acc A h)
      refine ⟨h1, fun n => ?_⟩
      rw [List.foldl_cons, h2, mem_bitUnion]
      simp only [List.mem_cons, exists_eq_or_imp, or_assoc]
  obtain ⟨h1, h2⟩ := key altsets [] (by simp)
  exact ⟨h1, fun n => by rw [getAlts, h2]; simp⟩

example : getAlts [[1, 3], [2]] = [1, 2, 3] := by decide +kernel

end Antlr.PredictionModeProps
