import Verif.Prelude
import Verif.IntervalSet.Spec

/-! Helper lemmas for `Verif.IntervalSet.Props`. -/

namespace Antlr
open IntervalSpec

namespace IntervalSet

/-! ## Structural forms of the index loops -/

/-- Structural form of `mergeLoop`. -/
def mergeS (bigger prev : Interval) : List Interval → List Interval
  | [] => [prev]
  | [next] =>
    if !bigger.adjacent next && bigger.disjoint next then [prev, next] else [bigger.union next]
  | next :: s :: rest =>
    if !bigger.adjacent next && bigger.disjoint next then prev :: next :: s :: rest
    else bigger.union next :: mergeS bigger s rest

/-- Structural form of `addLoop`. -/
def addS (added : Interval) : List Interval → List Interval
  | [] => [added]
  | r :: rest =>
    if r = added then r :: rest
    else if added.adjacent r || !added.disjoint r then mergeS (added.union r) (added.union r) rest
    else if added.startsBeforeDisjoint r then added :: r :: rest
    else r :: addS added rest

theorem insertIdx_append {α} (pre l : List α) (x : α) :
    (pre ++ l).insertIdx pre.length x = pre ++ x :: l := by
  induction pre <;> simp_all

theorem mergeLoop_append (bigger prev : Interval) (rest pre : List Interval) :
    mergeLoop bigger (pre ++ prev :: rest) pre.length = pre ++ mergeS bigger prev rest := by
  induction prev, rest using mergeS.induct bigger generalizing pre with
  | case1 prev => unfold mergeLoop; simp [mergeS]
  | case2 prev next h =>
    unfold mergeLoop
    rw [mergeS, if_pos h]
    simp [List.getElem_append_right]
    intro h'; simp_all
  | case3 prev next h =>
    unfold mergeLoop
    rw [mergeS, if_neg h]
    simp only [List.length_append, List.length_cons, List.length_nil, List.getElem_append_right,
      Nat.le_add_right, Nat.add_sub_cancel_left, List.getElem_cons_succ, List.getElem_cons_zero]
    rw [dif_pos (by omega), if_neg h]
    have : ((pre ++ [prev, next]).set (pre.length + 1 - 1) (bigger.union next)).eraseIdx
        (pre.length + 1) = pre ++ [bigger.union next] := by
      simp [List.eraseIdx_append_of_length_le]
    rw [this]
    unfold mergeLoop
    rw [dif_neg (by simp)]
  | case4 prev next s rest h =>
    unfold mergeLoop
    rw [mergeS, if_pos h]
    simp [List.getElem_append_right]
    intro h'; simp_all
  | case5 prev next s rest h ih =>
    unfold mergeLoop
    rw [mergeS, if_neg h]
    simp only [List.length_append, List.length_cons, List.length_nil, List.getElem_append_right,
      Nat.le_add_right, Nat.add_sub_cancel_left, List.getElem_cons_succ, List.getElem_cons_zero]
    rw [dif_pos (by omega), if_neg h]
    have : ((pre ++ prev :: next :: s :: rest).set (pre.length + 1 - 1)
        (bigger.union next)).eraseIdx (pre.length + 1) =
        (pre ++ [bigger.union next]) ++ s :: rest := by
      simp [List.eraseIdx_append_of_length_le]
    rw [this]
    have := ih (pre ++ [bigger.union next])
    simpa using this

theorem addLoop_append (added : Interval) (l pre : List Interval) :
    addLoop added (pre ++ l) pre.length = pre ++ addS added l := by
  induction l generalizing pre with
  | nil => unfold addLoop; simp [addS]
  | cons r rest ih =>
    unfold addLoop
    simp only [List.length_append, List.length_cons, addS, List.getElem_append_right, Nat.le_refl,
      Nat.sub_self, List.getElem_cons_zero]
    rw [dif_pos (by omega)]
    split
    · rfl
    · split
      · have := mergeLoop_append (added.union r) (added.union r) rest pre
        simpa using this
      · split
        · rw [insertIdx_append]
        · have := ih (pre ++ [r])
          simpa using this

theorem addLoop_eq (added : Interval) (l : List Interval) : addLoop added l 0 = addS added l := by
  simpa using addLoop_append added l []

/-! ## Elementary interval facts -/

theorem not_touch_iff (p q : Interval) (hp : p.a ≤ p.b) (hq : q.a ≤ q.b) :
    (!p.adjacent q && p.disjoint q) = true ↔ ¬ Touches p q := by
  simp [Interval.adjacent, Interval.disjoint, Interval.startsBeforeDisjoint,
    Interval.startsAfterDisjoint, Touches]
  omega

theorem touch_iff (p q : Interval) (hp : p.a ≤ p.b) (hq : q.a ≤ q.b) :
    (p.adjacent q || !p.disjoint q) = true ↔ Touches p q := by
  have := not_touch_iff p q hp hq
  revert this
  cases p.adjacent q <;> cases p.disjoint q <;> simp

@[simp] theorem mem_nil (x : Int) : Mem [] x ↔ False := by simp [Mem]
@[simp] theorem mem_cons (r : Interval) (l : List Interval) (x : Int) :
    Mem (r :: l) x ↔ InIv r x ∨ Mem l x := by simp [Mem]
@[simp] theorem mem_append (l m : List Interval) (x : Int) :
    Mem (l ++ m) x ↔ Mem l x ∨ Mem m x := by
  induction l <;> simp_all [or_assoc]

theorem inIv_union_of_touch {p q : Interval} (h : Touches p q) (hp : p.a ≤ p.b) (hq : q.a ≤ q.b)
    (x : Int) : InIv (p.union q) x ↔ InIv p x ∨ InIv q x := by
  simp only [Touches, InIv, Interval.union] at *
  omega

theorem union_valid {p q : Interval} (hp : p.a ≤ p.b) : (p.union q).a ≤ (p.union q).b := by
  simp only [Interval.union]; omega

/-! ## Soundness of `add` on arbitrary lists of valid intervals -/

theorem mergeS_valid (bigger prev : Interval) (l : List Interval) (hb : bigger.a ≤ bigger.b)
    (hp : prev.a ≤ prev.b) (hl : ∀ r ∈ l, r.a ≤ r.b) : ∀ r ∈ mergeS bigger prev l, r.a ≤ r.b := by
  induction prev, l using mergeS.induct bigger with
  | case1 prev => simp [mergeS, hp]
  | case2 prev next h => rw [mergeS, if_pos h]; simp_all
  | case3 prev next h => rw [mergeS, if_neg h]; simp [union_valid hb]
  | case4 prev next s rest h => rw [mergeS, if_pos h]; simp_all
  | case5 prev next s rest h ih =>
    rw [mergeS, if_neg h]
    simp only [List.mem_cons, forall_eq_or_imp] at hl ⊢
    exact ⟨union_valid hb, ih hl.2.1 hl.2.2⟩

theorem mergeS_sound (bigger prev : Interval) (l : List Interval) (hb : bigger.a ≤ bigger.b)
    (hl : ∀ r ∈ l, r.a ≤ r.b) (x : Int) :
    Mem (mergeS bigger prev l) x → InIv bigger x ∨ InIv prev x ∨ Mem l x := by
  induction prev, l using mergeS.induct bigger with
  | case1 prev => simp [mergeS]; tauto
  | case2 prev next h => rw [mergeS, if_pos h]; simp; tauto
  | case3 prev next h =>
    rw [mergeS, if_neg h]
    simp only [List.mem_cons, forall_eq_or_imp] at hl
    have ht : Touches bigger next := by
      have := not_touch_iff bigger next hb hl.1; tauto
    simp [inIv_union_of_touch ht hb hl.1]
    tauto
  | case4 prev next s rest h => rw [mergeS, if_pos h]; simp; tauto
  | case5 prev next s rest h ih =>
    rw [mergeS, if_neg h]
    simp only [List.mem_cons, forall_eq_or_imp] at hl
    have ht : Touches bigger next := by
      have := not_touch_iff bigger next hb hl.1; tauto
    simp only [mem_cons, inIv_union_of_touch ht hb hl.1]
    have := ih hl.2.2
    tauto

theorem addS_valid (added : Interval) (l : List Interval) (ha : added.a ≤ added.b)
    (hl : ∀ r ∈ l, r.a ≤ r.b) : ∀ r ∈ addS added l, r.a ≤ r.b := by
  induction l with
  | nil => simp [addS, ha]
  | cons r rest ih =>
    simp only [List.mem_cons, forall_eq_or_imp] at hl
    simp only [addS]
    split
    · simpa using hl
    · split
      · exact mergeS_valid _ _ _ (union_valid ha) (union_valid ha) hl.2
      · split
        · simp [ha]; simpa using hl
        · simp [hl.1]; exact ih hl.2

theorem addS_sound (added : Interval) (l : List Interval) (ha : added.a ≤ added.b)
    (hl : ∀ r ∈ l, r.a ≤ r.b) (x : Int) : Mem (addS added l) x → InIv added x ∨ Mem l x := by
  induction l with
  | nil => simp [addS]
  | cons r rest ih =>
    simp only [List.mem_cons, forall_eq_or_imp] at hl
    simp only [addS]
    split
    · simp only [mem_cons]; tauto
    · split
      · rename_i ht
        rw [touch_iff _ _ ha hl.1] at ht
        intro h
        have := mergeS_sound (added.union r) (added.union r) rest (union_valid ha) hl.2 x h
        simp only [inIv_union_of_touch ht ha hl.1] at this
        simp only [mem_cons]; tauto
      · split
        · simp only [mem_cons]; tauto
        · simp only [mem_cons]; have := ih hl.2; tauto

/-! ## Exactness of `add` on canonical lists when few intervals are swallowed -/

/-- Number of stored intervals the added one touches. -/
def touchCount (added : Interval) (l : List Interval) : Nat :=
  l.countP fun r => decide (Touches added r)

theorem mergeS_not_touch (bigger prev : Interval) (l : List Interval) (hb : bigger.a ≤ bigger.b)
    (hl : ∀ r ∈ l, r.a ≤ r.b) (hn : ∀ r ∈ l, ¬ Touches bigger r) :
    mergeS bigger prev l = prev :: l := by
  match l with
  | [] => simp [mergeS]
  | [n] =>
    rw [mergeS, if_pos]
    rw [not_touch_iff _ _ hb (hl _ (by simp))]; exact hn _ (by simp)
  | n :: s :: rest =>
    rw [mergeS, if_pos]
    rw [not_touch_iff _ _ hb (hl _ (by simp))]; exact hn _ (by simp)

theorem mergeS_lb (c : Int) (bigger prev : Interval) (l : List Interval) (hb : c < bigger.a)
    (hp : c < prev.a) (hl : ∀ r ∈ l, c < r.a) : ∀ r ∈ mergeS bigger prev l, c < r.a := by
  induction prev, l using mergeS.induct bigger with
  | case1 prev => simp [mergeS, hp]
  | case2 prev next h => rw [mergeS, if_pos h]; simp_all
  | case3 prev next h => rw [mergeS, if_neg h]; simp_all [Interval.union]; omega
  | case4 prev next s rest h => rw [mergeS, if_pos h]; simp_all
  | case5 prev next s rest h ih =>
    rw [mergeS, if_neg h]
    simp only [List.mem_cons, forall_eq_or_imp] at hl ⊢
    refine ⟨?_, ih hl.2.1 hl.2.2⟩
    simp only [Interval.union]; omega

theorem addS_lb (c : Int) (added : Interval) (l : List Interval) (ha : c < added.a)
    (hl : ∀ r ∈ l, c < r.a) : ∀ r ∈ addS added l, c < r.a := by
  induction l with
  | nil => simp [addS, ha]
  | cons r rest ih =>
    have hl' := hl
    simp only [List.mem_cons, forall_eq_or_imp] at hl
    simp only [addS]
    split
    · exact hl'
    · split
      · exact mergeS_lb _ _ _ _ (by simp only [Interval.union]; omega)
          (by simp only [Interval.union]; omega) hl.2
      · split
        · simpa [ha] using hl
        · simp only [List.mem_cons, forall_eq_or_imp]; exact ⟨hl.1, ih hl.2⟩

theorem canonical_cons {r : Interval} {l : List Interval} :
    Canonical (r :: l) ↔ r.a ≤ r.b ∧ (∀ q ∈ l, r.b + 1 < q.a) ∧ Canonical l := by
  simp [Canonical]; tauto

theorem sortedDisjoint_cons {r : Interval} {l : List Interval} :
    SortedDisjoint (r :: l) ↔ r.a ≤ r.b ∧ (∀ q ∈ l, r.b < q.a) ∧ SortedDisjoint l := by
  simp [SortedDisjoint]; tauto

theorem _root_.Antlr.IntervalSpec.Canonical.sortedDisjoint {l : List Interval} (h : Canonical l) : SortedDisjoint l :=
  ⟨h.1, h.2.imp (by intros; omega)⟩

theorem addS_exact (added : Interval) (l : List Interval) (ha : added.a ≤ added.b)
    (hl : Canonical l) (ht : touchCount added l ≤ 2) :
    Canonical (addS added l) ∧ ∀ x, Mem (addS added l) x ↔ InIv added x ∨ Mem l x := by
  induction l with
  | nil => simp [addS, Canonical, ha]
  | cons r rest ih =>
    have hc := hl
    rw [canonical_cons] at hl
    obtain ⟨hr, hlb, hrest⟩ := hl
    simp only [addS]
    split
    · rename_i h; subst h
      refine ⟨hc, fun x => ?_⟩
      simp only [mem_cons]; tauto
    · split
      · rename_i h
        rw [touch_iff _ _ ha hr] at h
        have hcount : touchCount added rest ≤ 1 := by
          simp only [touchCount, List.countP_cons, h, decide_true, ↓reduceIte] at ht ⊢
          omega
        have hbv : (added.union r).a ≤ (added.union r).b := union_valid ha
        match rest, hlb, hrest, hcount with
        | [], _, _, _ =>
          simp only [mergeS, mem_cons, mem_nil, or_false]
          refine ⟨by simp [Canonical, hbv], fun x => inIv_union_of_touch h ha hr x⟩
        | n :: rest', hlb, hrest, hcount =>
          rw [canonical_cons] at hrest
          obtain ⟨hn, hnlb, hrest'⟩ := hrest
          have hrn := hlb n (by simp)
          by_cases htn : Touches (added.union r) n
          · have htn' : Touches added n := by
              simp only [Touches, Interval.union] at *; omega
            have hzero : ∀ q ∈ rest', ¬ Touches added q := by
              simp only [touchCount, List.countP_cons, htn', decide_true, ↓reduceIte] at hcount
              have : List.countP (fun r => decide (Touches added r)) rest' = 0 := by omega
              rw [List.countP_eq_zero] at this
              simpa using this
            have hzero' : ∀ q ∈ rest', ¬ Touches (added.union r) q := by
              intro q hq hh
              apply hzero q hq
              have := hlb q (by simp [hq])
              have := hrest'.1 q hq
              simp only [Touches, Interval.union] at *; omega
            have hcond : ¬ (!(added.union r).adjacent n && (added.union r).disjoint n) = true := by
              rw [not_touch_iff _ _ hbv hn]; simpa using htn
            have key : mergeS (added.union r) (added.union r) (n :: rest') =
                (added.union r).union n :: rest' := by
              match rest', hzero', hrest' with
              | [], _, _ => rw [mergeS, if_neg hcond]
              | s :: rest'', hz, hr' =>
                rw [mergeS, if_neg hcond, mergeS_not_touch _ _ _ hbv]
                · intro q hq; exact hr'.1 q (by simp [hq])
                · intro q hq; exact hz q (by simp [hq])
            rw [key]
            constructor
            · rw [canonical_cons]
              refine ⟨union_valid hbv, ?_, hrest'⟩
              intro q hq
              have h1 := hzero' q hq
              have h2 := hnlb q hq
              have h3 := hrest'.1 q hq
              have h4 := hlb q (by simp [hq])
              simp only [Touches, Interval.union] at *
              omega
            · intro x
              simp only [mem_cons, inIv_union_of_touch htn hbv hn, inIv_union_of_touch h ha hr]
              tauto
          · have hcond : (!(added.union r).adjacent n && (added.union r).disjoint n) = true := by
              rw [not_touch_iff _ _ hbv hn]; exact htn
            have key : mergeS (added.union r) (added.union r) (n :: rest') =
                (added.union r) :: n :: rest' := by
              match rest' with
              | [] => rw [mergeS, if_pos hcond]
              | s :: rest'' => rw [mergeS, if_pos hcond]
            rw [key]
            constructor
            · rw [canonical_cons, canonical_cons]
              refine ⟨hbv, ?_, hn, hnlb, hrest'⟩
              intro q hq
              have h5 : n.a ≤ q.a := by
                simp only [List.mem_cons] at hq
                rcases hq with rfl | hq
                · omega
                · have := hnlb q hq; omega
              simp only [Touches, Interval.union] at *
              omega
            · intro x
              simp only [mem_cons, inIv_union_of_touch h ha hr]
              tauto
      · rename_i h
        rw [touch_iff _ _ ha hr] at h
        split
        · rename_i hb
          simp only [Interval.startsBeforeDisjoint, Bool.and_eq_true, decide_eq_true_eq] at hb
          constructor
          · rw [canonical_cons]
            refine ⟨ha, ?_, hc⟩
            intro q hq
            simp only [List.mem_cons] at hq
            rcases hq with rfl | hq
            · simp only [Touches] at h; omega
            · have := hlb q hq
              simp only [Touches] at h; omega
          · intro x; simp only [mem_cons]
        · rename_i hb
          simp only [Interval.startsBeforeDisjoint, Bool.and_eq_true, decide_eq_true_eq] at hb
          have hcount : touchCount added rest ≤ 2 := by
            simp only [touchCount, List.countP_cons] at ht ⊢
            omega
          obtain ⟨h1, h2⟩ := ih hrest hcount
          constructor
          · rw [canonical_cons]
            refine ⟨hr, ?_, h1⟩
            apply addS_lb
            · simp only [Touches] at h; omega
            · exact hlb
          · intro x
            simp only [mem_cons, h2]
            tauto

/-! ## `substract` -/

/-- Structural form of `substractLoop`. -/
def subS : List Interval → List Interval → List Interval
  | [], _ => []
  | x :: xs, [] => x :: xs
  | x :: xs, y :: ys =>
    if y.b < x.a then subS (x :: xs) ys
    else if y.a > x.b then x :: subS xs (y :: ys)
    else if y.a > x.a then
      if y.b < x.b then ⟨x.a, y.a - 1⟩ :: subS (⟨y.b + 1, x.b⟩ :: xs) ys
      else ⟨x.a, y.a - 1⟩ :: subS xs (y :: ys)
    else
      if y.b < x.b then subS (⟨y.b + 1, x.b⟩ :: xs) ys
      else subS xs (y :: ys)
termination_by l r => 2 * r.length + l.length

theorem substractLoop_append (l r pre rpre : List Interval) :
    substractLoop (rpre ++ r) (pre ++ l) pre.length rpre.length = pre ++ subS l r := by
  induction l, r using subS.induct generalizing pre rpre with
  | case1 r => unfold substractLoop subS; simp
  | case2 x xs => unfold substractLoop subS; simp
  | case3 x xs y ys h ih =>
    unfold substractLoop subS
    rw [dif_pos (by simp)]
    simp only [List.getElem_append_right, Nat.le_refl, Nat.sub_self, List.getElem_cons_zero, h,
      ↓reduceIte]
    simpa using ih pre (rpre ++ [y])
  | case4 x xs y ys h h' ih =>
    unfold substractLoop subS
    rw [dif_pos (by simp)]
    simp only [List.getElem_append_right, Nat.le_refl, Nat.sub_self, List.getElem_cons_zero, h, h',
      ↓reduceIte]
    simpa using ih (pre ++ [x]) rpre
  | case5 x xs y ys h h' hb ha ih =>
    unfold substractLoop subS
    rw [dif_pos (by simp)]
    simp only [List.getElem_append_right, Nat.le_refl, Nat.sub_self, List.getElem_cons_zero, h, h',
      ↓reduceIte, hb, ha]
    have : ((pre ++ x :: xs).set pre.length ⟨x.a, y.a - 1⟩).insertIdx (pre.length + 1)
        ⟨y.b + 1, x.b⟩ = (pre ++ [Interval.mk x.a (y.a - 1)]) ++ ⟨y.b + 1, x.b⟩ :: xs := by
      have := insertIdx_append (pre ++ [Interval.mk x.a (y.a - 1)]) xs (Interval.mk (y.b + 1) x.b)
      simpa using this
    rw [this]
    simpa using ih (pre ++ [Interval.mk x.a (y.a - 1)]) (rpre ++ [y])
  | case6 x xs y ys h h' hb ha ih =>
    unfold substractLoop subS
    rw [dif_pos (by simp)]
    simp only [List.getElem_append_right, Nat.le_refl, Nat.sub_self, List.getElem_cons_zero, h, h',
      ↓reduceIte, hb, ha]
    simpa using ih (pre ++ [Interval.mk x.a (y.a - 1)]) rpre
  | case7 x xs y ys h h' hb ha ih =>
    unfold substractLoop subS
    rw [dif_pos (by simp)]
    simp only [List.getElem_append_right, Nat.le_refl, Nat.sub_self, List.getElem_cons_zero, h, h',
      ↓reduceIte, hb, ha]
    simpa using ih pre (rpre ++ [y])
  | case8 x xs y ys h h' hb ha ih =>
    unfold substractLoop subS
    rw [dif_pos (by simp)]
    simp only [List.getElem_append_right, Nat.le_refl, Nat.sub_self, List.getElem_cons_zero, h, h',
      ↓reduceIte, hb, ha]
    have : (pre ++ x :: xs).eraseIdx pre.length = pre ++ xs := by
      simp [List.eraseIdx_append_of_length_le]
    rw [this]
    simpa using ih pre rpre

theorem substractLoop_eq (l r : List Interval) : substractLoop r l 0 0 = subS l r := by
  simpa using substractLoop_append l r [] []

/-- Every interval left by `substract` is a part of an old one. -/
theorem subS_sub (l r : List Interval) : ∀ q ∈ subS l r, ∃ p ∈ l, p.a ≤ q.a ∧ q.b ≤ p.b := by
  induction l, r using subS.induct with
  | case1 r => unfold subS; simp
  | case2 x xs => unfold subS; intro q hq; exact ⟨q, hq, by omega, by omega⟩
  | case3 x xs y ys h ih => unfold subS; simp only [h, ↓reduceIte]; exact ih
  | case4 x xs y ys h h' ih =>
    unfold subS; simp only [h, h', ↓reduceIte, List.mem_cons]
    rintro q (rfl | hq)
    · exact ⟨q, by simp, by omega, by omega⟩
    · obtain ⟨p, hp, h1⟩ := ih q hq; exact ⟨p, by simp [hp], h1⟩
  | case5 x xs y ys h h' hb ha ih =>
    unfold subS; simp only [h, h', hb, ha, ↓reduceIte, List.mem_cons]
    rintro q (rfl | hq)
    · exact ⟨x, by simp, by simp, by simp; omega⟩
    · obtain ⟨p, hp, h1⟩ := ih q hq
      simp only [List.mem_cons] at hp
      rcases hp with rfl | hp
      · refine ⟨x, by simp, ?_, h1.2⟩; simp at h1; omega
      · exact ⟨p, by simp [hp], h1⟩
  | case6 x xs y ys h h' hb ha ih =>
    unfold subS; simp only [h, h', hb, ha, ↓reduceIte, List.mem_cons]
    rintro q (rfl | hq)
    · exact ⟨x, by simp, by simp, by simp; omega⟩
    · obtain ⟨p, hp, h1⟩ := ih q hq; exact ⟨p, by simp [hp], h1⟩
  | case7 x xs y ys h h' hb ha ih =>
    unfold subS; simp only [h, h', hb, ha, ↓reduceIte, List.mem_cons]
    intro q hq
    obtain ⟨p, hp, h1⟩ := ih q hq
    simp only [List.mem_cons] at hp
    rcases hp with rfl | hp
    · refine ⟨x, by simp, ?_, h1.2⟩; simp at h1; omega
    · exact ⟨p, by simp [hp], h1⟩
  | case8 x xs y ys h h' hb ha ih =>
    unfold subS; simp only [h, h', hb, ha, ↓reduceIte, List.mem_cons]
    intro q hq
    obtain ⟨p, hp, h1⟩ := ih q hq; exact ⟨p, by simp [hp], h1⟩

theorem subS_exact (l r : List Interval) (hl : SortedDisjoint l) (hr : SortedDisjoint r) :
    SortedDisjoint (subS l r) ∧ ∀ x, Mem (subS l r) x ↔ Mem l x ∧ ¬ Mem r x := by
  induction l, r using subS.induct with
  | case1 r => unfold subS; simp [SortedDisjoint]
  | case2 x xs => unfold subS; simpa using hl
  | case3 x xs y ys h ih =>
    unfold subS; simp only [h, ↓reduceIte]
    have hl' := hl
    rw [sortedDisjoint_cons] at hl hr
    obtain ⟨h1, h2⟩ := ih hl' hr.2.2
    refine ⟨h1, fun z => ?_⟩
    rw [h2 z]
    simp only [mem_cons]
    constructor
    · rintro ⟨hz, hn⟩
      refine ⟨hz, ?_⟩
      rintro (hy | hy)
      · rcases hz with hz | ⟨p, hp, hz⟩
        · simp only [InIv] at *; omega
        · have := hl.2.1 p hp; simp only [InIv] at *; omega
      · exact hn hy
    · tauto
  | case4 x xs y ys h h' ih =>
    unfold subS; simp only [h, h', ↓reduceIte]
    have hr' := hr
    rw [sortedDisjoint_cons] at hl hr
    obtain ⟨h1, h2⟩ := ih hl.2.2 hr'
    refine ⟨?_, fun z => ?_⟩
    · rw [sortedDisjoint_cons]
      refine ⟨hl.1, ?_, h1⟩
      intro q hq
      obtain ⟨p, hp, h3⟩ := subS_sub _ _ q hq
      have := hl.2.1 p hp; omega
    · simp only [mem_cons, h2 z]
      constructor
      · rintro (hz | hz)
        · refine ⟨Or.inl hz, ?_⟩
          rintro (hy | ⟨p, hp, hy⟩)
          · simp only [InIv] at *; omega
          · have := hr.2.1 p hp; simp only [InIv] at *; omega
        · tauto
      · tauto
  | case5 x xs y ys h h' hb ha ih =>
    unfold subS; simp only [h, h', hb, ha, ↓reduceIte]
    rw [sortedDisjoint_cons] at hl hr
    have hac : SortedDisjoint (⟨y.b + 1, x.b⟩ :: xs) := by
      rw [sortedDisjoint_cons]; exact ⟨by simp; omega, hl.2.1, hl.2.2⟩
    obtain ⟨h1, h2⟩ := ih hac hr.2.2
    refine ⟨?_, fun z => ?_⟩
    · rw [sortedDisjoint_cons]
      refine ⟨by simp; omega, ?_, h1⟩
      intro q hq
      obtain ⟨p, hp, h3⟩ := subS_sub _ _ q hq
      simp only [List.mem_cons] at hp
      rcases hp with rfl | hp
      · simp at h3 ⊢; omega
      · have := hl.2.1 p hp; simp; omega
    · simp only [mem_cons, h2 z]
      constructor
      · rintro (hz | ⟨hz, hn⟩)
        · refine ⟨Or.inl (by simp only [InIv] at *; omega), ?_⟩
          rintro (hy | ⟨p, hp, hy⟩)
          · simp only [InIv] at *; omega
          · have := hr.2.1 p hp; simp only [InIv] at *; omega
        · rcases hz with hz | ⟨p, hp, hz⟩
          · refine ⟨Or.inl (by simp only [InIv] at *; omega), ?_⟩
            rintro (hy | hy)
            · simp only [InIv] at *; omega
            · exact hn hy
          · refine ⟨Or.inr ⟨p, hp, hz⟩, ?_⟩
            rintro (hy | hy)
            · have := hl.2.1 p hp; simp only [InIv] at *; omega
            · exact hn hy
      · rintro ⟨hz | hz, hn⟩
        · by_cases h5 : z < y.a
          · left; simp only [InIv] at *; omega
          · right
            refine ⟨Or.inl ?_, by tauto⟩
            have : ¬ InIv y z := by tauto
            simp only [InIv] at *; omega
        · right; tauto
  | case6 x xs y ys h h' hb ha ih =>
    unfold subS; simp only [h, h', hb, ha, ↓reduceIte]
    have hr' := hr
    rw [sortedDisjoint_cons] at hl hr
    obtain ⟨h1, h2⟩ := ih hl.2.2 hr'
    refine ⟨?_, fun z => ?_⟩
    · rw [sortedDisjoint_cons]
      refine ⟨by simp; omega, ?_, h1⟩
      intro q hq
      obtain ⟨p, hp, h3⟩ := subS_sub _ _ q hq
      have := hl.2.1 p hp; simp; omega
    · simp only [mem_cons, h2 z]
      constructor
      · rintro (hz | ⟨hz, hn⟩)
        · refine ⟨Or.inl (by simp only [InIv] at *; omega), ?_⟩
          rintro (hy | ⟨p, hp, hy⟩)
          · simp only [InIv] at *; omega
          · have := hr.2.1 p hp; simp only [InIv] at *; omega
        · tauto
      · rintro ⟨hz | hz, hn⟩
        · left
          have : ¬ InIv y z := by tauto
          simp only [InIv] at *; omega
        · right; tauto
  | case7 x xs y ys h h' hb ha ih =>
    unfold subS; simp only [h, h', hb, ha, ↓reduceIte]
    rw [sortedDisjoint_cons] at hl hr
    have hac : SortedDisjoint (⟨y.b + 1, x.b⟩ :: xs) := by
      rw [sortedDisjoint_cons]; exact ⟨by simp; omega, hl.2.1, hl.2.2⟩
    obtain ⟨h1, h2⟩ := ih hac hr.2.2
    refine ⟨h1, fun z => ?_⟩
    simp only [mem_cons, h2 z]
    constructor
    · rintro ⟨hz, hn⟩
      rcases hz with hz | ⟨p, hp, hz⟩
      · refine ⟨Or.inl (by simp only [InIv] at *; omega), ?_⟩
        rintro (hy | hy)
        · simp only [InIv] at *; omega
        · exact hn hy
      · refine ⟨Or.inr ⟨p, hp, hz⟩, ?_⟩
        rintro (hy | hy)
        · have := hl.2.1 p hp; simp only [InIv] at *; omega
        · exact hn hy
    · rintro ⟨hz | hz, hn⟩
      · refine ⟨Or.inl ?_, by tauto⟩
        have : ¬ InIv y z := by tauto
        simp only [InIv] at *; omega
      · tauto
  | case8 x xs y ys h h' hb ha ih =>
    unfold subS; simp only [h, h', hb, ha, ↓reduceIte]
    rw [sortedDisjoint_cons] at hl
    obtain ⟨h1, h2⟩ := ih hl.2.2 hr
    refine ⟨h1, fun z => ?_⟩
    simp only [mem_cons, h2 z]
    constructor
    · tauto
    · rintro ⟨hz | hz, hn⟩
      · exfalso; apply hn; left; simp only [InIv] at *; omega
      · tauto

theorem subS_canonical (l r : List Interval) (hl : Canonical l) (hr : SortedDisjoint r) :
    Canonical (subS l r) := by
  induction l, r using subS.induct with
  | case1 r => unfold subS; simp [Canonical]
  | case2 x xs => unfold subS; exact hl
  | case3 x xs y ys h ih =>
    unfold subS; simp only [h, ↓reduceIte]
    rw [sortedDisjoint_cons] at hr
    exact ih hl hr.2.2
  | case4 x xs y ys h h' ih =>
    unfold subS; simp only [h, h', ↓reduceIte]
    rw [canonical_cons] at hl ⊢
    refine ⟨hl.1, ?_, ih hl.2.2 hr⟩
    intro q hq
    obtain ⟨p, hp, h3⟩ := subS_sub _ _ q hq
    have := hl.2.1 p hp; omega
  | case5 x xs y ys h h' hb ha ih =>
    unfold subS; simp only [h, h', hb, ha, ↓reduceIte]
    rw [sortedDisjoint_cons] at hr
    rw [canonical_cons] at hl ⊢
    refine ⟨by simp; omega, ?_, ih ?_ hr.2.2⟩
    · intro q hq
      obtain ⟨p, hp, h3⟩ := subS_sub _ _ q hq
      simp only [List.mem_cons] at hp
      rcases hp with rfl | hp
      · simp at h3 ⊢; omega
      · have := hl.2.1 p hp; simp; omega
    · rw [canonical_cons]; exact ⟨by simp; omega, hl.2.1, hl.2.2⟩
  | case6 x xs y ys h h' hb ha ih =>
    unfold subS; simp only [h, h', hb, ha, ↓reduceIte]
    rw [canonical_cons] at hl ⊢
    refine ⟨by simp; omega, ?_, ih hl.2.2 hr⟩
    intro q hq
    obtain ⟨p, hp, h3⟩ := subS_sub _ _ q hq
    have := hl.2.1 p hp; simp; omega
  | case7 x xs y ys h h' hb ha ih =>
    unfold subS; simp only [h, h', hb, ha, ↓reduceIte]
    rw [sortedDisjoint_cons] at hr
    rw [canonical_cons] at hl
    apply ih _ hr.2.2
    rw [canonical_cons]; exact ⟨by simp; omega, hl.2.1, hl.2.2⟩
  | case8 x xs y ys h h' hb ha ih =>
    unfold subS; simp only [h, h', hb, ha, ↓reduceIte]
    rw [canonical_cons] at hl
    exact ih hl.2.2 hr

/-! ## `contains` -/

theorem probe_eq (item : Int) (r : Interval) : probe item r = .eq ↔ InIv r item := by
  simp only [probe, InIv]; split
  · simp; omega
  · split <;> simp <;> omega

theorem probe_lt (item : Int) (r : Interval) (hr : r.a ≤ r.b) : probe item r = .lt ↔ r.b < item := by
  simp only [probe]; split
  · simp; omega
  · split <;> simp <;> omega

theorem probe_gt (item : Int) (r : Interval) : probe item r = .gt ↔ item < r.a := by
  simp only [probe]; split
  · simpa
  · split <;> simp <;> omega

theorem bsearch_sound (l : List Interval) (item : Int) (left right : Nat) (hr : right ≤ l.length) :
    bsearch l item left right hr = true → Mem l item := by
  induction left, right, hr using bsearch.induct l item with
  | case1 left right hr h mid hp ih => rw [bsearch]; simp only [h, ↓reduceDIte]; simp only [mid] at hp; rw [hp]; exact ih
  | case2 left right hr h mid hp ih => rw [bsearch]; simp only [h, ↓reduceDIte]; simp only [mid] at hp; rw [hp]; exact ih
  | case3 left right hr h mid hp =>
    intro _
    rw [probe_eq] at hp
    exact ⟨_, List.getElem_mem _, hp⟩
  | case4 left right hr h => rw [bsearch]; simp [h]

theorem sd_getElem {l : List Interval} (h : SortedDisjoint l) {i j : Nat} (hj : j < l.length)
    (hij : i < j) : (l[i]'(by omega)).b < (l[j]).a :=
  List.pairwise_iff_getElem.mp h.2 i j (by omega) hj hij

theorem bsearch_complete (l : List Interval) (hl : SortedDisjoint l) (item : Int)
    (left right : Nat) (hr : right ≤ l.length) (k : Nat) (hk : k < l.length)
    (h1 : left ≤ k) (h2 : k < right) (hin : InIv l[k] item) :
    bsearch l item left right hr = true := by
  have hv : ∀ i (hi : i < l.length), (l[i]).a ≤ (l[i]).b :=
    fun i hi => hl.1 _ (List.getElem_mem _)
  induction left, right, hr using bsearch.induct l item with
  | case1 left right hr h mid hp ih =>
    rw [bsearch]; simp only [h, ↓reduceDIte]
    have hp' := hp; simp only [mid] at hp; rw [hp]
    apply ih _ h2
    rw [probe_lt _ _ (hv _ _)] at hp'
    by_contra hc
    by_cases he : k = mid
    · subst he; simp only [InIv] at hin; omega
    · have := sd_getElem hl (i := k) (j := mid) (by omega) (by omega)
      have := hv mid (by omega)
      simp only [InIv] at hin; omega
  | case2 left right hr h mid hp ih =>
    rw [bsearch]; simp only [h, ↓reduceDIte]
    have hp' := hp; simp only [mid] at hp; rw [hp]
    apply ih h1
    rw [probe_gt] at hp'
    by_contra hc
    by_cases he : k = mid
    · subst he; simp only [InIv] at hin; omega
    · have := sd_getElem hl (i := mid) (j := k) (by omega) (by omega)
      have := hv mid (by omega)
      simp only [InIv] at hin; omega
  | case3 left right hr h mid hp =>
    rw [bsearch]; simp only [h, ↓reduceDIte]
    simp only [mid] at hp; rw [hp]
  | case4 left right hr h => omega

theorem bsearchNewLoop_sound (l : List Interval) (item : Int) (base size : Nat)
    (hb : base + size ≤ l.length) (hs : 0 < size) :
    bsearchNewLoop l item base size hb hs = true → Mem l item := by
  induction base, size, hb, hs using bsearchNewLoop.induct l item with
  | case1 base size hb hs h half mid hp ih =>
    rw [bsearchNewLoop]; simp only [h, ↓reduceDIte]
    simp only [mid, half] at hp; rw [hp]; exact ih
  | case2 base size hb hs h half mid hp ih =>
    rw [bsearchNewLoop]; simp only [h, ↓reduceDIte]
    split
    · exfalso; apply hp; simpa only [mid, half] using ‹_›
    · exact ih
  | case3 base size hb hs h =>
    rw [bsearchNewLoop]; simp only [h, ↓reduceDIte, beq_iff_eq, probe_eq]
    exact fun hh => ⟨_, List.getElem_mem _, hh⟩

theorem bsearchNewLoop_complete (l : List Interval) (hl : SortedDisjoint l) (item : Int)
    (base size : Nat) (hb : base + size ≤ l.length) (hs : 0 < size) (k : Nat) (hk : k < l.length)
    (h1 : base ≤ k) (h2 : k < base + size) (hin : InIv l[k] item) :
    bsearchNewLoop l item base size hb hs = true := by
  have hv : ∀ i (hi : i < l.length), (l[i]).a ≤ (l[i]).b :=
    fun i hi => hl.1 _ (List.getElem_mem _)
  induction base, size, hb, hs using bsearchNewLoop.induct l item with
  | case1 base size hb hs h half mid hp ih =>
    rw [bsearchNewLoop]; simp only [h, ↓reduceDIte]
    have hp' := hp; simp only [mid, half] at hp; rw [hp]
    apply ih h1
    rw [probe_gt] at hp'
    by_contra hc
    by_cases he : k = mid
    · subst he; simp only [InIv] at hin; omega
    · have := sd_getElem hl (i := mid) (j := k) (by omega) (by omega)
      have := hv mid (by omega)
      simp only [InIv] at hin; omega
  | case2 base size hb hs h half mid hp ih =>
    rw [bsearchNewLoop]; simp only [h, ↓reduceDIte]
    split
    · exfalso; apply hp; simpa only [mid, half] using ‹_›
    · apply ih _ (by omega)
      by_contra hc
      have hp2 : ¬ item < (l[mid]).a := fun hh => hp ((probe_gt _ _).mpr hh)
      have := sd_getElem hl (i := k) (j := mid) (by omega) (by omega)
      simp only [InIv] at hin; omega
  | case3 base size hb hs h =>
    rw [bsearchNewLoop]; simp only [h, ↓reduceDIte, beq_iff_eq, probe_eq]
    have : k = base := by omega
    subst this; exact hin

theorem contains_sound (s : IntervalSet) (x : Int) : s.contains x = true → Mem s.intervals x :=
  bsearch_sound _ _ _ _ _

theorem contains_iff (s : IntervalSet) (h : SortedDisjoint s.intervals) (x : Int) :
    s.contains x = true ↔ Mem s.intervals x := by
  refine ⟨contains_sound s x, ?_⟩
  rintro ⟨r, hr, hx⟩
  obtain ⟨k, hk, rfl⟩ := List.mem_iff_getElem.mp hr
  exact bsearch_complete _ h _ _ _ _ k hk (by omega) hk hx

theorem containsNew_sound (s : IntervalSet) (x : Int) :
    s.containsNew x = true → Mem s.intervals x := by
  simp only [containsNew, bsearchNew]
  split
  · exact bsearchNewLoop_sound _ _ _ _ _ _
  · simp

theorem containsNew_iff (s : IntervalSet) (h : SortedDisjoint s.intervals) (x : Int) :
    s.containsNew x = true ↔ Mem s.intervals x := by
  refine ⟨containsNew_sound s x, ?_⟩
  rintro ⟨r, hr, hx⟩
  obtain ⟨k, hk, rfl⟩ := List.mem_iff_getElem.mp hr
  simp only [containsNew, bsearchNew]
  rw [dif_pos (by omega)]
  exact bsearchNewLoop_complete _ h _ _ _ _ _ k hk (by omega) (by omega) hx

/-! ## `remove_one` -/

theorem addS_insert (added : Interval) (pre rest : List Interval) (ha : added.a ≤ added.b)
    (hv : ∀ p ∈ pre, p.a ≤ p.b) (hp : ∀ p ∈ pre, p.b + 1 < added.a)
    (hq : ∀ q ∈ rest, added.b + 1 < q.a) (hvr : ∀ q ∈ rest, q.a ≤ q.b) : addS added (pre ++ rest) = pre ++ added :: rest := by
  induction pre with
  | nil =>
    match rest, hq, hvr with
    | [], _, _ => simp [addS]
    | q :: rest', hq, hvr =>
      have := hq q (by simp)
      have := hvr q (by simp)
      simp only [List.nil_append, addS]
      rw [if_neg (by rintro rfl; omega), if_neg, if_pos]
      · simp [Interval.startsBeforeDisjoint]; omega
      · simp [Interval.adjacent, Interval.disjoint, Interval.startsBeforeDisjoint,
          Interval.startsAfterDisjoint]
        omega
  | cons p pre ih =>
    simp only [List.mem_cons, forall_eq_or_imp] at hp hv
    simp only [List.cons_append, addS]
    rw [if_neg (by rintro rfl; omega), if_neg, if_neg, ih hv.2 hp.2]
    · simp [Interval.startsBeforeDisjoint]; omega
    · simp [Interval.adjacent, Interval.disjoint, Interval.startsBeforeDisjoint,
          Interval.startsAfterDisjoint]
      omega

theorem canonical_append {l m : List Interval} :
    Canonical (l ++ m) ↔ Canonical l ∧ Canonical m ∧ ∀ p ∈ l, ∀ q ∈ m, p.b + 1 < q.a := by
  simp only [Canonical, List.mem_append, List.pairwise_append]
  constructor
  · rintro ⟨h1, h2, h3, h4⟩
    exact ⟨⟨fun r hr => h1 r (Or.inl hr), h2⟩, ⟨fun r hr => h1 r (Or.inr hr), h3⟩, h4⟩
  · rintro ⟨⟨h1, h2⟩, ⟨h3, h4⟩, h5⟩
    exact ⟨fun r hr => hr.elim (h1 r) (h3 r), h2, h4, h5⟩

/-- Structural result of `remove_one`. -/
def remS (el : Int) : List Interval → List Interval
  | [] => []
  | r :: rest =>
    if el < r.a then r :: rest
    else if el = r.a ∧ el = r.b then rest
    else if el = r.a then ⟨r.a + 1, r.b⟩ :: rest
    else if el = r.b then ⟨r.a, r.b - 1⟩ :: rest
    else if el > r.a ∧ el < r.b then ⟨r.a, el - 1⟩ :: ⟨el + 1, r.b⟩ :: rest
    else r :: remS el rest

theorem removeLoop_append (el : Int) (ro : Bool) (pre l : List Interval)
    (hc : Canonical (pre ++ l)) (hp : ∀ p ∈ pre, p.b < el) :
    removeLoop el (pre ++ l).length ⟨pre ++ l, ro⟩ pre.length = some ⟨pre ++ remS el l, ro⟩ := by
  induction l generalizing pre with
  | nil => unfold removeLoop; simp [remS]
  | cons r rest ih =>
    unfold removeLoop
    rw [if_pos (by simp)]
    simp only [List.getElem?_append_right, Nat.le_refl, Nat.sub_self, List.getElem?_cons_zero, remS]
    split
    · rfl
    · split
      · simp [List.eraseIdx_append_of_length_le]
      · split
        · simp
        · split
          · simp
          · split
            · rename_i h1 h2 h3 h4 h5
              rw [canonical_append, canonical_cons] at hc
              have hv : (Interval.mk (el + 1) r.b).length ≥ 0 := by
                simp [Interval.length]; omega
              simp only [addRange, addInterval]
              rw [if_neg (by omega), addLoop_eq]
              have hset : (pre ++ r :: rest).set pre.length ⟨r.a, el - 1⟩ =
                (pre ++ [Interval.mk r.a (el - 1)]) ++ rest := by simp
              simp only [hset]
              rw [addS_insert]
              · unfold removeLoop
                split
                · have : ((pre ++ [Interval.mk r.a (el - 1)]) ++
                      (Interval.mk (el + 1) r.b) :: rest)[pre.length + 1]? =
                      some (Interval.mk (el + 1) r.b) := by
                    rw [List.getElem?_append_right (by simp)]; simp
                  simp only [this]
                  rw [if_pos (by omega)]
                  simp
                · simp
              · simp; omega
              · intro p hp'
                simp only [List.mem_append, List.mem_singleton] at hp'
                rcases hp' with hp' | rfl
                · exact hc.1.1 p hp'
                · simp; omega
              · intro p hp'
                simp only [List.mem_append, List.mem_singleton] at hp'
                rcases hp' with hp' | rfl
                · have := hc.2.2 p hp' r (by simp); simp; omega
                · simp; omega
              · exact hc.2.1.2.1
              · exact hc.2.1.2.2.1
            · have := ih (pre ++ [r]) (by simpa using hc) (by
                intro p hp'
                simp only [List.mem_append, List.mem_singleton] at hp'
                rcases hp' with hp' | rfl
                · exact hp p hp'
                · have := hc.1 p (by simp); omega)
              simpa using this

theorem removeOne_eq (s : IntervalSet) (el : Int) (hc : Canonical s.intervals)
    (hro : s.readOnly = false) : s.removeOne el = some ⟨remS el s.intervals, s.readOnly⟩ := by
  have := removeLoop_append el s.readOnly [] s.intervals (by simpa using hc) (by simp)
  cases s
  simp only at hro
  subst hro
  simpa [removeOne] using this

theorem remS_lb (el c : Int) (l : List Interval) (hl : ∀ r ∈ l, c < r.a)
    : ∀ r ∈ remS el l, c < r.a := by
  induction l with
  | nil => simp [remS]
  | cons r rest ih =>
    have hl' := hl
    simp only [List.mem_cons, forall_eq_or_imp] at hl
    simp only [remS]
    split
    · exact hl'
    · split
      · exact hl.2
      · split
        · simp only [List.mem_cons, forall_eq_or_imp]; exact ⟨by omega, hl.2⟩
        · split
          · simp only [List.mem_cons, forall_eq_or_imp]; exact ⟨by omega, hl.2⟩
          · split
            · simp only [List.mem_cons, forall_eq_or_imp]; exact ⟨by omega, by omega, hl.2⟩
            · simp only [List.mem_cons, forall_eq_or_imp]; exact ⟨by omega, ih hl.2⟩

theorem remS_exact (el : Int) (l : List Interval) (hc : Canonical l) :
    Canonical (remS el l) ∧ ∀ x, Mem (remS el l) x ↔ Mem l x ∧ x ≠ el := by
  induction l with
  | nil => simp [remS, Canonical]
  | cons r rest ih =>
    have hc' := hc
    rw [canonical_cons] at hc
    obtain ⟨hr, hlb, hrest⟩ := hc
    have hnot : ∀ x, Mem rest x → r.b < x := by
      rintro x ⟨p, hp, hx⟩; have := hlb p hp; simp only [InIv] at hx; omega
    simp only [remS]
    split
    · refine ⟨hc', fun x => ?_⟩
      simp only [mem_cons]
      constructor
      · rintro (h | h)
        · exact ⟨Or.inl h, by simp only [InIv] at h; omega⟩
        · have := hnot x h; exact ⟨Or.inr h, by omega⟩
      · tauto
    · split
      · refine ⟨hrest, fun x => ?_⟩
        simp only [mem_cons]
        constructor
        · intro h; have := hnot x h; exact ⟨Or.inr h, by omega⟩
        · rintro ⟨h | h, hne⟩
          · simp only [InIv] at h; omega
          · exact h
      · split
        · refine ⟨?_, fun x => ?_⟩
          · rw [canonical_cons]; exact ⟨by simp; omega, hlb, hrest⟩
          · simp only [mem_cons]
            constructor
            · rintro (h | h)
              · simp only [InIv] at *; exact ⟨Or.inl (by omega), by omega⟩
              · have := hnot x h; exact ⟨Or.inr h, by omega⟩
            · rintro ⟨h | h, hne⟩
              · simp only [InIv] at *; left; omega
              · exact Or.inr h
        · split
          · refine ⟨?_, fun x => ?_⟩
            · rw [canonical_cons]
              refine ⟨by simp; omega, ?_, hrest⟩
              intro q hq; have := hlb q hq; simp; omega
            · simp only [mem_cons]
              constructor
              · rintro (h | h)
                · simp only [InIv] at *; exact ⟨Or.inl (by omega), by omega⟩
                · have := hnot x h; exact ⟨Or.inr h, by omega⟩
              · rintro ⟨h | h, hne⟩
                · simp only [InIv] at *; left; omega
                · exact Or.inr h
          · split
            · refine ⟨?_, fun x => ?_⟩
              · rw [canonical_cons, canonical_cons]
                refine ⟨by simp; omega, ?_, by simp; omega, hlb, hrest⟩
                simp only [List.mem_cons, forall_eq_or_imp]
                refine ⟨by omega, ?_⟩
                intro q hq; have := hlb q hq; omega
              · simp only [mem_cons]
                constructor
                · rintro (h | h | h)
                  · simp only [InIv] at *; exact ⟨Or.inl (by omega), by omega⟩
                  · simp only [InIv] at *; exact ⟨Or.inl (by omega), by omega⟩
                  · have := hnot x h; exact ⟨Or.inr h, by omega⟩
                · rintro ⟨h | h, hne⟩
                  · by_cases hlt : x < el
                    · left; simp only [InIv] at *; omega
                    · right; left; simp only [InIv] at *; omega
                  · exact Or.inr (Or.inr h)
            · obtain ⟨h1, h2⟩ := ih hrest
              refine ⟨?_, fun x => ?_⟩
              · rw [canonical_cons]
                exact ⟨hr, remS_lb _ _ _ hlb, h1⟩
              · simp only [mem_cons, h2]
                constructor
                · rintro (h | h)
                  · simp only [InIv] at *; exact ⟨Or.inl (by omega), by omega⟩
                  · tauto
                · tauto

/-! ## Normal forms, counting, printing -/

theorem canonical_ext (l m : List Interval) (hl : Canonical l) (hm : Canonical m)
    (h : ∀ x, Mem l x ↔ Mem m x) : l = m := by
  induction l generalizing m with
  | nil =>
    match m, hm with
    | [], _ => rfl
    | q :: m', hm =>
      rw [canonical_cons] at hm
      have := (h q.a).mpr (by simp [InIv, hm.1])
      simp at this
  | cons p l' ih =>
    match m, hm with
    | [], _ =>
      rw [canonical_cons] at hl
      have := (h p.a).mp (by simp [InIv, hl.1])
      simp at this
    | q :: m', hm =>
      rw [canonical_cons] at hl hm
      obtain ⟨hp, hpl, hl'⟩ := hl
      obtain ⟨hq, hqm, hm'⟩ := hm
      have hl2 : ∀ x, Mem l' x → p.b + 1 < x := by
        rintro x ⟨r, hr, hx⟩; have := hpl r hr; simp only [InIv] at hx; omega
      have hm2 : ∀ x, Mem m' x → q.b + 1 < x := by
        rintro x ⟨r, hr, hx⟩; have := hqm r hr; simp only [InIv] at hx; omega
      simp only [mem_cons] at h
      have e1 : p.a = q.a := by
        have h1 := (h p.a).mp (Or.inl ⟨by omega, hp⟩)
        have h2 := (h q.a).mpr (Or.inl ⟨by omega, hq⟩)
        have h3 : Mem m' p.a → q.b + 1 < p.a := hm2 _
        have h4 : Mem l' q.a → p.b + 1 < q.a := hl2 _
        simp only [InIv] at h1 h2
        rcases h1 with h1 | h1 <;> rcases h2 with h2 | h2
        · omega
        · have := h4 h2; omega
        · have := h3 h1; omega
        · have := h3 h1; have := h4 h2; omega
      have e2 : p.b = q.b := by
        rcases Int.lt_trichotomy p.b q.b with hlt | heq | hgt
        · exfalso
          have h1 := (h (p.b + 1)).mpr (Or.inl (by simp only [InIv]; omega))
          rcases h1 with h1 | h1
          · simp only [InIv] at h1; omega
          · have := hl2 _ h1; omega
        · exact heq
        · exfalso
          have h1 := (h (q.b + 1)).mp (Or.inl (by simp only [InIv]; omega))
          rcases h1 with h1 | h1
          · simp only [InIv] at h1; omega
          · have := hm2 _ h1; omega
      have e : p = q := by cases p; cases q; simp_all
      subst e
      congr 1
      apply ih m' hl' hm'
      intro x
      constructor
      · intro hx
        have := hl2 x hx
        rcases (h x).mp (Or.inr hx) with h1 | h1
        · simp only [InIv] at h1; omega
        · exact h1
      · intro hx
        have := hm2 x hx
        rcases (h x).mpr (Or.inr hx) with h1 | h1
        · simp only [InIv] at h1; omega
        · exact h1

theorem mem_elements (l : List Interval) (x : Int) : x ∈ elements l ↔ Mem l x := by
  simp only [elements, List.mem_flatMap, List.mem_map, List.mem_range, Mem, InIv]
  constructor
  · rintro ⟨r, hr, k, hk, rfl⟩; exact ⟨r, hr, by omega, by omega⟩
  · rintro ⟨r, hr, h⟩; exact ⟨r, hr, (x - r.a).toNat, by omega, by omega⟩

theorem elements_cons (r : Interval) (l : List Interval) :
    elements (r :: l) = (List.range (r.b + 1 - r.a).toNat).map (fun (k : Nat) => r.a + k) ++
      elements l := by simp [elements]

theorem elements_sorted (l : List Interval) (h : SortedDisjoint l) :
    (elements l).Pairwise (· < ·) := by
  induction l with
  | nil => simp [elements]
  | cons r l ih =>
    rw [sortedDisjoint_cons] at h
    rw [elements_cons, List.pairwise_append]
    refine ⟨?_, ih h.2.2, ?_⟩
    · rw [List.pairwise_map]
      exact List.pairwise_lt_range.imp (by intros; omega)
    · intro x hx y hy
      rw [mem_elements] at hy
      obtain ⟨q, hq, hy⟩ := hy
      have := h.2.1 q hq
      simp only [List.mem_map, List.mem_range] at hx
      obtain ⟨k, hk, rfl⟩ := hx
      simp only [InIv] at hy; omega

theorem foldl_length (l : List Interval) (hv : ∀ r ∈ l, r.a ≤ r.b) (acc : Int) :
    l.foldl (fun acc it => acc + it.b - it.a + 1) acc = acc + ((elements l).length : Int) := by
  induction l generalizing acc with
  | nil => simp [elements]
  | cons r l ih =>
    simp only [List.mem_cons, forall_eq_or_imp] at hv
    rw [List.foldl_cons, ih hv.2, elements_cons]
    simp only [List.length_append, List.length_map, List.length_range]
    omega

theorem length_eq (s : IntervalSet) (hv : ∀ r ∈ s.intervals, r.a ≤ r.b) :
    s.length = ((elements s.intervals).length : Int) := by
  simp [length, foldl_length _ hv]

/-! ### Gentle histories -/

theorem touchCount_le_two (l : List Interval) (hl : Canonical l) (r : Interval)
    (hg : BridgesAtMostOneGap (Mem l) r) : touchCount r l ≤ 2 := by
  by_contra hc
  have h3 : 3 ≤ (l.filter fun q => decide (Touches r q)).length := by
    rw [← List.countP_eq_length_filter]; simp only [touchCount] at hc; omega
  have hsub : (l.filter fun q => decide (Touches r q)).Sublist l := List.filter_sublist
  have hpw := hl.2.sublist hsub
  have hmem : ∀ q ∈ l.filter (fun q => decide (Touches r q)), q ∈ l ∧ Touches r q := by
    intro q hq; simpa using hq
  match hf : l.filter (fun q => decide (Touches r q)), h3 with
  | r1 :: r2 :: r3 :: t, _ =>
    rw [hf] at hpw hmem
    obtain ⟨m1, t1⟩ := hmem r1 (by simp)
    obtain ⟨m2, t2⟩ := hmem r2 (by simp)
    obtain ⟨m3, t3⟩ := hmem r3 (by simp)
    have v1 := hl.1 _ m1
    have v2 := hl.1 _ m2
    have v3 := hl.1 _ m3
    simp only [List.pairwise_cons, List.mem_cons, forall_eq_or_imp] at hpw
    obtain ⟨⟨p12, p13, _⟩, ⟨p23, _⟩, _⟩ := hpw
    have gap : ∀ q ∈ l, ¬ Mem l (q.b + 1) := by
      rintro q hq ⟨q', hq', hin⟩
      obtain ⟨i, hi, rfl⟩ := List.mem_iff_getElem.mp hq
      obtain ⟨j, hj, rfl⟩ := List.mem_iff_getElem.mp hq'
      have hP := List.pairwise_iff_getElem.mp hl.2
      have vi := hl.1 _ hq
      have vj := hl.1 _ hq'
      simp only [InIv] at hin
      rcases Nat.lt_trichotomy i j with h | h | h
      · have := hP i j hi hj h; omega
      · subst h; omega
      · have := hP j i hj hi h; omega
    simp only [Touches] at t1 t2 t3
    refine hg r1.b (r1.b + 1) r2.a (r2.b + 1) r3.a ⟨r1, m1, v1, by omega⟩ (gap _ m1)
      ⟨r2, m2, by omega, v2⟩ (gap _ m2) ⟨r3, m3, by omega, v3⟩ (by omega) (by omega) (by omega)
      (by omega) (by omega) (by omega)

/-! ### Printing -/

theorem rangeNames_eq (d : Int → String) (a i : Int) (n : Nat) (h : a < i) :
    rangeNames d a i n = prefixed (((List.range n).map fun (k : Nat) => i + k).map (elementName d)) := by
  induction n generalizing i with
  | zero => simp [rangeNames, prefixed]
  | succ n ih =>
    rw [rangeNames, ih (i + 1) (by omega), List.range_succ_eq_map]
    simp only [List.map_cons, prefixed, List.map_map, gt_iff_lt, h, ↓reduceIte]
    congr 1
    · simp
    · congr 2
      funext k
      simp; congr 1; omega

theorem joinComma_append (x y : List String) (hx : x ≠ []) (hy : y ≠ []) :
    joinComma (x ++ y) = joinComma x ++ ", " ++ joinComma y := by
  match x, y with
  | a :: x', b :: y' =>
    simp only [List.cons_append, joinComma]
    have : ∀ x', prefixed (x' ++ b :: y') = prefixed x' ++ ", " ++ b ++ prefixed y' := by
      intro x'
      induction x' with
      | nil => simp [prefixed]
      | cons c x' ih => simp [prefixed, ih, String.append_assoc]
    rw [this]; simp [String.append_assoc]

theorem ivNames_eq (d : Int → String) (r : Interval) (h : r.a ≤ r.b) :
    (if r.a = r.b then elementName d r.a
      else rangeNames d r.a r.a (r.b + 1 - r.a).toNat) =
    joinComma (((List.range (r.b + 1 - r.a).toNat).map fun (k : Nat) => r.a + k).map
      (elementName d)) := by
  obtain ⟨n, hn⟩ : ∃ n, (r.b + 1 - r.a).toNat = n + 1 := ⟨(r.b - r.a).toNat, by omega⟩
  rw [hn, List.range_succ_eq_map]
  simp only [List.map_cons, joinComma]
  split
  · have : n = 0 := by omega
    subst this; simp [prefixed]
  · rw [rangeNames, rangeNames_eq _ _ _ _ (by omega)]
    simp only [gt_iff_lt, Int.lt_irrefl, ↓reduceIte, List.map_map]
    congr 1
    · simp
    · congr 1
      apply List.map_congr_left
      intro k _
      simp; congr 1; omega

theorem elements_ne_nil (r : Interval) (l : List Interval) (h : r.a ≤ r.b) :
    elements (r :: l) ≠ [] := by
  rw [elements_cons]
  obtain ⟨n, hn⟩ : ∃ n, (r.b + 1 - r.a).toNat = n + 1 := ⟨(r.b - r.a).toNat, by omega⟩
  simp [hn, List.range_succ]

theorem itemNames_eq (d : Int → String) (l : List Interval) (hv : ∀ r ∈ l, r.a ≤ r.b) :
    itemNames d l = joinComma ((elements l).map (elementName d)) := by
  induction l with
  | nil => simp [itemNames, elements, joinComma]
  | cons r rest ih =>
    simp only [List.mem_cons, forall_eq_or_imp] at hv
    rw [itemNames, ih hv.2, ivNames_eq d r hv.1, elements_cons, List.map_append]
    match rest, hv with
    | [], _ => simp [elements, joinComma]
    | q :: rest', hv =>
      rw [joinComma_append]
      · simp
      · obtain ⟨n, hn⟩ : ∃ n, (r.b + 1 - r.a).toNat = n + 1 := ⟨(r.b - r.a).toNat, by omega⟩
        simp [hn, List.range_succ]
      · simp [elements_ne_nil q rest' (hv.2 q (by simp))]

end IntervalSet
end Antlr
