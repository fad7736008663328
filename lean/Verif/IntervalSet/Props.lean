import Verif.IntervalSet.Lemmas

/-!
# Interval sets: properties C01 – C06
-/

namespace Antlr.IntervalProps
open Antlr IntervalSet IntervalSpec

/-- Performing one add call of the API. -/
def perform (s : IntervalSet) : AddCall → IntervalSet
  | .one v => s.addOne v
  | .range l h => s.addRange l h
  | .set o => s.addSet ⟨o, false⟩

/-- The set obtained from a fresh one by a history of add calls. -/
def run (h : List AddCall) : IntervalSet := h.foldl perform IntervalSet.new

/-! ## Helper: flattening histories to single interval additions -/

theorem perform_eq (s : IntervalSet) (c : AddCall) :
    perform s c = c.ranges.foldl addInterval s := by
  cases c <;> simp [perform, AddCall.ranges, addOne, addRange, addSet]

theorem foldl_perform (s : IntervalSet) (h : List AddCall) :
    h.foldl perform s = (h.flatMap AddCall.ranges).foldl addInterval s := by
  induction h generalizing s with
  | nil => simp
  | cons c h ih => simp [perform_eq, ih, List.foldl_append]

theorem addInterval_intervals (s : IntervalSet) (r : Interval) :
    (s.addInterval r).intervals = if r.b < r.a then s.intervals else addS r s.intervals := by
  by_cases h : r.b < r.a
  · rw [addInterval, if_pos (by simp only [Interval.length]; omega), if_pos h]
  · rw [addInterval, if_neg (by simp only [Interval.length]; omega), if_neg h]
    simp [addLoop_eq]

theorem asks_iff (c : AddCall) (x : Int) : c.Asks x ↔ Mem c.ranges x := by
  cases c <;> simp [AddCall.Asks, AddCall.ranges, Mem, InIv]; omega

theorem asks_flat (h : List AddCall) (x : Int) :
    (∃ c ∈ h, c.Asks x) ↔ Mem (h.flatMap AddCall.ranges) x := by
  induction h <;> simp_all [asks_iff]

theorem foldl_sound (s : IntervalSet) (rs : List Interval) (hv : ∀ r ∈ s.intervals, r.a ≤ r.b) :
    (∀ r ∈ (rs.foldl addInterval s).intervals, r.a ≤ r.b) ∧
    ∀ x, Mem (rs.foldl addInterval s).intervals x → Mem s.intervals x ∨ Mem rs x := by
  induction rs generalizing s with
  | nil => simpa using hv
  | cons r rs ih =>
    have hv' : ∀ q ∈ (s.addInterval r).intervals, q.a ≤ q.b := by
      rw [addInterval_intervals]
      split
      · exact hv
      · exact addS_valid _ _ (by omega) hv
    obtain ⟨h1, h2⟩ := ih (s.addInterval r) hv'
    refine ⟨h1, fun x hx => ?_⟩
    rcases h2 x hx with h3 | h3
    · rw [addInterval_intervals] at h3
      split at h3
      · exact Or.inl h3
      · rcases addS_sound _ _ (by omega) hv x h3 with h4 | h4
        · exact Or.inr (by simp [h4])
        · exact Or.inl h4
    · exact Or.inr (by simp [h3])

theorem foldl_exact (s : IntervalSet) (rs : List Interval) (hc : Canonical s.intervals)
    (hg : GentleFrom (Mem s.intervals) rs) :
    Canonical (rs.foldl addInterval s).intervals ∧
    ∀ x, Mem (rs.foldl addInterval s).intervals x ↔ Mem s.intervals x ∨ Mem rs x := by
  induction rs generalizing s with
  | nil => simpa using hc
  | cons r rs ih =>
    obtain ⟨hb, hg⟩ := hg
    have key : Canonical (s.addInterval r).intervals ∧
        ∀ x, Mem (s.addInterval r).intervals x ↔ Mem s.intervals x ∨ InIv r x := by
      rw [addInterval_intervals]
      split
      · refine ⟨hc, fun x => ?_⟩
        have : ¬ InIv r x := by simp only [InIv]; omega
        tauto
      · obtain ⟨h1, h2⟩ := addS_exact r s.intervals (by omega) hc
          (touchCount_le_two _ hc r hb)
        exact ⟨h1, fun x => by rw [h2]; tauto⟩
    have e : (fun x => Mem s.intervals x ∨ InIv r x) = Mem (s.addInterval r).intervals := by
      funext x; rw [key.2 x]
    rw [e] at hg
    obtain ⟨h1, h2⟩ := ih (s.addInterval r) key.1 hg
    refine ⟨h1, fun x => ?_⟩
    rw [List.foldl_cons, h2, key.2]
    simp only [mem_cons]; tauto

theorem gentle_ones (S : Int → Prop) (vs : List Int) :
    GentleFrom S (vs.map fun v => ⟨v, v⟩) := by
  induction vs generalizing S with
  | nil => trivial
  | cons v vs ih =>
    refine ⟨?_, ih _⟩
    intro p g q g' s _ _ _ _ _ h1 h2 h3 h4 h5 h6
    simp only at h5 h6
    omega

/-! ## C01 membership follows the add history -/

/-- **C01, soundness half (all histories).**  Whatever was added, `contains` never claims an
integer nobody asked for. -/
theorem C01_contains_only_added (h : List AddCall) (x : Int)
    (hx : (run h).contains x = true) : ∃ c ∈ h, c.Asks x := by
  have h1 := contains_sound _ _ hx
  rw [run, foldl_perform] at h1
  rcases (foldl_sound IntervalSet.new _ (by simp [IntervalSet.new])).2 x h1 with h2 | h2
  · simp [IntervalSet.new] at h2
  · rwa [asks_flat]

/-- **C01, exactness, partial.**  If every added range bridges at most one gap of the integers
collected so far, membership is exactly what was asked for.  The unrestricted statement is false,
see `C01_false_contains` and `C01_false_lost`. -/
theorem C01_contains_iff_added_partial (h : List AddCall)
    (hg : GentleFrom (fun _ => False) (h.flatMap AddCall.ranges)) (x : Int) :
    (run h).contains x = true ↔ ∃ c ∈ h, c.Asks x := by
  have e : (fun _ => False) = Mem IntervalSet.new.intervals := by
    funext x; simp [IntervalSet.new]
  rw [e] at hg
  obtain ⟨h1, h2⟩ := foldl_exact IntervalSet.new _ (by simp [IntervalSet.new, Canonical]) hg
  rw [run, foldl_perform, contains_iff _ h1.sortedDisjoint, h2, asks_flat]
  simp [IntervalSet.new]

/-- The same with the binary search of recent standard libraries. -/
theorem C01_containsNew_iff_added_partial (h : List AddCall)
    (hg : GentleFrom (fun _ => False) (h.flatMap AddCall.ranges)) (x : Int) :
    (run h).containsNew x = true ↔ ∃ c ∈ h, c.Asks x := by
  have e : (fun _ => False) = Mem IntervalSet.new.intervals := by
    funext x; simp [IntervalSet.new]
  rw [e] at hg
  obtain ⟨h1, h2⟩ := foldl_exact IntervalSet.new _ (by simp [IntervalSet.new, Canonical]) hg
  rw [run, foldl_perform, containsNew_iff _ h1.sortedDisjoint, h2, asks_flat]
  simp [IntervalSet.new]

/-- **C01 for element-wise histories (complete).**  Adding single integers in any order is exact. -/
theorem C01_add_one_history (vs : List Int) (x : Int) :
    (run (vs.map AddCall.one)).contains x = true ↔ x ∈ vs := by
  rw [C01_contains_iff_added_partial]
  · simp [AddCall.Asks]
  · have : (vs.map AddCall.one).flatMap AddCall.ranges = vs.map fun v => ⟨v, v⟩ := by
      induction vs <;> simp_all [AddCall.ranges]
    rw [this]; exact gentle_ones _ _

/-- **C01 for copying (complete).**  Adding a canonical set to an empty one reproduces it. -/
theorem C01_add_set_copies (o : List Interval) (ho : Canonical o) :
    (run [AddCall.set o]).intervals = o := by
  have hg : GentleFrom (Mem ([] : List Interval)) o := by
    suffices H : ∀ pre, Canonical (pre ++ o) → GentleFrom (Mem pre) o from H [] (by simpa using ho)
    intro pre hc
    induction o generalizing pre with
    | nil => trivial
    | cons r o ih =>
      refine ⟨?_, ?_⟩
      · intro p g q g' s hp _ hq _ hs h1 h2 h3 h4 h5 h6
        rw [canonical_append] at hc
        obtain ⟨iv, hiv, hin⟩ := hs
        have := hc.2.2 iv hiv r (by simp)
        simp only [InIv] at hin
        omega
      · have e : (fun x => Mem pre x ∨ InIv r x) = Mem (pre ++ [r]) := by
          funext x; simp
        rw [e]
        apply ih
        · rw [canonical_append] at hc; exact (canonical_cons.mp hc.2.1).2.2
        · simpa using hc
  obtain ⟨h1, h2⟩ := foldl_exact IntervalSet.new o (by simp [IntervalSet.new, Canonical])
    (by simpa [IntervalSet.new] using hg)
  have : (run [AddCall.set o]).intervals = (o.foldl addInterval IntervalSet.new).intervals := by
    simp [run, perform, addSet]
  rw [this]
  apply canonical_ext _ _ h1 ho
  intro x; rw [h2]; simp [IntervalSet.new]

/-- **C01 is false in general (1).**  The merge loop skips every second swallowed interval; the
binary search then misses a member: 7 was added, but `contains(7)` is false (with the std binary
search of any toolchain). -/
theorem C01_false_contains :
    let h := [AddCall.one 1, .one 3, .one 5, .one 12, .range 1 10]
    (∃ c ∈ h, c.Asks 7) ∧ (run h).contains 7 = false ∧ (run h).containsNew 7 = false := by
  refine ⟨⟨.range 1 10, by simp, by simp [AddCall.Asks]⟩, ?_, ?_⟩ <;> decide +kernel

/-- **C01 is false in general (2).**  Elements are even lost from the stored intervals: 15 was
added, but after the last call no stored interval covers it. -/
theorem C01_false_lost :
    let h := [AddCall.range 1 2, .one 4, .one 6, .range 2 20, .one (-10), .one (-5),
      .range (-10) 8]
    (∃ c ∈ h, c.Asks 15) ∧ ¬ Mem (run h).intervals 15 ∧ (run h).contains 15 = false := by
  refine ⟨⟨.range 2 20, by simp, by simp [AddCall.Asks]⟩, ?_, ?_⟩ <;> decide +kernel

/-! Concrete instances of the hypotheses. -/

example : GentleFrom (fun _ => False)
    ([AddCall.range 1 3, .range 5 6, .range 3 5, .set [⟨8, 9⟩, ⟨20, 30⟩], .one 7].flatMap
      AddCall.ranges) := by
  simp only [List.flatMap_cons, AddCall.ranges, List.flatMap_nil, List.cons_append,
    List.nil_append, GentleFrom, BridgesAtMostOneGap, InIv]
  refine ⟨?_, ?_, ?_, ?_, ?_, ?_, trivial⟩ <;> intros <;> (try simp only [false_or] at *) <;> (try omega)

example : (run [AddCall.range 1 3, .range 5 6, .range 3 5, .set [⟨8, 9⟩, ⟨20, 30⟩], .one 7]).intervals
    = [⟨1, 9⟩, ⟨20, 30⟩] := by decide +kernel

/-! ## C02 canonical representation -/

/-- **C02, partial.**  After a gentle history the stored intervals are in normal form. -/
theorem C02_canonical_partial (h : List AddCall)
    (hg : GentleFrom (fun _ => False) (h.flatMap AddCall.ranges)) :
    Canonical (run h).intervals := by
  have e : (fun _ => False) = Mem IntervalSet.new.intervals := by
    funext x; simp [IntervalSet.new]
  rw [e] at hg
  have := (foldl_exact IntervalSet.new _ (by simp [IntervalSet.new, Canonical]) hg).1
  rwa [run, foldl_perform]

/-- For element-wise histories the representation is always canonical. -/
theorem C02_add_one_canonical (vs : List Int) : Canonical (run (vs.map AddCall.one)).intervals := by
  apply C02_canonical_partial
  have : (vs.map AddCall.one).flatMap AddCall.ranges = vs.map fun v => ⟨v, v⟩ := by
    induction vs <;> simp_all [AddCall.ranges]
  rw [this]; exact gentle_ones _ _

/-- **C02 `length` counts the elements** of every set in sorted disjoint form: there is a
duplicate-free list of exactly the members, of that length. -/
theorem C02_length_counts (s : IntervalSet) (hs : SortedDisjoint s.intervals) :
    ∃ d : List Int, d.Nodup ∧ (∀ x, x ∈ d ↔ s.contains x = true) ∧ s.length = d.length := by
  refine ⟨elements s.intervals, ?_, ?_, length_eq s hs.1⟩
  · exact (elements_sorted _ hs).imp (by intros; omega)
  · intro x; rw [mem_elements, contains_iff s hs]

/-- **C02 equality.**  Canonical sets with the same members are equal values. -/
theorem C02_eq_of_same_members (s t : IntervalSet) (hs : Canonical s.intervals)
    (ht : Canonical t.intervals) (hro : s.readOnly = t.readOnly)
    (h : ∀ x, s.contains x = t.contains x) : s = t := by
  have : s.intervals = t.intervals := by
    apply canonical_ext _ _ hs ht
    intro x
    rw [← contains_iff s hs.sortedDisjoint, ← contains_iff t ht.sortedDisjoint, h x]
  cases s; cases t; simp_all

/-- **C02 is false in general.**  Five elements `1..=5`, but the set is not in normal form,
`length()` is 6, and it differs from the set built by one call. -/
theorem C02_false :
    let h := [AddCall.one 1, .one 3, .one 5, .range 1 5]
    ¬ SortedDisjoint (run h).intervals ∧ (run h).length = 6 ∧
      run h ≠ run [AddCall.range 1 5] := by decide +kernel

example : Canonical (run [AddCall.one 4, .one 2, .one 3, .one 9]).intervals := by decide +kernel

/-! ## C03 substract -/

/-- **C03** `substract` is set difference and keeps the sorted disjoint form. -/
theorem C03_substract (s t : IntervalSet) (hs : SortedDisjoint s.intervals)
    (ht : SortedDisjoint t.intervals) :
    SortedDisjoint (s.substract t).intervals ∧
    ∀ x, (s.substract t).contains x = true ↔ s.contains x = true ∧ ¬ t.contains x = true := by
  have e : (s.substract t).intervals = subS s.intervals t.intervals := by
    simp [substract, substractLoop_eq]
  obtain ⟨h1, h2⟩ := subS_exact _ _ hs ht
  rw [← e] at h1 h2
  refine ⟨h1, fun x => ?_⟩
  rw [contains_iff _ h1, contains_iff _ hs, contains_iff _ ht, h2]

/-- **C03** canonical sets stay canonical. -/
theorem C03_substract_canonical (s t : IntervalSet) (hs : Canonical s.intervals)
    (ht : SortedDisjoint t.intervals) : Canonical (s.substract t).intervals := by
  have e : (s.substract t).intervals = subS s.intervals t.intervals := by
    simp [substract, substractLoop_eq]
  rw [e]; exact subS_canonical _ _ hs ht

example : SortedDisjoint [⟨1, 4⟩, ⟨6, 20⟩] ∧ SortedDisjoint [⟨2, 7⟩, ⟨9, 9⟩] ∧
    (IntervalSet.mk [⟨1, 4⟩, ⟨6, 20⟩] false).substract ⟨[⟨2, 7⟩, ⟨9, 9⟩], false⟩ =
      ⟨[⟨1, 1⟩, ⟨8, 8⟩, ⟨10, 20⟩], false⟩ := by decide +kernel

/-! ## C04 complement -/

/-- **C04** `complement` contains exactly the integers within the bounds that are not in `s`. -/
theorem C04_complement (s : IntervalSet) (hs : SortedDisjoint s.intervals) (lo hi x : Int) :
    (s.complement lo hi).contains x = true ↔ lo ≤ x ∧ x ≤ hi ∧ ¬ s.contains x = true := by
  have hnew : SortedDisjoint (IntervalSet.new.addRange lo hi).intervals ∧
      ∀ x, Mem (IntervalSet.new.addRange lo hi).intervals x ↔ lo ≤ x ∧ x ≤ hi := by
    rw [addRange, addInterval_intervals]
    split
    · refine ⟨by simp [IntervalSet.new, SortedDisjoint], fun x => ?_⟩
      simp [IntervalSet.new] at *; omega
    · simp only [IntervalSet.new, addS]
      refine ⟨by simp [SortedDisjoint] at *; omega, fun x => by simp [InIv]⟩
  rw [complement, (C03_substract _ s hnew.1 hs).2, contains_iff _ hnew.1, hnew.2]
  tauto

/-- **C04** the complement is canonical again. -/
theorem C04_complement_canonical (s : IntervalSet) (hs : SortedDisjoint s.intervals) (lo hi : Int) :
    Canonical (s.complement lo hi).intervals := by
  apply C03_substract_canonical _ _ _ hs
  rw [addRange, addInterval_intervals]
  split
  · simp [IntervalSet.new, Canonical]
  · simp [IntervalSet.new, addS, Canonical] at *; omega

/-- **C04** complementing twice gives back the part of `s` inside the bounds. -/
theorem C04_complement_twice (s : IntervalSet) (hs : SortedDisjoint s.intervals) (lo hi x : Int) :
    ((s.complement lo hi).complement lo hi).contains x = true ↔
      lo ≤ x ∧ x ≤ hi ∧ s.contains x = true := by
  rw [C04_complement _ (C04_complement_canonical s hs lo hi).sortedDisjoint, C04_complement s hs]
  by_cases h : s.contains x = true <;> simp [h]
  intro h1 h2; omega

example : (IntervalSet.mk [⟨3, 4⟩, ⟨7, 7⟩] false).complement 1 9 =
    ⟨[⟨1, 2⟩, ⟨5, 6⟩, ⟨8, 9⟩], false⟩ := by decide +kernel

/-! ## C05 remove_one -/

/-- **C05** On a canonical writable set `remove_one` never panics, removes exactly the element and
keeps the set canonical. -/
theorem C05_remove_one (s : IntervalSet) (el : Int) (hs : Canonical s.intervals)
    (hro : s.readOnly = false) :
    ∃ s', s.removeOne el = some s' ∧ Canonical s'.intervals ∧ s'.readOnly = false ∧
      ∀ x, s'.contains x = true ↔ s.contains x = true ∧ x ≠ el := by
  obtain ⟨h1, h2⟩ := remS_exact el s.intervals hs
  refine ⟨_, removeOne_eq s el hs hro, h1, hro, fun x => ?_⟩
  rw [contains_iff _ hs.sortedDisjoint, contains_iff _ h1.sortedDisjoint, h2]

theorem removeLoop_sound (el : Int) (n : Nat) (s s' : IntervalSet) (i : Nat)
    (hv : ∀ r ∈ s.intervals, r.a ≤ r.b) (h : removeLoop el n s i = some s') :
    (∀ r ∈ s'.intervals, r.a ≤ r.b) ∧ ∀ x, Mem s'.intervals x → Mem s.intervals x := by
  induction hk : n - i using Nat.strongRecOn generalizing i s with
  | _ k ih =>
  subst hk
  rw [removeLoop] at h
  split at h
  · rename_i hi
    split at h
    · cases h
    · rename_i int hint
      have hmem : int ∈ s.intervals := List.mem_of_getElem? hint
      have setv : ∀ q : Interval, q.a ≤ q.b → (∀ x, InIv q x → InIv int x) →
          (∀ r ∈ s.intervals.set i q, r.a ≤ r.b) ∧
            ∀ x, Mem (s.intervals.set i q) x → Mem s.intervals x := by
        intro q hq hsub
        refine ⟨fun r hr => ?_, ?_⟩
        · rcases List.mem_or_eq_of_mem_set hr with h | h
          · exact hv r h
          · rw [h]; exact hq
        · rintro x ⟨r, hr, hx⟩
          rcases List.mem_or_eq_of_mem_set hr with h | h
          · exact ⟨r, h, hx⟩
          · exact ⟨int, hmem, hsub x (h ▸ hx)⟩
      have hval := hv int hmem
      repeat' split at h
      · cases h; exact ⟨hv, fun _ h => h⟩
      · cases h
        refine ⟨fun r hr => hv r (List.mem_of_mem_eraseIdx hr), ?_⟩
        rintro x ⟨r, hr, hx⟩
        exact ⟨r, List.mem_of_mem_eraseIdx hr, hx⟩
      · rename_i _ h1 h2
        cases h
        refine setv _ (by simp only; omega) ?_
        intro x hx; simp only [InIv] at *; omega
      · rename_i _ h1 h2 h3
        cases h
        refine setv _ (by simp only; omega) ?_
        intro x hx; simp only [InIv] at *; omega
      · rename_i _ h1 h2 h3 h4
        have s1 := setv ⟨int.a, el - 1⟩ (by simp only; omega)
          (by intro x hx; simp only [InIv] at *; omega)
        have s2 := foldl_sound { s with intervals := s.intervals.set i ⟨int.a, el - 1⟩ }
          [⟨el + 1, int.b⟩] s1.1
        have s3 := ih (n - (i + 1)) (by omega) _ (i + 1) s2.1 h rfl
        refine ⟨s3.1, fun x hx => ?_⟩
        rcases s2.2 x (s3.2 x hx) with h | h
        · exact s1.2 x h
        · refine ⟨int, hmem, ?_⟩
          simp only [mem_cons, mem_nil, InIv, or_false] at h
          simp only [InIv]
          omega
      · exact ih (n - (i + 1)) (by omega) s (i + 1) hv h rfl
  · cases h; exact ⟨hv, fun _ h => h⟩

/-- **C05** Removing never adds an element, even to a set that has lost its normal form. -/
theorem C05_remove_one_sound (s s' : IntervalSet) (el : Int) (hv : ∀ r ∈ s.intervals, r.a ≤ r.b)
    (h : s.removeOne el = some s') :
    (∀ r ∈ s'.intervals, r.a ≤ r.b) ∧ ∀ x, Mem s'.intervals x → Mem s.intervals x := by
  unfold removeOne at h
  split at h
  · cases h
  · exact removeLoop_sound el _ s s' 0 hv h

/-- **C05** On a read-only set `remove_one` panics (it never alters the set). -/
theorem C05_remove_one_read_only (s : IntervalSet) (el : Int) (hro : s.readOnly = true) :
    s.removeOne el = none := by simp [removeOne, hro]

example : (IntervalSet.mk [⟨1, 5⟩, ⟨8, 8⟩] false).removeOne 3 =
    some ⟨[⟨1, 2⟩, ⟨4, 5⟩, ⟨8, 8⟩], false⟩ := by decide +kernel

/-! ## C06 queries -/

/-- **C06** `contains` is membership on sorted disjoint sets, for both std binary searches. -/
theorem C06_contains (s : IntervalSet) (hs : SortedDisjoint s.intervals) (x : Int) :
    (s.contains x = true ↔ Mem s.intervals x) ∧ (s.containsNew x = true ↔ Mem s.intervals x) :=
  ⟨contains_iff s hs x, containsNew_iff s hs x⟩

/-- **C06** `get_min` is the least element, `None` exactly on the empty set. -/
theorem C06_get_min (s : IntervalSet) (hs : SortedDisjoint s.intervals) :
    (s.getMin = none ↔ ∀ x, s.contains x = false) ∧
    ∀ m, s.getMin = some m ↔ s.contains m = true ∧ ∀ x, s.contains x = true → m ≤ x := by
  have hmem := contains_iff s hs
  obtain ⟨l, ro⟩ := s
  match l, hs, hmem with
  | [], hs, hmem =>
    have : ∀ x, contains ⟨[], ro⟩ x = false := by
      intro x; have := hmem x; simp only [mem_nil, iff_false, Bool.not_eq_true] at this; exact this
    refine ⟨by simp [getMin, this], fun m => ?_⟩
    simp only [getMin, List.head?_nil, Option.map_none, reduceCtorEq, false_iff, this]
    simp
  | r :: l, hs, hmem =>
    have hs' := hs
    simp only at hs hs'
    rw [sortedDisjoint_cons] at hs
    have hmin : ∀ x, Mem (r :: l) x → r.a ≤ x := by
      rintro x ⟨q, hq, hx⟩
      simp only [List.mem_cons] at hq
      simp only [InIv] at hx
      rcases hq with rfl | hq
      · omega
      · have := hs.2.1 q hq; omega
    have hra : Mem (r :: l) r.a := ⟨r, by simp, by simp [InIv, hs.1]⟩
    constructor
    · simp only [getMin, List.head?_cons, Option.map_some, reduceCtorEq, false_iff]
      intro h
      have := (hmem r.a).mpr hra
      simp [h] at this
    · intro m
      simp only [getMin, List.head?_cons, Option.map_some, Option.some.injEq]
      constructor
      · rintro rfl
        exact ⟨(hmem _).mpr hra, fun x hx => hmin x ((hmem x).mp hx)⟩
      · rintro ⟨h1, h2⟩
        have := h2 r.a ((hmem _).mpr hra)
        have := hmin m ((hmem m).mp h1)
        omega

/-- The name of a token type in an expected-token message. -/
def nameOf (display : Int → String) (e : Int) : String :=
  if e = -1 then "<EOF>" else if e = -2 then "<EPSILON>" else display e

/-- **C06** `to_token_string` lists the names of the members, each once, in increasing order. -/
theorem C06_to_token_string (s : IntervalSet) (display : Int → String)
    (hs : SortedDisjoint s.intervals) :
    ∃ d : List Int, d.Pairwise (· < ·) ∧ (∀ x, x ∈ d ↔ s.contains x = true) ∧
      s.toTokenString display =
        if d.length = 0 then "{}"
        else if d.length = 1 then joinComma (d.map (nameOf display))
        else "{" ++ joinComma (d.map (nameOf display)) ++ "}" := by
  refine ⟨elements s.intervals, elements_sorted _ hs, ?_, ?_⟩
  · intro x; rw [mem_elements, contains_iff s hs]
  · have hlen := length_eq s hs.1
    simp only [toTokenString, hlen, itemNames_eq display _ hs.1]
    have hname : elementName display = nameOf display := by funext e; rfl
    rw [hname]
    match hi : s.intervals with
    | [] => simp [elements]
    | r :: l =>
      have hr : r.a ≤ r.b := hs.1 r (by simp [hi])
      have hne := elements_ne_nil r l hr
      have hpos : 0 < (elements (r :: l)).length := List.length_pos_iff.mpr hne
      simp only [List.isEmpty_cons, Bool.false_eq_true, ↓reduceIte]
      rw [if_neg (show ¬ (elements (r :: l)).length = 0 by omega)]
      by_cases h1 : (elements (r :: l)).length = 1
      · simp [h1]
      · have h2 : ((elements (r :: l)).length : Int) > 1 := by omega
        simp [h1, h2]

example : (IntervalSet.mk [⟨-1, -1⟩, ⟨3, 4⟩] false).toTokenString (fun n => toString n) =
    "{<EOF>, 3, 4}" := by decide +kernel

end Antlr.IntervalProps
