import Verif.Deserializer.Model
import Verif.Deserializer.Spec
import Verif.IntervalSet.Props

/-!
# Reading back what was written: numbers, lists, sets
-/

namespace Antlr.Deserial
open Antlr SerialSpec IntervalSpec

/-- What a number is decoded to. -/
def norm (v : Int) : Int := (v + 2) % 0x10000 - 2

theorem decode_charOf (v : Int) : decodeChar (charOf v) = norm v := by
  simp only [decodeChar, charOf, norm]
  split <;> split <;> omega

theorem norm_fits {v : Int} (h : Fits v) : norm v = v := by
  simp only [Fits] at h; simp only [norm]; omega

theorem asU16_norm {v : Int} (h : 0 ≤ v) (h' : v < 0x10000) : asU16 (norm v) = v := by
  simp only [asU16, norm]; omega

/-- `f` reads `a` from the words `w`. -/
def ReadsAs {α : Type} (f : Rd α) (w : List Int) (a : α) : Prop :=
  ∀ rest, f (w.map norm ++ rest) = some (a, rest)

theorem reads_next {v : Int} (h : Fits v) : ReadsAs next [v] v := by
  intro rest
  simp [next, norm_fits h]

theorem asUsize_nat {n : Nat} (h : n < 2 ^ 64) : asUsize (n : Int) = n := by
  simp only [asUsize]; omega

theorem reads_ref {n : Nat} (h : Fits n) : ReadsAs ref [(n : Int)] n := by
  intro rest
  have := reads_next h rest
  simp only [ref, countU, this, Option.map_some]
  rw [asUsize_nat]
  simp only [Fits] at h; omega

theorem reads_countU {n : Nat} (h : Fits n) : ReadsAs countU [(n : Int)] n := reads_ref h

theorem reads_countI {n : Nat} (h : Fits n) : ReadsAs countI [(n : Int)] n := by
  intro rest
  have := reads_next h rest
  simp only [countI, this, Option.map_some, Int.toNat_natCast]

theorem reads_times {α β : Type} {f : Rd β} {w : α → List Int} {g : α → β} (xs : List α)
    (h : ∀ x ∈ xs, ReadsAs f (w x) (g x)) : ReadsAs (times f xs.length) (xs.flatMap w) (xs.map g) := by
  induction xs with
  | nil => intro rest; rfl
  | cons x xs ih =>
    intro rest
    have h1 := h x (by simp)
    have h2 := ih (fun y hy => h y (by simp [hy]))
    simp only [List.flatMap_cons, List.map_append, List.append_assoc, List.length_cons, times]
    rw [h1]
    simp only [Option.bind_some]
    rw [h2]
    rfl

theorem reads_timesFrom {α β : Type} {f : Nat → Rd β} {w : α → List Int} {g : Nat → α → β} (xs : List α)
    (k : Nat) (h : ∀ x ∈ xs, ∀ i, ReadsAs (f i) (w x) (g i x)) :
    ReadsAs (timesFrom f k xs.length) (xs.flatMap w) ((xs.zipIdx k).map fun p => g p.2 p.1) := by
  induction xs generalizing k with
  | nil => intro rest; rfl
  | cons x xs ih =>
    intro rest
    have h1 := h x (by simp) k
    have h2 := ih (k + 1) (fun y hy => h y (by simp [hy]))
    simp only [List.flatMap_cons, List.map_append, List.append_assoc, List.length_cons, timesFrom]
    rw [h1]
    simp only [Option.bind_some]
    rw [h2]
    rfl

/-- A list of numbers with its length first. -/
theorem reads_counted (l : List Nat) (h : ∀ v ∈ counted l, Fits v) :
    ReadsAs (fun r => (countI r).bind fun n => times ref n.1 n.2) (counted l) l := by
  intro rest
  have h1 : Fits (l.length : Int) := h _ (by simp [counted])
  have h2 : ReadsAs (times ref l.length) (l.flatMap fun (n : Nat) => [(n : Int)]) (l.map id) :=
    reads_times l fun n hn => reads_ref (h _ (by simp only [counted, List.mem_cons, List.mem_map]; exact .inr ⟨n, hn, rfl⟩))
  have e : counted l = [(l.length : Int)] ++ l.flatMap fun (n : Nat) => [(n : Int)] := by
    simp only [counted, List.singleton_append, List.cons.injEq, true_and]
    clear h h1 h2
    induction l with
    | nil => rfl
    | cons a l ih => simp [ih]
  rw [e]
  simp only [List.map_append, List.append_assoc]
  rw [reads_countI h1]
  simp only [Option.bind_some]
  rw [h2]
  simp

/-! ## Sets -/

theorem reads_bound16 {v : Int} (h : 0 ≤ v) (h' : v ≤ 0xFFFF) : ReadsAs bound16 (word16 v) v := by
  intro rest
  simp only [bound16, word16, List.map_cons, List.map_nil, List.singleton_append, next, Option.map_some]
  rw [asU16_norm h (by omega)]

theorem reads_bound32 {v : Int} (h : 0 ≤ v) (h' : v ≤ 0x10FFFF) : ReadsAs bound32 (word32 v) v := by
  intro rest
  simp only [bound32, word32, List.map_cons, List.map_nil, List.cons_append, List.nil_append, next,
    Option.map_some, Option.bind_some]
  rw [asU16_norm (by omega) (by omega), norm_fits (v := v / 0x10000) (by simp only [Fits]; omega)]
  congr 2
  omega

theorem reads_interval {bound : Rd Int} {w : Int → List Int} {i : Interval}
    (ha : ReadsAs bound (w i.a) i.a) (hb : ReadsAs bound (w i.b) i.b) :
    ReadsAs (readInterval bound) (w i.a ++ w i.b) i := by
  intro rest
  simp only [readInterval, List.map_append, List.append_assoc]
  rw [ha]
  simp only [Option.bind_some]
  rw [hb]
  rfl

/-- Ranges to the right of everything collected bridge no gaps. -/
theorem gentle_right (S : Int → Prop) (rs : List Interval) (h : ∀ r ∈ rs, ∀ x, S x → x < r.a)
    (hs : rs.Pairwise fun p q => p.b < q.a) : GentleFrom S rs := by
  induction rs generalizing S with
  | nil => trivial
  | cons r rs ih =>
    have hp := List.pairwise_cons.mp hs
    refine ⟨?_, ih _ ?_ hp.2⟩
    · intro p g q g' s _ _ _ _ h5 h6 h7 h8 h9 h10 _
      have := h r (by simp) s h5
      omega
    · intro q hq x hx
      rcases hx with hx | hx
      · exact h q (by simp [hq]) x hx
      · have := hp.1 q hq
        simp only [InIv] at hx; omega

theorem mem_written {l : List Interval} {r : Interval} (h : r ∈ written l) :
    ∃ i ∈ l, r.b = i.b ∧ ((i.a = -1 ∧ i.b ≠ -1 ∧ r.a = 0) ∨ (i.a ≠ -1 ∧ r.a = i.a)) := by
  simp only [written, List.mem_filterMap] at h
  obtain ⟨i, hi, h⟩ := h
  refine ⟨i, hi, ?_⟩
  split at h
  · split at h
    · simp at h
    · cases h; exact ⟨rfl, .inl ⟨by assumption, by assumption, rfl⟩⟩
  · cases h; exact ⟨rfl, .inr ⟨by assumption, rfl⟩⟩

theorem written_pairwise {l : List Interval} (hc : Canonical l) (h : ∀ i ∈ l, -1 ≤ i.a) :
    (written l).Pairwise fun p q => p.b < q.a := by
  simp only [written, List.pairwise_filterMap]
  refine hc.2.imp_of_mem ?_
  intro p q hp hq hpq a ha b hb
  have h1 := h q hq
  have h2 := h p hp
  have h3 := hc.1 p hp
  split at ha <;> split at hb
  · omega
  · split at ha
    · simp at ha
    · cases ha; cases hb; simp only; omega
  · split at hb
    · simp at hb
    · cases ha; cases hb; simp only; omega
  · cases ha; cases hb; omega

/-- The set rebuilt from what is written is the set. -/
theorem rebuild (l : List Interval) (hc : Canonical l) (h : ∀ i ∈ l, -1 ≤ i.a) :
    (written l).foldl IntervalSet.addInterval
      (if hasEof l then IntervalSet.new.addOne (-1) else IntervalSet.new) = ⟨l, false⟩ := by
  have base : ∀ b : Bool, Canonical (if b then IntervalSet.new.addOne (-1) else IntervalSet.new).intervals ∧
      (if b then IntervalSet.new.addOne (-1) else IntervalSet.new).readOnly = false ∧
      ∀ x, Mem (if b then IntervalSet.new.addOne (-1) else IntervalSet.new).intervals x ↔ (b = true ∧ x = -1) := by
    intro b
    cases b
    · refine ⟨by decide, rfl, fun x => ?_⟩
      simp [IntervalSet.new, Mem]
    · have e : (IntervalSet.new.addOne (-1)).intervals = [⟨-1, -1⟩] := by decide +kernel
      simp only [if_true, e]
      refine ⟨by decide, by decide +kernel, fun x => ?_⟩
      simp only [Mem, InIv, List.mem_singleton, exists_eq_left, true_and]; omega
  obtain ⟨b1, b2, b3⟩ := base (hasEof l)
  have hw0 : ∀ r ∈ written l, 0 ≤ r.a := by
    intro r hr
    obtain ⟨i, hi, h1, h2⟩ := mem_written hr
    have := h i hi
    rcases h2 with h2 | h2 <;> omega
  have hg : GentleFrom (Mem (if hasEof l then IntervalSet.new.addOne (-1) else IntervalSet.new).intervals)
      (written l) := by
    apply gentle_right _ _ _ (written_pairwise hc h)
    intro r hr x hx
    have := hw0 r hr
    have := ((b3 x).mp hx).2
    omega
  obtain ⟨h1, h2⟩ := IntervalProps.foldl_exact _ (written l) b1 hg
  have hro : ∀ (rs : List Interval) (s : IntervalSet), (rs.foldl IntervalSet.addInterval s).readOnly = s.readOnly := by
    intro rs
    induction rs with
    | nil => intro s; rfl
    | cons r rs ih =>
      intro s
      rw [List.foldl_cons, ih]
      simp only [IntervalSet.addInterval]; split <;> rfl
  have hmem : ∀ x, Mem ((written l).foldl IntervalSet.addInterval
      (if hasEof l then IntervalSet.new.addOne (-1) else IntervalSet.new)).intervals x ↔ Mem l x := by
    intro x
    rw [h2, b3]
    constructor
    · rintro (⟨h3, rfl⟩ | ⟨r, hr, hx⟩)
      · simp only [hasEof, List.any_eq_true, Bool.and_eq_true, decide_eq_true_eq] at h3
        obtain ⟨i, hi, h4⟩ := h3
        exact ⟨i, hi, h4⟩
      · obtain ⟨i, hi, h4, h5⟩ := mem_written hr
        refine ⟨i, hi, ?_⟩
        simp only [InIv] at hx ⊢
        rcases h5 with h5 | h5 <;> omega
    · rintro ⟨i, hi, hx⟩
      simp only [InIv] at hx
      have := h i hi
      by_cases hxe : x = -1
      · left
        refine ⟨?_, hxe⟩
        simp only [hasEof, List.any_eq_true, Bool.and_eq_true, decide_eq_true_eq]
        exact ⟨i, hi, by omega, by omega⟩
      · right
        by_cases ha : i.a = -1
        · refine ⟨⟨0, i.b⟩, ?_, by simp only [InIv]; omega⟩
          simp only [written, List.mem_filterMap]
          refine ⟨i, hi, ?_⟩
          rw [if_pos ha, if_neg (by omega)]
        · refine ⟨i, ?_, hx⟩
          simp only [written, List.mem_filterMap]
          exact ⟨i, hi, by rw [if_neg ha]⟩
  refine IntervalProps.C02_eq_of_same_members _ ⟨l, false⟩ h1 hc ((hro _ _).trans b2) fun x => ?_
  rw [Bool.eq_iff_iff, IntervalSet.contains_iff _ h1.sortedDisjoint,
    IntervalSet.contains_iff _ hc.sortedDisjoint]
  exact hmem x

end Antlr.Deserial
