import Verif.Prelude
import Verif.ATN.Model
import Verif.IntervalSet.Props

/-!
# Edge labels: property C41
-/

namespace Antlr.TransitionProps
open Antlr IntervalSpec IntervalSet

/-- The symbols an edge is labelled with, for a vocabulary `lo..hi`. -/
def Labelled (lo hi : Int) : Trans → Int → Prop
  | .atom _ l, x => x = l
  | .range _ a b, x => a ≤ x ∧ x ≤ b
  | .set _ s, x => Mem s.intervals x
  | .notSet _ s, x => lo ≤ x ∧ x ≤ hi ∧ ¬ Mem s.intervals x
  | .wildcard _, x => lo ≤ x ∧ x ≤ hi
  | _, _ => False

/-- The sets stored on edges are sorted lists of disjoint intervals. -/
def SetOk : Trans → Prop
  | .set _ s => SortedDisjoint s.intervals
  | .notSet _ s => SortedDisjoint s.intervals
  | _ => True

/-- **C41, partial**: every edge other than a rule call matches exactly the symbols of its label —
except that the wildcard misses the two ends of the vocabulary (`C41_false_wildcard`). -/
theorem C41_matches_partial (t : Trans) (hs : SetOk t) (hr : ∀ a b c d, t ≠ .rule a b c d)
    (lo hi x : Int) (hw : (∃ a, t = .wildcard a) → x ≠ lo ∧ x ≠ hi) :
    (∃ b, t.matches x lo hi = some b) ∧ (t.matches x lo hi = some true ↔ Labelled lo hi t x) := by
  cases t with
  | rule a b c d => exact absurd rfl (hr a b c d)
  | set t s =>
    simp only [Trans.matches, Labelled, Option.some.injEq]
    exact ⟨⟨_, rfl⟩, contains_iff s hs x⟩
  | notSet t s =>
    simp only [Trans.matches, Labelled, Option.some.injEq]
    refine ⟨⟨_, rfl⟩, ?_⟩
    have := contains_iff s hs x
    rw [Bool.and_eq_true, Bool.and_eq_true, Bool.not_eq_true', ← this]
    simp [and_assoc]
  | wildcard t =>
    have := hw ⟨t, rfl⟩
    simp only [Trans.matches, Labelled, Option.some.injEq]
    refine ⟨⟨_, rfl⟩, ?_⟩
    simp; omega
  | _ => simp [Trans.matches, Labelled]

/-- **C41** The wildcard never matches a symbol outside the vocabulary (in particular not EOF). -/
theorem C41_wildcard_within (t : Nat) (lo hi x : Int)
    (h : (Trans.wildcard t).matches x lo hi = some true) : lo ≤ x ∧ x ≤ hi := by
  simp [Trans.matches] at h; omega

/-- **C41 is false for the wildcard**: it misses the first and the last symbol of the vocabulary
(a parser's `.` does not match the token type `max_token_type`, a lexer's `.` does not match
`U+10FFFF`). -/
theorem C41_false_wildcard (t : Nat) (lo hi : Int) (h : lo ≤ hi) :
    Labelled lo hi (.wildcard t) hi ∧ (Trans.wildcard t).matches hi lo hi = some false ∧
    Labelled lo hi (.wildcard t) lo ∧ (Trans.wildcard t).matches lo lo hi = some false := by
  simp [Labelled, Trans.matches, h]

/-- **C41** Epsilon edges match nothing and carry no label, the others carry one unless they are
wildcards. -/
theorem C41_epsilon (t : Trans) (hr : ∀ a b c d, t ≠ .rule a b c d) (lo hi x : Int)
    (h : t.isEpsilon = true) : t.matches x lo hi = some false ∧ t.label = none := by
  cases t with
  | rule a b c d => exact absurd rfl (hr a b c d)
  | _ => simp_all [Trans.isEpsilon, Trans.matches, Trans.label]

/-- **C41** The edges taken without consuming a symbol are exactly those that carry no label set and
are no wildcard. -/
theorem C41_epsilon_iff (t : Trans) :
    t.isEpsilon = true ↔ t.label = none ∧ ∀ n, t ≠ .wildcard n := by
  cases t <;> simp [Trans.isEpsilon, Trans.label]

/-- **C41** Asking a rule edge is a panic: the code has no answer. -/
theorem C41_rule_panics (a b : Nat) (c d x lo hi : Int) :
    (Trans.rule a b c d).matches x lo hi = none := rfl

/-- **C41** The label set of atom, range and set edges contains exactly the matched symbols; that
of a negated set contains exactly the excluded ones. -/
theorem C41_label (t : Trans) (hs : SetOk t) (l : IntervalSet) (hl : t.label = some l)
    (lo hi x : Int) :
    (∀ n s, t ≠ .notSet n s) → (l.contains x = true ↔ t.matches x lo hi = some true) := by
  intro hn
  have one : ∀ a b : Int, (IntervalSet.addRange IntervalSet.new a b).contains x = true ↔
      a ≤ x ∧ x ≤ b := by
    intro a b
    have e : (IntervalSet.addRange IntervalSet.new a b).intervals = if b - a < 0 then [] else [⟨a, b⟩] := by
      simp only [IntervalSet.addRange, IntervalSet.addInterval, Interval.length, IntervalSet.new]
      by_cases h : b - a < 0
      · simp [h]
      · simp [h, IntervalSet.addLoop]
    have hsd : SortedDisjoint (IntervalSet.addRange IntervalSet.new a b).intervals := by
      rw [e]; split
      · simp [SortedDisjoint]
      · simp [SortedDisjoint]; omega
    rw [contains_iff _ hsd, e]
    split
    · simp; omega
    · simp [InIv]
  cases t with
  | atom n v =>
    simp only [Trans.label, Option.some.injEq] at hl
    rw [← hl, IntervalSet.addOne, one]; simp [Trans.matches]; omega
  | range n a b =>
    simp only [Trans.label, Option.some.injEq] at hl
    rw [← hl, one]; simp [Trans.matches]
  | set n s =>
    simp only [Trans.label, Option.some.injEq] at hl
    rw [← hl]; simp [Trans.matches]
  | notSet n s => exact absurd rfl (hn n s)
  | _ => simp [Trans.label] at hl

example : SetOk (.notSet 3 ⟨[⟨97, 99⟩], false⟩) ∧
    (Trans.notSet 3 ⟨[⟨97, 99⟩], false⟩).matches 100 0 0x10FFFF = some true ∧
    (Trans.notSet 3 ⟨[⟨97, 99⟩], false⟩).matches 98 0 0x10FFFF = some false ∧
    (Trans.notSet 3 ⟨[⟨97, 99⟩], false⟩).matches (-1) 0 0x10FFFF = some false := by
  refine ⟨by simp [SetOk, SortedDisjoint], ?_⟩
  decide +kernel

end Antlr.TransitionProps
