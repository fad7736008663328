import Verif.IntervalSet.Model

/-!
# Specification vocabulary for interval sets

Only mathematical sets of integers; nothing here refers to the algorithms of the model.
-/

namespace Antlr.IntervalSpec

/-- `x` lies in the inclusive interval. -/
def InIv (r : Interval) (x : Int) : Prop := r.a ≤ x ∧ x ≤ r.b

instance (r : Interval) (x : Int) : Decidable (InIv r x) := inferInstanceAs (Decidable (_ ∧ _))

/-- `x` lies in one of the intervals: the set of integers an interval list stands for. -/
def Mem (l : List Interval) (x : Int) : Prop := ∃ r ∈ l, InIv r x

instance (l : List Interval) (x : Int) : Decidable (Mem l x) :=
  inferInstanceAs (Decidable (∃ r ∈ l, InIv r x))

/-- Non-empty intervals, in increasing order, without overlap. -/
def SortedDisjoint (l : List Interval) : Prop :=
  (∀ r ∈ l, r.a ≤ r.b) ∧ l.Pairwise (fun p q => p.b < q.a)

/-- Non-empty intervals, in increasing order, not even adjacent: the unique normal form. -/
def Canonical (l : List Interval) : Prop :=
  (∀ r ∈ l, r.a ≤ r.b) ∧ l.Pairwise (fun p q => p.b + 1 < q.a)

instance (l : List Interval) : Decidable (SortedDisjoint l) :=
  inferInstanceAs (Decidable (_ ∧ _))

instance (l : List Interval) : Decidable (Canonical l) :=
  inferInstanceAs (Decidable (_ ∧ _))

/-- An API call that adds integers to a set. -/
inductive AddCall where
  | one (v : Int)
  | range (l h : Int)
  | set (o : List Interval)

/-- The integers an add call asks to add. -/
def AddCall.Asks : AddCall → Int → Prop
  | .one v, x => x = v
  | .range l h, x => l ≤ x ∧ x ≤ h
  | .set o, x => Mem o x

/-- Two inclusive intervals overlap or are adjacent (their union is again an interval). -/
def Touches (p q : Interval) : Prop := p.a ≤ q.b + 1 ∧ q.a ≤ p.b + 1

instance (p q : Interval) : Decidable (Touches p q) := inferInstanceAs (Decidable (_ ∧ _))

/-- Everything that is enumerated by an interval list, in order. -/
def elements (l : List Interval) : List Int :=
  l.flatMap fun r => (List.range (r.b + 1 - r.a).toNat).map fun (k : Nat) => r.a + k

/-- Adding `r` to the set of integers `S` joins at most two maximal runs of `S`: there are no two
gaps of `S` that `r` would bridge at once. -/
def BridgesAtMostOneGap (S : Int → Prop) (r : Interval) : Prop :=
  ∀ p g q g' s, S p → ¬ S g → S q → ¬ S g' → S s →
    p < g → g < q → q < g' → g' < s → r.a - 1 ≤ p → s ≤ r.b + 1 → False

/-- A sequence of added ranges, each bridging at most one gap of the integers collected so far. -/
def GentleFrom (S : Int → Prop) : List Interval → Prop
  | [] => True
  | r :: rs => BridgesAtMostOneGap S r ∧ GentleFrom (fun x => S x ∨ InIv r x) rs

/-- The ranges an add call asks for, in the order in which they are added. -/
def AddCall.ranges : AddCall → List Interval
  | .one v => [⟨v, v⟩]
  | .range l h => [⟨l, h⟩]
  | .set o => o

/-- Names, each preceded by a comma. -/
def prefixed : List String → String
  | [] => ""
  | s :: rest => ", " ++ s ++ prefixed rest

/-- Comma separated list. -/
def joinComma : List String → String
  | [] => ""
  | s :: rest => s ++ prefixed rest

end Antlr.IntervalSpec
