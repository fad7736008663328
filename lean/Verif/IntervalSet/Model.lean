/-!
# Model of `src/interval_set.rs`

`isize` is modelled by `Int` (no overflow).  `Vec<Interval>` is `List Interval`.
The loops are transcribed with explicit indices, as in the source.
-/

namespace Antlr

/-- `Interval { a, b }`, src/interval_set.rs:10-15. -/
structure Interval where
  a : Int
  b : Int
deriving DecidableEq, Repr, Inhabited

namespace Interval

/-- src/interval_set.rs:27-29 -/
def length (s : Interval) : Int := s.b - s.a

/-- src/interval_set.rs:31-36 -/
def union (s o : Interval) : Interval := ⟨min s.a o.a, max s.b o.b⟩

/-- src/interval_set.rs:39-41 -/
def startsBeforeDisjoint (s o : Interval) : Bool := s.a < o.a && s.b < o.a

/-- src/interval_set.rs:54-56 -/
def startsAfterDisjoint (s o : Interval) : Bool := s.a > o.b

/-- src/interval_set.rs:64-66 -/
def disjoint (s o : Interval) : Bool := s.startsBeforeDisjoint o || s.startsAfterDisjoint o

/-- src/interval_set.rs:69-71 -/
def adjacent (s o : Interval) : Bool := s.a == o.b + 1 || s.b == o.a - 1

end Interval

/-- `IntervalSet`, src/interval_set.rs:93-97. -/
structure IntervalSet where
  intervals : List Interval
  readOnly : Bool := false
deriving DecidableEq, Repr, Inhabited

namespace IntervalSet

/-- `IntervalSet::new`, src/interval_set.rs:101-106 -/
def new : IntervalSet := ⟨[], false⟩

/-- `get_min`, src/interval_set.rs:108-110 -/
def getMin (s : IntervalSet) : Option Int := s.intervals.head?.map (·.a)

/-- The inner merge loop of `add_interval`, src/interval_set.rs:137-150.
`i` is the value *before* the `i += 1` of the iteration; `bigger` is never updated. -/
def mergeLoop (bigger : Interval) (l : List Interval) (i : Nat) : List Interval :=
  let i := i + 1
  if h : i < l.length then
    let next := l[i]
    if !bigger.adjacent next && bigger.disjoint next then l
    else mergeLoop bigger ((l.set (i - 1) (bigger.union next)).eraseIdx i) i
  else l
termination_by l.length - i
decreasing_by simp only [List.length_eraseIdx, List.length_set]; split <;> omega

/-- The outer loop of `add_interval`, src/interval_set.rs:125-161. -/
def addLoop (added : Interval) (l : List Interval) (i : Nat) : List Interval :=
  if h : i < l.length then
    let r := l[i]
    if r = added then l
    else if added.adjacent r || !added.disjoint r then
      let bigger := added.union r
      mergeLoop bigger (l.set i bigger) i
    else if added.startsBeforeDisjoint r then l.insertIdx i added
    else addLoop added l (i + 1)
  else l ++ [added]
termination_by l.length - i

/-- `add_interval`, src/interval_set.rs:120-162. -/
def addInterval (s : IntervalSet) (added : Interval) : IntervalSet :=
  if added.length < 0 then s else { s with intervals := addLoop added s.intervals 0 }

/-- `add_range`, src/interval_set.rs:116-118 -/
def addRange (s : IntervalSet) (l h : Int) : IntervalSet := s.addInterval ⟨l, h⟩

/-- `add_one`, src/interval_set.rs:112-114 -/
def addOne (s : IntervalSet) (v : Int) : IntervalSet := s.addRange v v

/-- `add_set`, src/interval_set.rs:164-168 -/
def addSet (s o : IntervalSet) : IntervalSet := o.intervals.foldl addInterval s

/-- The loop of `substract`, src/interval_set.rs:175-219. -/
def substractLoop (right : List Interval) (res : List Interval) (i j : Nat) : List Interval :=
  if h : i < res.length ∧ j < right.length then
    let resI := res[i]
    let rightI := right[j]
    if rightI.b < resI.a then substractLoop right res i (j + 1)
    else if rightI.a > resI.b then substractLoop right res (i + 1) j
    else
      let before := if rightI.a > resI.a then some (Interval.mk resI.a (rightI.a - 1)) else none
      let after := if rightI.b < resI.b then some (Interval.mk (rightI.b + 1) resI.b) else none
      match before, after with
      | some bc, some ac => substractLoop right ((res.set i bc).insertIdx (i + 1) ac) (i + 1) (j + 1)
      | some bc, none => substractLoop right (res.set i bc) (i + 1) j
      | none, some ac => substractLoop right (res.set i ac) i (j + 1)
      | none, none => substractLoop right (res.eraseIdx i) i j
  else res
termination_by 2 * (right.length - j) + (res.length - i)
decreasing_by
  all_goals simp_wf
  all_goals (try simp only [List.length_eraseIdx, List.length_insertIdx, List.length_set])
  all_goals (try split)
  all_goals omega

/-- `substract`, src/interval_set.rs:170-222 (it ignores `read_only`). -/
def substract (s right : IntervalSet) : IntervalSet :=
  { s with intervals := substractLoop right.intervals s.intervals 0 0 }

/-- `complement`, src/interval_set.rs:224-229 -/
def complement (s : IntervalSet) (start stop : Int) : IntervalSet :=
  (new.addRange start stop).substract s

/-- The comparator of `contains`, src/interval_set.rs:233-241: how the probed interval
compares to the item. -/
def probe (item : Int) (x : Interval) : Ordering :=
  if item < x.a then .gt else if item > x.b then .lt else .eq

/-- Rust std `slice::binary_search_by` (rustc 1.52 … 1.81): halving loop over `[left, right)`.
Returns whether the result is `Ok`. -/
def bsearch (l : List Interval) (item : Int) (left right : Nat) (hr : right ≤ l.length) : Bool :=
  if h : left < right then
    let mid := left + (right - left) / 2
    match probe item (l[mid]'(by omega)) with
    | .lt => bsearch l item (mid + 1) right hr
    | .gt => bsearch l item left mid (by omega)
    | .eq => true
  else false
termination_by right - left

/-- Rust std `slice::binary_search_by` since rustc 1.82 (branch-free form): narrows `base`
while `size > 1`, then compares once. -/
def bsearchNewLoop (l : List Interval) (item : Int) (base size : Nat) (hb : base + size ≤ l.length)
    (hs : 0 < size) : Bool :=
  if h : size > 1 then
    let half := size / 2
    let mid := base + half
    match probe item (l[mid]'(by omega)) with
    | .gt => bsearchNewLoop l item base (size - half) (by omega) (by omega)
    | _ => bsearchNewLoop l item mid (size - half) (by omega) (by omega)
  else probe item (l[base]'(by omega)) == .eq
termination_by size

def bsearchNew (l : List Interval) (item : Int) : Bool :=
  if h : 0 < l.length then bsearchNewLoop l item 0 l.length (by omega) h else false

/-- `contains`, src/interval_set.rs:231-243 (with the long-standing std binary search). -/
def contains (s : IntervalSet) (item : Int) : Bool :=
  bsearch s.intervals item 0 s.intervals.length (Nat.le_refl _)

/-- `contains` with the std binary search of recent toolchains. -/
def containsNew (s : IntervalSet) (item : Int) : Bool := bsearchNew s.intervals item

/-- `length`, src/interval_set.rs:245-249 -/
def length (s : IntervalSet) : Int :=
  s.intervals.foldl (fun acc it => acc + it.b - it.a + 1) 0

/-- The loop of `remove_one`, src/interval_set.rs:258-284: `n` is the length fixed by the range
expression `0..self.intervals.len()` before the loop starts.  `none` models an out-of-bounds
panic of `self.intervals[i]`. -/
def removeLoop (el : Int) (n : Nat) (s : IntervalSet) (i : Nat) : Option IntervalSet :=
  if i < n then
    match s.intervals[i]? with
    | none => none
    | some int =>
      if el < int.a then some s
      else if el = int.a ∧ el = int.b then some { s with intervals := s.intervals.eraseIdx i }
      else if el = int.a then some { s with intervals := s.intervals.set i ⟨int.a + 1, int.b⟩ }
      else if el = int.b then some { s with intervals := s.intervals.set i ⟨int.a, int.b - 1⟩ }
      else if el > int.a ∧ el < int.b then
        let s1 : IntervalSet := { s with intervals := s.intervals.set i ⟨int.a, el - 1⟩ }
        removeLoop el n (s1.addRange (el + 1) int.b) (i + 1)
      else removeLoop el n s (i + 1)
  else some s
termination_by n - i

/-- `remove_one`, src/interval_set.rs:253-285; `none` = panic. -/
def removeOne (s : IntervalSet) (el : Int) : Option IntervalSet :=
  if s.readOnly then none else removeLoop el s.intervals.length s 0

/-- `element_name`, src/interval_set.rs:340-348, over an arbitrary vocabulary function;
TOKEN_EOF = -1 (src/token.rs), TOKEN_EPSILON = -2. -/
def elementName (display : Int → String) (a : Int) : String :=
  if a = -1 then "<EOF>" else if a = -2 then "<EPSILON>" else display a

/-- The `for i in int.a..(int.b + 1)` loop, src/interval_set.rs:321-326. -/
def rangeNames (display : Int → String) (a i : Int) : Nat → String
  | 0 => ""
  | n + 1 => (if i > a then ", " else "") ++ elementName display i ++ rangeNames display a (i + 1) n

/-- The `while let` loop, src/interval_set.rs:317-331. -/
def itemNames (display : Int → String) : List Interval → String
  | [] => ""
  | int :: rest =>
    (if int.a = int.b then elementName display int.a
     else rangeNames display int.a int.a (int.b + 1 - int.a).toNat)
    ++ (if rest.length > 0 then ", " else "") ++ itemNames display rest

/-- `to_token_string`, src/interval_set.rs:308-338 -/
def toTokenString (s : IntervalSet) (display : Int → String) : String :=
  if s.intervals.isEmpty then "{}"
  else (if s.length > 1 then "{" else "") ++ itemNames display s.intervals ++
    (if s.length > 1 then "}" else "")

end IntervalSet
end Antlr
