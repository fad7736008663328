import Verif.BitSet
import Verif.Vocabulary.Model
import Verif.ConfigSet.Model

/-!
# Model of `src/prediction_mode.rs`

`HashMap`s are association lists in order of first insertion; the order in which the code drains
them is arbitrary, so the theorems are stated for every permutation of the result.
-/

namespace Antlr

/-- `PredictionMode`, src/prediction_mode.rs:19-79 -/
inductive PredictionMode where
  | SLL | LL | LLExact
deriving DecidableEq, Repr

namespace PredictionMode

/-- `m.entry(k).or_default().insert(a)` -/
def addAlt {κ} [DecidableEq κ] (m : List (κ × List Nat)) (k : κ) (a : Nat) : List (κ × List Nat) :=
  match m with
  | [] => [(k, [a])]
  | (k', l) :: m => if k = k' then (k', bitInsert a l) :: m else (k', l) :: addAlt m k a

/-- The loops of `get_conflicting_alt_subsets` 155-161 and `get_state_to_alt_map` 167-170. -/
def altMap {κ} [DecidableEq κ] (f : Config → κ) (configs : List Config) : List (κ × List Nat) :=
  configs.foldl (fun m c => addAlt m (f c) (asUsize c.alt)) []

/-- `get_conflicting_alt_subsets`, src/prediction_mode.rs:153-163 -/
def conflictingAltSubsets (s : ConfigSet) : List (List Nat) :=
  (altMap (fun c => (c.state, c.ctx)) s.configs).map (·.2)

/-- `has_state_associated_with_one_alt` with `get_state_to_alt_map`, src/prediction_mode.rs:165-182 -/
def hasStateAssociatedWithOneAlt (s : ConfigSet) : Bool :=
  (altMap (fun c => c.state) s.configs).any fun e => e.2.length == 1

/-- `has_non_conflicting_alt_set`, src/prediction_mode.rs:130-132 -/
def hasNonConflictingAltSet (altsets : List (List Nat)) : Bool := altsets.any fun a => a.length == 1

/-- `has_conflicting_alt_set`, src/prediction_mode.rs:134-141 -/
def hasConflictingAltSet (altsets : List (List Nat)) : Bool :=
  altsets.any fun a => decide (1 < a.length)

/-- `all_subsets_conflict`, src/prediction_mode.rs:120-122 -/
def allSubsetsConflict (altsets : List (List Nat)) : Bool := !hasNonConflictingAltSet altsets

/-- `all_subsets_equal`, src/prediction_mode.rs:124-128 -/
def allSubsetsEqual (altsets : List (List Nat)) : Bool :=
  match altsets with
  | [] => true
  | first :: rest => rest.all (· == first)

/-- `get_alts`, src/prediction_mode.rs:146-151 -/
def getAlts (altsets : List (List Nat)) : List Nat := altsets.foldl bitUnion []

/-- The loop of `get_single_viable_alt`, src/prediction_mode.rs:187-193; `none` = panic (`unwrap` on
an empty set). -/
def singleViableLoop (altsets : List (List Nat)) (viable : List Nat) (minAlt : Nat) : Option Int :=
  match altsets with
  | [] => some minAlt
  | alt :: rest =>
    alt.head?.bind fun m =>
      if 1 < (bitInsert m viable).length then some INVALID_ALT
      else singleViableLoop rest (bitInsert m viable) m

/-- `get_single_viable_alt` / `resolves_to_just_one_viable_alt`, src/prediction_mode.rs:116-118, 184-195 -/
def getSingleViableAlt (altsets : List (List Nat)) : Option Int := singleViableLoop altsets [] 0

/-- The configuration without its predicate, src/prediction_mode.rs:97-102 -/
def strip (c : Config) : Config := { state := c.state, alt := c.alt, ctx := c.ctx }

/-- `has_sll_conflict_terminating_prediction`, src/prediction_mode.rs:86-114; `none` = panic -/
def hasSllConflictTerminatingPrediction (mode : PredictionMode) (s : ConfigSet) : Option Bool :=
  let decideOn (s : ConfigSet) : Bool :=
    hasConflictingAltSet (conflictingAltSubsets s) && !hasStateAssociatedWithOneAlt s
  if mode = .SLL ∧ s.hasSem = true then
    (ConfigSet.addAll (.newBase true) (s.configs.map strip) none).map fun r => decideOn r.1
  else some (decideOn s)

end PredictionMode
end Antlr
