import Verif.ATN.Model
/-!
# Model of `src/prediction_context.rs`

An `Arc` is its value: pointer equality is only used as a shortcut for equality.  The cached Murmur
hash is a function of the structure, so comparing it first does not change equality; it is not
modelled, and neither is the assertion that it is not 0 (line 349).  The two vectors `parents` and
`return_states` of an array always have the same length (they are only built together, lines
157-158, 279-283, 380-394, 416-418, 425-427, 445-500, 636), so an array is a list of pairs.
A panic is `none`.
-/

namespace Antlr

/-- `PredictionContext`, src/prediction_context.rs:27-31, with `SingletonPredictionContext` 73-78 and
`ArrayPredictionContext` 43-48 -/
inductive PC where
  | single (parent : Option PC) (rs : Int)
  | array (entries : List (Option PC × Int))
deriving Repr

/-! `PartialEq`, src/prediction_context.rs:33-87 -/
mutual
def PC.decEq : (a b : PC) → Decidable (a = b)
  | .single p r, .single q s =>
    match PC.decEqO p q with
    | isTrue h1 =>
      if h2 : r = s then isTrue (by rw [h1, h2])
      else isFalse (by intro e; injection e; contradiction)
    | isFalse h1 => isFalse (by intro e; injection e; contradiction)
  | .array l, .array m =>
    match PC.decEqL l m with
    | isTrue h => isTrue (by rw [h])
    | isFalse h => isFalse (by intro e; injection e; contradiction)
  | .single _ _, .array _ => isFalse (by intro e; cases e)
  | .array _, .single _ _ => isFalse (by intro e; cases e)
def PC.decEqO : (a b : Option PC) → Decidable (a = b)
  | none, none => isTrue rfl
  | some a, some b =>
    match PC.decEq a b with
    | isTrue h => isTrue (by rw [h])
    | isFalse h => isFalse (by intro e; injection e; contradiction)
  | none, some _ => isFalse (by intro e; cases e)
  | some _, none => isFalse (by intro e; cases e)
def PC.decEqL : (a b : List (Option PC × Int)) → Decidable (a = b)
  | [], [] => isTrue rfl
  | x :: l, y :: m =>
    match PC.decEqE x y, PC.decEqL l m with
    | isTrue h1, isTrue h2 => isTrue (by rw [h1, h2])
    | isFalse h, _ => isFalse (by intro e; injection e; contradiction)
    | _, isFalse h => isFalse (by intro e; injection e; contradiction)
  | [], _ :: _ => isFalse (by intro e; cases e)
  | _ :: _, [] => isFalse (by intro e; cases e)
def PC.decEqE : (a b : Option PC × Int) → Decidable (a = b)
  | (p, r), (q, s) =>
    match PC.decEqO p q with
    | isTrue h1 =>
      if h2 : r = s then isTrue (by rw [h1, h2])
      else isFalse (by intro e; injection e; contradiction)
    | isFalse h1 => isFalse (by intro e; injection e; contradiction)
end

instance : DecidableEq PC := PC.decEq

namespace PC

/-- `PREDICTION_CONTEXT_EMPTY_RETURN_STATE`, src/prediction_context.rs:21 -/
def EMPTY_RS : Int := 0x7FFFFFFF

/-- `new_empty` / `EMPTY_PREDICTION_CONTEXT`, src/prediction_context.rs:145-148, 174-182 -/
def EMPTY : PC := .single none EMPTY_RS

/-! A measure for the recursion of `merge`. -/
mutual
def size : PC → Nat
  | .single p _ => 2 + sizeO p
  | .array l => 1 + sizeL l
def sizeO : Option PC → Nat
  | none => 0
  | some p => size p
def sizeL : List (Option PC × Int) → Nat
  | [] => 0
  | e :: l => sizeE e + sizeL l
def sizeE : Option PC × Int → Nat
  | (p, _) => 1 + sizeO p
end

/-- `to_array`, src/prediction_context.rs:276-285: the (parent, return state) pairs; with it
`get_parent` 225-233, `get_return_state` 235-244, `length` 246-253. -/
def entries : PC → List (Option PC × Int)
  | .single p r => [(p, r)]
  | .array l => l

/-- `is_empty`, src/prediction_context.rs:90-93, 256-261 (an array of length 0 would panic; it is
never built) -/
def isEmpty : PC → Bool
  | .single p r => r == EMPTY_RS && p.isNone
  | .array l => l.head?.any fun e => e.2 == EMPTY_RS

/-- `has_empty_path`, src/prediction_context.rs:264-266 -/
def hasEmptyPath (c : PC) : Bool := c.entries.getLast?.any fun e => e.2 == EMPTY_RS

/-- `merge_root`, src/prediction_context.rs:401-435 -/
def mergeRoot (pa : Option PC) (ra : Int) (pb : Option PC) (rb : Int) (wild : Bool) : Option PC :=
  if wild then
    if (single pa ra).isEmpty || (single pb rb).isEmpty then some EMPTY else none
  else
    if (single pa ra).isEmpty && (single pb rb).isEmpty then some EMPTY
    else if (single pa ra).isEmpty then some (.array [(pb, rb), (none, EMPTY_RS)])
    else if (single pb rb).isEmpty then some (.array [(pa, ra), (none, EMPTY_RS)])
    else none

/-- `MergeCache`, src/parser_atn_simulator.rs:125-129: a map from pairs to results. -/
abbrev Cache := List ((PC × PC) × PC)

/-- The cache lookup of `merge`, src/prediction_context.rs:305-307, under either order. -/
def lookup (c : Option Cache) (a b : PC) : Option PC :=
  match c with
  | none => none
  | some c => (c.lookup (a, b)).or (c.lookup (b, a))

/-- `cache.insert`, src/prediction_context.rs:350-354 -/
def remember (c : Option Cache) (a b r : PC) : Option Cache := c.map fun c => ((a, b), r) :: c

/-! `merge` 293-356, `merge_singletons` 358-399, the loop of `merge_arrays` 453-500.  The state is
the merge cache.  `combine_common_parents` (545-558) replaces parents by equal ones and the
replacement of the result by an equal argument (337-343, 372-378) do not change the value. -/
mutual
def merge (a b : PC) (wild : Bool) (c : Option Cache) : Option (PC × Option Cache) :=
  if a = b then some (a, c)
  else match lookup c a b with
    | some old => some (old, c)
    | none =>
      match a, b with
      | .single pa ra, .single pb rb =>
        match mergeRoot pa ra pb rb wild with
        | some r => some (r, remember c (.single pa ra) (.single pb rb) r)
        | none =>
          if ra = rb then
            match pa, pb with
            | some p, some q =>
              match merge p q wild c with
              | none => none
              | some (m, c) =>
                some (.single (some m) ra,
                  remember c (.single (some p) ra) (.single (some q) rb) (.single (some m) ra))
            | _, _ => none
          else
            let r := if ra ≤ rb then PC.array [(pa, ra), (pb, rb)] else .array [(pb, rb), (pa, ra)]
            some (r, remember c (.single pa ra) (.single pb rb) r)
      | a, b =>
        if wild && (a.isEmpty || b.isEmpty) then some (EMPTY, c)
        else match mergeLoop a.entries b.entries wild c with
          | none => none
          | some (m, c) => some (.array m, remember c a b (.array m))
termination_by 2 * (size a + size b) + 1
decreasing_by
  all_goals simp_wf
  · simp only [size, sizeO]; omega
  · cases a <;> cases b <;> simp [size, entries, sizeL, sizeE] <;> omega

def mergeLoop (la lb : List (Option PC × Int)) (wild : Bool) (c : Option Cache) :
    Option (List (Option PC × Int) × Option Cache) :=
  match la, lb with
  | [], lb => some (lb, c)
  | la, [] => some (la, c)
  | (pa, ra) :: la, (pb, rb) :: lb =>
    if ra = rb then
      if (ra = EMPTY_RS ∧ pa = none ∧ pb = none) ∨ (pa.isSome ∧ pa = pb) then
        match mergeLoop la lb wild c with
        | none => none
        | some (m, c) => some ((pa, ra) :: m, c)
      else match pa, pb with
        | some p, some q =>
          match merge p q wild c with
          | none => none
          | some (mp, c) =>
            match mergeLoop la lb wild c with
            | none => none
            | some (m, c) => some ((some mp, ra) :: m, c)
        | _, _ => none
    else if ra < rb then
      match mergeLoop la ((pb, rb) :: lb) wild c with
      | none => none
      | some (m, c) => some ((pa, ra) :: m, c)
    else
      match mergeLoop ((pa, ra) :: la) lb wild c with
      | none => none
      | some (m, c) => some ((pb, rb) :: m, c)
termination_by 2 * (sizeL la + sizeL lb)
decreasing_by
  all_goals simp_wf
  all_goals simp only [sizeL, sizeE, sizeO]
  all_goals omega
end

/-- `from_rule_context`, src/prediction_context.rs:520-543.  The chain of rule contexts is the list of
their invoking states, innermost first (rule_context.rs:19-40); the last one has no parent.
`none` = panic: bad state number, no transition (`unwrap`), or not a rule transition (`cast`,
transition.rs:77-80). -/
def fromRuleContext (atn : ATN) : List Int → Option PC
  | [] => none
  | [_] => some EMPTY
  | i :: rest =>
    if i = -1 then some EMPTY
    else (fromRuleContext atn rest).bind fun parent =>
      (atn.stateAt i).bind fun st =>
        st.transitions.head?.bind fun t =>
          match t with
          | .rule _ followState _ _ => some (.single (some parent) followState)
          | _ => none

/-- `PredictionContextCache::get_shared_context`, src/prediction_context.rs:592-652.  The `parents`
vector is empty so its loop never runs (611-622) and nothing past line 629 is reached; `visited` is
a fresh map on every call (atn_config_set.rs:197) and stays empty until the return. -/
def getSharedContext (cache : List (PC × PC)) (c : PC) : PC × List (PC × PC) :=
  if c.isEmpty then (c, cache)
  else match cache.lookup c with
    | some old => (old, cache)
    | none => (c, (c, c) :: cache)

end PC
end Antlr
