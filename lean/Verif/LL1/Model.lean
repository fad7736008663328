import Verif.PredictionContext.Model
import Verif.TokenStream.Model

/-!
# Model of `src/ll1_analyzer.rs` and of the expected-token functions of `src/atn.rs`

The `HashSet<ATNConfig>` of visited configurations only ever holds configurations with alternative 0
and no predicate, so it is a list of (state number, context) pairs.  The `BitSet` of called rules is
its membership function.  `none` = panic (bad state number), or out of fuel; the fuel is shown to be
sufficient in `Verif.LL1.Termination`.
-/

namespace Antlr

/-- `TOKEN_EPSILON`, src/token.rs:19 -/
def TOKEN_EPSILON : Int := -2
/-- `TOKEN_MIN_USER_TOKEN_TYPE`, src/token.rs:21 -/
def TOKEN_MIN_USER : Int := 1

/-- The three `&mut` arguments of `look_work`. -/
structure LookState where
  look : IntervalSet := IntervalSet.new
  busy : List (Nat × Option PC) := []
  called : Nat → Bool := fun _ => false

/-- One iteration of the transition loop of `look_work`, src/ll1_analyzer.rs:118-185; `rec` is the
recursive call. -/
def lookEdge (atn : ATN) (rec : Nat → Option PC → LookState → Option LookState) (ctx : Option PC)
    (st : LookState) (tr : Trans) : Option LookState :=
  atn.states[tr.target]?.bind fun target =>
  match tr with
  | .rule t follow _ _ =>
    if st.called target.ruleIndex then some st
    else
      (rec t (some (.single ctx follow))
        { st with called := fun r => if r = target.ruleIndex then true else st.called r }).map
        fun st => { st with called := fun r => if r = target.ruleIndex then false else st.called r }
  | .wildcard _ => some { st with look := st.look.addRange TOKEN_MIN_USER atn.maxTokenType }
  | tr =>
    if tr.isEpsilon then rec tr.target ctx st
    else match tr with
      | .notSet _ set =>
        some { st with look := st.look.addSet (set.complement TOKEN_MIN_USER atn.maxTokenType) }
      | tr => some (match tr.label with
        | some set => { st with look := st.look.addSet set }
        | none => st)

/-- The body of `look_work`, src/ll1_analyzer.rs:64-185, called with `see_thru_preds` and `add_eof`
true and no `stop_state`, as `next_tokens_in_ctx` (src/atn.rs:92-93, the only caller) does. -/
def lookBody (atn : ATN) (rec : Nat → Option PC → LookState → Option LookState) (s : Nat)
    (ctx : Option PC) (st : LookState) : Option LookState :=
  if (s, ctx) ∈ st.busy then some st
  else
    atn.states[s]?.bind fun state =>
    let st := { st with busy := (s, ctx) :: st.busy }
    if state.stateType = .ruleStop then
      match ctx with
      | none => some { st with look := st.look.addOne TOKEN_EPSILON }
      | some c =>
        if c.isEmpty then some { st with look := st.look.addOne TOKEN_EOF }
        else if c = PC.EMPTY then state.transitions.foldlM (lookEdge atn rec ctx) st
        else
          let removed := st.called state.ruleIndex
          (c.entries.foldlM
            (fun st e => if 0 ≤ e.2 then rec e.2.toNat e.1 st else none)
            { st with called := fun r => if r = state.ruleIndex then false else st.called r }).map
            fun st => if removed then
                { st with called := fun r => if r = state.ruleIndex then true else st.called r }
              else st
    else state.transitions.foldlM (lookEdge atn rec ctx) st

/-- `look_work`, src/ll1_analyzer.rs:52-186 -/
def lookWork (atn : ATN) : Nat → Nat → Option PC → LookState → Option LookState
  | 0, _, _, _ => none
  | fuel + 1, s, ctx, st => lookBody atn (lookWork atn fuel) s ctx st

/-- `LL1Analyzer::look`, src/ll1_analyzer.rs:29-50, with `next_tokens_in_ctx`, src/atn.rs:87-94.
`ctx` is the chain of invoking states of the rule context, innermost first. -/
def nextTokensInCtx (atn : ATN) (fuel : Nat) (s : Nat) (ctx : Option (List Int)) :
    Option IntervalSet :=
  match ctx with
  | none => (lookWork atn fuel s none {}).map (·.look)
  | some chain => (PC.fromRuleContext atn chain).bind fun c =>
      (lookWork atn fuel s (some c) {}).map (·.look)

/-- `next_tokens`, src/atn.rs:76-81.  The `OnceCell` cache of the state holds a value that depends on
the state alone, so it is not modelled. -/
def nextTokens (atn : ATN) (fuel : Nat) (s : Nat) : Option IntervalSet :=
  (nextTokensInCtx atn fuel s none).map fun r => { r with readOnly := true }

/-- The follow state of the call an invoking state makes: `states[state].transitions.first()` cast to
a rule transition, src/atn.rs:160-163; `none` = panic. -/
def followOf (atn : ATN) (state : Int) : Option Nat :=
  (atn.stateAt state).bind fun st =>
    match st.transitions.head? with
    | some (.rule _ follow _ _) => some follow
    | _ => none

/-- The loop of `get_expected_tokens`, src/atn.rs:155-168: the stack still to climb, `following` and
`expected`. -/
def expectedLoop (atn : ATN) (fuel : Nat) :
    List Int → IntervalSet → IntervalSet → Option (IntervalSet × IntervalSet)
  | [], following, expected => some (following, expected)
  | i :: rest, following, expected =>
    if !following.contains TOKEN_EPSILON then some (following, expected)
    else
      (followOf atn i).bind fun f =>
      (if f < atn.states.length then nextTokens atn fuel f else none).bind fun following =>
      ((expected.addSet following).removeOne TOKEN_EPSILON).bind fun expected =>
      expectedLoop atn fuel rest following expected

/-- `get_expected_tokens`, src/atn.rs:141-174 -/
def getExpectedTokens (atn : ATN) (fuel : Nat) (state : Int) (stack : List Int) :
    Option IntervalSet :=
  if 0 ≤ state then
    (nextTokens atn fuel state.toNat).bind fun following =>
    if !following.contains TOKEN_EPSILON then some following
    else
      ((IntervalSet.new.addSet following).removeOne TOKEN_EPSILON).bind fun expected =>
      (expectedLoop atn fuel stack following expected).map fun (following, expected) =>
        if following.contains TOKEN_EPSILON then expected.addOne TOKEN_EOF else expected
  else none

end Antlr
