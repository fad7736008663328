import Verif.SemanticContext.Model
import Verif.PredictionContext.Model

/-!
# Model of `src/atn_config.rs` and `src/atn_config_set.rs`

The context of a configuration is an `Option` in the code but `None` only while being replaced; here
it is always present.  Hash maps are association lists; hashes are not modelled (equal keys have
equal hashes and the maps compare keys).
-/

namespace Antlr

/-- `ATNConfigType`, src/atn_config.rs:84-91.  A `LexerActionExecutor` is its list of actions: its
`cached_hash` is that of the empty list always (lexer_action_executor.rs:37-46 is its only
constructor call and never updates it). -/
inductive ConfigType where
  | base
  | lexer (executor : Option (List LexerAction)) (passedNonGreedy : Bool)
deriving DecidableEq, Repr

/-- `ATNConfig`, src/atn_config.rs:14-27 -/
structure Config where
  state : Nat
  alt : Int
  ctx : PC
  sem : SC := SC.NONE
  reaches : Int := 0
  suppressed : Bool := false
  kind : ConfigType := .base
deriving DecidableEq

/-- `PartialEq for ATNConfig`, src/atn_config.rs:31-41: does not look at
`reaches_into_outer_context`. -/
def Config.same (a b : Config) : Bool :=
  a.state == b.state && a.alt == b.alt && a.ctx == b.ctx && a.kind == b.kind && a.sem == b.sem &&
    a.suppressed == b.suppressed

/-- `Key`, src/atn_config_set.rs:42-46; a full key is compared by `Config.same`, so the field that
comparison ignores is normalised. -/
inductive Key where
  | full (c : Config)
  | part (state : Nat) (alt : Int) (sem : SC)
deriving DecidableEq

/-- `ATNConfigSet`, src/atn_config_set.rs:17-40; `ordered` tells which key function `hasher` is. -/
structure ConfigSet where
  lookup : List (Key × Nat) := []
  configs : List Config := []
  conflictingAlts : List Nat := []
  dips : Bool := false
  fullCtx : Bool
  hasSem : Bool := false
  readOnly : Bool := false
  uniqueAlt : Int := 0
  ordered : Bool := false
deriving DecidableEq

namespace ConfigSet

/-- `new_base_atnconfig_set`, src/atn_config_set.rs:95-108 -/
def newBase (fullCtx : Bool) : ConfigSet := { fullCtx := fullCtx }

/-- `new_ordered`, src/atn_config_set.rs:111-116 -/
def newOrdered : ConfigSet := { fullCtx := true, ordered := true }

/-- `full_hash_key` / `local_hash_key`, src/atn_config_set.rs:118-134 -/
def key (s : ConfigSet) (c : Config) : Key :=
  if s.ordered then .full { c with reaches := 0 } else .part c.state c.alt c.sem

/-- The flags set by `add_cached`, src/atn_config_set.rs:143-149 -/
def noteFlags (s : ConfigSet) (c : Config) : ConfigSet :=
  { s with hasSem := s.hasSem || decide (c.sem ≠ SC.NONE), dips := s.dips || decide (0 < c.reaches) }

/-- The update of the existing configuration, src/atn_config_set.rs:165-174 -/
def mergeInto (e c : Config) (m : PC) : Config :=
  { e with ctx := m, reaches := max e.reaches c.reaches, suppressed := e.suppressed || c.suppressed }

/-- `add_cached`, src/atn_config_set.rs:136-181; `none` = panic.  It always returns `true`. -/
def addCached (s : ConfigSet) (c : Config) (mc : Option PC.Cache) :
    Option (ConfigSet × Option PC.Cache) :=
  if s.readOnly then none
  else match s.lookup.lookup (s.key c) with
    | some i =>
      (s.configs[i]?).bind fun e =>
        (PC.merge e.ctx c.ctx (!s.fullCtx) mc).map fun r =>
          ({ s.noteFlags c with configs := s.configs.set i (mergeInto e c r.1) }, r.2)
    | none =>
      some ({ s.noteFlags c with
                lookup := (s.key c, s.configs.length) :: s.lookup,
                configs := s.configs ++ [c] }, mc)

/-- A sequence of `add_cached` calls. -/
def addAll (s : ConfigSet) (cs : List Config) (mc : Option PC.Cache) :
    Option (ConfigSet × Option PC.Cache) :=
  match cs with
  | [] => some (s, mc)
  | c :: cs => (s.addCached c mc).bind fun r => addAll r.1 cs r.2

/-- `PartialEq for ATNConfigSet`, src/atn_config_set.rs:74-83 -/
def same (a b : ConfigSet) : Bool :=
  a.configs.length == b.configs.length &&
    (a.configs.zip b.configs).all (fun p => p.1.same p.2) &&
    a.fullCtx == b.fullCtx && a.uniqueAlt == b.uniqueAlt &&
    a.conflictingAlts == b.conflictingAlts && a.hasSem == b.hasSem && a.dips == b.dips

/-- `optimize_configs`, src/atn_config_set.rs:191-204 -/
def optimize (s : ConfigSet) (shared : List (PC × PC)) : ConfigSet × List (PC × PC) :=
  let r := s.configs.foldl (fun (acc : List Config × List (PC × PC)) c =>
    let sh := PC.getSharedContext acc.2 c.ctx
    (acc.1 ++ [{ c with ctx := sh.1 }], sh.2)) ([], shared)
  ({ s with configs := r.1 }, r.2)

end ConfigSet
end Antlr
