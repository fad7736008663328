import Verif.DFA.Lemmas

/-!
# Properties of the parser's DFA bookkeeping (C37)

A history is any sequence of the updates the simulator makes to one DFA.  What may be asked of the DFA
afterwards is described from the history alone.
-/

namespace Antlr.DFAProps
open Antlr DFA

/-- The updates `adaptive_predict`, `exec_atn` and `compute_target_state` make. -/
inductive Op where
  /-- `add_dfastate` -/
  | state (D : DFAState)
  /-- `add_dfaedge` -/
  | edge (src : Nat) (t : Int) (dst : Nat)
  /-- `set_precedence_start_state` -/
  | prec (p : Int) (start : Nat)
  /-- `states[s0].configs = ...` for a precedence DFA (parser_atn_simulator.rs:205) -/
  | s0Configs (cs : ConfigSet)
  /-- `s0.replace(..)` for another DFA (parser_atn_simulator.rs:222) -/
  | s0 (n : Nat)

/-- Number of states a new DFA has. -/
def base (d : DFA) : Nat := if d.isPrecedence then 2 else 1

/-- The calls made by the simulator: states are new, edges leave registered states, `s0` is replaced
in a plain DFA only and its configurations in a precedence DFA only. -/
def Allowed (d : DFA) : Op → Prop
  | .state D => D.stateNumber = 0 ∧ D.edges = []
  | .edge src _ _ => base d ≤ src ∧ src < d.states.length
  | .prec _ _ => d.isPrecedence = true
  | .s0Configs _ => d.isPrecedence = true
  | .s0 _ => d.isPrecedence = false

/-- One update: the new DFA and, for a state, the number returned; `none` = panic. -/
def step (hash : ConfigSet → Nat) (maxTT : Int) (d : DFA) : Op → Option (DFA × Option Nat)
  | .state D => let r := addState hash d D; some (r.1, some r.2)
  | .edge src t dst => (addEdge maxTT d src t dst).map fun d' => (d', none)
  | .prec p s => (setPrecedenceStart d p s).map fun d' => (d', none)
  | .s0Configs cs => (d.s0.bind fun i => (d.states[i]?).map fun s =>
      ({ d with states := d.states.set i { s with configs := cs } }, none))
  | .s0 n => some ({ d with s0 := some n }, none)

/-- `History d0 ops d res`: the allowed updates `ops` led from `d0` to `d`, with results `res`. -/
inductive History (hash : ConfigSet → Nat) (maxTT : Int) (d0 : DFA) :
    List Op → DFA → List (Option Nat) → Prop
  | nil : History hash maxTT d0 [] d0 []
  | snoc {ops d res op d' r} : History hash maxTT d0 ops d res → Allowed d op →
      step hash maxTT d op = some (d', r) → History hash maxTT d0 (ops ++ [op]) d' (res ++ [r])

/-- The last edge stored under `(src, t)`; tokens outside `-1 .. maxTT` are not stored. -/
def lastEdge (maxTT : Int) (src : Nat) (t : Int) (ops : List Op) : Option Nat :=
  ops.foldl (fun acc op => match op with
    | .edge s u dst => if s = src ∧ u = t ∧ -1 ≤ t ∧ t ≤ maxTT then readEdge dst else acc
    | _ => acc) none

/-- The last start state stored under precedence `p`. -/
def lastPrec (p : Int) (ops : List Op) : Option Nat :=
  ops.foldl (fun acc op => match op with
    | .prec q s => if q = p ∧ 0 ≤ p then readEdge s else acc
    | _ => acc) none

/-- The states that were added, without those whose configuration set equals that of an earlier one. -/
def registered (ops : List Op) : List DFAState :=
  ops.foldl (fun acc op => match op with
    | .state D => if acc.any (fun E => E.configs.same D.configs) then acc else acc ++ [D]
    | _ => acc) []

theorem lastEdge_snoc (m : Int) (src : Nat) (t : Int) (ops : List Op) (op : Op) :
    lastEdge m src t (ops ++ [op]) = match op with
      | .edge s u dst => if s = src ∧ u = t ∧ -1 ≤ t ∧ t ≤ m then readEdge dst else lastEdge m src t ops
      | _ => lastEdge m src t ops := by
  simp only [lastEdge, List.foldl_append]; rfl

theorem lastPrec_snoc (p : Int) (ops : List Op) (op : Op) :
    lastPrec p (ops ++ [op]) = match op with
      | .prec q s => if q = p ∧ 0 ≤ p then readEdge s else lastPrec p ops
      | _ => lastPrec p ops := by
  simp only [lastPrec, List.foldl_append]; rfl

theorem registered_snoc (ops : List Op) (op : Op) :
    registered (ops ++ [op]) = match op with
      | .state D => if (registered ops).any (fun E => E.configs.same D.configs) then registered ops
          else registered ops ++ [D]
      | _ => registered ops := by
  simp only [registered, List.foldl_append]; rfl

/-- A state as stored. -/
def stored (D : DFAState) (n : Nat) (edges : List Nat) : DFAState :=
  { D with stateNumber := n, configs := { D.configs with readOnly := true }, edges := edges }

/-- What holds after every history. -/
structure Inv (hash : ConfigSet → Nat) (maxTT : Int) (d : DFA) (ops : List Op) : Prop where
  len : d.states.length = base d + (registered ops).length
  st : ∀ i D, (registered ops)[i]? = some D →
    ∃ e, d.states[base d + i]? = some (stored D (base d + i) e)
  nodup : (registered ops).Pairwise (fun a b => a.configs.norm ≠ b.configs.norm)
  map : ∀ k i, i ∈ (d.statesMap.lookup k).getD [] ↔
    ∃ j D, i = base d + j ∧ (registered ops)[j]? = some D ∧ hash D.configs = k
  s0 : d.isPrecedence = true → d.s0 = some 1
  shape : ∀ i s, base d ≤ i → d.states[i]? = some s →
    s.edges = [] ∨ s.edges.length = asUsize maxTT + 2
  edges : ∀ i s t, base d ≤ i → d.states[i]? = some s → -1 ≤ t → t < 2 ^ 63 →
    (s.edges[asUsize (t + 1)]?).bind readEdge = lastEdge maxTT i t ops
  noedge : ∀ i t, d.states.length ≤ i → lastEdge maxTT i t ops = none
  precs : d.isPrecedence = true → ∀ s, d.states[1]? = some s → ∀ p : Nat,
    (s.edges[p]?).bind readEdge = lastPrec p ops
  noprec : ∀ p, p < 0 → lastPrec p ops = none

theorem new_inv (hash : ConfigSet → Nat) (maxTT : Int) (atn : ATN) (start : Nat) (dec : Int) (d : DFA)
    (h : DFA.new atn start dec = some d) : Inv hash maxTT d [] := by
  unfold DFA.new at h
  rw [Option.map_eq_some_iff] at h
  obtain ⟨s, _, h⟩ := h
  split at h
  all_goals
    subst h
    refine ⟨by simp [base, registered], by simp [registered], by simp [registered],
      by simp [registered], by simp, ?_, ?_, by simp [lastEdge], ?_, by simp [lastPrec]⟩
    · intro i s hi hs
      have := (List.getElem?_eq_some_iff.1 hs).1
      simp [base] at hi this; omega
    · intro i s t hi hs
      have := (List.getElem?_eq_some_iff.1 hs).1
      simp [base] at hi this; omega
    · intro _ s hs p
      simp [DFAState.new] at hs
      try (subst hs; simp [lastPrec])

theorem find_spec {hash : ConfigSet → Nat} {maxTT : Int} {d : DFA} {ops : List Op}
    (hh : ∀ a b : ConfigSet, a.same b = true → hash a = hash b)
    (inv : Inv hash maxTT d ops) (D : DFAState) :
    (∀ i, findState hash d D = some i → ∃ j E, i = base d + j ∧ (registered ops)[j]? = some E ∧
        E.configs.same D.configs = true) ∧
    (findState hash d D = none → (registered ops).any (fun E => E.configs.same D.configs) = false) := by
  constructor
  · intro i hi
    have h1 := List.find?_some hi
    have h2 := List.mem_of_find?_eq_some hi
    obtain ⟨j, E, rfl, hE, _⟩ := (inv.map _ _).1 h2
    obtain ⟨e, he⟩ := inv.st j E hE
    rw [he] at h1
    refine ⟨j, E, rfl, hE, ?_⟩
    simpa [DFAState.same, stored, ConfigSet.same_iff, ConfigSet.norm] using h1
  · intro hn
    rw [List.any_eq_false]
    intro E hE hs
    obtain ⟨j, hj⟩ := List.mem_iff_getElem?.1 hE
    have hk := hh _ _ hs
    have h3 := (inv.map (hash D.configs) (base d + j)).2 ⟨j, E, rfl, hj, hk⟩
    have h4 := List.find?_eq_none.1 hn _ h3
    obtain ⟨e, he⟩ := inv.st j E hj
    rw [he] at h4
    apply h4
    simpa [DFAState.same, stored, ConfigSet.same_iff, ConfigSet.norm] using hs

/-- Replacing the edges of one state. -/
theorem set_states {d : DFA} {src : Nat} {s s' : DFAState} (hs : d.states[src]? = some s) (i : Nat) :
    (d.states.set src s')[i]? = if i = src then some s' else d.states[i]? := by
  rw [List.getElem?_set]
  have := (List.getElem?_eq_some_iff.1 hs).1
  by_cases h : src = i
  · subst h; simp [this]
  · rw [if_neg h, if_neg (fun hh => h hh.symm)]

theorem step_inv {hash : ConfigSet → Nat} {maxTT : Int} (hm : 0 ≤ maxTT) (hm' : maxTT < 2 ^ 62)
    (hh : ∀ a b : ConfigSet, a.same b = true → hash a = hash b)
    {d : DFA} {ops : List Op} (inv : Inv hash maxTT d ops) {op : Op} (ha : Allowed d op)
    {d' : DFA} {r : Option Nat} (hstep : step hash maxTT d op = some (d', r)) :
    Inv hash maxTT d' (ops ++ [op]) := by
  have hmax : asUsize maxTT = maxTT.toNat := asUsize_small _ hm (by omega)
  cases op with
  | state D =>
    obtain ⟨hD0, hDe⟩ := ha
    have hreg := registered_snoc ops (.state D)
    have hE : ∀ i t, lastEdge maxTT i t (ops ++ [Op.state D]) = lastEdge maxTT i t ops :=
      fun i t => lastEdge_snoc ..
    have hP : ∀ p, lastPrec p (ops ++ [Op.state D]) = lastPrec p ops := fun p => lastPrec_snoc ..
    simp only [step, addState, Option.some.injEq, Prod.mk.injEq] at hstep
    rw [if_neg (by rw [hD0]; decide)] at hstep
    obtain ⟨hf1, hf2⟩ := find_spec hh inv D
    cases hf : findState hash d D with
    | some i =>
      rw [hf] at hstep
      obtain ⟨j, E, _, hE1, hE2⟩ := hf1 i hf
      have : (registered ops).any (fun E => E.configs.same D.configs) = true :=
        List.any_eq_true.2 ⟨E, List.mem_of_getElem? hE1, hE2⟩
      simp only [this, if_true] at hreg
      obtain ⟨h1, _⟩ := hstep
      simp only at h1
      subst h1
      refine ⟨?_, ?_, ?_, ?_, inv.s0, inv.shape, ?_, ?_, ?_, ?_⟩
      · rw [hreg]; exact inv.len
      · rw [hreg]; exact inv.st
      · rw [hreg]; exact inv.nodup
      · rw [hreg]; exact inv.map
      · intro i s t; rw [hE]; exact inv.edges i s t
      · intro i t; rw [hE]; exact inv.noedge i t
      · intro h s hs p; rw [hP]; exact inv.precs h s hs p
      · intro p; rw [hP]; exact inv.noprec p
    | none =>
      rw [hf] at hstep
      have hany := hf2 hf
      simp only [hany] at hreg
      have hreg : registered (ops ++ [Op.state D]) = registered ops ++ [D] := hreg
      obtain ⟨h1, _⟩ := hstep
      simp only at h1
      have hst : d'.states = d.states ++ [stored D d.states.length []] := by
        rw [← h1]; simp only [stored, hDe]
      have hmp : d'.statesMap = mapPush d.statesMap (hash D.configs) d.states.length := by rw [← h1]
      have hp : d'.isPrecedence = d.isPrecedence := by rw [← h1]
      have hs0 : d'.s0 = d.s0 := by rw [← h1]
      have hb : base d' = base d := by simp only [base, hp]
      have hbl : base d ≤ d.states.length := by have := inv.len; omega
      have hb1 : 1 ≤ base d := by unfold base; split <;> omega
      clear h1
      refine ⟨?_, ?_, ?_, ?_, ?_, ?_, ?_, ?_, ?_, ?_⟩
      · rw [hst, hb, hreg]; have := inv.len; simp; omega
      · intro i E hi
        rw [hreg] at hi
        rw [hst, hb]
        by_cases hlt : i < (registered ops).length
        · rw [List.getElem?_append_left hlt] at hi
          obtain ⟨e, he⟩ := inv.st i E hi
          refine ⟨e, ?_⟩
          rw [List.getElem?_append_left (by have := inv.len; omega)]; exact he
        · rw [List.getElem?_append_right (by omega)] at hi
          have hi0 : i = (registered ops).length := by
            have := (List.getElem?_eq_some_iff.1 hi).1; simp at this; omega
          subst hi0
          simp at hi
          subst hi
          refine ⟨[], ?_⟩
          rw [← inv.len]; simp
      · rw [hreg, List.pairwise_append]
        refine ⟨inv.nodup, by simp, ?_⟩
        intro a ha' b hb' hab
        simp at hb'; subst hb'
        rw [List.any_eq_false] at hany
        exact hany a ha' ((ConfigSet.same_iff _ _).2 hab)
      · intro k i
        rw [hmp, lookup_mapPush, hreg, hb]
        have key : (∃ j E, i = base d + j ∧ (registered ops ++ [D])[j]? = some E ∧ hash E.configs = k)
            ↔ (∃ j E, i = base d + j ∧ (registered ops)[j]? = some E ∧ hash E.configs = k) ∨
              (i = d.states.length ∧ k = hash D.configs) := by
          constructor
          · rintro ⟨j, E, rfl, h1, h2⟩
            by_cases hlt : j < (registered ops).length
            · rw [List.getElem?_append_left hlt] at h1
              exact Or.inl ⟨j, E, rfl, h1, h2⟩
            · right
              have hj : j = (registered ops).length := by
                have := (List.getElem?_eq_some_iff.1 h1).1; simp at this; omega
              subst hj
              simp at h1; subst h1
              exact ⟨inv.len.symm, h2.symm⟩
          · rintro (⟨j, E, rfl, h1, h2⟩ | ⟨rfl, rfl⟩)
            · refine ⟨j, E, rfl, ?_, h2⟩
              rw [List.getElem?_append_left (List.getElem?_eq_some_iff.1 h1).1]; exact h1
            · refine ⟨(registered ops).length, D, inv.len, by simp, rfl⟩
        rw [key, ← inv.map]
        by_cases hk : k = hash D.configs
        · rw [if_pos hk]; simp [hk]
        · rw [if_neg hk]; simp [hk]
      · rw [hp, hs0]; exact inv.s0
      · intro i s hi hs
        rw [hb] at hi; rw [hst] at hs
        by_cases hlt : i < d.states.length
        · rw [List.getElem?_append_left hlt] at hs; exact inv.shape i s hi hs
        · rw [List.getElem?_append_right (by omega)] at hs
          have hj : i - d.states.length = 0 := by
            have := (List.getElem?_eq_some_iff.1 hs).1; simp at this; omega
          rw [hj] at hs; simp at hs; subst hs; left; rfl
      · intro i s t hi hs ht ht'
        rw [hE]
        rw [hb] at hi; rw [hst] at hs
        by_cases hlt : i < d.states.length
        · rw [List.getElem?_append_left hlt] at hs; exact inv.edges i s t hi hs ht ht'
        · rw [List.getElem?_append_right (by omega)] at hs
          have hj : i - d.states.length = 0 := by
            have := (List.getElem?_eq_some_iff.1 hs).1; simp at this; omega
          rw [hj] at hs; simp at hs; subst hs
          rw [inv.noedge i t (by omega)]; simp [stored]
      · intro i t hi
        rw [hE]; rw [hst] at hi; simp at hi; exact inv.noedge i t (by omega)
      · intro h s hs p
        rw [hP]; rw [hp] at h
        rw [hst] at hs
        have : base d = 2 := by simp [base, h]
        rw [List.getElem?_append_left (by omega)] at hs
        exact inv.precs h s hs p
      · intro p; rw [hP]; exact inv.noprec p
  | edge src t dst =>
    obtain ⟨ha1, ha2⟩ := ha
    have hreg : registered (ops ++ [Op.edge src t dst]) = registered ops := registered_snoc ..
    have hP : ∀ p, lastPrec p (ops ++ [Op.edge src t dst]) = lastPrec p ops := fun p => lastPrec_snoc ..
    have hE : ∀ i u, lastEdge maxTT i u (ops ++ [Op.edge src t dst]) =
      if src = i ∧ t = u ∧ -1 ≤ u ∧ u ≤ maxTT then readEdge dst else lastEdge maxTT i u ops :=
      fun i u => lastEdge_snoc ..
    simp only [step, addEdge, Option.map_eq_some_iff, Option.bind_eq_some_iff] at hstep
    obtain ⟨d2, ⟨s, hs, s', hs', rfl⟩, hd⟩ := hstep
    simp only [Prod.mk.injEq] at hd
    obtain ⟨rfl, _⟩ := hd
    have hb1 : 1 ≤ base d := by unfold base; split <;> omega
    -- the state keeps everything but its edges
    have hkeep : ∃ e, s' = { s with edges := e } ∧ (e = [] ∨ e.length = asUsize maxTT + 2) ∧
        (∀ u, -1 ≤ u → u < 2 ^ 63 → (e[asUsize (u + 1)]?).bind readEdge =
          if t = u ∧ -1 ≤ u ∧ u ≤ maxTT then readEdge dst
          else (s.edges[asUsize (u + 1)]?).bind readEdge) := by
      have hsh := inv.shape src s ha1 hs
      unfold edgeIn at hs'
      split at hs'
      · rename_i hout
        simp at hs'
        refine ⟨s.edges, by rw [← hs'], hsh, ?_⟩
        intro u hu hu'
        rw [if_neg]
        rintro ⟨rfl, h1, h2⟩; omega
      · rename_i hin
        have ht1 : asUsize (t + 1) = (t + 1).toNat := asUsize_small _ (by omega) (by omega)
        set e0 := (if s.edges.isEmpty then growTo s.edges (asUsize maxTT + 2) else s.edges) with he0
        have hl0 : e0.length = asUsize maxTT + 2 := by
          rw [he0]
          rcases hsh with h | h
          · simp only [h]; exact growTo_length _ _ (by simp)
          · rw [if_neg, h]
            intro hem; rw [List.isEmpty_iff] at hem; rw [hem] at h; simp at h
        have hget : ∀ k : Nat, (e0[k]?).bind readEdge = (s.edges[k]?).bind readEdge := by
          intro k
          rw [he0]
          split
          · exact growTo_get ..
          · rfl
        simp only at hs'
        split at hs'
        · rename_i hlt
          simp only [Option.some.injEq] at hs'
          refine ⟨_, hs'.symm, Or.inr (by rw [List.length_set]; exact hl0), ?_⟩
          intro u hu hu'
          have hu1 : asUsize (u + 1) = (u + 1).toNat := asUsize_small _ (by omega) (by omega)
          rw [List.getElem?_set]
          by_cases htu : t = u
          · subst htu
            rw [if_pos rfl, if_pos hlt, if_pos ⟨rfl, hu, by omega⟩]; rfl
          · rw [if_neg (by rw [ht1, hu1]; omega), if_neg (fun h => htu h.1)]
            exact hget _
        · cases hs'
    obtain ⟨e, rfl, hel, heg⟩ := hkeep
    refine ⟨?_, ?_, ?_, ?_, ?_, ?_, ?_, ?_, ?_, ?_⟩
    · rw [hreg]; simpa [base] using inv.len
    · intro i D hi
      rw [hreg] at hi
      obtain ⟨e1, he1⟩ := inv.st i D hi
      show ∃ e_1, (d.states.set src _)[base d + i]? = some (stored D (base d + i) e_1)
      by_cases hsrc : base d + i = src
      · rw [hsrc] at he1 ⊢
        refine ⟨e, ?_⟩
        rw [set_states hs, if_pos rfl]
        rw [he1] at hs
        simp only [Option.some.injEq] at hs
        rw [← hs]; rfl
      · refine ⟨e1, ?_⟩
        rw [set_states hs, if_neg hsrc]
        exact he1
    · rw [hreg]; exact inv.nodup
    · rw [hreg]; exact inv.map
    · exact inv.s0
    · intro i x hi hx
      simp only at hx
      rw [set_states hs] at hx
      split at hx
      · simp only [Option.some.injEq] at hx; rw [← hx]; exact hel
      · exact inv.shape i x hi hx
    · intro i x u hi hx hu hu'
      simp only at hx
      rw [set_states hs] at hx
      rw [hE]
      split at hx
      · rename_i hi2
        subst hi2
        simp only [Option.some.injEq] at hx; rw [← hx]
        simp only
        rw [heg u hu hu', inv.edges i s u hi hs hu hu']
        by_cases h : t = u ∧ -1 ≤ u ∧ u ≤ maxTT
        · simp [h]
        · simp [h]
      · rename_i hi2
        rw [if_neg (fun hh => hi2 hh.1.symm)]
        exact inv.edges i x u hi hx hu hu'
    · intro i u hi
      simp at hi
      rw [hE, if_neg (fun hh => by omega)]
      exact inv.noedge i u hi
    · intro h x hx p
      simp only at hx h
      have : base d = 2 := by simp [base, h]
      rw [set_states hs, if_neg (by omega)] at hx
      rw [hP]; exact inv.precs h x hx p
    · intro p; rw [hP]; exact inv.noprec p
  | prec p0 start =>
    simp only [Allowed] at ha
    have hreg : registered (ops ++ [Op.prec p0 start]) = registered ops := registered_snoc ..
    have hE : ∀ i t, lastEdge maxTT i t (ops ++ [Op.prec p0 start]) = lastEdge maxTT i t ops :=
      fun i t => lastEdge_snoc ..
    have hP : ∀ p, lastPrec p (ops ++ [Op.prec p0 start]) =
        if p0 = p ∧ 0 ≤ p then readEdge start else lastPrec p ops := fun p => lastPrec_snoc ..
    have hb2 : base d = 2 := by simp [base, ha]
    simp only [step, Option.map_eq_some_iff] at hstep
    obtain ⟨d2, hd2, hd⟩ := hstep
    simp only [Prod.mk.injEq] at hd
    obtain ⟨rfl, _⟩ := hd
    unfold setPrecedenceStart at hd2
    rw [if_pos ha] at hd2
    have hs0 := inv.s0 ha
    split at hd2
    · rename_i hneg
      simp only [Option.some.injEq] at hd2
      subst hd2
      refine ⟨by rw [hreg]; exact inv.len, by rw [hreg]; exact inv.st, by rw [hreg]; exact inv.nodup,
        by rw [hreg]; exact inv.map, inv.s0, inv.shape, ?_, ?_, ?_, ?_⟩
      · intro i s t; rw [hE]; exact inv.edges i s t
      · intro i t; rw [hE]; exact inv.noedge i t
      · intro h s hs p
        rw [hP, if_neg (by omega)]; exact inv.precs h s hs p
      · intro p hp
        rw [hP, if_neg (by omega)]; exact inv.noprec p hp
    · rename_i hneg
      split at hd2
      · rename_i hnone; rw [hs0] at hnone; cases hnone
      rename_i k hk
      have hk1 : k = 1 := by rw [hs0] at hk; cases hk; rfl
      subst hk1
      simp only [Option.map_eq_some_iff] at hd2
      obtain ⟨s, hs, rfl⟩ := hd2
      refine ⟨?_, ?_, by rw [hreg]; exact inv.nodup, by rw [hreg]; exact inv.map, inv.s0,
        ?_, ?_, ?_, ?_, ?_⟩
      · rw [hreg]; simpa [base] using inv.len
      · intro i D hi
        rw [hreg] at hi
        obtain ⟨e, he⟩ := inv.st i D hi
        refine ⟨e, ?_⟩
        show (d.states.set 1 _)[base d + i]? = _
        rw [set_states hs, if_neg (by omega)]; exact he
      · intro i x hi hx
        have hi : base d ≤ i := hi
        simp only at hx
        rw [set_states hs, if_neg (by omega)] at hx
        exact inv.shape i x hi hx
      · intro i x t hi hx
        have hi : base d ≤ i := hi
        simp only at hx
        rw [set_states hs, if_neg (by omega)] at hx
        rw [hE]; exact inv.edges i x t hi hx
      · intro i t hi
        simp at hi
        rw [hE]; exact inv.noedge i t hi
      · intro h x hx p
        simp only at hx
        rw [set_states hs, if_pos rfl] at hx
        simp only [Option.some.injEq] at hx
        subst hx
        rw [hP]
        have hlast := inv.precs ha s hs p
        simp only [setPrecedenceEdge]
        set e0 := (if s.edges.length ≤ p0.toNat then growTo s.edges (p0.toNat + 1) else s.edges) with he0
        have hlen : p0.toNat < e0.length := by
          rw [he0]; split
          · rw [growTo_length _ _ (by omega)]; omega
          · omega
        have hget : ∀ k : Nat, (e0[k]?).bind readEdge = (s.edges[k]?).bind readEdge := by
          intro k
          rw [he0]
          split
          · exact growTo_get ..
          · rfl
        rw [List.getElem?_set]
        by_cases hpp : p0 = p
        · subst hpp
          simp only [Int.toNat_natCast] at hlen ⊢
          simp [hlen]
        · rw [if_neg (by omega), if_neg (fun hh => hpp hh.1), hget]; exact hlast
      · intro p hp
        rw [hP, if_neg (by omega)]; exact inv.noprec p hp
  | s0Configs cs =>
    simp only [Allowed] at ha
    have hreg : registered (ops ++ [Op.s0Configs cs]) = registered ops := registered_snoc ..
    have hE : ∀ i t, lastEdge maxTT i t (ops ++ [Op.s0Configs cs]) = lastEdge maxTT i t ops :=
      fun i t => lastEdge_snoc ..
    have hP : ∀ p, lastPrec p (ops ++ [Op.s0Configs cs]) = lastPrec p ops := fun p => lastPrec_snoc ..
    have hb2 : base d = 2 := by simp [base, ha]
    simp only [step, Option.bind_eq_some_iff, Option.map_eq_some_iff, Prod.mk.injEq] at hstep
    obtain ⟨k, hk, s, hs, rfl, _⟩ := hstep
    have hk1 : k = 1 := by rw [inv.s0 ha] at hk; cases hk; rfl
    subst hk1
    refine ⟨?_, ?_, by rw [hreg]; exact inv.nodup, by rw [hreg]; exact inv.map, inv.s0,
        ?_, ?_, ?_, ?_, ?_⟩
    · rw [hreg]; simpa [base] using inv.len
    · intro i D hi
      rw [hreg] at hi
      obtain ⟨e, he⟩ := inv.st i D hi
      refine ⟨e, ?_⟩
      show (d.states.set 1 _)[base d + i]? = _
      rw [set_states hs, if_neg (by omega)]; exact he
    · intro i x hi hx
      have hi : base d ≤ i := hi
      simp only at hx
      rw [set_states hs, if_neg (by omega)] at hx
      exact inv.shape i x hi hx
    · intro i x t hi hx
      have hi : base d ≤ i := hi
      simp only at hx
      rw [set_states hs, if_neg (by omega)] at hx
      rw [hE]; exact inv.edges i x t hi hx
    · intro i t hi
      simp at hi
      rw [hE]; exact inv.noedge i t hi
    · intro h x hx p
      simp only at hx
      rw [set_states hs, if_pos rfl] at hx
      simp only [Option.some.injEq] at hx
      subst hx
      rw [hP]; exact inv.precs ha s hs p
    · intro p; rw [hP]; exact inv.noprec p
  | s0 n =>
    simp only [Allowed] at ha
    have hreg : registered (ops ++ [Op.s0 n]) = registered ops := registered_snoc ..
    have hE : ∀ i t, lastEdge maxTT i t (ops ++ [Op.s0 n]) = lastEdge maxTT i t ops :=
      fun i t => lastEdge_snoc ..
    have hP : ∀ p, lastPrec p (ops ++ [Op.s0 n]) = lastPrec p ops := fun p => lastPrec_snoc ..
    simp only [step, Option.some.injEq, Prod.mk.injEq] at hstep
    obtain ⟨rfl, _⟩ := hstep
    refine ⟨by rw [hreg]; exact inv.len, by rw [hreg]; exact inv.st, by rw [hreg]; exact inv.nodup,
        by rw [hreg]; exact inv.map, ?_, inv.shape, ?_, ?_, ?_, ?_⟩
    · intro h; rw [ha] at h; cases h
    · intro i s t; rw [hE]; exact inv.edges i s t
    · intro i t; rw [hE]; exact inv.noedge i t
    · intro h s hs p; rw [hP]; exact inv.precs h s hs p
    · intro p; rw [hP]; exact inv.noprec p

section
variable {hash : ConfigSet → Nat} {maxTT : Int} {atn : ATN} {start : Nat} {dec : Int} {d0 : DFA}
  {ops : List Op} {d : DFA} {res : List (Option Nat)}

theorem history_inv (h0 : DFA.new atn start dec = some d0) (hm : 0 ≤ maxTT) (hm' : maxTT < 2 ^ 62)
    (hh : ∀ a b : ConfigSet, a.same b = true → hash a = hash b)
    (hist : History hash maxTT d0 ops d res) : Inv hash maxTT d ops := by
  induction hist with
  | nil => exact new_inv hash maxTT atn start dec d0 h0
  | snoc _ ha hs ih => exact step_inv hm hm' hh ih ha hs

theorem step_isPrecedence {op : Op} {d' : DFA} {r : Option Nat}
    (h : step hash maxTT d op = some (d', r)) : d'.isPrecedence = d.isPrecedence := by
  cases op with
  | state D =>
    simp only [step, addState, Option.some.injEq, Prod.mk.injEq] at h
    obtain ⟨h, _⟩ := h
    rw [← h]
    split
    · rfl
    · split <;> rfl
  | edge src t dst =>
    simp only [step, addEdge, Option.map_eq_some_iff, Option.bind_eq_some_iff, Prod.mk.injEq] at h
    obtain ⟨_, ⟨_, _, _, _, rfl⟩, rfl, _⟩ := h
    rfl
  | prec p s =>
    simp only [step, Option.map_eq_some_iff, Prod.mk.injEq] at h
    obtain ⟨d2, h, rfl, _⟩ := h
    unfold setPrecedenceStart at h
    split at h
    · split at h
      · cases h; rfl
      · split at h
        · cases h; rfl
        · rw [Option.map_eq_some_iff] at h
          obtain ⟨_, _, rfl⟩ := h; rfl
    · cases h
  | s0Configs cs =>
    simp only [step, Option.bind_eq_some_iff, Option.map_eq_some_iff, Prod.mk.injEq] at h
    obtain ⟨_, _, _, _, rfl, _⟩ := h; rfl
  | s0 n => simp only [step, Option.some.injEq, Prod.mk.injEq] at h; obtain ⟨rfl, _⟩ := h; rfl

theorem registered_mono (ops : List Op) (op : Op) (j : Nat) (E : DFAState)
    (h : (registered ops)[j]? = some E) : (registered (ops ++ [op]))[j]? = some E := by
  rw [registered_snoc]
  cases op <;> simp only <;> try exact h
  split
  · exact h
  · rw [List.getElem?_append_left (List.getElem?_eq_some_iff.1 h).1]; exact h

/-- Every number returned for a state is that of a registered equal state. -/
theorem history_results (h0 : DFA.new atn start dec = some d0) (hm : 0 ≤ maxTT) (hm' : maxTT < 2 ^ 62)
    (hh : ∀ a b : ConfigSet, a.same b = true → hash a = hash b)
    (hist : History hash maxTT d0 ops d res) :
    res.length = ops.length ∧ ∀ (i : Nat) (D : DFAState) (n : Nat), ops[i]? = some (Op.state D) → res[i]? = some (some n) →
      ∃ j E, n = base d + j ∧ (registered ops)[j]? = some E ∧ E.configs.same D.configs = true := by
  induction hist with
  | nil => simp
  | @snoc ops d res op d' r hist' ha hs ih =>
    have hb : base d' = base d := by simp only [base, step_isPrecedence hs]
    have inv := history_inv h0 hm hm' hh hist'
    obtain ⟨hl, ih⟩ := ih
    refine ⟨by simp [hl], ?_⟩
    intro i D n hi hr
    rw [hb]
    by_cases hlt : i < ops.length
    · rw [List.getElem?_append_left hlt] at hi
      rw [List.getElem?_append_left (by omega)] at hr
      obtain ⟨j, E, h1, h2, h3⟩ := ih i D n hi hr
      exact ⟨j, E, h1, registered_mono _ _ _ _ h2, h3⟩
    · have hi' : i = ops.length := by
        have := (List.getElem?_eq_some_iff.1 hi).1; simp at this; omega
      subst hi'
      rw [← hl] at hr
      simp at hi hr
      subst hi hr
      obtain ⟨hD0, hDe⟩ := ha
      simp only [step, addState, Option.some.injEq, Prod.mk.injEq] at hs
      rw [if_neg (by rw [hD0]; decide)] at hs
      obtain ⟨hf1, hf2⟩ := find_spec hh inv D
      cases hf : findState hash d D with
      | some k =>
        rw [hf] at hs
        simp only at hs
        obtain ⟨j, E, h1, h2, h3⟩ := hf1 k hf
        refine ⟨j, E, ?_, registered_mono _ _ _ _ h2, h3⟩
        rw [← hs.2]; exact h1
      | none =>
        rw [hf] at hs
        simp only at hs
        refine ⟨(registered ops).length, D, ?_, ?_, ?_⟩
        · rw [← hs.2]; exact inv.len
        · rw [registered_snoc]; simp only [hf2 hf]; simp
        · rw [ConfigSet.same_iff]

theorem registered_first (ops : List Op) (j : Nat) (E : DFAState) (h : (registered ops)[j]? = some E) :
    ∃ k : Nat, ops[k]? = some (Op.state E) ∧
      ∀ k' < k, ∀ E' : DFAState, ops[k']? = some (Op.state E') → E'.configs.same E.configs = false := by
  have hall : ∀ (ops : List Op) (E : DFAState), Op.state E ∈ ops →
      ∃ F ∈ registered ops, F.configs.same E.configs = true := by
    intro ops E
    induction ops using List.reverseRecOn with
    | nil => simp
    | append_singleton l op ih =>
      intro hmem
      rw [List.mem_append] at hmem
      rcases hmem with hmem | hmem
      · obtain ⟨F, hF, hs⟩ := ih hmem
        obtain ⟨k, hk⟩ := List.mem_iff_getElem?.1 hF
        exact ⟨F, List.mem_of_getElem? (registered_mono l op k F hk), hs⟩
      · simp at hmem; subst hmem
        rw [registered_snoc]
        simp only
        split
        · rename_i ha
          obtain ⟨F, hF, hs⟩ := List.any_eq_true.1 ha
          exact ⟨F, hF, hs⟩
        · exact ⟨E, by simp, by rw [ConfigSet.same_iff]⟩
  induction ops using List.reverseRecOn generalizing j E with
  | nil => simp [registered] at h
  | append_singleton l op ih =>
    by_cases hj : (registered l)[j]? = some E
    · obtain ⟨k, hk, hk'⟩ := ih j E hj
      have hlt := (List.getElem?_eq_some_iff.1 hk).1
      refine ⟨k, by rw [List.getElem?_append_left hlt]; exact hk, ?_⟩
      intro k' hk1 E' hE'
      rw [List.getElem?_append_left (by omega)] at hE'
      exact hk' k' hk1 E' hE'
    · rw [registered_snoc] at h
      cases op with
      | state D =>
        simp only at h
        split at h
        · exact absurd h hj
        · rename_i hany
          by_cases hlt : j < (registered l).length
          · rw [List.getElem?_append_left hlt] at h; exact absurd h hj
          · have : j = (registered l).length := by
              have := (List.getElem?_eq_some_iff.1 h).1; simp at this; omega
            subst this
            simp at h
            subst h
            refine ⟨l.length, by simp, ?_⟩
            intro k' hk' E' hE'
            rw [List.getElem?_append_left hk'] at hE'
            by_contra hne
            have hne : E'.configs.same D.configs = true := by simpa using hne
            obtain ⟨F, hF, hFs⟩ := hall l E' (List.mem_of_getElem? hE')
            apply hany
            refine List.any_eq_true.2 ⟨F, hF, ?_⟩
            rw [ConfigSet.same_iff] at hFs hne ⊢
            rw [hFs, hne]
      | edge => exact absurd h hj
      | prec => exact absurd h hj
      | s0Configs => exact absurd h hj
      | s0 => exact absurd h hj

/-- **C37, numbering.**  After any history, two added states got the same number exactly if their
configuration sets are equal — whatever the hash function does, as long as equal sets hash alike. -/
theorem C37_state_numbers (h0 : DFA.new atn start dec = some d0) (hm : 0 ≤ maxTT) (hm' : maxTT < 2 ^ 62)
    (hh : ∀ a b : ConfigSet, a.same b = true → hash a = hash b)
    (hist : History hash maxTT d0 ops d res)
    {i j : Nat} {D E : DFAState} {m n : Nat}
    (hi : ops[i]? = some (Op.state D)) (hri : res[i]? = some (some m))
    (hj : ops[j]? = some (Op.state E)) (hrj : res[j]? = some (some n)) :
    m = n ↔ D.configs.same E.configs = true := by
  have inv := history_inv h0 hm hm' hh hist
  obtain ⟨_, hr⟩ := history_results h0 hm hm' hh hist
  obtain ⟨a, A, rfl, hA, hAD⟩ := hr i D m hi hri
  obtain ⟨b, B, rfl, hB, hBE⟩ := hr j E n hj hrj
  rw [ConfigSet.same_iff] at hAD hBE ⊢
  have hlt1 := (List.getElem?_eq_some_iff.1 hA)
  have hlt2 := (List.getElem?_eq_some_iff.1 hB)
  obtain ⟨la, ga⟩ := hlt1
  obtain ⟨lb, gb⟩ := hlt2
  constructor
  · intro h
    have : a = b := by omega
    subst this
    rw [hA] at hB; cases hB
    rw [← hAD, hBE]
  · intro h
    have hab : A.configs.norm = B.configs.norm := by rw [hAD, hBE, h]
    have hp := List.pairwise_iff_getElem.1 inv.nodup
    rcases Nat.lt_trichotomy a b with hl | hl | hl
    · have := hp a b la lb hl; rw [ga, gb] at this; exact absurd hab this
    · rw [hl]
    · have := hp b a lb la hl; rw [ga, gb] at this; exact absurd hab.symm this

/-- **C37, states are kept.**  Under the number returned for a state the DFA holds, for ever after,
the first added state with an equal configuration set: its configurations frozen, its number and its
edges filled in, everything else as it was added. -/
theorem C37_state_kept (h0 : DFA.new atn start dec = some d0) (hm : 0 ≤ maxTT) (hm' : maxTT < 2 ^ 62)
    (hh : ∀ a b : ConfigSet, a.same b = true → hash a = hash b)
    (hist : History hash maxTT d0 ops d res)
    {i : Nat} {D : DFAState} {m : Nat}
    (hi : ops[i]? = some (Op.state D)) (hri : res[i]? = some (some m)) :
    ∃ (k : Nat) (E : DFAState) (e : List Nat), ops[k]? = some (Op.state E) ∧ E.configs.same D.configs = true ∧
      (∀ k' < k, ∀ E' : DFAState, ops[k']? = some (Op.state E') → E'.configs.same D.configs = false) ∧
      d.states[m]? = some { E with stateNumber := m, edges := e,
                                   configs := { E.configs with readOnly := true } } := by
  have inv := history_inv h0 hm hm' hh hist
  obtain ⟨_, hr⟩ := history_results h0 hm hm' hh hist
  obtain ⟨a, A, rfl, hA, hAD⟩ := hr i D m hi hri
  obtain ⟨k, hk, hk'⟩ := registered_first ops a A hA
  obtain ⟨e, he⟩ := inv.st a A hA
  refine ⟨k, A, e, hk, hAD, ?_, he⟩
  intro k' hlt E' hE'
  have := hk' k' hlt E' hE'
  by_contra hc
  have hc : E'.configs.same D.configs = true := by simpa using hc
  have : E'.configs.same A.configs = true := by
    rw [ConfigSet.same_iff] at hc hAD ⊢; rw [hc, hAD]
  simp_all

/-- **C37, edges.**  After any history, the target found for a state and a token is the last one
stored for them, and none if that was never stored, was 0, or if the token is outside `-1 ..
max_token_type`. -/
theorem C37_edges (h0 : DFA.new atn start dec = some d0) (hm : 0 ≤ maxTT) (hm' : maxTT < 2 ^ 62)
    (hh : ∀ a b : ConfigSet, a.same b = true → hash a = hash b)
    (hist : History hash maxTT d0 ops d res) (src : Nat) (hs : base d ≤ src)
    (hs' : src < d.states.length) (t : Int) (ht : -1 ≤ t) (ht' : t < 2 ^ 63) :
    d.existingTarget src t = some (lastEdge maxTT src t ops) := by
  have inv := history_inv h0 hm hm' hh hist
  have hget : d.states[src]? = some d.states[src] := List.getElem?_eq_getElem hs'
  unfold existingTarget
  rw [hget]
  simp only [Option.map_some]
  rw [inv.edges src _ t hs hget ht ht']

/-- **C37, precedence start states.**  They are found exactly under the precedence they were last
stored under; a negative precedence stores nothing. -/
theorem C37_precedence (h0 : DFA.new atn start dec = some d0) (hm : 0 ≤ maxTT) (hm' : maxTT < 2 ^ 62)
    (hh : ∀ a b : ConfigSet, a.same b = true → hash a = hash b)
    (hist : History hash maxTT d0 ops d res) (hp : d.isPrecedence = true) (p : Int) (h1 : 0 ≤ p)
    (h2 : p < 2 ^ 63) :
    d.getPrecedenceStart p = some (lastPrec p ops) := by
  have inv := history_inv h0 hm hm' hh hist
  have hb : base d = 2 := by simp [base, hp]
  have hlen := inv.len
  have hget : d.states[1]? = some d.states[1] := List.getElem?_eq_getElem (by omega)
  unfold getPrecedenceStart
  rw [if_pos hp, inv.s0 hp]
  simp only
  rw [hget]
  simp only [Option.map_some]
  rw [asUsize_small p h1 (by omega), inv.precs hp _ hget p.toNat]
  congr 2; omega

/-- **C37, no panic.**  No allowed update panics, after any history. -/
theorem C37_no_panic (h0 : DFA.new atn start dec = some d0) (hm : 0 ≤ maxTT) (hm' : maxTT < 2 ^ 62)
    (hh : ∀ a b : ConfigSet, a.same b = true → hash a = hash b)
    (hist : History hash maxTT d0 ops d res) (op : Op) (ha : Allowed d op) :
    (step hash maxTT d op).isSome = true := by
  have inv := history_inv h0 hm hm' hh hist
  have hlen := inv.len
  have hmax : asUsize maxTT = maxTT.toNat := asUsize_small _ hm (by omega)
  cases op with
  | state D => rfl
  | edge src t dst =>
    obtain ⟨ha1, ha2⟩ := ha
    have hget : d.states[src]? = some d.states[src] := List.getElem?_eq_getElem ha2
    simp only [step, addEdge, hget, Option.bind_some, Option.isSome_map]
    unfold edgeIn
    split
    · rfl
    · rename_i hin
      have ht1 : asUsize (t + 1) = (t + 1).toNat := asUsize_small _ (by omega) (by omega)
      simp only
      rw [if_pos]
      · rfl
      · rcases inv.shape src _ ha1 hget with h | h
        · rw [h]
          simp only [List.isEmpty_nil, if_true]
          rw [growTo_length _ _ (by simp)]; omega
        · rw [if_neg]
          · omega
          · intro hem; rw [List.isEmpty_iff] at hem; rw [hem] at h; simp at h
  | prec p s =>
    have hb : base d = 2 := by simp [base, show d.isPrecedence = true from ha]
    have hget : d.states[1]? = some d.states[1] := List.getElem?_eq_getElem (by omega)
    simp only [step, Option.isSome_map]
    unfold setPrecedenceStart
    have ha : d.isPrecedence = true := ha
    rw [if_pos ha]
    split
    · rfl
    · rw [inv.s0 ha]
      simp only
      rw [hget]; rfl
  | s0Configs cs =>
    have hb : base d = 2 := by simp [base, show d.isPrecedence = true from ha]
    have hget : d.states[1]? = some d.states[1] := List.getElem?_eq_getElem (by omega)
    simp only [step, inv.s0 ha, Option.bind_some, Option.isSome_map]
    rw [hget]; rfl
  | s0 n => rfl

end

/-! A non-trivial history: two sets with one hash, an edge between the states, one of them added
again, on a precedence DFA. -/
section Example

def exAtn : ATN :=
  { grammarType := .parser, maxTokenType := 3,
    states := [{ stateType := .decision 0 false (.starLoopEntry 0 true) }] }
def exSet (st : Nat) : ConfigSet :=
  { fullCtx := false, configs := [{ state := st, alt := 1, ctx := PC.EMPTY }] }
def exD (st : Nat) : DFAState := DFAState.new 0 (exSet st)
def exOps : List Op :=
  [.state (exD 4), .prec 2 2, .state (exD 5), .edge 2 1 3, .edge 2 7 3, .edge 3 (-1) 2,
   .state (exD 4)]
def exRun : List Op → Option (DFA × List (Option Nat)) → Option (DFA × List (Option Nat))
  | [], r => r
  | op :: ops, r => exRun ops (r.bind fun (d, res) =>
      (step (fun _ => 7) 3 d op).map fun (d', x) => (d', res ++ [x]))

def exEnd : Option (DFA × List (Option Nat)) :=
  exRun exOps ((DFA.new exAtn 0 0).map fun d => (d, []))

example : exEnd.map (fun r => r.2) = some [some 2, none, some 3, none, none, none, some 2] := by
  decide +kernel
example : exEnd.map (fun r => [r.1.existingTarget 2 1, r.1.existingTarget 2 2,
    r.1.existingTarget 2 7, r.1.existingTarget 3 (-1)]) =
    some [some (some 3), some none, some none, some (some 2)] := by decide +kernel
example : exEnd.map (fun r => [r.1.getPrecedenceStart 2, r.1.getPrecedenceStart 1]) =
    some [some (some 2), some none] := by decide +kernel

end Example

end Antlr.DFAProps
