import Verif.Lexer.Abs

/-!
# The cached matcher against a matcher without a cache

`DInv` is what every DFA filled by the lexer simulator satisfies; under it the cached loop agrees with
the pure loop `prun` (`loop_spec`).
-/

namespace Antlr.LexCache
open Antlr Lexer ConfigSet

set_option linter.unusedSectionVars false

section
variable {q : Option (List LexerAction) → Option (List LexerAction)}

/-! ## Without predicates nothing depends on the input position -/

theorem collect_false {α ε : Type} {f f' : α → Option (List ε × Bool)} {l : List α} {evs : List ε}
    (h : collect f l = some (evs, false))
    (hf : ∀ a ∈ l, ∀ x, f a = some (x, false) → f' a = some (x, false)) :
    collect f' l = some (evs, false) := by
  induction l generalizing evs with
  | nil => exact h
  | cons a as ih =>
    simp only [collect] at h ⊢
    obtain ⟨⟨x, b⟩, hr, h⟩ := Option.bind_eq_some_iff.mp h
    simp only [Option.map_eq_some_iff] at h
    obtain ⟨⟨y, b'⟩, hq, h⟩ := h
    injection h with h1 h2
    simp only [Bool.or_eq_false_iff] at h2
    obtain ⟨h2, h3⟩ := h2
    simp only at h1 h2 h3
    subst h2; subst h3
    rw [hf a (by simp) x hr, Option.bind_some, ih hq (fun z hz => hf z (by simp [hz]))]
    simp [h1]

theorem epsTarget_false {atn : ATN} {pred pred' : Int → Int → Option Bool} {eof : Bool} {c : Config}
    {tr : Trans} {o : Option Config} (h : epsTarget atn pred eof c tr = some (false, o)) :
    epsTarget atn pred' eof c tr = some (false, o) := by
  cases tr with
  | predicate t d r p =>
    simp only [epsTarget] at h
    obtain ⟨tst, _, h⟩ := Option.bind_eq_some_iff.mp h
    simp only [Option.map_eq_some_iff] at h
    obtain ⟨b, _, h⟩ := h
    simp at h
  | _ => exact h

theorem trace_false {atn : ATN} {pred pred' : Int → Int → Option Bool} {eof : Bool} (fuel : Nat) :
    ∀ {c : Config} {evs : List Ev}, trace atn pred eof fuel c = some (evs, false) →
      trace atn pred' eof fuel c = some (evs, false) := by
  induction fuel with
  | zero => intro c evs h; simp [trace] at h
  | succ fuel ih =>
    intro c evs h
    simp only [trace] at h ⊢
    obtain ⟨st, hst, h⟩ := Option.bind_eq_some_iff.mp h
    rw [hst]
    simp only [Option.bind_some]
    split at h
    · rename_i h1
      rw [if_pos h1]
      split at h
      · rename_i h2; rw [if_pos h2]; exact h
      · rename_i h2
        rw [if_neg h2]
        simp only [Option.map_eq_some_iff] at h ⊢
        obtain ⟨⟨r, b⟩, hr, h⟩ := h
        injection h with h3 h4
        simp only at h3 h4
        subst h4
        refine ⟨(r, false), ?_, by rw [h3]⟩
        split at hr
        · rename_i h5; rw [if_pos h5]; exact hr
        · rename_i h5
          rw [if_neg h5]
          refine collect_false hr ?_
          intro e _ x hx
          obtain ⟨parent, g1, hx⟩ := Option.bind_eq_some_iff.mp hx
          obtain ⟨rst, g2, hx⟩ := Option.bind_eq_some_iff.mp hx
          rw [g1, Option.bind_some, g2, Option.bind_some]
          exact ih hx
    · rename_i h1
      rw [if_neg h1]
      simp only [Option.map_eq_some_iff] at h ⊢
      obtain ⟨⟨r, b⟩, hr, h⟩ := h
      injection h with h3 h4
      simp only at h3 h4
      subst h4
      refine ⟨(r, false), ?_, by rw [h3]⟩
      refine collect_false hr ?_
      intro tr _ x hx
      obtain ⟨⟨b, o⟩, g1, hx⟩ := Option.bind_eq_some_iff.mp hx
      cases o with
      | none =>
        simp only [Option.some.injEq, Prod.mk.injEq] at hx
        obtain ⟨g2, g3⟩ := hx
        subst g3
        rw [epsTarget_false (pred' := pred') g1, Option.bind_some, ← g2]
      | some c' =>
        simp only [Option.map_eq_some_iff] at hx
        obtain ⟨⟨z, b'⟩, g2, g3⟩ := hx
        simp only [Prod.mk.injEq, Bool.or_eq_false_iff] at g3
        obtain ⟨g3, g4, g5⟩ := g3
        subst g4; subst g5
        rw [epsTarget_false (pred' := pred') g1, Option.bind_some]
        simp [ih g2, g3]

theorem contrib_false {atn : ATN} {pred pred' : Int → Int → Option Bool} {fuel : Nat} {t off : Int}
    {c : Config} {flag : Bool} {trs : List Trans} {ys : List Config} {brk : Bool}
    (h : contrib atn pred fuel t off c flag trs = some (ys, false, brk)) :
    contrib atn pred' fuel t off c flag trs = some (ys, false, brk) := by
  induction trs generalizing ys brk with
  | nil => exact h
  | cons tr trs ih =>
    simp only [contrib] at h ⊢
    obtain ⟨m, hm, h⟩ := Option.bind_eq_some_iff.mp h
    rw [hm]
    cases m with
    | none => exact ih h
    | some target =>
      dsimp only [Option.bind_some] at h ⊢
      obtain ⟨tst, h1, h⟩ := Option.bind_eq_some_iff.mp h
      obtain ⟨⟨r, b⟩, h2, h⟩ := Option.bind_eq_some_iff.mp h
      rw [h1]
      simp only [Option.bind_some]
      split at h
      · rename_i he
        simp only [Option.some.injEq, Prod.mk.injEq] at h
        obtain ⟨g1, g2, g3⟩ := h
        subst g2
        rw [trace_false (pred' := pred') fuel h2]
        simp [he, g1, g3]
      · rename_i he
        simp only [Option.map_eq_some_iff] at h
        obtain ⟨⟨z, b1, b2⟩, g1, g2⟩ := h
        simp only [Prod.mk.injEq, Bool.or_eq_false_iff] at g2
        obtain ⟨g2, ⟨g3, g4⟩, g5⟩ := g2
        subst g3; subst g4; subst g5
        rw [trace_false (pred' := pred') fuel h2]
        simp [he, ih g1, g2]

theorem reachList_false {atn : ATN} {pred pred' : Int → Int → Option Bool} {fuel : Nat} {t off : Int}
    {l : List Config} : ∀ {skip : Int} {ys : List Config},
    reachList atn pred fuel t off l skip = some (ys, false) →
    reachList atn pred' fuel t off l skip = some (ys, false) := by
  induction l with
  | nil => intro skip ys h; exact h
  | cons c rest ih =>
    intro skip ys h
    simp only [reachList] at h ⊢
    split at h
    · rename_i h1; rw [if_pos h1]; exact ih h
    · rename_i h1
      rw [if_neg h1]
      obtain ⟨st, h2, h⟩ := Option.bind_eq_some_iff.mp h
      obtain ⟨⟨r, b, brk⟩, h3, h⟩ := Option.bind_eq_some_iff.mp h
      simp only [Option.map_eq_some_iff] at h
      obtain ⟨⟨z, b1⟩, g1, g2⟩ := h
      simp only [Prod.mk.injEq, Bool.or_eq_false_iff] at g2
      obtain ⟨g2, g3, g4⟩ := g2
      subst g3; subst g4
      rw [h2, Option.bind_some, contrib_false (pred' := pred') h3, Option.bind_some]
      simp only at g1 ⊢
      rw [ih g1]
      simp [g2]

theorem startList_false {atn : ATN} {pred pred' : Int → Int → Option Bool} {fuel : Nat}
    {trs : List Trans} : ∀ {i : Nat} {ys : List Config},
    startList atn pred fuel trs i = some (ys, false) → startList atn pred' fuel trs i = some (ys, false) := by
  induction trs with
  | nil => intro i ys h; exact h
  | cons tr trs ih =>
    intro i ys h
    simp only [startList] at h ⊢
    obtain ⟨⟨r, b⟩, h3, h⟩ := Option.bind_eq_some_iff.mp h
    simp only [Option.map_eq_some_iff] at h
    obtain ⟨⟨z, b1⟩, g1, g2⟩ := h
    simp only [Prod.mk.injEq, Bool.or_eq_false_iff] at g2
    obtain ⟨g2, g3, g4⟩ := g2
    subst g3; subst g4
    rw [trace_false (pred' := pred') fuel h3, Option.bind_some, ih g1]
    simp [g2]

/-! ## What a list of configurations accepts -/

/-- Token type and executor (seen through `q`) of the first rule stop configuration; outer `none` = index
panic. -/
def accOf (q : Option (List LexerAction) → Option (List LexerAction)) (atn : ATN) (l : List Config) :
    Option (Option (Int × Option (List LexerAction))) :=
  (firstStop atn l).bind fun fs =>
    match fs with
    | none => some none
    | some (c, st) => (atn.ruleToTokenType[st.ruleIndex]?).map fun tt => some (tt, q (execOf c))

theorem accOf_cons (atn : ATN) (c : Config) (l : List Config) :
    accOf q atn (c :: l) = (atn.states[c.state]?).bind fun st =>
      if st.stateType = .ruleStop then
        (atn.ruleToTokenType[st.ruleIndex]?).map fun tt => some (tt, q (execOf c))
      else accOf q atn l := by
  simp only [accOf, firstStop]
  cases atn.states[c.state]? with
  | none => rfl
  | some st => simp only [Option.bind_some]; split <;> rfl

theorem accOf_er (hq : Blur q) (atn : ATN) {l l' : List Config} (h : l.map (er q) = l'.map (er q)) :
    accOf q atn l = accOf q atn l' := by
  induction l generalizing l' with
  | nil => cases l' with
    | nil => rfl
    | cons => simp at h
  | cons c l ih =>
    cases l' with
    | nil => simp at h
    | cons c' l' =>
      simp only [List.map_cons, List.cons.injEq] at h
      rw [accOf_cons, accOf_cons, (er_iff.mp h.1).1, er_exec hq h.1, ih h.2]

theorem accOf_fresh (atn : ATN) (l : List Config) : ∀ seen,
    (∀ c ∈ seen, ∃ st, atn.states[c.state]? = some st ∧ st.stateType ≠ .ruleStop) →
    accOf q atn (fresh seen l) = accOf q atn l := by
  induction l with
  | nil => intros; rfl
  | cons c l ih =>
    intro seen hs
    simp only [fresh]
    split
    · rename_i hc
      obtain ⟨st, h1, h2⟩ := hs c hc
      rw [accOf_cons, h1, Option.bind_some, if_neg h2, ih seen hs]
    · rw [accOf_cons, accOf_cons]
      cases h1 : atn.states[c.state]? with
      | none => rfl
      | some st =>
        simp only [Option.bind_some]
        split
        · rfl
        · rename_i h2
          apply ih
          intro x hx
          simp only [List.mem_append, List.mem_singleton] at hx
          rcases hx with hx | rfl
          · exact hs x hx
          · exact ⟨st, h1, h2⟩

theorem accOf_abs (hq : Blur q) (atn : ATN) (l : List Config) : accOf q atn (abs q l) = accOf q atn l := by
  rw [abs, firsts_eq_fresh, accOf_fresh atn _ [] (by simp)]
  exact accOf_er hq atn (by simp [er_er hq])

/-- A DFA state accepts `a`. -/
def StAcc (q : Option (List LexerAction) → Option (List LexerAction)) (s : DFAState) :
    Option (Int × Option (List LexerAction)) → Prop
  | none => s.isAccept = false
  | some (tt, e) => s.isAccept = true ∧ s.prediction = tt ∧ q s.executor = e

theorem mkState_spec (atn : ATN) (n : Nat) (cs : ConfigSet) :
    match accOf q atn cs.configs with
    | none => mkState atn n cs = none
    | some a => ∃ s, mkState atn n cs = some s ∧ s.configs.configs = cs.configs ∧ s.edges = [] ∧
        StAcc q s a := by
  simp only [accOf, mkState]
  cases firstStop atn cs.configs with
  | none => rfl
  | some fs =>
    cases fs with
    | none => exact ⟨_, rfl, rfl, rfl, rfl⟩
    | some x =>
      obtain ⟨c, st⟩ := x
      cases h : atn.ruleToTokenType[st.ruleIndex]? with
      | none => simp [h]
      | some tt => simp only [Option.bind_some, h, Option.map_some]; exact ⟨_, rfl, rfl, rfl, rfl, rfl, rfl⟩

/-! ## The invariant of the DFA -/

/-- Symbols an input can yield. -/
def Sym (t : Int) : Prop := -1 ≤ t ∧ t < 2 ^ 63

/-- What an edge says is what the computation would give, for every predicate. -/
def EdgeOk (q : Option (List LexerAction) → Option (List LexerAction)) (atn : ATN) (fc : Nat) (d : DFA)
    (s : DFAState) (t : Int) (x : Nat) : Prop :=
  ∃ ys, (∀ pred, reachList atn pred fc t 0 (abs q s.configs.configs) 0 = some (ys, false)) ∧
    ((x = ERROR_DFA_STATE_REF ∧ ys = []) ∨
      (ys ≠ [] ∧ 1 ≤ x ∧ x ≠ ERROR_DFA_STATE_REF ∧
        ∃ sx, d.states[x]? = some sx ∧ abs q sx.configs.configs = abs q ys))

structure StOk (q : Option (List LexerAction) → Option (List LexerAction)) (atn : ATN) (s : DFAState) :
    Prop where
  good : Good s.configs.configs
  acc : ∃ a, accOf q atn s.configs.configs = some a ∧ StAcc q s a
  len : s.edges.length ≤ 128

/-- The invariant of a lexer DFA whose start state has transitions `trs`.  State 0 is the unused one. -/
structure DInv (q : Option (List LexerAction) → Option (List LexerAction)) (atn : ATN)
    (hash : List Config → Nat) (fc : Nat) (trs : List Trans) (d : DFA) : Prop where
  pos : 0 < d.states.length
  small : d.states.length ≤ ERROR_DFA_STATE_REF
  state : ∀ i s, 1 ≤ i → d.states[i]? = some s → StOk q atn s
  edge : ∀ i s t x, 1 ≤ i → d.states[i]? = some s → Sym t →
    (s.edges[asUsize t]?).bind readEdge = some x → EdgeOk q atn fc d s t x
  map : ∀ h l, d.statesMap.lookup h = some l → ∃ i s, l.head? = some i ∧ 1 ≤ i ∧
    d.states[i]? = some s ∧ hash s.configs.configs = h
  start : ∀ i, d.s0 = some i → 1 ≤ i ∧ ∃ s ys, d.states[i]? = some s ∧
    (∀ pred, startList atn pred fc trs 0 = some (ys, false)) ∧ abs q s.configs.configs = abs q ys

/-- States of `d` are still there in `d'`, up to their edges. -/
def Ext (d d' : DFA) : Prop :=
  ∀ (i : Nat) (s : DFAState), d.states[i]? = some s → ∃ s' : DFAState, d'.states[i]? = some s' ∧ s'.configs = s.configs ∧
    s'.isAccept = s.isAccept ∧ s'.prediction = s.prediction ∧ s'.executor = s.executor

theorem Ext.refl (d : DFA) : Ext d d := fun _ s h => ⟨s, h, rfl, rfl, rfl, rfl⟩

theorem Ext.trans {d d' d'' : DFA} (h : Ext d d') (h' : Ext d' d'') : Ext d d'' := by
  intro i s hs
  obtain ⟨s', h1, h2, h3, h4, h5⟩ := h i s hs
  obtain ⟨s'', k1, k2, k3, k4, k5⟩ := h' i s' h1
  exact ⟨s'', k1, k2.trans h2, k3.trans h3, k4.trans h4, k5.trans h5⟩

theorem EdgeOk.mono {atn : ATN} {fc : Nat} {d d' : DFA} {s s' : DFAState} {t : Int} {x : Nat}
    (h : EdgeOk q atn fc d s t x) (he : Ext d d') (hs : s'.configs = s.configs) :
    EdgeOk q atn fc d' s' t x := by
  obtain ⟨ys, h1, h2⟩ := h
  refine ⟨ys, by rw [hs]; exact h1, ?_⟩
  rcases h2 with h2 | ⟨h2, h3, h4, sx, h5, h6⟩
  · exact .inl h2
  · obtain ⟨sx', k1, k2, _⟩ := he x sx h5
    exact .inr ⟨h2, h3, h4, sx', k1, by rw [k2]; exact h6⟩

theorem readEdge_some {x y : Nat} : readEdge x = some y ↔ x ≠ 0 ∧ x = y := by
  unfold readEdge; split <;> simp [*]

/-- An edge is only ever stored for an ASCII symbol. -/
theorem edge_ascii {s : DFAState} {t : Int} {x : Nat} (hl : s.edges.length ≤ 128) (ht : Sym t)
    (h : (s.edges[asUsize t]?).bind readEdge = some x) : 0 ≤ t ∧ t < 128 ∧ asUsize t = t.toNat := by
  obtain ⟨y, hy, _⟩ := Option.bind_eq_some_iff.mp h
  have hlt := (List.getElem?_eq_some_iff.mp hy).1
  obtain ⟨h1, h2⟩ := ht
  have : asUsize t < 128 := by omega
  unfold asUsize at this ⊢
  omega

theorem addState_spec {atn : ATN} {hash : List Config → Nat} {fc : Nat} {trs : List Trans} {d : DFA}
    (hq : Blur q) (hh : ∀ l l', hash l = hash l' → abs q l = abs q l')
    (h : DInv q atn hash fc trs d) {cs : ConfigSet} (hg : Good cs.configs) (hs : cs.hasSem = false)
    (hr : d.states.length < ERROR_DFA_STATE_REF) :
    match accOf q atn cs.configs with
    | none => addState atn hash d cs = none
    | some a => ∃ d' i s, addState atn hash d cs = some (d', i) ∧ DInv q atn hash fc trs d' ∧ Ext d d' ∧
        d'.states.length ≤ d.states.length + 1 ∧ 1 ≤ i ∧ d'.states[i]? = some s ∧
        abs q s.configs.configs = abs q cs.configs ∧ StAcc q s a := by
  have hm := mkState_spec (q := q) atn d.states.length cs
  cases hacc : accOf q atn cs.configs with
  | none => rw [hacc] at hm; simp only at hm; simp [addState, hs, hm]
  | some a =>
    rw [hacc] at hm
    obtain ⟨s, m1, m2, m3, m4⟩ := hm
    simp only [addState, hs, Bool.false_eq_true, if_false, m1, Option.bind_some]
    cases hl : d.statesMap.lookup (hash cs.configs) with
    | some l =>
      obtain ⟨i, s', k1, k2, k3, k4⟩ := h.map _ _ hl
      have hab := hh _ _ k4
      obtain ⟨a', e1, e2⟩ := (h.state i s' k2 k3).acc
      have : accOf q atn s'.configs.configs = accOf q atn cs.configs := by
        rw [← accOf_abs hq, hab, accOf_abs hq]
      rw [this, hacc] at e1
      injection e1 with e1
      subst e1
      simp only [k1, Option.map_some]
      exact ⟨d, i, s', rfl, h, Ext.refl d, by omega, k2, k3, hab, e2⟩
    | none =>
      have hext : Ext d { d with states := d.states ++ [s], statesMap := d.statesMap ++ [(hash cs.configs, [d.states.length])] } := by
        intro i x hx
        exact ⟨x, by
          simp only
          rw [List.getElem?_append_left (List.getElem?_eq_some_iff.mp hx).1, hx], rfl, rfl, rfl, rfl⟩
      refine ⟨_, _, s, rfl, ?_, hext, by simp, h.pos, by simp, by rw [m2], m4⟩
      have old : ∀ i x, (d.states ++ [s])[i]? = some x → d.states[i]? = some x ∨ (i = d.states.length ∧ x = s) := by
        intro i x hx
        by_cases hi : i < d.states.length
        · left; rwa [List.getElem?_append_left hi] at hx
        · right
          rw [List.getElem?_append_right (by omega)] at hx
          by_cases h0 : i - d.states.length = 0
          · rw [h0] at hx; simp at hx; exact ⟨by omega, hx.symm⟩
          · rw [List.getElem?_eq_none (by simp; omega)] at hx; simp at hx
      constructor
      · simp
      · simp; omega
      · intro i x hi hx
        rcases old i x hx with hx | ⟨_, rfl⟩
        · exact h.state i x hi hx
        · exact ⟨by rw [m2]; exact hg, ⟨a, by rw [m2]; exact hacc, m4⟩, by rw [m3]; simp⟩
      · intro i x t y hi hx ht hy
        rcases old i x hx with hx | ⟨_, rfl⟩
        · exact (h.edge i x t y hi hx ht hy).mono hext rfl
        · simp [m3] at hy
      · intro k l hk
        simp only [List.lookup_append] at hk
        cases hk' : d.statesMap.lookup k with
        | some l' =>
          rw [hk'] at hk
          simp only [Option.some_or, Option.some.injEq] at hk
          subst hk
          obtain ⟨i, x, g1, g2, g3, g4⟩ := h.map k l' hk'
          obtain ⟨x', j1, j2, -⟩ := hext i x g3
          exact ⟨i, x', g1, g2, j1, by rw [j2]; exact g4⟩
        | none =>
          rw [hk'] at hk
          simp only [Option.none_or, List.lookup_cons, List.lookup_nil] at hk
          by_cases hkk : k = hash cs.configs
          · simp only [hkk, beq_self_eq_true, Option.some.injEq] at hk
            subst hk
            exact ⟨d.states.length, s, rfl, h.pos, by simp, by rw [m2, hkk]⟩
          · have : (k == hash cs.configs) = false := by simp [hkk]
            simp [this] at hk
      · intro i hi
        obtain ⟨g1, x, ys, g2, g3, g4⟩ := h.start i hi
        obtain ⟨x', j1, j2, -⟩ := hext i x g2
        exact ⟨g1, x', ys, j1, g3, by rw [j2]; exact g4⟩

/-- `edgeIn` without its index check -/
def edgePut (s : DFAState) (t : Int) (dst : Nat) : DFAState :=
  if t < 0 ∨ t > 127 then s
  else { s with edges := (if s.edges.length < 128 then growTo s.edges 128 else s.edges).set t.toNat dst }

theorem edgeIn_eq (s : DFAState) (t : Int) (x : Nat) : edgeIn s t x = some (edgePut s t x) := by
  unfold edgeIn edgePut
  split
  · rfl
  · refine if_pos ?_
    split
    · simp [growTo]; omega
    · omega

theorem addEdge_eq (d : DFA) (i : Nat) (t : Int) (x : Nat) :
    addEdge d i t x = (d.states[i]?).map fun s => { d with states := d.states.set i (edgePut s t x) } := by
  unfold addEdge
  cases d.states[i]? with
  | none => rfl
  | some s => simp only [Option.bind_some, edgeIn_eq, Option.map_some]

theorem addEdge_spec {atn : ATN} {hash : List Config → Nat} {fc : Nat} {trs : List Trans} {d : DFA}
    (h : DInv q atn hash fc trs d) {i : Nat} {s : DFAState} (hi : 1 ≤ i) (hs : d.states[i]? = some s) {t : Int}
    {x : Nat} (hx : EdgeOk q atn fc d s t x) :
    ∃ d', addEdge d i t x = some d' ∧ DInv q atn hash fc trs d' ∧ Ext d d' ∧
      d'.states.length = d.states.length := by
  have hlt := (List.getElem?_eq_some_iff.mp hs).1
  have hcfg : (edgePut s t x).configs = s.configs ∧ (edgePut s t x).isAccept = s.isAccept ∧
      (edgePut s t x).prediction = s.prediction ∧ (edgePut s t x).executor = s.executor := by
    unfold edgePut; split <;> simp
  have hext : Ext d { d with states := d.states.set i (edgePut s t x) } := by
    intro j y hy
    by_cases hj : i = j
    · subst hj
      rw [hs] at hy
      injection hy with hy
      subst hy
      exact ⟨edgePut s t x, by simp [List.getElem?_set_self hlt], hcfg⟩
    · exact ⟨y, by simp only; rw [List.getElem?_set_ne hj]; exact hy, rfl, rfl, rfl, rfl⟩
  refine ⟨_, by rw [addEdge_eq, hs]; rfl, ?_, hext, by simp⟩
  have old : ∀ j y, (d.states.set i (edgePut s t x))[j]? = some y →
      (i ≠ j ∧ d.states[j]? = some y) ∨ (i = j ∧ y = edgePut s t x) := by
    intro j y hy
    by_cases hj : i = j
    · subst hj
      rw [List.getElem?_set_self hlt] at hy
      injection hy with hy
      exact .inr ⟨rfl, hy.symm⟩
    · rw [List.getElem?_set_ne hj] at hy
      exact .inl ⟨hj, hy⟩
  have hok := h.state i s hi hs
  have hlen : (edgePut s t x).edges.length ≤ 128 := by
    have := hok.len
    unfold edgePut
    split
    · exact this
    · simp only [List.length_set]
      split
      · simp [growTo]; omega
      · exact this
  constructor
  · simpa using h.pos
  · simpa using h.small
  · intro j y hj hy
    rcases old j y hy with ⟨_, hy⟩ | ⟨rfl, rfl⟩
    · exact h.state j y hj hy
    · obtain ⟨a, a1, a2⟩ := hok.acc
      refine ⟨by rw [hcfg.1]; exact hok.good, ⟨a, by rw [hcfg.1]; exact a1, ?_⟩, hlen⟩
      cases a with
      | none => exact hcfg.2.1.trans a2
      | some p => exact ⟨hcfg.2.1.trans a2.1, hcfg.2.2.1.trans a2.2.1, by rw [hcfg.2.2.2]; exact a2.2.2⟩
  · intro j y u z hj hy hu hz
    rcases old j y hy with ⟨_, hy⟩ | ⟨rfl, rfl⟩
    · exact (h.edge j y u z hj hy hu hz).mono hext rfl
    · obtain ⟨u1, u2, u3⟩ := edge_ascii hlen hu hz
      unfold edgePut at hz
      split at hz
      · rename_i hr
        exact (h.edge i s u z hi hs hu hz).mono hext hcfg.1
      · rename_i hr
        rw [u3] at hz
        simp only at hz
        by_cases hut : u = t
        · subst hut
          obtain ⟨v, v1, v2⟩ := Option.bind_eq_some_iff.mp hz
          rw [List.getElem?_set_self'] at v1
          have : v = x := by
            cases hg : ((if s.edges.length < 128 then growTo s.edges 128 else s.edges)[u.toNat]?) with
            | none => rw [hg] at v1; simp at v1
            | some w => rw [hg] at v1; simp at v1; exact v1.symm
          have := (readEdge_some.mp v2).2
          subst this
          subst v
          exact hx.mono hext hcfg.1
        · rw [List.getElem?_set_ne (by omega)] at hz
          apply (h.edge i s u z hi hs hu ?_).mono hext hcfg.1
          rw [u3]
          split at hz
          · obtain ⟨v, v1, v2⟩ := Option.bind_eq_some_iff.mp hz
            simp only [growTo] at v1
            by_cases hl : u.toNat < s.edges.length
            · rw [List.getElem?_append_left hl] at v1
              rw [v1]; exact v2
            · rw [List.getElem?_append_right (by omega), List.getElem?_replicate] at v1
              split at v1
              · simp at v1; subst v1; simp [readEdge] at v2
              · simp at v1
          · exact hz
  · intro k l hk
    obtain ⟨j, y, g1, g2, g3, g4⟩ := h.map k l hk
    obtain ⟨y', j1, j2, -⟩ := hext j y g3
    exact ⟨j, y', g1, g2, j1, by rw [j2]; exact g4⟩
  · intro j hj
    obtain ⟨g1, y, ys, g2, g3, g4⟩ := h.start j hj
    obtain ⟨y', j1, j2, -⟩ := hext j y g2
    exact ⟨g1, y', ys, j1, g3, by rw [j2]; exact g4⟩

/-! ## The step -/

/-- The step without a cache. -/
def pstep (q : Option (List LexerAction) → Option (List LexerAction)) (atn : ATN)
    (pred : Int → Int → Option Bool) (fc : Nat) (t : Int) (m : List Config) : Option (List Config × Bool) :=
  (reachList atn pred fc t 0 m 0).map fun r => (abs q r.1, r.2)

theorem abs_eq_nil {l : List Config} : abs q l = [] ↔ l = [] := by
  constructor
  · intro h
    cases l with
    | nil => rfl
    | cons c l =>
      have : er q c ∈ abs q (c :: l) := (mem_firsts _ _).mpr (by simp)
      rw [h] at this; simp at this
  · rintro rfl; rfl

theorem good_firsts {l : List Config} (h : Good l) : Good (firsts l) :=
  ⟨fun c hc => h.plain c ((firsts_sublist l).subset hc), h.sorted.sublist (firsts_sublist l)⟩

/-- The step of the cached matcher when there is no edge. -/
theorem computeTarget_spec {atn : ATN} {hash : List Config → Nat} {fc : Nat} {trs : List Trans} {d : DFA}
    (hq : Blur q) (hh : ∀ l l', hash l = hash l' → abs q l = abs q l')
    (h : DInv q atn hash fc trs d) {i : Nat} {s : DFAState} (hi : 1 ≤ i) (hs : d.states[i]? = some s) {t off : Int}
    {pred : Int → Int → Option Bool} (hr : d.states.length < ERROR_DFA_STATE_REF) :
    match pstep q atn pred fc t (abs q s.configs.configs) with
    | none => computeTarget atn hash pred fc d i t off = none
    | some (ys, _) =>
      if ys = [] then ∃ d', computeTarget atn hash pred fc d i t off = some (d', ERROR_DFA_STATE_REF) ∧
        DInv q atn hash fc trs d' ∧ Ext d d' ∧ d'.states.length = d.states.length
      else match accOf q atn ys with
        | none => computeTarget atn hash pred fc d i t off = none
        | some a => ∃ d' j s', computeTarget atn hash pred fc d i t off = some (d', j) ∧
            DInv q atn hash fc trs d' ∧ Ext d d' ∧ d'.states.length ≤ d.states.length + 1 ∧
            1 ≤ j ∧ j ≠ ERROR_DFA_STATE_REF ∧ d'.states[j]? = some s' ∧
            abs q s'.configs.configs = ys ∧ StAcc q s' a := by
  have hok := h.state i s hi hs
  have h1 := reach_abs hq (atn := atn) (pred := pred) (fuel := fc) (t := t) (off := off) hok.good.sorted
  have h2 := reachSet_eq (atn := atn) (pred := pred) (fuel := fc) (t := t) (off := off)
    s.configs.configs 0 newOrdered hok.good.plain collect_new
  rw [show (reachList atn pred fc t 0 (abs q s.configs.configs) 0).map (fun r => (abs q r.1, r.2)) =
    pstep q atn pred fc t (abs q s.configs.configs) from rfl] at h1
  cases hl : reachList atn pred fc t off s.configs.configs 0 with
  | none =>
    rw [hl] at h1 h2
    simp only [Option.map_none] at h1
    rw [← h1]
    simp only at h2
    simp [computeTarget, hs, h2]
  | some r =>
    obtain ⟨ys, sem⟩ := r
    rw [hl] at h1 h2
    obtain ⟨cs, e1, c1, k1, s1⟩ := h2
    simp only [Option.map_some] at h1
    have hk : cs.configs = firsts ys := by rw [k1]; rfl
    have hsem : cs.hasSem = sem := by rw [s1]; simp [newOrdered]
    rw [← h1]
    have hgood := (reachList_mem _ hok.good hl).1
    have hedge : sem = false → ∀ d' x, ((x = ERROR_DFA_STATE_REF ∧ ys = []) ∨
        (ys ≠ [] ∧ 1 ≤ x ∧ x ≠ ERROR_DFA_STATE_REF ∧
        ∃ sx, d'.states[x]? = some sx ∧ abs q sx.configs.configs = abs q ys)) → EdgeOk q atn fc d' s t x := by
      intro hf d' x hx
      subst hf
      simp only [pstep] at h1
      obtain ⟨⟨ys', b⟩, g1, g2⟩ := Option.map_eq_some_iff.mp h1.symm
      simp only [Prod.mk.injEq] at g2
      obtain ⟨g2, rfl⟩ := g2
      have hnil : ys' = [] ↔ ys = [] := by rw [← abs_eq_nil (q := q), g2, abs_eq_nil]
      refine ⟨ys', fun pred' => reachList_false g1, ?_⟩
      rw [g2, Ne, hnil]
      exact hx
    simp only
    by_cases hys : ys = []
    · subst hys
      have hcs : cs.configs = [] := by rw [hk]; rfl
      simp only [show abs q [] = [] from rfl, if_true, computeTarget, hs, Option.bind_some, e1, hcs,
        List.isEmpty_nil, hsem]
      cases sem with
      | true => exact ⟨d, rfl, h, Ext.refl d, rfl⟩
      | false =>
        obtain ⟨d', g1, g2, g3, g4⟩ := addEdge_spec h hi hs (hedge rfl d ERROR_DFA_STATE_REF (.inl ⟨rfl, rfl⟩))
        exact ⟨d', by simp [g1], g2, g3, g4⟩
    · rw [if_neg (by rw [abs_eq_nil]; exact hys), accOf_abs hq]
      have hcs : cs.configs.isEmpty = false := by
        rw [hk]
        cases hf : firsts ys with
        | nil =>
          exfalso
          cases ys with
          | nil => exact hys rfl
          | cons y ys =>
            have := (mem_firsts (y :: ys) y).mpr (by simp)
            rw [hf] at this; simp at this
        | cons => rfl
      have h3 := addState_spec hq hh h (cs := { cs with hasSem := false }) (by simp only [hk]; exact good_firsts hgood) rfl hr
      have hacc : accOf q atn cs.configs = accOf q atn ys := by
        rw [hk, ← accOf_abs hq, abs_firsts, accOf_abs hq]
      simp only [hacc] at h3
      simp only [computeTarget, hs, Option.bind_some, e1, hcs, Bool.false_eq_true, if_false, hsem]
      cases ha : accOf q atn ys with
      | none => rw [ha] at h3; simp only at h3; simp [h3]
      | some a =>
        rw [ha] at h3
        obtain ⟨d', j, s', g1, g2, g3, g4, g5, g6, g7, g8⟩ := h3
        have hab : abs q s'.configs.configs = abs q ys := by rw [g7, hk, abs_firsts]
        have hj : j ≠ ERROR_DFA_STATE_REF := by
          have := (List.getElem?_eq_some_iff.mp g6).1
          have := g2.small
          omega
        simp only [g1, Option.bind_some]
        cases sem with
        | true => exact ⟨d', j, s', rfl, g2, g3, g4, g5, hj, g6, hab, g8⟩
        | false =>
          obtain ⟨s1', f1, f2, f3⟩ := g3 i s hs
          obtain ⟨d'', m1, m2, m3, m4⟩ := addEdge_spec g2 hi f1 (t := t) (x := j)
            ((hedge rfl d' j (.inr ⟨hys, g5, hj, s', g6, hab⟩)).mono (Ext.refl d') f2)
          obtain ⟨s'', n1, n2, n3, n4, n5⟩ := m3 j s' g6
          refine ⟨d'', j, s'', by simp [m1], m2, g3.trans m3, by omega, g5, hj, n1, by rw [n2]; exact hab, ?_⟩
          cases a with
          | none => exact n3.trans g8
          | some p => exact ⟨n3.trans g8.1, n4.trans g8.2.1, by rw [n5]; exact g8.2.2⟩

/-! ## The loop -/

/-- The position, token type and executor of the last accepting state. -/
structure PAcc where
  index : Int
  line : Int
  col : Int
  ttype : Int
  exec : Option (List LexerAction)
deriving DecidableEq, Repr

/-- Where the pure loop stopped. -/
structure PStop (D : Type) where
  cur : Cursor D
  prev : Option PAcc
  symbol : Int

variable {D : Type} [InputData D]

/-- Remember an accepting state. -/
def note (a : Option (Int × Option (List LexerAction))) (c : Cursor D) (prev : Option PAcc) : Option PAcc :=
  match a with
  | some (tt, e) => some ⟨c.input.index, c.line, c.col, tt, e⟩
  | none => prev

/-- The loop without a cache. -/
def prun (q : Option (List LexerAction) → Option (List LexerAction)) (atn : ATN)
    (sp : Int → Int → Cursor D → Bool) (fc : Nat) :
    Nat → Cursor D → List Config → Int → Option PAcc → Option (PStop D)
  | 0, _, _, _, _ => none
  | fuel + 1, c, m, symbol, prev =>
    (pstep q atn (fun r p => predValue sp r p true c) fc symbol m).bind fun r =>
      if r.1 = [] then some ⟨c, prev, symbol⟩
      else
        (accOf q atn r.1).bind fun a =>
          (if symbol ≠ EOF then c.consume else some c).bind fun c =>
            if a.isSome && decide (symbol = EOF) then some ⟨c, note a c prev, symbol⟩
            else (c.input.la 1).bind fun symbol => prun q atn sp fc fuel c r.1 symbol (note a c prev)

/-- The characters of the data. -/
def Sane (data : D) : Prop := ∀ i v, InputData.item data i = some v → 0 ≤ v ∧ v < 2 ^ 63

theorem sane_la {c : Cursor D} (h : Sane c.input.data) {s : Int} (hs : c.input.la 1 = some s) : Sym s := by
  simp only [InputStream.la, if_true, Option.some.injEq] at hs
  cases hi : InputData.item c.input.data c.input.index with
  | none => rw [hi] at hs; simp [EOF] at hs; subst hs; exact ⟨by omega, by omega⟩
  | some v =>
    rw [hi] at hs; simp at hs; subst hs
    obtain ⟨h1, h2⟩ := h _ _ hi
    exact ⟨by omega, h2⟩

theorem consume_data {c c' : Cursor D} (h : c.consume = some c') : c'.input.data = c.input.data := by
  simp only [Cursor.consume] at h
  obtain ⟨ch, _, h⟩ := Option.bind_eq_some_iff.mp h
  simp only [Option.map_eq_some_iff] at h
  obtain ⟨i, hi, h⟩ := h
  simp only [InputStream.consume, Option.map_eq_some_iff] at hi
  obtain ⟨x, _, hi⟩ := hi
  subst hi
  split at h <;> (subst h; rfl)

/-- The remembered accepting states agree. -/
def PrevRel (q : Option (List LexerAction) → Option (List LexerAction)) (d : DFA) (p : Option Accept)
    (p' : Option PAcc) : Prop :=
  match p, p' with
  | none, none => True
  | some a, some b => a.index = b.index ∧ a.line = b.line ∧ a.col = b.col ∧
      ∃ s, d.states[a.state]? = some s ∧ s.prediction = b.ttype ∧ q s.executor = b.exec
  | _, _ => False

theorem PrevRel.mono {d d' : DFA} {p : Option Accept} {p' : Option PAcc} (h : PrevRel q d p p') (he : Ext d d') :
    PrevRel q d' p p' := by
  cases p with
  | none => cases p' <;> exact h
  | some a => cases p' with
    | none => exact h
    | some b =>
      obtain ⟨h1, h2, h3, s, h4, h5, h6⟩ := h
      obtain ⟨s', k1, _, _, k2, k3⟩ := he _ _ h4
      exact ⟨h1, h2, h3, s', k1, k2.trans h5, by rw [k3]; exact h6⟩

theorem capture_spec {d : DFA} {c : Cursor D} {j : Nat} {s : DFAState} (hs : d.states[j]? = some s)
    {a : Option (Int × Option (List LexerAction))} (ha : StAcc q s a) {p : Option Accept} {p' : Option PAcc}
    (h : PrevRel q d p p') :
    ∃ p2, capture d c j p = some (a.isSome, p2) ∧ PrevRel q d p2 (note a c p') := by
  simp only [capture, hs, Option.map_some]
  cases a with
  | none => rw [if_neg (by rw [show s.isAccept = false from ha]; simp)]; exact ⟨p, rfl, h⟩
  | some x =>
    rw [if_pos ha.1]
    exact ⟨_, rfl, rfl, rfl, rfl, s, hs, ha.2.1, ha.2.2⟩

/-- The cached loop agrees with the pure one. -/
theorem loop_spec {atn : ATN} {hash : List Config → Nat} {fc : Nat} {trs : List Trans} (hq : Blur q)
    (hh : ∀ l l', hash l = hash l' → abs q l = abs q l') {sp : Int → Int → Cursor D → Bool} {start : Int}
    (fuel : Nat) : ∀ {d : DFA} {i : Nat} {s : DFAState} {c : Cursor D} {t : Int} {p : Option Accept}
      {p' : Option PAcc}, DInv q atn hash fc trs d → 1 ≤ i → d.states[i]? = some s → Sane c.input.data → Sym t →
      PrevRel q d p p' → d.states.length + fuel ≤ ERROR_DFA_STATE_REF →
      match prun q atn sp fc fuel c (abs q s.configs.configs) t p' with
      | none => execLoop atn hash sp fc start fuel c d i t p = none
      | some x => ∃ y, execLoop atn hash sp fc start fuel c d i t p = some y ∧ y.cur = x.cur ∧
          y.symbol = x.symbol ∧ PrevRel q y.dfa y.prev x.prev ∧ DInv q atn hash fc trs y.dfa ∧
          y.dfa.states.length ≤ d.states.length + fuel ∧ x.cur.input.data = c.input.data := by
  induction fuel with
  | zero => intros; rfl
  | succ fuel ih =>
    intro d i s c t p p' h hi hs hsa ht hp hr
    simp only [prun, execLoop]
    -- one step
    have step : ∀ (o : Option (DFA × Nat)), (match pstep q atn (fun r p => predValue sp r p true c) fc t
          (abs q s.configs.configs) with
        | none => o = none
        | some (ys, _) =>
          if ys = [] then ∃ d', o = some (d', ERROR_DFA_STATE_REF) ∧
            DInv q atn hash fc trs d' ∧ Ext d d' ∧ d'.states.length = d.states.length
          else match accOf q atn ys with
            | none => o = none
            | some a => ∃ d' j s', o = some (d', j) ∧
                DInv q atn hash fc trs d' ∧ Ext d d' ∧ d'.states.length ≤ d.states.length + 1 ∧
                1 ≤ j ∧ j ≠ ERROR_DFA_STATE_REF ∧ d'.states[j]? = some s' ∧
                abs q s'.configs.configs = ys ∧ StAcc q s' a) →
        match (pstep q atn (fun r p => predValue sp r p true c) fc t (abs q s.configs.configs)).bind fun r =>
          if r.1 = [] then some (PStop.mk c p' t)
          else
            (accOf q atn r.1).bind fun a =>
              (if t ≠ EOF then c.consume else some c).bind fun c =>
                if a.isSome && decide (t = EOF) then some ⟨c, note a c p', t⟩
                else (c.input.la 1).bind fun symbol => prun q atn sp fc fuel c r.1 symbol (note a c p') with
        | none => (o.bind fun r =>
            if r.2 = ERROR_DFA_STATE_REF then some (Stop.mk c r.1 p t)
            else
              (if t ≠ EOF then c.consume else some c).bind fun c =>
                (capture r.1 c r.2 p).bind fun cap =>
                  if cap.1 && decide (t = EOF) then some ⟨c, r.1, cap.2, t⟩
                  else (c.input.la 1).bind fun symbol =>
                    execLoop atn hash sp fc start fuel c r.1 r.2 symbol cap.2) = none
        | some x => ∃ y, (o.bind fun r =>
            if r.2 = ERROR_DFA_STATE_REF then some (Stop.mk c r.1 p t)
            else
              (if t ≠ EOF then c.consume else some c).bind fun c =>
                (capture r.1 c r.2 p).bind fun cap =>
                  if cap.1 && decide (t = EOF) then some ⟨c, r.1, cap.2, t⟩
                  else (c.input.la 1).bind fun symbol =>
                    execLoop atn hash sp fc start fuel c r.1 r.2 symbol cap.2) = some y ∧ y.cur = x.cur ∧
            y.symbol = x.symbol ∧ PrevRel q y.dfa y.prev x.prev ∧ DInv q atn hash fc trs y.dfa ∧
            y.dfa.states.length ≤ d.states.length + (fuel + 1) ∧ x.cur.input.data = c.input.data := by
      intro o ho
      cases hps : pstep q atn (fun r p => predValue sp r p true c) fc t (abs q s.configs.configs) with
      | none => rw [hps] at ho; simp only at ho; simp [ho]
      | some r =>
        obtain ⟨ys, sem⟩ := r
        rw [hps] at ho
        simp only [Option.bind_some] at ho ⊢
        by_cases hys : ys = []
        · simp only [hys, if_true] at ho ⊢
          obtain ⟨d', g1, g2, g3, g4⟩ := ho
          simp only [g1, Option.bind_some, if_true]
          exact ⟨_, rfl, rfl, rfl, hp.mono g3, g2, by simp only; omega, by first | rfl | trivial⟩
        · simp only [hys, if_false] at ho ⊢
          cases ha : accOf q atn ys with
          | none => rw [ha] at ho; simp only at ho; simp [ho]
          | some a =>
            rw [ha] at ho
            obtain ⟨d', j, s', g1, g2, g3, g4, g5, g6, g7, g8, g9⟩ := ho
            simp only [g1, Option.bind_some, g6, if_false]
            cases hc : (if t ≠ EOF then c.consume else some c) with
            | none => simp
            | some c' =>
              have hdat : c'.input.data = c.input.data := by
                split at hc
                · exact consume_data hc
                · injection hc with hc; rw [hc]
              simp only [Option.bind_some]
              obtain ⟨p2, k1, k2⟩ := capture_spec (c := c') g7 g9 (hp.mono g3)
              rw [k1]
              simp only [Option.bind_some]
              by_cases hst : (a.isSome && decide (t = EOF)) = true
              · simp only [hst, if_true]
                exact ⟨_, rfl, rfl, rfl, k2, g2, by simp only; omega, hdat⟩
              · simp only [hst]
                cases hla : c'.input.la 1 with
                | none => simp
                | some u =>
                  simp only [Bool.false_eq_true, if_false, Option.bind_some]
                  have hsa' : Sane c'.input.data := by rw [hdat]; exact hsa
                  have := ih g2 g5 g7 hsa' (sane_la hsa' hla) k2 (by omega)
                  rw [g8] at this
                  cases hpr : prun q atn sp fc fuel c' ys u (note a c' p') with
                  | none => rw [hpr] at this; exact this
                  | some x =>
                    rw [hpr] at this
                    obtain ⟨y, y1, y2, y3, y4, y5, y6, y7⟩ := this
                    exact ⟨y, y1, y2, y3, y4, y5, by omega, y7.trans hdat⟩
    simp only [existingTarget, hs, Option.map_some, Option.bind_some]
    cases he : (s.edges[asUsize t]?).bind readEdge with
    | none =>
      exact step (computeTarget atn hash (fun r p => predValue sp r p true c) fc d i t (c.input.index - start))
        (computeTarget_spec hq hh h hi hs (by omega))
    | some x =>
      apply step (some (d, x))
      obtain ⟨ys, e1, e2⟩ := h.edge i s t x hi hs ht he
      simp only [pstep, e1, Option.map_some]
      rcases e2 with ⟨rfl, rfl⟩ | ⟨e2, e3, e4, sx, e5, e6⟩
      · simp only [show abs q [] = [] from rfl, if_true]
        exact ⟨d, rfl, h, Ext.refl d, rfl⟩
      · rw [if_neg (by rw [abs_eq_nil]; exact e2), accOf_abs hq]
        obtain ⟨a, a1, a2⟩ := (h.state x sx e3 e5).acc
        rw [← accOf_abs hq, e6, accOf_abs hq] at a1
        rw [a1]
        exact ⟨d, x, sx, rfl, h, Ext.refl d, by omega, e3, e4, e5, e6, a2⟩

end

end Antlr.LexCache
