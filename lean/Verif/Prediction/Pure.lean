import Verif.Prediction.Work

/-!
Helper lemmas: without full context, what is computed depends neither on the merge cache nor on the counts of
rule ends passed (`reaches_into_outer_context`).  Two runs are compared.
-/

namespace Antlr
namespace PC
open StackSpec

theorem wf_same_key {l : List (Option PC × Int)} (h : l.Pairwise (fun x y => x.2 < y.2)) {p q : Option PC} {r : Int}
    (hp : (p, r) ∈ l) (hq : (q, r) ∈ l) : p = q := by
  induction l with
  | nil => simp at hp
  | cons x l ih =>
    rw [List.pairwise_cons] at h
    rcases List.mem_cons.1 hp with rfl | hp' <;> rcases List.mem_cons.1 hq with hq' | hq'
    · simp only [Prod.mk.injEq] at hq'; exact hq'.1.symm
    · have := h.1 _ hq'; simp at this
    · subst hq'; have := h.1 _ hp'; simp at this
    · exact ih h.2 hp' hq'

theorem loc_prefixFree {c : PC} {s : List Int} (h : HasStack c s) (hw : WF c) (hl : Loc c) {u : List Int}
    (h' : HasStack c (s ++ u)) : u = [] := by
  induction h with
  | bottomS => cases h'; rfl
  | bottomA hm =>
    cases hl with
    | push h1 h2 => exact absurd hm (h1 _)
  | @pushS p r s hp ih =>
    cases h' with
    | pushS h' =>
      cases hw with
      | single h1 h2 =>
        refine ih h2 ?_ h'
        cases hl with
        | push h3 h4 => exact h4 p r (by simp [entries])
  | @pushA l p r s hm hp ih =>
    cases h' with
    | @pushA _ q _ _ hm' h' =>
      cases hw with
      | array h1 h2 h3 h4 h5 =>
        obtain rfl : p = q := by simpa using wf_same_key h2 hm hm'
        refine ih (h5 _ _ hm) ?_ h'
        cases hl with
        | push h6 h7 => exact h7 p r (by simpa [entries] using hm)

theorem loc_canonical {a b : PC} (ha : WF a) (hb : WF b) (la : Loc a) (lb : Loc b) (h : ∀ s, Allows a s ↔ Allows b s) :
    a = b := by
  have key : ∀ {a b : PC}, WF a → Loc a → (∀ s, Allows a s ↔ Allows b s) → ∀ s, HasStack a s → HasStack b s := by
    intro a b ha la h s hs
    obtain ⟨t, u, rfl, ht⟩ := (h s).1 ⟨s, [], by simp, hs⟩
    obtain ⟨t', u', rfl, ht'⟩ := (h t).2 ⟨t, [], by simp, ht⟩
    rw [List.append_assoc] at hs
    have := loc_prefixFree ht' ha la hs
    simp only [List.append_eq_nil_iff] at this
    obtain ⟨rfl, rfl⟩ := this
    simpa using ht
  exact wf_canonical a b ha hb fun s => ⟨key ha la h s, key hb lb (fun s => (h s).symm) s⟩
end PC

namespace Prediction
open StackSpec ConfigSet PC PredictionSpec

variable {I : Type}

/-- A configuration set up to the counts. -/
def blur (s : ConfigSet) : ConfigSet := { s with configs := s.configs.map Config.norm, dips := false }

theorem norm_iff {c c' : Config} : c.norm = c'.norm ↔ ∃ k, c' = { c with reaches := k } := by
  constructor
  · intro h
    refine ⟨c'.reaches, ?_⟩
    cases c; cases c'
    simp only [Config.norm, Config.mk.injEq] at h ⊢
    simp [h]
  · rintro ⟨k, rfl⟩
    rfl

/-- Two sets of local-context configurations that are the same up to the counts. -/
structure Pair (s s' : ConfigSet) : Prop where
  eq : blur s = blur s'
  loc : s.fullCtx = false
  fit : ∀ c ∈ s.configs, Fit false c.ctx
  noAlt : s.uniqueAlt = 0
  noConflict : s.conflictingAlts = []

theorem Pair.fields {s s' : ConfigSet} (h : Pair s s') : s.lookup = s'.lookup ∧
    s.configs.map Config.norm = s'.configs.map Config.norm ∧ s.conflictingAlts = s'.conflictingAlts ∧
    s.fullCtx = s'.fullCtx ∧ s.hasSem = s'.hasSem ∧ s.readOnly = s'.readOnly ∧ s.uniqueAlt = s'.uniqueAlt ∧
    s.ordered = s'.ordered := by
  have := h.eq
  simp only [blur, ConfigSet.mk.injEq] at this
  obtain ⟨a, b, c, -, d, e, f, g, i⟩ := this
  exact ⟨a, b, c, d, e, f, g, i⟩

theorem Pair.fit' {s s' : ConfigSet} (h : Pair s s') : ∀ c ∈ s'.configs, Fit false c.ctx := by
  intro c hc
  have : c.norm ∈ s.configs.map Config.norm := by rw [h.fields.2.1]; exact List.mem_map_of_mem hc
  obtain ⟨x, hx, e⟩ := List.mem_map.1 this
  obtain ⟨k, rfl⟩ := norm_iff.1 e
  exact h.fit x hx

/-- A merge cache that is right for local contexts. -/
def LFit (mc : Option PC.Cache) : Prop := CacheOk true mc ∧ CacheLoc mc

theorem LFit.none : LFit none := ⟨fun _ h => by simp at h, fun _ h => by simp at h⟩

theorem LFit.nil : LFit (some []) := ⟨fun _ h x hx => by cases h; simp at hx, CacheLoc.nil⟩

theorem merge_fit {a b : PC} (ha : Fit false a) (hb : Fit false b) {mc : Option PC.Cache} (h : LFit mc)
    {r : PC} {m : Option PC.Cache} (hr : merge a b true mc = some (r, m)) :
    Fit false r ∧ LFit m ∧ ∀ s, Allows r s ↔ Allows a s ∨ Allows b s := by
  obtain ⟨x, y, e1, e2, e3⟩ := merge_ok true true id a b ha.wf hb.wf mc h.1
  rw [hr] at e1
  cases e1
  obtain ⟨l1, l2⟩ := merge_loc a b (ha.loc rfl) (hb.loc rfl) _ _ _ h.2 hr
  refine ⟨⟨e2.1, fun _ => l1⟩, ⟨e3, l2⟩, fun s => ?_⟩
  have := e2.2 s
  simpa only [Den, if_true] using this

/-- Without full context merging gives the same context whatever is in the cache. -/
theorem merge_pure {a b : PC} (ha : Fit false a) (hb : Fit false b) {mc mc' : Option PC.Cache} (h : LFit mc)
    (h' : LFit mc') {r r' : PC} {m m' : Option PC.Cache} (hr : merge a b true mc = some (r, m))
    (hr' : merge a b true mc' = some (r', m')) : r = r' := by
  obtain ⟨h1, -, h2⟩ := merge_fit ha hb h hr
  obtain ⟨g1, -, g2⟩ := merge_fit ha hb h' hr'
  exact loc_canonical h1.wf g1.wf (h1.loc rfl) (g1.loc rfl) fun s => by rw [h2, g2]

theorem key_norm {s s' : ConfigSet} (h : s.ordered = s'.ordered) {c c' : Config} (hc : c.norm = c'.norm) :
    s.key c = s'.key c' := by
  obtain ⟨k, rfl⟩ := norm_iff.1 hc
  simp [ConfigSet.key, h]

theorem addCached_pair {s s' t t' : ConfigSet} (h : Pair s s') {c c' : Config} (hc : c.norm = c'.norm)
    (hf : Fit false c.ctx) {mc mc' m m' : Option PC.Cache} (hm : LFit mc) (hm' : LFit mc')
    (e : s.addCached c mc = some (t, m)) (e' : s'.addCached c' mc' = some (t', m')) :
    Pair t t' ∧ LFit m ∧ LFit m' := by
  obtain ⟨f1, f2, f3, f4, f5, f6, f7, f8⟩ := h.fields
  have hk := key_norm f8 hc
  obtain ⟨k, rfl⟩ := norm_iff.1 hc
  have hfit' := h.fit'
  unfold ConfigSet.addCached at e e'
  split at e
  · simp at e
  split at e'
  · simp at e'
  rw [← hk, ← f1] at e'
  cases hl : s.lookup.lookup (s.key c) with
  | none =>
    rw [hl] at e e'
    simp only [Option.some.injEq, Prod.mk.injEq] at e e'
    obtain ⟨rfl, rfl⟩ := e
    obtain ⟨rfl, rfl⟩ := e'
    refine ⟨⟨?_, h.loc, ?_, h.noAlt, h.noConflict⟩, hm, hm'⟩
    · have : s.configs.length = s'.configs.length := by simpa using congrArg List.length f2
      simp only [blur, noteFlags, List.map_append, List.map_cons, List.map_nil, f1, f2, f3, f4, f5, f6, f7, f8, this]
      rfl
    · intro x hx
      rcases List.mem_append.1 hx with hx | hx
      · exact h.fit x hx
      · rw [List.mem_singleton] at hx; subst hx; exact hf
  | some i =>
    rw [hl] at e e'
    dsimp only at e e'
    rw [Option.bind_eq_some_iff] at e e'
    obtain ⟨x, hx, e⟩ := e
    obtain ⟨x', hx', e'⟩ := e'
    rw [Option.map_eq_some_iff] at e e'
    obtain ⟨⟨r, mr⟩, hr, e⟩ := e
    obtain ⟨⟨r', mr'⟩, hr', e'⟩ := e'
    simp only [Prod.mk.injEq] at e e'
    obtain ⟨rfl, rfl⟩ := e
    obtain ⟨rfl, rfl⟩ := e'
    have hxx : x.norm = x'.norm := by
      have := congrArg (·[i]?) f2
      simpa [hx, hx'] using this
    obtain ⟨k', rfl⟩ := norm_iff.1 hxx
    have hxf := h.fit x (List.mem_of_getElem? hx)
    rw [← f4, h.loc] at hr'
    rw [h.loc] at hr
    dsimp only at hr'
    obtain rfl := merge_pure hxf hf hm hm' hr hr'
    obtain ⟨m1, m2, -⟩ := merge_fit hxf hf hm hr
    obtain ⟨-, m3, -⟩ := merge_fit hxf hf hm' hr'
    refine ⟨⟨?_, h.loc, ?_, h.noAlt, h.noConflict⟩, m2, m3⟩
    · simp only [blur, noteFlags, List.map_set, f1, f2, f3, f4, f5, f6, f7, f8]
      rfl
    · intro y hy
      rcases List.mem_or_eq_of_mem_set hy with hy | rfl
      · exact h.fit y hy
      · exact m1

/-! ### Closure -/

/-- What two calls of prediction have in common. -/
structure Alike (L L' : Local I) : Prop where
  atn : L.atn = L'.atn
  prec : L.isPrec = L'.isPrec
  start : L.atnStart = L'.atnStart
  ord : L.ord = L'.ord
  mode : L.mode = L'.mode

/-- Return states are numbers of states (and not the mark of the empty context). -/
def Small (atn : ATN) : Prop :=
  ∀ (s : Nat) (st : ATNState), atn.states[s]? = some st → ∀ t f r p, Trans.rule t f r p ∈ st.transitions → (f : Int) < EMPTY_RS

/-- Two runs of `closure` under way. -/
structure WPair (i i' : I) (w w' : Work I) : Prop where
  sets : Pair w.configs w'.configs
  busy : w.busy.map Config.norm = w'.busy.map Config.norm
  mc : LFit (some w.mc)
  mc' : LFit (some w'.mc)
  inp : w.inp = i
  inp' : w'.inp = i'

theorem Pair.dips {s s' : ConfigSet} (h : Pair s s') (b b' : Bool) : Pair { s with dips := b } { s' with dips := b' } := by
  refine ⟨?_, h.loc, h.fit, h.noAlt, h.noConflict⟩
  have := h.eq
  simp only [blur, ConfigSet.mk.injEq] at this ⊢
  exact this

theorem add_pair {i i' : I} {w w' v v' : Work I} (h : WPair i i' w w') {c c' : Config} (hc : c.norm = c'.norm)
    (hf : Fit false c.ctx) (e : w.add c = some v) (e' : w'.add c' = some v') : WPair i i' v v' := by
  unfold Work.add at e e'
  rw [Option.bind_eq_some_iff] at e e'
  obtain ⟨⟨t, m⟩, h1, e⟩ := e
  obtain ⟨⟨t', m'⟩, h1', e'⟩ := e'
  rw [Option.map_eq_some_iff] at e e'
  obtain ⟨a, ha, rfl⟩ := e
  obtain ⟨a', ha', rfl⟩ := e'
  dsimp only at ha ha'
  subst ha ha'
  obtain ⟨g1, g2, g3⟩ := addCached_pair h.sets hc hf h.mc h.mc' h1 h1'
  exact ⟨g1, h.busy, g2, g3, h.inp, h.inp'⟩

theorem isBusy_pair {w w' : Work I} (h : w.busy.map Config.norm = w'.busy.map Config.norm) {c c' : Config}
    (hc : c.norm = c'.norm) : w.isBusy c = w'.isBusy c' := by
  have : ∀ (l : List Config) (c : Config), l.any (·.same c) = (l.map Config.norm).any (· = c.norm) := by
    intro l c
    rw [List.any_map]
    congr 1
    funext x
    rw [Bool.eq_iff_iff]
    simp [Config.same_iff]
  rw [Work.isBusy, Work.isBusy, this, this, h, hc]

theorem predTransition_pair [TokStream I] {L L' : Local I} (hL : Alike L L') (c : Config) (k : Int) (t : Nat) (p : SC) (b : Bool)
    (i i' : I) : predTransition L' false { c with reaches := k } t p b i' =
      (predTransition L false c t p b i).map fun r => (r.1.map ({ · with reaches := k }), i') := by
  unfold predTransition cloned
  rw [← hL.atn, ← hL.ord]
  cases L.atn.states[t]? <;> cases b <;> simp

theorem epsilonTarget_pair [TokStream I] {L L' : Local I} (hL : Alike L L') (eof : Bool) (c : Config) (k : Int) (tr : Trans) (b b' : Bool)
    (i i' : I) : epsilonTarget L' false eof { c with reaches := k } tr b b' i' =
      (epsilonTarget L false eof c tr b b' i).map fun r => (r.1.map ({ · with reaches := k }), i') := by
  have hcl : ∀ t, cloned L'.atn { c with reaches := k } t = (cloned L.atn c t).map ({ · with reaches := k }) := by
    intro t
    rw [cloned, cloned, ← hL.atn]
    cases L.atn.states[t]? <;> simp
  cases tr <;> simp only [epsilonTarget, predTransition_pair hL c k _ _ _ i i', hcl, Option.map_map, Option.map_some,
    Option.map_none] <;> (try rfl)
  all_goals
    cases eof
    · rfl
    · simp only [if_true]
      cases Trans.matches _ TOKEN_EOF 0 1 with
      | none => rfl
      | some m => cases m <;> simp [Option.map_map, Function.comp_def]

theorem predTransition_inp [TokStream I] {L : Local I} {c : Config} {t : Nat} {p : SC} {b : Bool} {i : I}
    {r : Option Config × I} (h : predTransition L false c t p b i = some r) :
    r.2 = i ∧ ∀ c', r.1 = some c' → c'.ctx = c.ctx := by
  unfold predTransition cloned at h
  generalize L.atn.states[t]? = o at h
  cases o with
  | none => simp at h
  | some st =>
    cases b <;> simp at h <;> subst h <;> simp

theorem epsilonTarget_fit [TokStream I] {L : Local I} {eof : Bool} {c : Config} {tr : Trans} {b b' : Bool} {i : I}
    (hs : ∀ t f r p, tr = Trans.rule t f r p → (f : Int) < EMPTY_RS) (hc : Fit false c.ctx) {r : Option Config × I}
    (h : epsilonTarget L false eof c tr b b' i = some r) : r.2 = i ∧ ∀ c', r.1 = some c' → Fit false c'.ctx := by
  cases tr with
  | predicate t d r p =>
    obtain ⟨h1, h2⟩ := predTransition_inp h
    exact ⟨h1, fun c' e => h2 c' e ▸ hc⟩
  | precedence t p =>
    obtain ⟨h1, h2⟩ := predTransition_inp h
    exact ⟨h1, fun c' e => h2 c' e ▸ hc⟩
  | rule t f r p =>
    simp only [epsilonTarget, cloned, Option.map_map, Option.map_eq_some_iff] at h
    obtain ⟨a, -, rfl⟩ := h
    refine ⟨rfl, ?_⟩
    rintro c' e
    simp only [Function.comp_apply, Option.some.injEq] at e
    subst e
    refine ⟨.single (hs _ _ _ _ rfl) hc.wf, fun _ => .push ?_ ?_⟩
    · intro r hr
      simp [PC.entries] at hr
    · intro p r hr
      simp [PC.entries] at hr
      rw [hr.1]
      exact hc.loc rfl
  | epsilon t r =>
    simp only [epsilonTarget, cloned, Option.map_map, Option.map_eq_some_iff] at h
    obtain ⟨a, -, rfl⟩ := h
    refine ⟨rfl, ?_⟩
    rintro c' e
    simp only [Function.comp_apply, Option.some.injEq] at e
    subst e
    exact hc
  | action t r a x y =>
    simp only [epsilonTarget, cloned, Option.map_map, Option.map_eq_some_iff] at h
    obtain ⟨a, -, rfl⟩ := h
    refine ⟨rfl, ?_⟩
    rintro c' e
    simp only [Function.comp_apply, Option.some.injEq] at e
    subst e
    exact hc
  | notSet | wildcard =>
    simp only [epsilonTarget, Option.some.injEq] at h
    subst h
    exact ⟨rfl, by simp⟩
  | atom | set | range =>
    simp only [epsilonTarget] at h
    split at h
    · rw [Option.bind_eq_some_iff] at h
      obtain ⟨m, -, h⟩ := h
      split at h
      · simp only [cloned, Option.map_map, Option.map_eq_some_iff] at h
        obtain ⟨a, -, rfl⟩ := h
        refine ⟨rfl, ?_⟩
        rintro c' e
        simp only [Function.comp_apply, Option.some.injEq] at e
        subst e
        exact hc
      · simp only [Option.some.injEq] at h
        subst h
        exact ⟨rfl, by simp⟩
    · simp only [Option.some.injEq] at h
      subst h
      exact ⟨rfl, by simp⟩

theorem intoOuter_pair {L L' : Local I} (hL : Alike L L') {tr : Trans} {c c' x x' : Config} (hc : c.norm = c'.norm)
    (h : intoOuter L tr c = some x) (h' : intoOuter L' tr c' = some x') : x.norm = x'.norm ∧ x.ctx = c.ctx := by
  obtain ⟨k, rfl⟩ := norm_iff.1 hc
  unfold intoOuter at h h'
  rw [← hL.prec, ← hL.atn, ← hL.start] at h'
  split at h
  · next hp =>
    rw [if_pos hp] at h'
    rw [Option.bind_eq_some_iff] at h h'
    obtain ⟨r, hr, h⟩ := h
    obtain ⟨r', hr', h'⟩ := h'
    rw [hr] at hr'
    cases hr'
    rw [Option.map_eq_some_iff] at h h'
    obtain ⟨st, hst, rfl⟩ := h
    obtain ⟨st', hst', rfl⟩ := h'
    rw [hst] at hst'
    cases hst'
    exact ⟨rfl, rfl⟩
  · next hp =>
    rw [if_neg hp] at h'
    cases h
    cases h'
    exact ⟨rfl, rfl⟩

theorem canDrop_pair (atn : ATN) (c : Config) (k : Int) : canDrop atn { c with reaches := k } = canDrop atn c := rfl

/-- The recursive calls of two runs. -/
def RecPair (i i' : I) (rec rec' : Rec I) : Prop :=
  ∀ (c c' : Config) (b : Bool) (dp : Int) (w w' v v' : Work I), c.norm = c'.norm → Fit false c.ctx → WPair i i' w w' →
    rec c b dp w = some v → rec' c' b dp w' = some v' → WPair i i' v v'

variable [TokStream I] {L L' : Local I}

theorem workStep_pair (hL : Alike L L') {eof : Bool} {i i' : I} {rec rec' : Rec I} (hrec : RecPair i i' rec rec') {c c' : Config}
    (hc : c.norm = c'.norm) (hf : Fit false c.ctx) {b : Bool} {dp : Int} {st : ATNState} {tr : Trans} {x : Nat}
    (hs : ∀ t f r p, tr = Trans.rule t f r p → (f : Int) < EMPTY_RS) {w w' v v' : Work I} (hw : WPair i i' w w')
    (h : workStep L false eof rec c b dp st tr x w = some v)
    (h' : workStep L' false eof rec' c' b dp st tr x w' = some v') : WPair i i' v v' := by
  obtain ⟨k, rfl⟩ := norm_iff.1 hc
  unfold workStep at h h'
  rw [canDrop_pair, ← hL.atn] at h'
  rw [Option.bind_eq_some_iff] at h h'
  obtain ⟨drop, hd, h⟩ := h
  obtain ⟨drop', hd', h'⟩ := h'
  rw [hd] at hd'
  cases hd'
  cases drop with
  | true =>
    simp only [if_true, Option.some.injEq] at h h'
    subst h h'
    exact hw
  | false =>
    simp only [Bool.false_eq_true, if_false] at h h'
    rw [Option.bind_eq_some_iff] at h h'
    obtain ⟨r, hr, h⟩ := h
    obtain ⟨r', hr', h'⟩ := h'
    obtain ⟨e1, e2⟩ := epsilonTarget_fit hs hf hr
    rw [epsilonTarget_pair hL eof c k tr _ _ w.inp w'.inp, hr] at hr'
    simp only [Option.map_some, Option.some.injEq] at hr'
    subst hr'
    obtain ⟨o, ri⟩ := r
    dsimp only at e1 h h' e2
    subst e1
    cases o with
    | none =>
      simp only [Option.map_none, Option.some.injEq] at h h'
      subst h h'
      exact hw
    | some y =>
      simp only [Option.map_some] at h h'
      have hy := e2 y rfl
      have hyy : y.norm = ({ y with reaches := k } : Config).norm := rfl
      by_cases hst : st.stateType = .ruleStop
      · rw [if_pos hst] at h h'
        rw [Option.bind_eq_some_iff] at h h'
        obtain ⟨z, hz, h⟩ := h
        obtain ⟨z', hz', h'⟩ := h'
        obtain ⟨n1, n2⟩ := intoOuter_pair hL hyy hz hz'
        rw [← isBusy_pair hw.busy n1] at h'
        by_cases hb : w.isBusy z = true
        · rw [if_pos hb] at h h'
          cases h
          cases h'
          exact hw
        · rw [if_neg hb] at h h'
          refine hrec _ _ _ _ _ _ _ _ n1 (n2 ▸ hy) ?_ h h'
          exact ⟨hw.sets.dips _ _, by simp [hw.busy, n1], hw.mc, hw.mc', hw.inp, hw.inp'⟩
      · rw [if_neg hst] at h h'
        rw [← isBusy_pair hw.busy hyy] at h'
        by_cases hb : (!tr.isEpsilon && w.isBusy y) = true
        · rw [if_pos hb] at h h'
          cases h
          cases h'
          exact hw
        · rw [if_neg hb] at h h'
          refine hrec _ _ _ _ _ _ _ _ hyy hy ?_ h h'
          refine ⟨hw.sets, ?_, hw.mc, hw.mc', hw.inp, hw.inp'⟩
          dsimp only
          split
          · exact hw.busy
          · simp [hw.busy, hyy]

theorem workLoop_pair (hL : Alike L L') {eof : Bool} {i i' : I} {rec rec' : Rec I} (hrec : RecPair i i' rec rec') {c c' : Config}
    (hc : c.norm = c'.norm) (hf : Fit false c.ctx) {b : Bool} {dp : Int} {st : ATNState} {trs : List (Trans × Nat)}
    (hs : ∀ x ∈ trs, ∀ t f r p, x.1 = Trans.rule t f r p → (f : Int) < EMPTY_RS) {w w' v v' : Work I} (hw : WPair i i' w w')
    (h : workLoop L false eof rec c b dp st trs w = some v)
    (h' : workLoop L' false eof rec' c' b dp st trs w' = some v') : WPair i i' v v' := by
  induction trs generalizing w w' with
  | nil =>
    simp only [workLoop, Option.some.injEq] at h h'
    subst h h'
    exact hw
  | cons x trs ih =>
    obtain ⟨tr, k⟩ := x
    simp only [workLoop] at h h'
    rw [Option.bind_eq_some_iff] at h h'
    obtain ⟨u, hu, h⟩ := h
    obtain ⟨u', hu', h'⟩ := h'
    exact ih (fun x hx => hs x (List.mem_cons_of_mem _ hx))
      (workStep_pair hL hrec hc hf (hs _ (List.mem_cons_self ..)) hw hu hu') h h'

theorem closureWork_pair (hL : Alike L L') (ha : Small L.atn) {eof : Bool} {i i' : I} {rec rec' : Rec I} (hrec : RecPair i i' rec rec')
    {c c' : Config} (hc : c.norm = c'.norm) (hf : Fit false c.ctx) {b : Bool} {dp : Int} {w w' v v' : Work I} (hw : WPair i i' w w')
    (h : closureWork L false eof rec c b dp w = some v)
    (h' : closureWork L' false eof rec' c' b dp w' = some v') : WPair i i' v v' := by
  have hcs : c'.state = c.state := by obtain ⟨k, rfl⟩ := norm_iff.1 hc; rfl
  unfold closureWork at h h'
  rw [hcs, ← hL.atn] at h'
  rw [Option.bind_eq_some_iff] at h h'
  obtain ⟨st, hst, h⟩ := h
  obtain ⟨st', hst', h'⟩ := h'
  rw [hst] at hst'
  cases hst'
  rw [Option.bind_eq_some_iff] at h h'
  obtain ⟨u, hu, h⟩ := h
  obtain ⟨u', hu', h'⟩ := h'
  have hs : ∀ x ∈ st.transitions.zipIdx, ∀ t f r p, x.1 = Trans.rule t f r p → (f : Int) < EMPTY_RS := by
    intro x hx t f r p e
    refine ha _ _ hst t f r p ?_
    rw [← e]
    exact List.fst_mem_of_mem_zipIdx hx
  refine workLoop_pair hL hrec hc hf hs ?_ h h'
  split at hu
  · next he =>
    rw [if_pos he] at hu'
    cases hu
    cases hu'
    exact hw
  · next he =>
    rw [if_neg he] at hu'
    exact add_pair hw hc hf hu hu'

omit [TokStream I] in
theorem popLoop_pair {i i' : I} {rec rec' : Rec I} (hrec : RecPair i i' rec rec') {c c' : Config} (hc : c.norm = c'.norm)
    {b : Bool} {dp : Int} {l : List (Option PC × Int)} (hl : ∀ p r, (some p, r) ∈ l → Fit false p) {w w' v v' : Work I}
    (hw : WPair i i' w w') (h : popLoop rec c b dp l w = some v) (h' : popLoop rec' c' b dp l w' = some v') :
    WPair i i' v v' := by
  obtain ⟨k, rfl⟩ := norm_iff.1 hc
  induction l generalizing w w' with
  | nil =>
    simp only [popLoop, Option.some.injEq] at h h'
    subst h h'
    exact hw
  | cons x l ih =>
    obtain ⟨p, r⟩ := x
    simp only [popLoop] at h h'
    by_cases hr : r = EMPTY_RS
    · rw [if_pos hr] at h h'
      split at h
      · next he =>
        rw [if_pos he] at h'
        cases h
        cases h'
        exact hw
      · simp at h
    · rw [if_neg hr] at h h'
      rw [Option.bind_eq_some_iff] at h h'
      obtain ⟨q, rfl, h⟩ := h
      obtain ⟨q', hq', h'⟩ := h'
      cases hq'
      rw [Option.bind_eq_some_iff] at h h'
      obtain ⟨u, hu, h⟩ := h
      obtain ⟨u', hu', h'⟩ := h'
      exact ih (fun p r hp => hl p r (List.mem_cons_of_mem _ hp))
        (hrec ⟨asUsize r, c.alt, q, c.sem, c.reaches, false, .base⟩
          ⟨asUsize r, c.alt, q, c.sem, k, false, .base⟩ _ _ _ _ _ _ rfl (hl q r (List.mem_cons_self ..)) hw hu hu') h h'

theorem fit_parents {c : PC} (h : Fit false c) : ∀ p r, (some p, r) ∈ c.entries → Fit false p := by
  intro p r hp
  refine ⟨?_, fun _ => ?_⟩
  · have := h.wf
    cases this with
    | empty => simp [PC.entries] at hp
    | single h1 h2 => simp [PC.entries] at hp; rw [hp.1]; exact h2
    | array h1 h2 h3 h4 h5 => exact h5 p r hp
  · cases h.loc rfl with
    | empty => simp [PC.entries, EMPTY] at hp
    | push h1 h2 => exact h2 p r hp

theorem closureCheck_pair (hL : Alike L L') (ha : Small L.atn) (eof : Bool) (i i' : I) (n n' : Nat) :
    RecPair i i' (closureCheck L false eof n) (closureCheck L' false eof n') := by
  induction n generalizing n' with
  | zero => intro c c' b dp w w' v v' _ _ _ h; simp [closureCheck] at h
  | succ n ih =>
    intro c c' b dp w w' v v' hc hf hw h h'
    cases n' with
    | zero => simp [closureCheck] at h'
    | succ n' =>
      obtain ⟨k, rfl⟩ := norm_iff.1 hc
      simp only [closureCheck] at h h'
      rw [← hL.atn] at h'
      rw [Option.bind_eq_some_iff] at h h'
      obtain ⟨st, hst, h⟩ := h
      obtain ⟨st', hst', h'⟩ := h'
      rw [hst] at hst'
      cases hst'
      simp only [Bool.false_eq_true, if_false] at h h'
      by_cases hs : st.stateType = .ruleStop
      · rw [if_pos hs] at h h'
        by_cases he : (!c.ctx.isEmpty) = true
        · rw [if_pos he] at h h'
          rw [Option.bind_eq_some_iff] at h h'
          obtain ⟨u, hu, h⟩ := h
          obtain ⟨u', hu', h'⟩ := h'
          refine popLoop_pair (ih n') hc (fit_parents hf) ?_ h h'
          by_cases hp : c.ctx.hasEmptyPath = true
          · rw [if_pos hp] at hu hu'
            exact closureWork_pair hL ha (ih n') hc hf hw hu hu'
          · rw [if_neg hp] at hu hu'
            cases hu
            cases hu'
            exact hw
        · rw [if_neg he] at h h'
          exact closureWork_pair hL ha (ih n') hc hf hw h h'
      · rw [if_neg hs] at h h'
        exact closureWork_pair hL ha (ih n') hc hf hw h h'

theorem closure_pair (hL : Alike L L') (ha : Small L.atn) {eof : Bool} {i i' : I} {n n' : Nat} {c c' : Config} (hc : c.norm = c'.norm)
    (hf : Fit false c.ctx) {b : Bool} {w w' v v' : Work I} (hw : WPair i i' w w') (h : closure L n false eof c b w = some v)
    (h' : closure L' n' false eof c' b w' = some v') : WPair i i' v v' := by
  unfold closure at h h'
  simp only [Bool.false_and, Bool.false_eq_true, if_false, Option.bind_some] at h h'
  rw [Option.bind_eq_some_iff] at h h'
  obtain ⟨u, hu, h⟩ := h
  obtain ⟨u', hu', h'⟩ := h'
  cases h
  cases h'
  exact closureCheck_pair hL ha eof i i' n n' _ _ _ _ _ _ _ _ hc hf hw hu hu'

end Prediction
end Antlr
