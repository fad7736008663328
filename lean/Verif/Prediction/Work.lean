import Verif.Prediction.Model
import Verif.Prediction.Spec
import Verif.ConfigSet.Lemmas
import Verif.DFA.Lemmas
import Verif.PredictionContext.Props
import Verif.PredictionContext.Subset

/-!
# What `closure` does on an ATN without predicates

It processes a set of configurations closed under `Succ` (up to what the busy set already has) and adds
what they `Adds`.
-/

namespace Antlr.Prediction
open Antlr StackSpec ConfigSet PC PredictionSpec

variable {I : Type}

/-- The configuration an edge leads to. -/
def edgeTo (eof : Bool) (c : Config) : Trans → Option Config
  | .epsilon t _ => some { c with state := t }
  | .action t _ _ _ _ => some { c with state := t }
  | .rule t f _ _ => some { c with state := t, ctx := .single (some c.ctx) f }
  | .predicate .. => none
  | .precedence .. => none
  | .atom t l => if eof && (Trans.atom t l).matches TOKEN_EOF 0 1 == some true then some { c with state := t } else none
  | .set t s => if eof && (Trans.set t s).matches TOKEN_EOF 0 1 == some true then some { c with state := t } else none
  | .range t a b =>
    if eof && (Trans.range t a b).matches TOKEN_EOF 0 1 == some true then some { c with state := t } else none
  | .notSet .. => none
  | .wildcard .. => none

/-- Is `closure_work` done for the configuration? -/
def Works (full : Bool) (st : ATNState) (c : Config) : Prop :=
  st.stateType ≠ .ruleStop ∨ (full = false ∧ (c.ctx.isEmpty = true ∨ c.ctx.hasEmptyPath = true))

/-- The configuration that `closure_work` goes on with. -/
def outOf (st : ATNState) (c : Config) : Config :=
  if st.stateType = .ruleStop then { c with reaches := c.reaches + 1 } else c

/-- The configurations `closure` goes on with after `c`. -/
inductive Succ (atn : ATN) (full eof : Bool) : Config → Config → Prop
  | edge {c c' : Config} {st : ATNState} {tr : Trans} : atn.states[c.state]? = some st → Works full st c →
      tr ∈ st.transitions → edgeTo eof c tr = some c' → Succ atn full eof c (outOf st c')
  | pop {c : Config} {st : ATNState} {p : PC} {r : Int} : atn.states[c.state]? = some st →
      st.stateType = .ruleStop → c.ctx.isEmpty = false → (some p, r) ∈ c.ctx.entries → r ≠ EMPTY_RS →
      Succ atn full eof c { state := asUsize r, alt := c.alt, ctx := p, sem := c.sem, reaches := c.reaches }

/-- What `closure` adds to the set for the configuration `c`. -/
inductive Adds (atn : ATN) (full : Bool) : Config → Config → Prop
  | self {c : Config} {st : ATNState} : atn.states[c.state]? = some st → Works full st c →
      st.epsilonOnly = false → Adds atn full c c
  | atEnd {c : Config} {st : ATNState} : atn.states[c.state]? = some st → st.stateType = .ruleStop →
      full = true → c.ctx.isEmpty = true → Adds atn full c c
  | someEnd {c : Config} {st : ATNState} : atn.states[c.state]? = some st → st.stateType = .ruleStop →
      full = true → c.ctx.isEmpty = false → c.ctx.hasEmptyPath = true →
      Adds atn full c { c with ctx := EMPTY }

/-- Well-formed; without full context the empty marker occurs only alone. -/
structure Fit (full : Bool) (c : PC) : Prop where
  wf : WF c
  loc : full = false → Loc c

theorem Fit.empty (full : Bool) : Fit full EMPTY := ⟨.empty, fun _ => .empty⟩

/-- The merge cache is right for the reading `d` of contexts, and makes up no stacks. -/
structure CacheFit (full d : Bool) (mc : PC.Cache) : Prop where
  ok : CacheOk d (some mc)
  within : CacheWithin (some mc)
  loc : full = false → CacheLoc (some mc)

/-- The set holds what was added, and no stacks that were not. -/
structure Holds (full d : Bool) (added : List Config) (s : ConfigSet) : Prop where
  inv : ∃ b, Inv false full d added { s with dips := b }
  within : ∀ c ∈ s.configs, ∀ st, HasStack c.ctx st →
    ∃ a ∈ added, a.state = c.state ∧ a.alt = c.alt ∧ HasStack a.ctx st
  loc : full = false → ∀ c ∈ s.configs, Loc c.ctx

theorem addCached_dips (s : ConfigSet) (b : Bool) (c : Config) (mc : Option PC.Cache) :
    ({ s with dips := b } : ConfigSet).addCached c mc =
      (s.addCached c mc).map fun r => ({ r.1 with dips := b || decide (0 < c.reaches) }, r.2) := by
  unfold ConfigSet.addCached
  have e : ({ s with dips := b } : ConfigSet).key c = s.key c := rfl
  simp only [e]
  by_cases h : s.readOnly = true
  · simp [h]
  · rw [Bool.not_eq_true] at h
    simp only [h, Bool.false_eq_true, if_false]
    cases s.lookup.lookup (s.key c) with
    | none => simp [noteFlags, h]
    | some i =>
      simp only
      cases s.configs[i]? with
      | none => simp
      | some e =>
        simp only [Option.bind_some]
        cases PC.merge e.ctx c.ctx (!s.fullCtx) mc <;> simp [noteFlags, h]

theorem holds_addCached {full d : Bool} (hd : full = false → d = true) {added : List Config} {s : ConfigSet}
    (h : Holds full d added s) {c : Config} (hc : Fit full c.ctx) {mc : PC.Cache} (hmc : CacheFit full d mc)
    {s' : ConfigSet} {mc' : PC.Cache} (ha : s.addCached c (some mc) = some (s', some mc')) :
    Holds full d (added ++ [c]) s' ∧ CacheFit full d mc' := by
  obtain ⟨⟨b, h⟩, hin, hloc⟩ := h
  obtain ⟨s2, m2, h1, h2, h3, _⟩ := addCached_inv (by simpa using hd) h hc.wf hmc.ok
  rw [addCached_dips, ha] at h1
  simp only [Option.map_some, Option.some.injEq, Prod.mk.injEq] at h1
  obtain ⟨rfl, rfl⟩ := h1
  have key : ∀ c : Config, s.key c = .part c.state c.alt c.sem := by
    intro c; rw [ConfigSet.key, if_neg]; have := h.ord; dsimp only at this; rw [this]; simp
  have old : ∀ {x : Config} {st}, x ∈ s.configs → HasStack x.ctx st →
      ∃ a ∈ added ++ [c], a.state = x.state ∧ a.alt = x.alt ∧ HasStack a.ctx st := by
    intro x st hx hst
    obtain ⟨a, ha, h⟩ := hin x hx st hst
    exact ⟨a, List.mem_append_left _ ha, h⟩
  unfold ConfigSet.addCached at ha
  split at ha
  · simp at ha
  split at ha
  · rename_i i hl
    rw [Option.bind_eq_some_iff] at ha
    obtain ⟨e, he, ha⟩ := ha
    rw [Option.map_eq_some_iff] at ha
    obtain ⟨⟨r, mr⟩, hr, ha⟩ := ha
    simp only [Prod.mk.injEq] at ha
    obtain ⟨ha, rfl⟩ := ha
    have hem : e ∈ s.configs := List.mem_of_getElem? he
    have hi := (h.lookup _ _).1 hl
    rw [List.getElem?_map] at hi
    dsimp only at hi
    rw [he] at hi
    simp only [Option.map_some, Option.some.injEq] at hi
    have hk : s.key e = s.key c := hi
    rw [key, key] at hk
    simp only [Key.part.injEq] at hk
    obtain ⟨g1, g2⟩ := merge_within (!s.fullCtx) e.ctx c.ctx (h.wf e hem) hc.wf _ _ _ hmc.within hr
    have hlm : full = false → Loc r ∧ CacheLoc (some mc') := by
      intro hf
      have e1 : s.fullCtx = full := h.full
      rw [e1, hf] at hr
      exact merge_loc e.ctx c.ctx (hloc hf e hem) (hc.loc hf) _ _ _ (hmc.loc hf) hr
    refine ⟨⟨⟨_, h2⟩, ?_, ?_⟩, h3, g2, fun hf => (hlm hf).2⟩
    rotate_left
    · intro hf x hx
      rw [← ha] at hx
      rcases List.mem_or_eq_of_mem_set hx with hx | rfl
      · exact hloc hf x hx
      · exact (hlm hf).1
    intro x hx st hst
    rw [← ha] at hx
    rcases List.mem_or_eq_of_mem_set hx with hx | rfl
    · exact old hx hst
    · rcases g1 st hst with h | h
      · obtain ⟨a, ha, hrest⟩ := old hem h
        exact ⟨a, ha, hrest⟩
      · exact ⟨c, by simp, hk.1.symm, hk.2.1.symm, h⟩
  · simp only [Option.some.injEq, Prod.mk.injEq] at ha
    obtain ⟨ha, rfl⟩ := ha
    refine ⟨⟨⟨_, h2⟩, ?_, ?_⟩, h3, hmc.within, hmc.loc⟩
    rotate_left
    · intro hf x hx
      rw [← ha] at hx
      rcases List.mem_append.1 hx with hx | hx
      · exact hloc hf x hx
      · rw [List.mem_singleton] at hx
        subst hx
        exact hc.loc hf
    intro x hx st hst
    rw [← ha] at hx
    rcases List.mem_append.1 hx with hx | hx
    · exact old hx hst
    · rw [List.mem_singleton] at hx
      subst hx
      exact ⟨x, by simp, rfl, rfl, hst⟩

theorem Holds.dips {full d : Bool} {added : List Config} {s : ConfigSet} (h : Holds full d added s) (b : Bool) :
    Holds full d added { s with dips := b } := ⟨h.inv, h.within, h.loc⟩

/-- Everything that stays the same in the proofs about one closure: a class `Q` of configurations. -/
structure Cls (atn : ATN) (full eof : Bool) (Q : Config → Prop) : Prop where
  fit : ∀ c, Q c → Fit full c.ctx
  succ : ∀ c c', Q c → Succ atn full eof c c' → Q c'

/-- What a piece of `closure` does: the configurations processed are `N`, those added `A`. -/
structure Grown (atn : ATN) (full eof d : Bool) (Q K : Config → Prop) (added : List Config) (w : Work I) (N : Config → Prop)
    (A : List Config) (w' : Work I) : Prop where
  inp : w'.inp = w.inp
  cls : ∀ x, N x → Q x
  busy : ∀ b ∈ w'.busy, K b ∨ N b
  closed : ∀ x, N x → ∀ y, Succ atn full eof x y → ∃ z, (K z ∨ N z) ∧ z.norm = y.norm
  into : ∀ x, N x → ∀ y, Adds atn full x y → y ∈ A
  out : ∀ y ∈ A, ∃ x, N x ∧ Adds atn full x y
  holds : Holds full d (added ++ A) w'.configs
  cache : CacheFit full d w'.mc

theorem Grown.nil {atn : ATN} {full eof d : Bool} {Q K : Config → Prop} {added : List Config}
    {w : Work I} (hb : ∀ b ∈ w.busy, K b) (hm : CacheFit full d w.mc) (hh : Holds full d added w.configs) :
    Grown atn full eof d Q K added w (fun _ => False) [] w :=
  ⟨rfl, by simp, fun b h => .inl (hb b h), by simp, by simp, by simp, by simpa using hh, hm⟩

theorem Grown.trans {atn : ATN} {full eof d : Bool} {Q K N1 N2 : Config → Prop} {w w1 w2 : Work I}
    {added A1 A2 : List Config} (h1 : Grown atn full eof d Q K added w N1 A1 w1)
    (h2 : Grown atn full eof d Q (fun x => K x ∨ N1 x) (added ++ A1) w1 N2 A2 w2) :
    Grown atn full eof d Q K added w (fun x => N1 x ∨ N2 x) (A1 ++ A2) w2 where
  inp := h2.inp.trans h1.inp
  cls x := fun h => h.elim (h1.cls x) (h2.cls x)
  busy b hb := by rcases h2.busy b hb with (h | h) | h <;> simp [h]
  closed x hx y hy := by
    rcases hx with hx | hx
    · obtain ⟨z, hz, e⟩ := h1.closed x hx y hy
      exact ⟨z, by tauto, e⟩
    · obtain ⟨z, hz, e⟩ := h2.closed x hx y hy
      exact ⟨z, by tauto, e⟩
  into x hx y hy := by
    rcases hx with hx | hx
    · exact List.mem_append_left _ (h1.into x hx y hy)
    · exact List.mem_append_right _ (h2.into x hx y hy)
  out y hy := by
    rcases List.mem_append.1 hy with hy | hy
    · obtain ⟨x, hx, h⟩ := h1.out y hy; exact ⟨x, .inl hx, h⟩
    · obtain ⟨x, hx, h⟩ := h2.out y hy; exact ⟨x, .inr hx, h⟩
  holds := by rw [← List.append_assoc]; exact h2.holds
  cache := h2.cache

theorem edgeTo_spec [TokStream I] {L : Local I} {full eof : Bool} {c : Config} {tr : Trans} {cc ic : Bool} {inp : I}
    {r : Option Config × I} (hp : tr.getPredicate = none)
    (h : epsilonTarget L full eof c tr cc ic inp = some r) : r = (edgeTo eof c tr, inp) := by
  have cl : ∀ {c t} {x : Config}, cloned L.atn c t = some x → x = { c with state := t } := by
    intro c t x h
    rw [cloned, Option.map_eq_some_iff] at h
    obtain ⟨_, _, h⟩ := h; exact h.symm
  have lbl : ∀ {t : Nat}, (edgeTo eof c tr = if eof && tr.matches TOKEN_EOF 0 1 == some true then some { c with state := t } else none) →
      (if eof then (tr.matches TOKEN_EOF 0 1).bind fun m =>
        if m then (cloned L.atn c t).map fun c' => (some c', inp) else some (none, inp)
      else some (none, inp)) = some r → r = (edgeTo eof c tr, inp) := by
    intro t e h
    rw [e]
    cases eof with
    | false => simp at h ⊢; exact h.symm
    | true =>
      simp only [if_true] at h
      rw [Option.bind_eq_some_iff] at h
      obtain ⟨m, hm, h⟩ := h
      cases m with
      | false => simp at h; simp [hm, ← h]
      | true =>
        simp only [if_true, Option.map_eq_some_iff] at h
        obtain ⟨x, hx, h⟩ := h
        simp [hm, ← h, cl hx]
  cases tr with
  | epsilon t x =>
    simp only [epsilonTarget, Option.map_eq_some_iff] at h
    obtain ⟨x, hx, h⟩ := h; simp [← h, edgeTo, cl hx]
  | range t a b => exact lbl (t := t) rfl h
  | rule t f a b =>
    simp only [epsilonTarget, Option.map_eq_some_iff] at h
    obtain ⟨x, hx, h⟩ := h; simp [← h, edgeTo, cl hx]
  | predicate t d r p => simp [Trans.getPredicate] at hp
  | atom t l => exact lbl (t := t) rfl h
  | action t _ _ _ _ =>
    simp only [epsilonTarget, Option.map_eq_some_iff] at h
    obtain ⟨x, hx, h⟩ := h; simp [← h, edgeTo, cl hx]
  | set t s => exact lbl (t := t) rfl h
  | notSet t s => simp [epsilonTarget] at h; simp [← h, edgeTo]
  | wildcard t => simp [epsilonTarget] at h; simp [← h, edgeTo]
  | precedence t p => simp [Trans.getPredicate] at hp

theorem canDrop_plain {atn : ATN} (ha : Plain atn) {c : Config} {b : Bool} (h : canDrop atn c = some b) :
    b = false := by
  unfold canDrop at h
  rw [Option.bind_eq_some_iff] at h
  obtain ⟨st, hst, h⟩ := h
  split at h
  · rename_i n g l p hp
    cases p with
    | true => exact absurd hp (ha.noPrec _ _ hst n g l)
    | false => simpa using h.symm
  · simpa using h.symm

/-- The recursive call does what `closure` does. -/
def RecOk (atn : ATN) (full eof d : Bool) (Q : Config → Prop) (rec : Rec I) : Prop :=
  ∀ c collect depth w w' K added, Q c → CacheFit full d w.mc → Holds full d added w.configs → (∀ b ∈ w.busy, K b ∨ b = c) →
    rec c collect depth w = some w' → ∃ N A, N c ∧ Grown atn full eof d Q K added w N A w'

theorem recOk_call {atn : ATN} {full eof d : Bool} {Q : Config → Prop} {rec : Rec I}
    (hr : RecOk atn full eof d Q rec) {c : Config} {collect : Bool} {depth : Int} {w0 w w' : Work I}
    {K : Config → Prop} {added : List Config} (hq : Q c) (hm : CacheFit full d w.mc) (hb : ∀ b ∈ w.busy, K b ∨ b = c)
    (h : rec c collect depth w = some w') (hi : w.inp = w0.inp)
    (hh : Holds full d added w.configs) :
    ∃ N A, N c ∧ Grown atn full eof d Q K added w0 N A w' := by
  obtain ⟨N, A, h1, h2⟩ := hr c collect depth w w' K added hq hm hh hb h
  exact ⟨N, A, h1, ⟨h2.inp.trans hi, h2.cls, h2.busy, h2.closed, h2.into, h2.out, h2.holds, h2.cache⟩⟩

theorem isBusy_spec {w : Work I} {c : Config} (h : w.isBusy c = true) : ∃ b ∈ w.busy, b.norm = c.norm := by
  rw [Work.isBusy, List.any_eq_true] at h
  obtain ⟨b, hb, h⟩ := h
  exact ⟨b, hb, (Config.same_iff _ _).1 h⟩

theorem workStep_grown [TokStream I] {L : Local I} {full eof d : Bool} {Q : Config → Prop} {rec : Rec I}
    (ha : Plain L.atn) (hp : L.isPrec = false) (hcls : Cls L.atn full eof Q) (hr : RecOk L.atn full eof d Q rec)
    {c : Config} {collect : Bool} {depth : Int} {st : ATNState} {tr : Trans} {i : Nat} {w w' : Work I}
    {K : Config → Prop} (hq : Q c) (hst : L.atn.states[c.state]? = some st) (hw : Works full st c)
    (htr : tr ∈ st.transitions) (hm : CacheFit full d w.mc) (hb : ∀ b ∈ w.busy, K b) {added : List Config}
    (hh : Holds full d added w.configs) (h : workStep L full eof rec c collect depth st tr i w = some w') :
    ∃ N A, Grown L.atn full eof d Q K added w N A w' ∧
      ∀ c', edgeTo eof c tr = some c' → ∃ z, (K z ∨ N z) ∧ z.norm = (outOf st c').norm := by
  unfold workStep at h
  obtain ⟨drop, hdrop, h⟩ := Option.bind_eq_some_iff.1 h
  have : drop = false := by
    split at hdrop
    · exact canDrop_plain ha hdrop
    · simpa using hdrop.symm
  subst this
  simp only [Bool.false_eq_true, if_false] at h
  obtain ⟨r, hr1, h⟩ := Option.bind_eq_some_iff.1 h
  have e := edgeTo_spec (ha.noPred _ _ hst tr htr) hr1
  subst e
  simp only at h
  cases he : edgeTo eof c tr with
  | none =>
    rw [he] at h
    simp only [Option.some.injEq] at h
    subst h
    exact ⟨_, _, .nil hb hm hh, by simp⟩
  | some c' =>
    rw [he] at h
    simp only at h
    have hq' := hcls.succ _ _ hq (.edge hst hw htr he)
    have done : w.isBusy (outOf st c') = true → w' = w → ∃ N A, Grown L.atn full eof d Q K added w N A w' ∧
        ∀ x, some c' = some x → ∃ z, (K z ∨ N z) ∧ z.norm = (outOf st x).norm := by
      rintro hbu rfl
      obtain ⟨b, hb1, hb2⟩ := isBusy_spec hbu
      refine ⟨_, _, .nil hb hm hh, ?_⟩
      rintro x h
      simp only [Option.some.injEq] at h
      subst h
      exact ⟨b, .inl (hb b hb1), hb2⟩
    have go : ∀ {cc : Bool} {dep : Int} {w1 : Work I}, CacheFit full d w1.mc →
        (∀ b ∈ w1.busy, K b ∨ b = outOf st c') → rec (outOf st c') cc dep w1 = some w' →
        w1.inp = w.inp → Holds full d added w1.configs →
        ∃ N A, Grown L.atn full eof d Q K added w N A w' ∧
          ∀ x, some c' = some x → ∃ z, (K z ∨ N z) ∧ z.norm = (outOf st x).norm := by
      intro cc dep w1 hm1 hb1 h1 hi1 hh1
      obtain ⟨N, A, h2, h3⟩ := recOk_call hr hq' hm1 hb1 h1 hi1 hh1
      refine ⟨N, A, h3, ?_⟩
      rintro x h
      simp only [Option.some.injEq] at h
      subst h
      exact ⟨_, .inr h2, rfl⟩
    by_cases hs : st.stateType = .ruleStop
    · rw [if_pos hs] at h
      rcases hw with hw | hw
      · exact absurd hs hw
      · rw [hw.1] at h
        simp only [Bool.false_eq_true, if_false] at h
        obtain ⟨c'', h2, h⟩ := Option.bind_eq_some_iff.1 h
        have : c'' = outOf st c' := by
          simp only [intoOuter, hp, Bool.false_eq_true, if_false, Option.some.injEq] at h2
          rw [outOf, if_pos hs, ← h2]
        subst this
        split at h
        · rename_i hbu
          exact done hbu (by simpa using h.symm)
        · refine go ?_ ?_ h rfl ?_
          · exact hm
          · intro b hb1
            rcases List.mem_cons.1 hb1 with hb1 | hb1
            · exact .inr hb1
            · exact .inl (hb b hb1)
          · exact hh.dips true
    · rw [if_neg hs] at h
      have eo : outOf st c' = c' := by rw [outOf, if_neg hs]
      rw [eo] at go done
      split at h
      · rename_i hbu
        rw [Bool.and_eq_true] at hbu
        have := done hbu.2 (by simpa using h.symm)
        simpa only [eo] using this
      · have := go (w1 := { w with busy := if tr.isEpsilon then w.busy else c' :: w.busy, inp := w.inp }) hm ?_ h rfl hh
        · simpa only [eo] using this
        · intro b hb1
          dsimp only at hb1
          split at hb1
          · exact .inl (hb b hb1)
          · rcases List.mem_cons.1 hb1 with hb1 | hb1
            · exact .inr hb1
            · exact .inl (hb b hb1)

theorem workLoop_grown [TokStream I] {L : Local I} {full eof d : Bool} {Q : Config → Prop} {rec : Rec I}
    (ha : Plain L.atn) (hp : L.isPrec = false) (hcls : Cls L.atn full eof Q) (hr : RecOk L.atn full eof d Q rec)
    {c : Config} {collect : Bool} {depth : Int} {st : ATNState}
    (hq : Q c) (hst : L.atn.states[c.state]? = some st) (hw : Works full st c) (trs : List (Trans × Nat))
    (htr : ∀ x ∈ trs, x.1 ∈ st.transitions) {w w' : Work I} {K : Config → Prop}
    (hm : CacheFit full d w.mc) (hb : ∀ b ∈ w.busy, K b) {added : List Config}
    (hh : Holds full d added w.configs) (h : workLoop L full eof rec c collect depth st trs w = some w') :
    ∃ N A, Grown L.atn full eof d Q K added w N A w' ∧
      ∀ x ∈ trs, ∀ c', edgeTo eof c x.1 = some c' → ∃ z, (K z ∨ N z) ∧ z.norm = (outOf st c').norm := by
  induction trs generalizing w K added with
  | nil =>
    simp only [workLoop, Option.some.injEq] at h
    subst h
    exact ⟨_, _, .nil hb hm hh, by simp⟩
  | cons x trs ih =>
    obtain ⟨tr, i⟩ := x
    rw [workLoop] at h
    obtain ⟨w1, h1, h⟩ := Option.bind_eq_some_iff.1 h
    obtain ⟨N1, A1, g1, e1⟩ := workStep_grown ha hp hcls hr hq hst hw (htr (tr, i) (by simp)) hm hb hh h1
    obtain ⟨N2, A2, g2, e2⟩ := ih (fun x hx => htr x (by simp [hx])) g1.cache g1.busy g1.holds h
    refine ⟨_, _, g1.trans g2, ?_⟩
    intro x hx c' hc'
    rcases List.mem_cons.1 hx with rfl | hx
    · obtain ⟨z, hz, e⟩ := e1 c' hc'
      exact ⟨z, by tauto, e⟩
    · obtain ⟨z, hz, e⟩ := e2 x hx c' hc'
      exact ⟨z, by tauto, e⟩

theorem add_spec {full d : Bool} (hd : full = false → d = true) {w w' : Work I} {c : Config} {added : List Config}
    (hc : Fit full c.ctx) (hm : CacheFit full d w.mc) (hh : Holds full d added w.configs) (h : w.add c = some w') :
    w'.inp = w.inp ∧ w'.busy = w.busy ∧ CacheFit full d w'.mc ∧ Holds full d (added ++ [c]) w'.configs := by
  unfold Work.add at h
  obtain ⟨⟨s', o⟩, h1, h⟩ := Option.bind_eq_some_iff.1 h
  obtain ⟨mc', h2, h⟩ := Option.map_eq_some_iff.1 h
  dsimp only at h2
  subst h2
  subst h
  obtain ⟨g1, g2⟩ := holds_addCached hd hh hc hm h1
  exact ⟨rfl, rfl, g2, g1⟩

theorem closureWork_grown [TokStream I] {L : Local I} {full eof d : Bool} {Q : Config → Prop} {rec : Rec I}
    (ha : Plain L.atn) (hp : L.isPrec = false) (hd : full = false → d = true) (hcls : Cls L.atn full eof Q)
    (hr : RecOk L.atn full eof d Q rec) {c : Config} {collect : Bool} {depth : Int} {st : ATNState}
    (hq : Q c) (hst : L.atn.states[c.state]? = some st) (hw : Works full st c) {w w' : Work I} {K : Config → Prop}
    (hm : CacheFit full d w.mc) (hb : ∀ b ∈ w.busy, K b) {added : List Config}
    (hh : Holds full d added w.configs) (h : closureWork L full eof rec c collect depth w = some w') :
    ∃ N A A', Grown L.atn full eof d Q K (added ++ A) { w with configs := w'.configs } N A' w' ∧
      A = (if st.epsilonOnly then [] else [c]) ∧
      ∀ tr ∈ st.transitions, ∀ c', edgeTo eof c tr = some c' →
        ∃ z, (K z ∨ N z) ∧ z.norm = (outOf st c').norm := by
  unfold closureWork at h
  rw [hst, Option.bind_some] at h
  obtain ⟨w1, h1, h⟩ := Option.bind_eq_some_iff.1 h
  have hmem : ∀ x ∈ st.transitions.zipIdx, x.1 ∈ st.transitions := by
    intro x hx
    obtain ⟨a, i⟩ := x
    exact List.mem_of_getElem? (List.mem_zipIdx_iff_getElem?.1 hx)
  have hcov : ∀ {N : Config → Prop}, (∀ x ∈ st.transitions.zipIdx, ∀ c', edgeTo eof c x.1 = some c' →
      ∃ z, (K z ∨ N z) ∧ z.norm = (outOf st c').norm) → ∀ tr ∈ st.transitions, ∀ c', edgeTo eof c tr = some c' →
        ∃ z, (K z ∨ N z) ∧ z.norm = (outOf st c').norm := by
    intro N h tr htr c' hc'
    obtain ⟨i, hi⟩ := List.mem_iff_getElem?.1 htr
    exact h (tr, i) (List.mem_zipIdx_iff_getElem?.2 hi) c' hc'
  cases he : st.epsilonOnly with
  | true =>
    rw [he] at h1
    simp only [if_true, Option.some.injEq] at h1
    subst h1
    obtain ⟨N, A, g, e⟩ := workLoop_grown ha hp hcls hr hq hst hw _ hmem hm hb hh h
    refine ⟨N, [], A, ?_, by simp, hcov e⟩
    exact ⟨g.inp, g.cls, g.busy, g.closed, g.into, g.out, by simpa using g.holds, g.cache⟩
  | false =>
    rw [he] at h1
    simp only [Bool.false_eq_true, if_false] at h1
    obtain ⟨i1, i2, i3, i4⟩ := add_spec hd (hcls.fit c hq) hm hh h1
    obtain ⟨N, A, g, e⟩ := workLoop_grown ha hp hcls hr hq hst hw _ hmem i3 (i2 ▸ hb) i4 h
    refine ⟨N, [c], A, ?_, by simp, hcov e⟩
    exact ⟨g.inp.trans i1, g.cls, g.busy, g.closed, g.into, g.out, g.holds, g.cache⟩

theorem popLoop_grown {atn : ATN} {full eof d : Bool} {Q : Config → Prop} {rec : Rec I}
    (hr : RecOk atn full eof d Q rec) {c : Config} {collect : Bool} {depth : Int}
    (es : List (Option PC × Int))
    (hq : ∀ p r, (some p, r) ∈ es → r ≠ EMPTY_RS →
      Q { state := asUsize r, alt := c.alt, ctx := p, sem := c.sem, reaches := c.reaches })
    {w w' : Work I} {K : Config → Prop} (hm : CacheFit full d w.mc) (hb : ∀ b ∈ w.busy, K b)
    {added : List Config} (hh : Holds full d added w.configs) (h : popLoop rec c collect depth es w = some w') :
    ∃ N A, Grown atn full eof d Q K added w N A w' ∧
      ∀ p r, (some p, r) ∈ es → r ≠ EMPTY_RS →
        N { state := asUsize r, alt := c.alt, ctx := p, sem := c.sem, reaches := c.reaches } := by
  induction es generalizing w K added with
  | nil =>
    simp only [popLoop, Option.some.injEq] at h
    subst h
    exact ⟨_, _, .nil hb hm hh, by simp⟩
  | cons e es ih =>
    obtain ⟨p, r⟩ := e
    rw [popLoop] at h
    split at h
    · rename_i her
      split at h
      · rename_i hem
        simp only [Option.some.injEq] at h
        subst h
        refine ⟨_, _, .nil hb hm hh, ?_⟩
        rw [List.isEmpty_iff] at hem
        subst hem
        rintro p' r' hm' hne
        simp only [List.mem_singleton, Prod.mk.injEq] at hm'
        exact absurd (hm'.2.trans her) hne
      · simp at h
    · rename_i hne
      rw [Option.bind_eq_some_iff] at h
      obtain ⟨parent, rfl, h⟩ := h
      obtain ⟨w1, h1, h⟩ := Option.bind_eq_some_iff.1 h
      obtain ⟨N1, A1, n1, g1⟩ := hr _ _ _ _ _ K added (hq parent r (by simp) hne) hm hh
        (fun b hb1 => .inl (hb b hb1)) h1
      obtain ⟨N2, A2, g2, e2⟩ := ih (fun p r hm => hq p r (by simp [hm])) g1.cache g1.busy g1.holds h
      refine ⟨_, _, g1.trans g2, ?_⟩
      intro p' r' hm' hne'
      rcases List.mem_cons.1 hm' with e | hm'
      · simp only [Prod.mk.injEq, Option.some.injEq] at e
        obtain ⟨rfl, rfl⟩ := e
        exact .inl n1
      · exact .inr (e2 p' r' hm' hne')

theorem wf_isEmpty_hasEmptyPath {c : PC} (h : WF c) (he : c.isEmpty = true) : c.hasEmptyPath = true := by
  rw [(wf_isEmpty h).1 he]; rfl

theorem closureCheck_ok [TokStream I] {L : Local I} {full eof d : Bool} {Q : Config → Prop}
    (ha : Plain L.atn) (hp : L.isPrec = false) (hd : full = false → d = true) (hcls : Cls L.atn full eof Q)
    (n : Nat) : RecOk L.atn full eof d Q (closureCheck L full eof n) := by
  induction n with
  | zero => intro c collect depth w w' K added _ _ _ _ h; simp [closureCheck] at h
  | succ n ih =>
    intro c collect depth w w' K added hq hm hh hb h
    rw [closureCheck] at h
    obtain ⟨st, hst, h⟩ := Option.bind_eq_some_iff.1 h
    -- one call of `closure_work`, and then the configuration is done
    have work : ∀ {w1 : Work I}, Works full st c →
        closureWork L full eof (closureCheck L full eof n) c collect depth w = some w1 →
        ∃ (N : Config → Prop) (A : List Config), (w1.inp = w.inp ∧ (∀ x, N x → Q x) ∧
          (∀ b ∈ w1.busy, (K b ∨ b = c) ∨ N b) ∧
          (∀ x, N x → ∀ y, Succ L.atn full eof x y → ∃ z, ((K z ∨ z = c) ∨ N z) ∧ z.norm = y.norm) ∧
          (∀ x, N x → ∀ y, Adds L.atn full x y → y ∈ A) ∧
          (∀ y ∈ A, ∃ x, (N x ∨ x = c) ∧ Adds L.atn full x y) ∧
          Holds full d (added ++ A) w1.configs ∧ CacheFit full d w1.mc) ∧
          (st.epsilonOnly = false → c ∈ A) ∧
          ∀ tr ∈ st.transitions, ∀ c', edgeTo eof c tr = some c' →
            ∃ z, ((K z ∨ z = c) ∨ N z) ∧ z.norm = (outOf st c').norm := by
      intro w1 hw h1
      obtain ⟨N, A, A', g, e1, e2⟩ := closureWork_grown ha hp hd hcls ih hq hst hw hm
        (K := fun x => K x ∨ x = c) hb hh h1
      refine ⟨N, A ++ A', ⟨g.inp, g.cls, g.busy, g.closed, ?_, ?_, ?_, g.cache⟩, ?_, e2⟩
      · intro x hx y hy; exact List.mem_append_right _ (g.into x hx y hy)
      · intro y hy
        rcases List.mem_append.1 hy with hy | hy
        · subst e1
          split at hy
          · simp at hy
          · rename_i heo
            rw [Bool.not_eq_true] at heo
            rw [List.mem_singleton] at hy
            subst hy
            exact ⟨y, .inr rfl, .self hst hw heo⟩
        · obtain ⟨x, hx, h⟩ := g.out y hy
          exact ⟨x, .inl hx, h⟩
      · rw [← List.append_assoc]; exact g.holds
      · intro heo; subst e1; simp [heo]
    by_cases hs : st.stateType = .ruleStop
    · rw [if_pos hs] at h
      by_cases hem : c.ctx.isEmpty = true
      · have hpath := wf_isEmpty_hasEmptyPath (hcls.fit c hq).wf hem
        simp only [hem, Bool.not_true, Bool.false_eq_true, if_false] at h
        cases full with
        | true =>
          simp only [if_true] at h
          obtain ⟨i1, i2, i3, i4⟩ := add_spec hd (hcls.fit c hq) hm hh h
          refine ⟨fun x => x = c, [c], rfl, ?_, ?_, ?_, ?_, ?_, ?_, i4, i3⟩
          · exact i1
          · rintro x rfl; exact hq
          · intro b hb1; rw [i2] at hb1; exact hb b hb1
          · rintro x rfl y hy
            exfalso
            cases hy with
            | edge h1 h2 =>
              rw [hst] at h1; cases h1
              rcases h2 with h2 | h2
              · exact h2 hs
              · simp at h2
            | pop h1 h2 h3 => rw [hem] at h3; simp at h3
          · rintro x rfl y hy
            cases hy with
            | self => simp
            | atEnd => simp
            | someEnd h1 h2 h3 h4 => rw [hem] at h4; simp at h4
          · intro y hy
            rw [List.mem_singleton] at hy
            subst hy
            exact ⟨y, rfl, .atEnd hst hs rfl hem⟩
        | false =>
          simp only [Bool.false_eq_true, if_false] at h
          have hw : Works false st c := .inr ⟨rfl, .inl hem⟩
          obtain ⟨N, A, ⟨g1, g2, g3, g4, g5, g6, g7, g8⟩, g9, g10⟩ := work hw h
          refine ⟨fun x => N x ∨ x = c, A, .inr rfl, g1, ?_, ?_, ?_, ?_, g6, g7, g8⟩
          · rintro x (hx | rfl)
            · exact g2 x hx
            · exact hq
          · intro b hb1; have := g3 b hb1; tauto
          · rintro x (hx | rfl) y hy
            · obtain ⟨z, hz, e⟩ := g4 x hx y hy; exact ⟨z, by tauto, e⟩
            · cases hy with
              | @edge c' st' tr h1 h2 h3 h4 =>
                rw [hst] at h1; cases h1
                obtain ⟨z, hz, e⟩ := g10 tr h3 c' h4
                exact ⟨z, by tauto, e⟩
              | pop h1 h2 h3 => rw [hem] at h3; simp at h3
          · rintro x (hx | rfl) y hy
            · exact g5 x hx y hy
            · cases hy with
              | self h1 h2 h3 => rw [hst] at h1; cases h1; exact g9 h3
              | atEnd h1 h2 h3 => simp at h3
              | someEnd h1 h2 h3 => simp at h3
      · rw [Bool.not_eq_true] at hem
        simp only [hem, Bool.not_false, if_true] at h
        obtain ⟨w1, h1, h⟩ := Option.bind_eq_some_iff.1 h
        have hqp : ∀ p r, (some p, r) ∈ c.ctx.entries → r ≠ EMPTY_RS →
            Q { state := asUsize r, alt := c.alt, ctx := p, sem := c.sem, reaches := c.reaches } :=
          fun p r hm hne => hcls.succ _ _ hq (.pop hst hs hem hm hne)
        -- the first part: an empty path
        have first : ∃ (N : Config → Prop) (A : List Config), (w1.inp = w.inp ∧ (∀ x, N x → Q x) ∧
          (∀ b ∈ w1.busy, (K b ∨ b = c) ∨ N b) ∧
          (∀ x, N x → ∀ y, Succ L.atn full eof x y → ∃ z, ((K z ∨ z = c) ∨ N z) ∧ z.norm = y.norm) ∧
          (∀ x, N x → ∀ y, Adds L.atn full x y → y ∈ A) ∧
          (∀ y ∈ A, ∃ x, (N x ∨ x = c) ∧ Adds L.atn full x y) ∧
          Holds full d (added ++ A) w1.configs ∧ CacheFit full d w1.mc) ∧
          (∀ y, Adds L.atn full c y → y ∈ A) ∧
          (Works full st c → ∀ tr ∈ st.transitions, ∀ c', edgeTo eof c tr = some c' →
            ∃ z, ((K z ∨ z = c) ∨ N z) ∧ z.norm = (outOf st c').norm) := by
          split at h1
          · rename_i hpath
            cases full with
            | true =>
              simp only [if_true] at h1
              have hnw : ¬ Works true st c := by
                rintro (h | h)
                · exact h hs
                · simp at h
              obtain ⟨i1, i2, i3, i4⟩ := add_spec hd (Fit.empty _) hm hh h1
              refine ⟨fun _ => False, [{ c with ctx := EMPTY }], ⟨i1, by simp, ?_, by simp, by simp, ?_, i4, i3⟩, ?_, ?_⟩
              · intro b hb1; rw [i2] at hb1; exact .inl (hb b hb1)
              · intro y hy
                rw [List.mem_singleton] at hy
                exact ⟨c, .inr rfl, hy ▸ .someEnd hst hs rfl hem hpath⟩
              · intro y hy
                cases hy with
                | self h1 h2 => rw [hst] at h1; cases h1; exact absurd h2 hnw
                | atEnd h1 h2 h3 h4 => rw [hem] at h4; simp at h4
                | someEnd => simp
              · intro h; exact absurd h hnw
            | false =>
              simp only [Bool.false_eq_true, if_false] at h1
              obtain ⟨N, A, g, g9, g10⟩ := work (.inr ⟨rfl, .inr hpath⟩) h1
              refine ⟨N, A, g, ?_, fun _ => g10⟩
              intro y hy
              cases hy with
              | self h1 h2 h3 => rw [hst] at h1; cases h1; exact g9 h3
              | atEnd h1 h2 h3 => simp at h3
              | someEnd h1 h2 h3 => simp at h3
          · rename_i hpath
            simp only [Option.some.injEq] at h1
            subst h1
            have hnw : ¬ Works full st c := by
              rintro (h | h)
              · exact h hs
              · rcases h.2 with h | h
                · rw [hem] at h; simp at h
                · exact hpath h
            refine ⟨fun _ => False, [], ⟨rfl, by simp, fun b hb1 => .inl (hb b hb1), by simp, by simp, by simp,
              by simpa using hh, hm⟩, ?_, fun h => absurd h hnw⟩
            intro y hy
            cases hy with
            | self h1 h2 => rw [hst] at h1; cases h1; exact absurd h2 hnw
            | atEnd h1 h2 h3 h4 => rw [hem] at h4; simp at h4
            | someEnd h1 h2 h3 h4 h5 => exact absurd h5 hpath
        obtain ⟨N, A, ⟨g1, g2, g3, g4, g5, g6, g7, g8⟩, g9, g10⟩ := first
        obtain ⟨N2, A2, k, k9⟩ := popLoop_grown ih c.ctx.entries hqp g8
          (K := fun x => (K x ∨ x = c) ∨ N x) g3 g7 h
        refine ⟨fun x => (N x ∨ N2 x) ∨ x = c, A ++ A2, .inr rfl, k.inp.trans g1, ?_, ?_, ?_, ?_, ?_, ?_, k.cache⟩
        · rintro x ((hx | hx) | rfl)
          · exact g2 x hx
          · exact k.cls x hx
          · exact hq
        · intro b hb1; have := k.busy b hb1; tauto
        · rintro x ((hx | hx) | rfl) y hy
          · obtain ⟨z, hz, e⟩ := g4 x hx y hy; exact ⟨z, by tauto, e⟩
          · obtain ⟨z, hz, e⟩ := k.closed x hx y hy; exact ⟨z, by tauto, e⟩
          · cases hy with
            | @edge c' st' tr h1 h2 h3 h4 =>
              rw [hst] at h1; cases h1
              obtain ⟨z, hz, e⟩ := g10 h2 tr h3 c' h4
              exact ⟨z, by tauto, e⟩
            | pop h1 h2 h3 h4 h5 => exact ⟨_, .inr (.inl (.inr (k9 _ _ h4 h5))), rfl⟩
        · rintro x ((hx | hx) | rfl) y hy
          · exact List.mem_append_left _ (g5 x hx y hy)
          · exact List.mem_append_right _ (k.into x hx y hy)
          · exact List.mem_append_left _ (g9 y hy)
        · intro y hy
          rcases List.mem_append.1 hy with hy | hy
          · obtain ⟨x, hx, h⟩ := g6 y hy; exact ⟨x, by tauto, h⟩
          · obtain ⟨x, hx, h⟩ := k.out y hy; exact ⟨x, by tauto, h⟩
        · rw [← List.append_assoc]; exact k.holds
    · rw [if_neg hs] at h
      have hw : Works full st c := .inl hs
      obtain ⟨N, A, ⟨g1, g2, g3, g4, g5, g6, g7, g8⟩, g9, g10⟩ := work hw h
      refine ⟨fun x => N x ∨ x = c, A, .inr rfl, g1, ?_, ?_, ?_, ?_, g6, g7, g8⟩
      · rintro x (hx | rfl)
        · exact g2 x hx
        · exact hq
      · intro b hb1; have := g3 b hb1; tauto
      · rintro x (hx | rfl) y hy
        · obtain ⟨z, hz, e⟩ := g4 x hx y hy; exact ⟨z, by tauto, e⟩
        · cases hy with
          | @edge c' st' tr h1 h2 h3 h4 =>
            rw [hst] at h1; cases h1
            obtain ⟨z, hz, e⟩ := g10 tr h3 c' h4
            exact ⟨z, by tauto, e⟩
          | pop h1 h2 h3 => rw [hst] at h1; cases h1; exact absurd h2 hs
      · rintro x (hx | rfl) y hy
        · exact g5 x hx y hy
        · cases hy with
          | self h1 h2 h3 => rw [hst] at h1; cases h1; exact g9 h3
          | atEnd h1 h2 h3 => rw [hst] at h1; cases h1; exact absurd h2 hs
          | someEnd h1 h2 h3 => rw [hst] at h1; cases h1; exact absurd h2 hs

end Antlr.Prediction
