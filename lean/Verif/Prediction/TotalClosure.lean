import Verif.Prediction.Total
import Verif.PredictionContext.Keeps

/-!
# Helper lemmas: `closure` returns, the recursion
-/

namespace Antlr.Prediction
open Antlr StackSpec ConfigSet PC PredictionSpec LL1Spec

variable {I : Type}

/-- A set of configurations and a merge cache to which configurations can be added. -/
structure Open (full d : Bool) (s : ConfigSet) (mc : PC.Cache) : Prop where
  cache : CacheFit full d mc
  holds : ∃ added, Holds full d added s
  flat : full = true → s.dips = false
  low : full = true → ∀ c ∈ s.configs, c.reaches ≤ 0

theorem addCached_keeps {s s' : ConfigSet} {c : Config} {mc : PC.Cache} {o : Option PC.Cache}
    (h : s.addCached c (some mc) = some (s', o)) :
    (∃ mc', o = some mc') ∧ s'.dips = (s.dips || decide (0 < c.reaches)) ∧
      ((∀ x ∈ s.configs, x.reaches ≤ 0) → c.reaches ≤ 0 → ∀ x ∈ s'.configs, x.reaches ≤ 0) := by
  unfold ConfigSet.addCached at h
  split at h
  · simp at h
  split at h
  · rw [Option.bind_eq_some_iff] at h
    obtain ⟨e, he, h⟩ := h
    rw [Option.map_eq_some_iff] at h
    obtain ⟨⟨r, mr⟩, hr, h⟩ := h
    simp only [Prod.mk.injEq] at h
    obtain ⟨rfl, rfl⟩ := h
    refine ⟨Option.isSome_iff_exists.1 (merge_keeps _ _ _ _ _ _ hr), rfl, fun h1 h2 x hx => ?_⟩
    rcases List.mem_or_eq_of_mem_set hx with hx | rfl
    · exact h1 x hx
    · have := h1 e (List.mem_of_getElem? he)
      simp only [mergeInto]; omega
  · simp only [Option.some.injEq, Prod.mk.injEq] at h
    obtain ⟨rfl, rfl⟩ := h
    refine ⟨⟨_, rfl⟩, rfl, fun h1 h2 x hx => ?_⟩
    rcases List.mem_append.1 hx with hx | hx
    · exact h1 x hx
    · rw [List.mem_singleton] at hx; rw [hx]; exact h2

theorem addCached_total {full d : Bool} (hd : full = false → d = true) {s : ConfigSet} {mc : PC.Cache}
    (h : Open full d s mc) {c : Config} (hc : Fit full c.ctx) (hf : full = true → c.reaches ≤ 0) :
    ∃ s' mc', s.addCached c (some mc) = some (s', some mc') ∧ Open full d s' mc' := by
  obtain ⟨added, hh⟩ := h.holds
  obtain ⟨b, hi⟩ := hh.inv
  obtain ⟨s2, m2, h1, -⟩ := addCached_inv (by simpa using hd) hi hc.wf h.cache.ok
  rw [addCached_dips, Option.map_eq_some_iff] at h1
  obtain ⟨⟨s', o⟩, h1, -⟩ := h1
  obtain ⟨⟨mc', rfl⟩, h2, h5⟩ := addCached_keeps h1
  obtain ⟨h3, h4⟩ := holds_addCached hd hh hc h.cache h1
  refine ⟨s', mc', h1, h4, ⟨_, h3⟩, fun e => ?_, fun e => h5 (h.low e) (hf e)⟩
  have := hf e
  rw [h2, h.flat e, Bool.false_or, decide_eq_false_iff_not]; omega

theorem add_total {full d : Bool} (hd : full = false → d = true) {w : Work I} (h : Open full d w.configs w.mc)
    {c : Config} (hc : Fit full c.ctx) (hf : full = true → c.reaches ≤ 0) :
    ∃ w', w.add c = some w' ∧ Open full d w'.configs w'.mc ∧ w'.busy = w.busy := by
  obtain ⟨s', mc', h1, h2⟩ := addCached_total hd h hc hf
  exact ⟨{ w with configs := s', mc := mc' }, by simp [Work.add, h1], h2, rfl⟩

/-- The recursive call returns, if `m` suffices for what is left to do. -/
def RecTotal (atn : ATN) (N : Nat) (full eof d : Bool) (κ : ConfigType) (m : Nat) (rec : Rec I) : Prop :=
  ∀ c collect depth (w : Work I) k, Sane atn full κ c → Open full d w.configs w.mc → ¬ CChain atn eof k c →
    k + unseen atn c.alt κ w.busy * (N + 1) ≤ m →
    ∃ w', rec c collect depth w = some w' ∧ Open full d w'.configs w'.mc ∧ ∀ b ∈ w.busy, b ∈ w'.busy

theorem canDrop_total {atn : ATN} (ha : Plain atn) {c : Config} {st : ATNState} (h : atn.states[c.state]? = some st) :
    canDrop atn c = some false := by
  unfold canDrop
  rw [h, Option.bind_some]
  split
  · rename_i n g l p hp
    cases p with
    | true => exact absurd hp (ha.noPrec _ _ h n g l)
    | false => simp
  · rfl

theorem epsilonTarget_total [TokStream I] {L : Local I} (ha : Plain L.atn) {full eof : Bool} {c : Config} {st : ATNState}
    (hst : L.atn.states[c.state]? = some st) {tr : Trans} (htr : tr ∈ st.transitions) (cc ic : Bool) (inp : I) :
    epsilonTarget L full eof c tr cc ic inp = some (edgeTo eof c tr, inp) := by
  have ht := ha.targets _ _ hst _ htr
  have hp := ha.noPred _ _ hst _ htr
  have : ∃ r, epsilonTarget L full eof c tr cc ic inp = some r := by
    have cl : ∀ c : Config, cloned L.atn c tr.target = some { c with state := tr.target } := by
      intro c; simp [cloned, List.getElem?_eq_getElem ht]
    cases tr with
    | predicate => simp [Trans.getPredicate] at hp
    | precedence => simp [Trans.getPredicate] at hp
    | epsilon t x => exact ⟨_, by simp only [epsilonTarget]; rw [show t = (Trans.epsilon t x).target from rfl, cl]; rfl⟩
    | rule t f r p => exact ⟨_, by simp only [epsilonTarget]; rw [show t = (Trans.rule t f r p).target from rfl, cl]; rfl⟩
    | action t a b x y => exact ⟨_, by simp only [epsilonTarget]; rw [show t = (Trans.action t a b x y).target from rfl, cl]; rfl⟩
    | notSet => exact ⟨_, rfl⟩
    | wildcard => exact ⟨_, rfl⟩
    | atom t l =>
      simp only [Trans.target] at cl
      simp only [epsilonTarget, Trans.matches, Option.bind_some, cl, Option.map_some]
      split
      · split <;> exact ⟨_, rfl⟩
      · exact ⟨_, rfl⟩
    | set t l =>
      simp only [Trans.target] at cl
      simp only [epsilonTarget, Trans.matches, Option.bind_some, cl, Option.map_some]
      split
      · split <;> exact ⟨_, rfl⟩
      · exact ⟨_, rfl⟩
    | range t l u =>
      simp only [Trans.target] at cl
      simp only [epsilonTarget, Trans.matches, Option.bind_some, cl, Option.map_some]
      split
      · split <;> exact ⟨_, rfl⟩
      · exact ⟨_, rfl⟩
  obtain ⟨r, hr⟩ := this
  rw [hr, edgeTo_spec hp hr]

theorem workStep_total [TokStream I] {L : Local I} {N : Nat} {full eof d : Bool} {κ : ConfigType} {m : Nat} {rec : Rec I}
    (ha : Plain L.atn) (hl : NoLoop L.atn N) (hp : L.isPrec = false) (hr : RecTotal L.atn N full eof d κ m rec)
    {c : Config} {collect : Bool} {depth : Int} {st : ATNState} {tr : Trans} {i k : Nat} {w : Work I}
    (hs : Sane L.atn full κ c) (hst : L.atn.states[c.state]? = some st) (hw : Works full st c)
    (htr : tr ∈ st.transitions) (ho : Open full d w.configs w.mc) (hk : ¬ CChain L.atn eof (k + 1) c)
    (hm : k + unseen L.atn c.alt κ w.busy * (N + 1) ≤ m) :
    ∃ w', workStep L full eof rec c collect depth st tr i w = some w' ∧ Open full d w'.configs w'.mc ∧
      ∀ b ∈ w.busy, b ∈ w'.busy := by
  have hcls := cls_sane ha full eof κ
  unfold workStep
  rw [show (if i = 0 then canDrop L.atn c else some false) = some false by
    split
    · exact canDrop_total ha hst
    · rfl]
  simp only [Option.bind_some, Bool.false_eq_true, if_false, epsilonTarget_total ha hst htr]
  cases he : edgeTo eof c tr with
  | none => exact ⟨w, rfl, ho, fun _ h => h⟩
  | some c' =>
    dsimp only
    have hs' := hcls.succ _ _ hs (.edge hst hw htr he)
    by_cases hstop : st.stateType = .ruleStop
    · rcases hw with hw | ⟨hfull, hw⟩
      · exact absurd hstop hw
      have hctx : c.ctx = EMPTY := by
        have hpath : c.ctx.hasEmptyPath = true := by
          rcases hw with hw | hw
          · exact wf_isEmpty_hasEmptyPath hs.sound.wf hw
          · exact hw
        exact loc_path (hs.sound.fit.loc hfull) hs.sound.wf hpath
      obtain ⟨f, x, rfl, -⟩ := ha.stops _ _ hst hstop _ htr
      simp only [edgeTo, Option.some.injEq] at he
      subst he
      rw [if_pos hstop, if_neg (by simp [hfull])]
      simp only [intoOuter, hp, Bool.false_eq_true, if_false, Option.bind_some]
      rw [outOf, if_pos hstop] at hs'
      split
      · exact ⟨w, rfl, ho, fun _ h => h⟩
      · rename_i hbusy
        rw [Bool.not_eq_true] at hbusy
        have hlt := unseen_cons (atn := L.atn) (a := c.alt) (κ := κ) (b := w.busy)
          (c := { c with state := f, reaches := c.reaches + 1 }) (ha.targets _ _ hst _ htr) rfl hctx hs'.sound.sem
          hs'.kind hbusy
        obtain ⟨w', h1, h2, h3⟩ := hr _ (!isAction (Trans.epsilon f x) && collect) (depth - 1)
          { configs := { w.configs with dips := true }, busy := { c with state := f, reaches := c.reaches + 1 } :: w.busy,
            mc := w.mc, inp := w.inp } N hs'
          ⟨ho.cache, ho.holds.imp fun _ h => h.dips true, fun e => by rw [hfull] at e; simp at e,
            fun e => by rw [hfull] at e; simp at e⟩
          (cchain_empty ha hl hs' hctx) (by
            have := Nat.mul_le_mul_right (N + 1) hlt
            rw [Nat.succ_mul] at this
            dsimp only at this ⊢
            omega)
        exact ⟨w', h1, h2, fun b hb => h3 b (List.mem_cons_of_mem _ hb)⟩
    · rw [if_neg hstop]
      rw [outOf, if_neg hstop] at hs'
      split
      · exact ⟨w, rfl, ho, fun _ h => h⟩
      · have hk' : ¬ CChain L.atn eof k c' := fun h => hk ⟨c', .edge hst hstop htr he, h⟩
        have hsub : ∀ b ∈ w.busy, b ∈ (if tr.isEpsilon then w.busy else c' :: w.busy) := by
          intro b hb; split
          · exact hb
          · exact List.mem_cons_of_mem _ hb
        obtain ⟨w', h1, h2, h3⟩ := hr c' (!isAction tr && collect) (if isRule tr ∧ 0 ≤ depth then depth + 1 else depth)
          { w with busy := if tr.isEpsilon then w.busy else c' :: w.busy, inp := w.inp } k hs' ho hk' (by
            have h1 := unseen_mono (atn := L.atn) (a := c.alt) (κ := κ) hsub
            have h2 := Nat.mul_le_mul_right (N + 1) h1
            rw [(edgeTo_reaches he).2.1]
            dsimp only
            omega)
        exact ⟨w', h1, h2, fun b hb => h3 b (hsub b hb)⟩

theorem workLoop_total [TokStream I] {L : Local I} {N : Nat} {full eof d : Bool} {κ : ConfigType} {m : Nat} {rec : Rec I}
    (ha : Plain L.atn) (hl : NoLoop L.atn N) (hp : L.isPrec = false) (hr : RecTotal L.atn N full eof d κ m rec)
    {c : Config} {collect : Bool} {depth : Int} {st : ATNState} {k : Nat}
    (hs : Sane L.atn full κ c) (hst : L.atn.states[c.state]? = some st) (hw : Works full st c)
    (hk : ¬ CChain L.atn eof (k + 1) c) (trs : List (Trans × Nat)) (htr : ∀ x ∈ trs, x.1 ∈ st.transitions) {w : Work I}
    (ho : Open full d w.configs w.mc) (hm : k + unseen L.atn c.alt κ w.busy * (N + 1) ≤ m) :
    ∃ w', workLoop L full eof rec c collect depth st trs w = some w' ∧ Open full d w'.configs w'.mc ∧
      ∀ b ∈ w.busy, b ∈ w'.busy := by
  induction trs generalizing w with
  | nil => exact ⟨w, rfl, ho, fun _ h => h⟩
  | cons x trs ih =>
    obtain ⟨tr, i⟩ := x
    obtain ⟨w1, h1, h2, h3⟩ := workStep_total (collect := collect) (depth := depth) (i := i) ha hl hp hr hs hst hw
      (htr (tr, i) (by simp)) ho hk hm
    obtain ⟨w2, g1, g2, g3⟩ := ih (fun x hx => htr x (by simp [hx])) h2 (by
      have := Nat.mul_le_mul_right (N + 1) (unseen_mono (atn := L.atn) (a := c.alt) (κ := κ) h3)
      omega)
    exact ⟨w2, by rw [workLoop, h1, Option.bind_some]; exact g1, g2, fun b hb => g3 b (h3 b hb)⟩

theorem closureWork_total [TokStream I] {L : Local I} {N : Nat} {full eof d : Bool} {κ : ConfigType} {m : Nat} {rec : Rec I}
    (ha : Plain L.atn) (hl : NoLoop L.atn N) (hp : L.isPrec = false) (hd : full = false → d = true)
    (hr : RecTotal L.atn N full eof d κ m rec) {c : Config} {collect : Bool} {depth : Int} {st : ATNState} {k : Nat}
    (hs : Sane L.atn full κ c) (hst : L.atn.states[c.state]? = some st) (hw : Works full st c)
    (hk : ¬ CChain L.atn eof (k + 1) c) {w : Work I}
    (ho : Open full d w.configs w.mc) (hm : k + unseen L.atn c.alt κ w.busy * (N + 1) ≤ m) :
    ∃ w', closureWork L full eof rec c collect depth w = some w' ∧ Open full d w'.configs w'.mc ∧
      ∀ b ∈ w.busy, b ∈ w'.busy := by
  have hmem : ∀ x ∈ st.transitions.zipIdx, x.1 ∈ st.transitions := by
    intro x hx
    obtain ⟨a, i⟩ := x
    exact List.mem_of_getElem? (List.mem_zipIdx_iff_getElem?.1 hx)
  have first : ∃ w1, (if st.epsilonOnly then some w else w.add c) = some w1 ∧ Open full d w1.configs w1.mc ∧
      w1.busy = w.busy := by
    split
    · exact ⟨w, rfl, ho, rfl⟩
    · exact add_total hd ho hs.sound.fit hs.flat
  obtain ⟨w1, h1, h2, h3⟩ := first
  obtain ⟨w2, g1, g2, g3⟩ := workLoop_total (collect := collect) (depth := depth) ha hl hp hr hs hst hw hk _ hmem h2
    (by rw [h3]; exact hm)
  exact ⟨w2, by rw [closureWork, hst, Option.bind_some, h1, Option.bind_some]; exact g1, g2, fun b hb => g3 b (h3 ▸ hb)⟩

theorem popLoop_total {atn : ATN} {N : Nat} {full eof d : Bool} {κ : ConfigType} {m : Nat} {rec : Rec I}
    (hr : RecTotal atn N full eof d κ m rec) {c : Config} {collect : Bool} {depth : Int} {k : Nat}
    (es : List (Option PC × Int)) (hes : EWF es)
    (hq : ∀ p r, (some p, r) ∈ es → r ≠ EMPTY_RS →
      Sane atn full κ { state := asUsize r, alt := c.alt, ctx := p, sem := c.sem, reaches := c.reaches } ∧
      ¬ CChain atn eof k { state := asUsize r, alt := c.alt, ctx := p, sem := c.sem, reaches := c.reaches })
    {w : Work I} (ho : Open full d w.configs w.mc) (hm : k + unseen atn c.alt κ w.busy * (N + 1) ≤ m) :
    ∃ w', popLoop rec c collect depth es w = some w' ∧ Open full d w'.configs w'.mc ∧ ∀ b ∈ w.busy, b ∈ w'.busy := by
  induction es generalizing w with
  | nil => exact ⟨w, rfl, ho, fun _ h => h⟩
  | cons e es ih =>
    obtain ⟨p, r⟩ := e
    have hes' : EWF es := ⟨(List.pairwise_cons.1 hes.1).2, fun e he => hes.2 e (List.mem_cons_of_mem _ he)⟩
    rw [popLoop]
    by_cases hre : r = EMPTY_RS
    · rw [if_pos hre]
      have : es = [] := by
        cases es with
        | nil => rfl
        | cons e' es =>
          exfalso
          have h1 := (List.pairwise_cons.1 hes.1).1 e' (by simp)
          have h2 := hes.2 e' (by simp)
          obtain ⟨o, r'⟩ := e'
          cases o with
          | none => simp only [EOk] at h2; dsimp only at h1; omega
          | some q => simp only [EOk] at h2; dsimp only at h1; omega
      subst this
      exact ⟨w, rfl, ho, fun _ h => h⟩
    · rw [if_neg hre]
      cases p with
      | none => exact absurd (hes.2 (none, r) (by simp)) hre
      | some p =>
        rw [Option.bind_some]
        obtain ⟨q1, q2⟩ := hq p r (by simp) hre
        obtain ⟨w1, h1, h2, h3⟩ := hr _ collect (depth - 1) w k q1 ho q2 hm
        obtain ⟨w2, g1, g2, g3⟩ := ih hes' (fun p r hm => hq p r (by simp [hm])) h2 (by
          have := Nat.mul_le_mul_right (N + 1) (unseen_mono (atn := atn) (a := c.alt) (κ := κ) h3)
          omega)
        exact ⟨w2, by rw [h1, Option.bind_some]; exact g1, g2, fun b hb => g3 b (h3 b hb)⟩

theorem check_total [TokStream I] {L : Local I} {N : Nat} {full eof d : Bool} (ha : Plain L.atn) (hl : NoLoop L.atn N)
    (hp : L.isPrec = false) (hd : full = false → d = true) (κ : ConfigType) (m : Nat) :
    RecTotal L.atn N full eof d κ m (closureCheck L full eof m) := by
  have hcls := cls_sane ha full eof κ
  induction m with
  | zero =>
    intro c collect depth w k _ _ hk hm
    have : k = 0 := by omega
    subst this
    exact absurd trivial hk
  | succ m ih =>
    intro c collect depth w k hs ho hk hm
    cases k with
    | zero => exact absurd trivial hk
    | succ k =>
    have hm' : k + unseen L.atn c.alt κ w.busy * (N + 1) ≤ m := by omega
    obtain ⟨st, hst⟩ := hs.state
    rw [closureCheck, hst, Option.bind_some]
    by_cases hstop : st.stateType = .ruleStop
    · rw [if_pos hstop]
      cases hem : c.ctx.isEmpty with
      | true =>
        simp only [Bool.not_true, Bool.false_eq_true, if_false]
        cases full with
        | true =>
          simp only [if_true]
          obtain ⟨w', h1, h2, h3⟩ := add_total hd ho hs.sound.fit hs.flat
          exact ⟨w', h1, h2, fun b hb => h3 ▸ hb⟩
        | false =>
          simp only [Bool.false_eq_true, if_false]
          exact closureWork_total ha hl hp hd ih hs hst (.inr ⟨rfl, .inl hem⟩) hk ho hm'
      | false =>
        simp only [Bool.not_false, if_true]
        have first : ∃ w1, (if c.ctx.hasEmptyPath then
              if full then w.add { c with ctx := PC.EMPTY }
              else closureWork L full eof (closureCheck L full eof m) c collect depth w
            else some w) = some w1 ∧ Open full d w1.configs w1.mc ∧ ∀ b ∈ w.busy, b ∈ w1.busy := by
          split
          · rename_i hpath
            cases full with
            | true =>
              simp only [if_true]
              obtain ⟨w', h1, h2, h3⟩ := add_total (c := { c with ctx := PC.EMPTY }) hd ho (Fit.empty _) hs.flat
              exact ⟨w', h1, h2, fun b hb => h3 ▸ hb⟩
            | false =>
              simp only [Bool.false_eq_true, if_false]
              exact closureWork_total ha hl hp hd ih hs hst (.inr ⟨rfl, .inr hpath⟩) hk ho hm'
          · exact ⟨w, rfl, ho, fun _ h => h⟩
        obtain ⟨w1, h1, h2, h3⟩ := first
        obtain ⟨w2, g1, g2, g3⟩ := popLoop_total (c := c) (collect := collect) (depth := depth) (k := k) ih c.ctx.entries
          (wf_entries hs.sound.wf)
          (fun p r hmem hne => ⟨hcls.succ _ _ hs (.pop hst hstop hem hmem hne),
            fun h => hk ⟨_, .pop hst hstop hem hmem hne, h⟩⟩) h2 (by
            have := Nat.mul_le_mul_right (N + 1) (unseen_mono (atn := L.atn) (a := c.alt) (κ := κ) h3)
            omega)
        exact ⟨w2, by rw [h1, Option.bind_some]; exact g1, g2, fun b hb => g3 b (h3 b hb)⟩
    · rw [if_neg hstop]
      exact closureWork_total ha hl hp hd ih hs hst (.inl hstop) hk ho hm'

/-- `closure` returns, with any fuel from some on. -/
theorem closure_total [TokStream I] {L : Local I} {N : Nat} {full eof d : Bool} (ha : Plain L.atn) (hl : NoLoop L.atn N)
    (hp : L.isPrec = false) (hd : full = false → d = true) {κ : ConfigType} {c : Config} (hs : Sane L.atn full κ c) :
    ∃ m0, ∀ m, m0 ≤ m → ∀ collect (w : Work I), Open full d w.configs w.mc →
      ∃ w', closure L m full eof c collect w = some w' ∧ Open full d w'.configs w'.mc := by
  obtain ⟨k, hk⟩ := cchain_ex (eof := eof) ha hl hs
  refine ⟨k + (outs L.atn c.alt κ).length * (N + 1), fun m hm collect w ho => ?_⟩
  obtain ⟨w', h1, h2, -⟩ := check_total (N := N) (eof := eof) ha hl hp hd κ m c collect 0 w k hs ho hk (by
    have : unseen L.atn c.alt κ w.busy ≤ (outs L.atn c.alt κ).length := List.countP_le_length
    have := Nat.mul_le_mul_right (N + 1) this
    omega)
  refine ⟨w', ?_, h2⟩
  rw [closure, h1, Option.bind_some, if_neg]
  intro h
  rw [Bool.and_eq_true] at h
  rw [h2.flat h.1] at h; simp at h

end Antlr.Prediction
