import Verif.Prediction.Pure

/-! Helper lemmas: the steps of prediction without full context do not depend on the merge cache, nor on the counts. -/

namespace Antlr.Prediction
open Antlr StackSpec ConfigSet PC PredictionSpec PredictionMode

variable {I : Type}

/-- Lists of configurations that are the same up to the counts. -/
structure LPair (l l' : List Config) : Prop where
  eq : l.map Config.norm = l'.map Config.norm
  fit : ∀ c ∈ l, Fit false c.ctx

theorem Pair.list {s s' : ConfigSet} (h : Pair s s') : LPair s.configs s'.configs := ⟨h.fields.2.1, h.fit⟩

theorem LPair.cases {c : Config} {l l' : List Config} (h : LPair (c :: l) l') :
    ∃ k l1, l' = { c with reaches := k } :: l1 ∧ Fit false c.ctx ∧ LPair l l1 := by
  have he := h.eq
  cases l' with
  | nil => simp at he
  | cons c' l1 =>
    simp only [List.map_cons, List.cons.injEq] at he
    obtain ⟨k, rfl⟩ := norm_iff.1 he.1
    exact ⟨k, l1, rfl, h.fit _ (List.mem_cons_self ..), he.2, fun x hx => h.fit x (List.mem_cons_of_mem _ hx)⟩

theorem LPair.nil {l' : List Config} (h : LPair [] l') : l' = [] := by
  have := h.eq
  simpa [eq_comm] using this

theorem LPair.filter {l l' : List Config} (h : LPair l l') (p p' : Config → Bool) (hp : ∀ c k, p' { c with reaches := k } = p c) :
    LPair (l.filter p) (l'.filter p') := by
  induction l generalizing l' with
  | nil => rw [h.nil]; exact ⟨rfl, by simp⟩
  | cons c l ih =>
    obtain ⟨k, l1, rfl, hf, h⟩ := h.cases
    have := ih h
    rw [List.filter_cons, List.filter_cons, hp]
    split
    · refine ⟨by simp [this.eq, Config.norm], ?_⟩
      intro x hx
      rcases List.mem_cons.1 hx with rfl | hx
      · exact hf
      · exact this.fit x hx
    · exact this

theorem LPair.append {l l' m m' : List Config} (h : LPair l l') (g : LPair m m') : LPair (l ++ m) (l' ++ m') := by
  refine ⟨by simp [h.eq, g.eq], ?_⟩
  intro x hx
  rcases List.mem_append.1 hx with hx | hx
  · exact h.fit x hx
  · exact g.fit x hx

theorem LPair.all {l l' : List Config} (h : LPair l l') (p : Config → Bool) (hp : ∀ c, p c.norm = p c) :
    l.all p = l'.all p := by
  have : ∀ l : List Config, (l.map Config.norm).all p = l.all p := by
    intro l; induction l <;> simp_all
  rw [← this, h.eq, this]

theorem LPair.any {l l' : List Config} (h : LPair l l') (p : Config → Bool) (hp : ∀ c, p c.norm = p c) :
    l.any p = l'.any p := by
  have : ∀ l : List Config, (l.map Config.norm).any p = l.any p := by
    intro l; induction l <;> simp_all
  rw [← this, h.eq, this]

theorem LPair.length {l l' : List Config} (h : LPair l l') : l.length = l'.length := by
  simpa using congrArg List.length h.eq

theorem LPair.unique {l l' : List Config} (h : LPair l l') (a : Int) : uniqueAltLoop l a = uniqueAltLoop l' a := by
  have : ∀ (l : List Config) (a : Int), uniqueAltLoop (l.map Config.norm) a = uniqueAltLoop l a := by
    intro l
    induction l with
    | nil => intro a; rfl
    | cons c l ih =>
      intro a
      simp only [List.map_cons, uniqueAltLoop, ih]
      rfl
  rw [← this, h.eq, this]

theorem Pair.new : Pair (newBase false) (newBase false) := ⟨rfl, rfl, by simp [newBase], rfl, rfl⟩

/-- Two sets and two merge caches. -/
structure SPair (s s' : ConfigSet) (mc mc' : PC.Cache) : Prop where
  sets : Pair s s'
  mc : LFit (some mc)
  mc' : LFit (some mc')

theorem addEach_pair {l l' : List Config} (hl : LPair l l') {s s' : ConfigSet} {mc mc' : PC.Cache} (h : SPair s s' mc mc')
    {r r' : ConfigSet × PC.Cache} (e : addEach l s mc = some r) (e' : addEach l' s' mc' = some r') :
    SPair r.1 r'.1 r.2 r'.2 := by
  induction l generalizing l' s s' mc mc' with
  | nil =>
    obtain rfl := hl.nil
    cases e
    cases e'
    exact h
  | cons c l ih =>
    obtain ⟨k, l1, rfl, hf, hl⟩ := hl.cases
    simp only [addEach] at e e'
    rw [Option.bind_eq_some_iff] at e e'
    obtain ⟨⟨t, m⟩, h1, e⟩ := e
    obtain ⟨⟨t', m'⟩, h1', e'⟩ := e'
    rw [Option.bind_eq_some_iff] at e e'
    obtain ⟨m, rfl, e⟩ := e
    obtain ⟨m', rfl, e'⟩ := e'
    obtain ⟨g1, g2, g3⟩ := addCached_pair h.sets (by exact rfl) hf h.mc h.mc' h1 h1'
    exact ih hl ⟨g1, g2, g3⟩ e e'

theorem reachTrans_pair {atn : ATN} {t : Int} {c : Config} {k : Int} (hf : Fit false c.ctx) {trs : List Trans}
    {a a' r r' : ConfigSet × PC.Cache} (h : SPair a.1 a'.1 a.2 a'.2) (e : reachTrans atn t c trs a = some r)
    (e' : reachTrans atn t { c with reaches := k } trs a' = some r') : SPair r.1 r'.1 r.2 r'.2 := by
  induction trs generalizing a a' with
  | nil =>
    cases e
    cases e'
    exact h
  | cons tr trs ih =>
    simp only [reachTrans] at e e'
    rw [Option.bind_eq_some_iff] at e e'
    obtain ⟨m, hm, e⟩ := e
    obtain ⟨m', hm', e'⟩ := e'
    rw [hm] at hm'
    cases hm'
    cases m with
    | false => exact ih h e e'
    | true =>
      simp only [if_true] at e e'
      rw [Option.bind_eq_some_iff] at e e'
      obtain ⟨x, hx, e⟩ := e
      obtain ⟨x', hx', e'⟩ := e'
      rw [cloned, Option.map_eq_some_iff] at hx hx'
      obtain ⟨_, -, rfl⟩ := hx
      obtain ⟨_, -, rfl⟩ := hx'
      rw [Option.bind_eq_some_iff] at e e'
      obtain ⟨⟨t, m⟩, h1, e⟩ := e
      obtain ⟨⟨t', m'⟩, h1', e'⟩ := e'
      rw [Option.bind_eq_some_iff] at e e'
      obtain ⟨m, rfl, e⟩ := e
      obtain ⟨m', rfl, e'⟩ := e'
      obtain ⟨g1, g2, g3⟩ := addCached_pair h.sets (by exact rfl) (by exact hf) h.mc h.mc' h1 h1'
      exact ih (a := (t, m)) (a' := (t', m')) ⟨g1, g2, g3⟩ e e'

theorem reachLoop_pair {atn : ATN} {t : Int} {l l' : List Config} (hl : LPair l l') {a a' : ConfigSet × PC.Cache}
    (h : SPair a.1 a'.1 a.2 a'.2) {sk sk' : List Config} (hs : LPair sk sk') {r r' : ConfigSet × PC.Cache × List Config}
    (e : reachLoop atn t false l a sk = some r) (e' : reachLoop atn t false l' a' sk' = some r') :
    SPair r.1 r'.1 r.2.1 r'.2.1 ∧ LPair r.2.2 r'.2.2 := by
  induction l generalizing l' a a' sk sk' with
  | nil =>
    obtain rfl := hl.nil
    cases e
    cases e'
    exact ⟨h, hs⟩
  | cons c l ih =>
    obtain ⟨k, l1, rfl, hf, hl⟩ := hl.cases
    simp only [reachLoop] at e e'
    rw [Option.bind_eq_some_iff] at e e'
    obtain ⟨st, hst, e⟩ := e
    obtain ⟨st', hst', e'⟩ := e'
    rw [hst] at hst'
    cases hst'
    by_cases hss : st.stateType = .ruleStop
    · rw [if_pos hss] at e e'
      by_cases he : c.ctx.isEmpty = true
      · rw [if_pos he] at e e'
        refine ih hl h ?_ e e'
        split
        · exact hs.append ⟨rfl, by simpa using hf⟩
        · exact hs
      · rw [if_neg he] at e
        simp at e
    · rw [if_neg hss] at e e'
      rw [Option.bind_eq_some_iff] at e e'
      obtain ⟨b, hb, e⟩ := e
      obtain ⟨b', hb', e'⟩ := e'
      exact ih hl (reachTrans_pair hf h hb hb') hs e e'

theorem isStop_norm (atn : ATN) (c : Config) : isStop atn c.norm = isStop atn c := rfl

theorem keepStops_pair {atn : ATN} {s s' : ConfigSet} {mc mc' : PC.Cache} (h : SPair s s' mc mc') {r r' : ConfigSet × PC.Cache}
    (e : keepStops atn s mc = some r) (e' : keepStops atn s' mc' = some r') : SPair r.1 r'.1 r.2 r'.2 := by
  unfold keepStops at e e'
  rw [← h.sets.list.all _ (isStop_norm atn)] at e'
  split at e
  · next ha =>
    rw [if_pos ha] at e'
    cases e
    cases e'
    exact h
  · next ha =>
    rw [if_neg ha] at e'
    rw [h.sets.loc] at e
    rw [← h.sets.fields.2.2.2.1, h.sets.loc] at e'
    exact addEach_pair (h.sets.list.filter _ _ fun c k => rfl) ⟨.new, h.mc, h.mc'⟩ e e'

variable [TokStream I] {L L' : Local I}

theorem closeAll_pair (hL : Alike L L') (ha : Small L.atn) {eof : Bool} {i i' : I} {n n' : Nat} {l l' : List Config} (hl : LPair l l')
    {w w' v v' : Work I} (hw : WPair i i' w w') (h : closeAll L n false eof l w = some v)
    (h' : closeAll L' n' false eof l' w' = some v') : WPair i i' v v' := by
  induction l generalizing l' w w' with
  | nil =>
    obtain rfl := hl.nil
    cases h
    cases h'
    exact hw
  | cons c l ih =>
    obtain ⟨k, l1, rfl, hf, hl⟩ := hl.cases
    simp only [closeAll] at h h'
    rw [Option.bind_eq_some_iff] at h h'
    obtain ⟨u, hu, h⟩ := h
    obtain ⟨u', hu', h'⟩ := h'
    exact ih hl (closure_pair hL ha (by exact rfl) hf hw hu hu') h h'

/-- The results of two computations of a reach set. -/
def OPair : Option ConfigSet → Option ConfigSet → Prop
  | none, none => True
  | some s, some s' => Pair s s'
  | _, _ => False

theorem computeReach_pair (hL : Alike L L') (ha : Small L.atn) {n n' : Nat} {s s' : ConfigSet} (hl : LPair s.configs s'.configs) {t : Int}
    {mc mc' : PC.Cache} (hm : LFit (some mc)) (hm' : LFit (some mc')) {i i' : I} {r r' : Option ConfigSet × PC.Cache × I}
    (e : computeReach L n s t false mc i = some r) (e' : computeReach L' n' s' t false mc' i' = some r') :
    OPair r.1 r'.1 ∧ LFit (some r.2.1) ∧ LFit (some r'.2.1) ∧ r.2.2 = i ∧ r'.2.2 = i' := by
  unfold computeReach at e e'
  rw [← hL.atn] at e'
  rw [Option.bind_eq_some_iff] at e e'
  obtain ⟨⟨im, m1, sk⟩, h1, e⟩ := e
  obtain ⟨⟨im', m1', sk'⟩, h1', e'⟩ := e'
  obtain ⟨g1, g2⟩ := reachLoop_pair hl (a := (_, mc)) (a' := (_, mc')) ⟨.new, hm, hm'⟩ (⟨rfl, by simp⟩ : LPair [] []) h1 h1'
  dsimp only at e e' g1 g2
  have hsk : sk.isEmpty = sk'.isEmpty := by
    have := g2.length
    cases sk <;> cases sk' <;> simp_all
  have hu : uniqueAlt im = uniqueAlt im' := g1.sets.list.unique _
  rw [← hsk, ← hu, ← g1.sets.list.length] at e'
  rw [Option.bind_eq_some_iff] at e e'
  obtain ⟨⟨re, m2, i2⟩, h2, e⟩ := e
  obtain ⟨⟨re', m2', i2'⟩, h2', e'⟩ := e'
  have g3 : SPair re re' m2 m2' ∧ i2 = i ∧ i2' = i' := by
    split at h2
    · next hc =>
      rw [if_pos hc] at h2'
      cases h2
      cases h2'
      exact ⟨g1, rfl, rfl⟩
    · next hc =>
      rw [if_neg hc] at h2'
      rw [Option.map_eq_some_iff] at h2 h2'
      obtain ⟨w, hw, h2⟩ := h2
      obtain ⟨w', hw', h2'⟩ := h2'
      cases h2
      cases h2'
      have := closeAll_pair hL ha g1.sets.list (by exact ⟨.new, rfl, g1.mc, g1.mc', rfl, rfl⟩) hw hw'
      exact ⟨⟨this.sets, this.mc, this.mc'⟩, this.inp, this.inp'⟩
  obtain ⟨g3, rfl, rfl⟩ := g3
  dsimp only at e e'
  rw [Option.bind_eq_some_iff] at e e'
  obtain ⟨⟨re2, m3⟩, h3, e⟩ := e
  obtain ⟨⟨re2', m3'⟩, h3', e'⟩ := e'
  have g4 : SPair re2 re2' m3 m3' := by
    split at h3
    · next hc =>
      rw [if_pos hc] at h3'
      exact keepStops_pair g3 h3 h3'
    · next hc =>
      rw [if_neg hc] at h3'
      cases h3
      cases h3'
      exact g3
  dsimp only at e e'
  rw [← g4.sets.list.any _ (isStop_norm L.atn)] at e'
  rw [Option.map_eq_some_iff] at e e'
  obtain ⟨⟨re3, m4⟩, h4, e⟩ := e
  obtain ⟨⟨re3', m4'⟩, h4', e'⟩ := e'
  have g5 : SPair re3 re3' m4 m4' := by
    split at h4
    · next hc =>
      rw [if_pos hc] at h4'
      exact addEach_pair g2 g4 h4 h4'
    · next hc =>
      rw [if_neg hc] at h4'
      cases h4
      cases h4'
      exact g4
  cases e
  cases e'
  refine ⟨?_, g5.mc, g5.mc', rfl, rfl⟩
  have hem : re3.configs.isEmpty = re3'.configs.isEmpty := by
    have := g5.sets.list.length
    cases h : re3.configs <;> cases h' : re3'.configs <;> simp_all
  dsimp only
  rw [← hem]
  split
  · trivial
  · exact g5.sets

theorem startLoop_pair (hL : Alike L L') (ha : Small L.atn) {i i' : I} {n n' : Nat} {ctx : PC} (hc : Fit false ctx)
    {trs : List Trans} {k : Nat} {w w' v v' : Work I} (hw : WPair i i' w w') (h : startLoop L n ctx false trs k w = some v)
    (h' : startLoop L' n' ctx false trs k w' = some v') : WPair i i' v v' := by
  induction trs generalizing w w' k with
  | nil =>
    cases h
    cases h'
    exact hw
  | cons tr trs ih =>
    simp only [startLoop] at h h'
    rw [Option.bind_eq_some_iff] at h h'
    obtain ⟨c, hc1, h⟩ := h
    obtain ⟨c', hc1', h'⟩ := h'
    rw [cloned, Option.map_eq_some_iff] at hc1 hc1'
    obtain ⟨_, -, rfl⟩ := hc1
    obtain ⟨_, -, rfl⟩ := hc1'
    rw [Option.bind_eq_some_iff] at h h'
    obtain ⟨u, hu, h⟩ := h
    obtain ⟨u', hu', h'⟩ := h'
    refine ih (closure_pair hL ha (by exact rfl) (by exact hc) ?_ hu hu') h h'
    exact ⟨hw.sets, rfl, hw.mc, hw.mc', hw.inp, hw.inp'⟩

theorem computeStart_pair (hL : Alike L L') (ha : Small L.atn) {n n' : Nat} {mc mc' : PC.Cache} (hm : LFit (some mc))
    (hm' : LFit (some mc')) {i i' : I} {r r' : ConfigSet × PC.Cache × I} (e : computeStart L n EMPTY false mc i = some r)
    (e' : computeStart L' n' EMPTY false mc' i' = some r') :
    SPair r.1 r'.1 r.2.1 r'.2.1 ∧ r.2.2 = i ∧ r'.2.2 = i' := by
  unfold computeStart at e e'
  rw [← hL.atn, ← hL.start] at e'
  rw [Option.bind_eq_some_iff] at e e'
  obtain ⟨st, h1, e⟩ := e
  obtain ⟨st', h1', e'⟩ := e'
  rw [h1] at h1'
  cases h1'
  rw [Option.map_eq_some_iff] at e e'
  obtain ⟨w, hw, e⟩ := e
  obtain ⟨w', hw', e'⟩ := e'
  cases e
  cases e'
  have := startLoop_pair hL ha (Fit.empty false) (by exact ⟨.new, rfl, hm, hm', rfl, rfl⟩) hw hw'
  exact ⟨⟨this.sets, this.mc, this.mc'⟩, this.inp, this.inp'⟩

end Antlr.Prediction
