import Verif.Prediction.TotalClosure
import Verif.Prediction.Fuel

/-!
# Helper lemmas: `compute_reach_set` and `compute_start_state` return
-/

namespace Antlr.Prediction
open Antlr StackSpec ConfigSet PC PredictionSpec LL1Spec

variable {I : Type}

/-- With all fuel from some on, the result is `r`. -/
def Returns {α : Type} (f : Nat → Option α) (r : α) : Prop := ∃ m0, ∀ m, m0 ≤ m → f m = some r

theorem Returns.const {α : Type} {o : Option α} {r : α} (h : o = some r) : Returns (fun _ => o) r :=
  ⟨0, fun _ _ => h⟩

theorem Returns.bind {α β : Type} {f : Nat → Option α} {g : Nat → α → Option β} {a : α} {b : β} (h : Returns f a)
    (h' : Returns (fun m => g m a) b) : Returns (fun m => (f m).bind (g m)) b := by
  obtain ⟨m1, h1⟩ := h
  obtain ⟨m2, h2⟩ := h'
  refine ⟨max m1 m2, fun m hm => ?_⟩
  dsimp only
  rw [h1 m (by omega), Option.bind_some]
  exact h2 m (by omega)

theorem Returns.map {α β : Type} {f : Nat → Option α} {a : α} (h : Returns f a) (g : α → β) :
    Returns (fun m => (f m).map g) (g a) := by
  obtain ⟨m1, h1⟩ := h
  exact ⟨m1, fun m hm => by dsimp only; rw [h1 m hm]; rfl⟩

/-- It is enough to return once. -/
theorem Returns.of {α : Type} {f : Nat → Option α} (hb : ∀ m m', m ≤ m' → Below (f m) (f m')) {m : Nat} {r : α}
    (h : f m = some r) : Returns f r := ⟨m, fun m' hm => hb m m' hm r h⟩

theorem Open.new {full d : Bool} {mc : PC.Cache} (h : CacheFit full d mc) : Open full d (.newBase full) mc :=
  ⟨h, ⟨_, Holds.new full d⟩, fun _ => rfl, fun _ => by simp [newBase]⟩

theorem Open.fit {full d : Bool} {s : ConfigSet} {mc : PC.Cache} (h : Open full d s mc) : ∀ c ∈ s.configs, Fit full c.ctx := by
  obtain ⟨A, ⟨b, hi⟩, -, hl⟩ := h.holds
  exact fun c hc => ⟨hi.wf c hc, fun hf => hl hf c hc⟩

/-- A configuration of a finished set. -/
structure Fed (atn : ATN) (full : Bool) (c : Config) : Prop where
  sound : SoundK atn full (fun _ p => Inside atn p) (fun _ => True) c
  ripe : Ripe atn c
  flat : full = true → c.reaches ≤ 0

theorem matches_total {tr : Trans} (h1 : ∀ t f r p, tr ≠ .rule t f r p) (h2 : tr.getPredicate = none) (t a b : Int) :
    ∃ m, tr.matches t a b = some m := by
  cases tr with
  | rule t f r p => exact absurd rfl (h1 t f r p)
  | predicate => simp [Trans.getPredicate] at h2
  | precedence => simp [Trans.getPredicate] at h2
  | _ => exact ⟨_, rfl⟩

theorem reachTrans_total {atn : ATN} (ha : Plain atn) {full d : Bool} (hd : full = false → d = true) {t : Int} {c : Config}
    {st : ATNState} (hst : atn.states[c.state]? = some st) (hc : Fit full c.ctx) (hf : full = true → c.reaches ≤ 0)
    (hr : ∀ tr ∈ st.transitions, ∀ t f r p, tr ≠ .rule t f r p) (trs : List Trans) (hsub : ∀ tr ∈ trs, tr ∈ st.transitions)
    {acc : ConfigSet × PC.Cache} (ho : Open full d acc.1 acc.2) :
    ∃ acc', reachTrans atn t c trs acc = some acc' ∧ Open full d acc'.1 acc'.2 := by
  induction trs generalizing acc with
  | nil => exact ⟨acc, rfl, ho⟩
  | cons tr trs ih =>
    have htr := hsub tr (by simp)
    obtain ⟨m, hm⟩ := matches_total (hr tr htr) (ha.noPred _ _ hst _ htr) t 0 atn.maxTokenType
    rw [reachTrans, hm, Option.bind_some]
    cases m with
    | false => exact ih (fun x hx => hsub x (by simp [hx])) ho
    | true =>
      have hcl : cloned atn c tr.target = some { c with state := tr.target } := by
        simp [cloned, List.getElem?_eq_getElem (ha.targets _ _ hst _ htr)]
      obtain ⟨s', mc', h1, h2⟩ := addCached_total (c := { c with state := tr.target }) hd ho hc hf
      simp only [if_true, hcl, Option.bind_some, h1]
      exact ih (fun x hx => hsub x (by simp [hx])) h2

theorem Ripe.noRule {atn : ATN} (ha : Plain atn) (hu : Unmixed atn) {c : Config} (h : Ripe atn c) {st : ATNState}
    (hst : atn.states[c.state]? = some st) (hn : st.stateType ≠ .ruleStop) :
    ∀ tr ∈ st.transitions, ∀ t f r p, tr ≠ .rule t f r p := by
  rintro _ htr t f r p rfl
  rcases h.wait with h | ⟨st', h1, h2⟩
  · exact hn ((isStop_iff hst).1 h)
  · rw [hst, Option.some.injEq] at h1
    subst h1
    have := (ha.marks _ _ hst).2 ⟨List.ne_nil_of_mem htr, hu _ _ hst _ _ _ _ htr⟩
    rw [this] at h2; simp at h2

theorem Fed.state {atn : ATN} {full : Bool} {c : Config} (h : Fed atn full c) : ∃ st, atn.states[c.state]? = some st := by
  rcases h.ripe.wait with h | ⟨st, h, -⟩
  · unfold isStop at h
    split at h
    · exact ⟨_, by assumption⟩
    · simp at h
  · exact ⟨st, h⟩

theorem reachLoop_total {atn : ATN} (ha : Plain atn) (hu : Unmixed atn) {full d : Bool} (hd : full = false → d = true) {t : Int}
    (cs : List Config) (hc : ∀ c ∈ cs, Fed atn full c) {acc : ConfigSet × PC.Cache} {sk : List Config}
    (ho : Open full d acc.1 acc.2) :
    ∃ im mc' sk', reachLoop atn t full cs acc sk = some (im, mc', sk') ∧ Open full d im mc' := by
  induction cs generalizing acc sk with
  | nil => exact ⟨_, _, _, rfl, ho⟩
  | cons c cs ih =>
    have hF := hc c (by simp)
    obtain ⟨st, hst⟩ := hF.state
    rw [reachLoop, hst, Option.bind_some]
    by_cases hs : st.stateType = .ruleStop
    · have := hF.ripe.stop ((isStop_iff hst).2 hs)
      rw [if_pos hs, if_pos (by rw [this]; rfl)]
      exact ih (fun x hx => hc x (by simp [hx])) ho
    · rw [if_neg hs]
      obtain ⟨acc', h1, h2⟩ := reachTrans_total (t := t) ha hd hst hF.sound.fit hF.flat (hF.ripe.noRule ha hu hst hs) _
        (fun _ h => h) ho
      rw [h1, Option.bind_some]
      exact ih (fun x hx => hc x (by simp [hx])) h2

theorem closure_returns [TokStream I] {L : Local I} {N : Nat} {full eof d : Bool} (ha : Plain L.atn) (hl : NoLoop L.atn N)
    (hp : L.isPrec = false) (hd : full = false → d = true) {κ : ConfigType} {c : Config} (hs : Sane L.atn full κ c)
    (collect : Bool) {w : Work I} (ho : Open full d w.configs w.mc) :
    ∃ w', Returns (fun m => closure L m full eof c collect w) w' ∧ Open full d w'.configs w'.mc := by
  obtain ⟨m0, h⟩ := closure_total (eof := eof) ha hl hp hd hs
  obtain ⟨w', h1, h2⟩ := h m0 (Nat.le_refl _) collect w ho
  exact ⟨w', .of (fun _ _ hm => closure_below hm _ _ _) h1, h2⟩

theorem closeAll_total [TokStream I] {L : Local I} {N : Nat} {full eof d : Bool} (ha : Plain L.atn) (hl : NoLoop L.atn N)
    (hp : L.isPrec = false) (hd : full = false → d = true) (cs : List Config) (hs : ∀ c ∈ cs, Sane L.atn full c.kind c)
    {w : Work I} (ho : Open full d w.configs w.mc) :
    ∃ w', Returns (fun m => closeAll L m full eof cs w) w' ∧ Open full d w'.configs w'.mc := by
  induction cs generalizing w with
  | nil => exact ⟨w, .const rfl, ho⟩
  | cons c cs ih =>
    obtain ⟨w1, h1, h2⟩ := closure_returns (eof := eof) ha hl hp hd (hs c (by simp)) false ho
    obtain ⟨w2, h3, h4⟩ := ih (fun x hx => hs x (by simp [hx])) h2
    exact ⟨w2, h1.bind h3, h4⟩

theorem addEach_total {full d : Bool} (hd : full = false → d = true) (cs : List Config) (hc : ∀ c ∈ cs, Fit full c.ctx)
    (hf : full = true → ∀ c ∈ cs, c.reaches ≤ 0) {s : ConfigSet} {mc : PC.Cache} (ho : Open full d s mc) :
    ∃ s' mc', addEach cs s mc = some (s', mc') ∧ Open full d s' mc' := by
  induction cs generalizing s mc with
  | nil => exact ⟨_, _, rfl, ho⟩
  | cons c cs ih =>
    obtain ⟨s', mc', h1, h2⟩ := addCached_total hd ho (hc c (by simp)) (fun e => hf e c (by simp))
    obtain ⟨s2, mc2, h3, h4⟩ := ih (fun x hx => hc x (by simp [hx])) (fun e x hx => hf e x (by simp [hx])) h2
    exact ⟨s2, mc2, by simp only [addEach, h1, Option.bind_some]; exact h3, h4⟩

theorem keepStops_total {atn : ATN} {full d : Bool} (hd : full = false → d = true) {s : ConfigSet} {mc : PC.Cache}
    (ho : Open full d s mc) : ∃ s' mc', keepStops atn s mc = some (s', mc') ∧ Open full d s' mc' := by
  unfold keepStops
  split
  · exact ⟨_, _, rfl, ho⟩
  · obtain ⟨A, hA⟩ := ho.holds
    rw [hA.fullCtx]
    exact addEach_total hd _ (fun c hc => ho.fit c (List.mem_filter.1 hc).1)
      (fun e c hc => ho.low e c (List.mem_filter.1 hc).1) (Open.new ho.cache)

/-- `compute_reach_set` returns. -/
theorem computeReach_total [TokStream I] {L : Local I} {N : Nat} {full d : Bool} (ha : Plain L.atn) (hl : NoLoop L.atn N)
    (hu : Unmixed L.atn) (hp : L.isPrec = false) (hd : full = false → d = true) {cs : ConfigSet} {t : Int}
    (hc : ∀ c ∈ cs.configs, Fed L.atn full c) {mc : PC.Cache} (hm : CacheFit full d mc) (inp : I) :
    ∃ r mc' inp', Returns (fun m => computeReach L m cs t full mc inp) (r, mc', inp') ∧
      ∀ s, r = some s → Open full d s mc' := by
  obtain ⟨im, mc1, sk, h1, o1⟩ := reachLoop_total (t := t) (acc := (.newBase full, mc)) (sk := []) ha hu hd _ hc
    (Open.new hm)
  obtain ⟨A, S, i1, i2, i3, i4, i5, i6⟩ := reachLoop_spec ha hd _ (fun c h => (hc c h).sound.fit)
    (Holds.new full d) hm h1
  rw [List.nil_append] at i1 i4
  subst i4
  have sA : ∀ a ∈ A, SoundC full (fun _ p => Inside L.atn p) a := by
    intro a haA
    obtain ⟨c, hcm, st, tr, e1, e2, e3, e4, rfl⟩ := (i3 a).1 haA
    rcases (hc c hcm).sound with hk | hk
    · exact ⟨hk.fit, hk.sem, fun s hsd => ⟨ha.targets _ _ e1 _ e3, (hk.all s hsd).2⟩⟩
    · exact absurd ((isStop_iff e1).1 hk.1) e2
  have sane : ∀ c ∈ im.configs, Sane L.atn full c.kind c := fun c h =>
    ⟨holds_sound i1 sA c h, fun e => o1.low e c h, .inr rfl⟩
  have second : ∃ reach mc2 inp2, Returns (fun m =>
      if sk.isEmpty && t != TOKEN_EOF && (im.configs.length == 1 || uniqueAlt im != INVALID_ALT) then some (im, mc1, inp)
      else (closeAll L m full (t == TOKEN_EOF) im.configs ⟨.newBase full, [], mc1, inp⟩).map
        fun w => (w.configs, w.mc, w.inp)) (reach, mc2, inp2) ∧ Open full d reach mc2 := by
    by_cases hq : (sk.isEmpty && t != TOKEN_EOF && (im.configs.length == 1 || uniqueAlt im != INVALID_ALT)) = true
    · simp only [if_pos hq]
      exact ⟨_, _, _, .const rfl, o1⟩
    · simp only [if_neg hq]
      obtain ⟨w, g1, g2⟩ := closeAll_total (eof := (t == TOKEN_EOF)) ha hl hp hd im.configs sane
        (w := ⟨.newBase full, [], mc1, inp⟩) (Open.new o1.cache)
      exact ⟨_, _, _, g1.map _, g2⟩
  obtain ⟨reach, mc2, inp2, g1, g2⟩ := second
  have third : ∃ reach3 mc3, (if t = TOKEN_EOF then keepStops L.atn reach mc2 else some (reach, mc2)) = some (reach3, mc3) ∧
      Open full d reach3 mc3 := by
    split
    · exact keepStops_total hd g2
    · exact ⟨_, _, rfl, g2⟩
  obtain ⟨reach3, mc3, g3, g4⟩ := third
  have fourth : ∃ reach4 mc4, (if !sk.isEmpty && (!full || !reach3.configs.any (isStop L.atn)) then addEach sk reach3 mc3
      else some (reach3, mc3)) = some (reach4, mc4) ∧ Open full d reach4 mc4 := by
    split
    · exact addEach_total hd _ (fun c h => (hc c ((i5 c).1 h).1).sound.fit) (fun e c h => (hc c ((i5 c).1 h).1).flat e) g4
    · exact ⟨_, _, rfl, g4⟩
  obtain ⟨reach4, mc4, g5, g6⟩ := fourth
  refine ⟨if reach4.configs.isEmpty then none else some reach4, mc4, inp2, ?_, ?_⟩
  · unfold computeReach
    simp only [h1, Option.bind_some]
    refine g1.bind (.const ?_)
    simp only [g3, Option.bind_some, g5, Option.map_some]
  · intro s hs
    split at hs
    · simp at hs
    · rw [Option.some.injEq] at hs; subst hs; exact g6

theorem startLoop_total [TokStream I] {L : Local I} {N : Nat} {full d : Bool} (ha : Plain L.atn) (hl : NoLoop L.atn N)
    (hp : L.isPrec = false) (hd : full = false → d = true) {ctx : PC} (hctx : Fit full ctx)
    (hin : ∀ k, HasStack ctx k → ∀ f ∈ nats k, f < L.atn.states.length)
    (trs : List Trans) (htr : ∀ tr ∈ trs, tr.target < L.atn.states.length) (i : Nat)
    {w : Work I} (ho : Open full d w.configs w.mc) :
    ∃ w', Returns (fun m => startLoop L m ctx full trs i w) w' ∧ Open full d w'.configs w'.mc := by
  induction trs generalizing i w with
  | nil => exact ⟨w, .const rfl, ho⟩
  | cons tr trs ih =>
    have hcl : cloned L.atn { state := tr.target, alt := ((i + 1 : Nat) : Int), ctx := ctx } tr.target =
        some { state := tr.target, alt := ((i + 1 : Nat) : Int), ctx := ctx } := by
      simp [cloned, List.getElem?_eq_getElem (htr tr (by simp))]
    have hs : Sane L.atn full .base { state := tr.target, alt := ((i + 1 : Nat) : Int), ctx := ctx } :=
      ⟨⟨hctx, rfl, fun s h => ⟨htr tr (by simp), hin s h⟩⟩, fun _ => Int.le_refl _, .inl rfl⟩
    obtain ⟨w1, h1, h2⟩ := closure_returns (eof := false) (w := { w with busy := [] }) ha hl hp hd hs true ho
    obtain ⟨w2, h3, h4⟩ := ih (fun x hx => htr x (by simp [hx])) (i + 1) h2
    refine ⟨w2, ?_, h4⟩
    simp only [startLoop, hcl, Option.bind_some]
    exact h1.bind h3

/-- `compute_start_state` returns. -/
theorem computeStart_total [TokStream I] {L : Local I} {N : Nat} {full d : Bool} (ha : Plain L.atn) (hl : NoLoop L.atn N)
    (hp : L.isPrec = false) (hd : full = false → d = true) {ctx : PC} (hctx : Fit full ctx)
    (hin : ∀ k, HasStack ctx k → ∀ f ∈ nats k, f < L.atn.states.length) {dec : ATNState}
    (hdec : L.atn.states[L.atnStart]? = some dec) {mc : PC.Cache} (hm : CacheFit full d mc) (inp : I) :
    ∃ s mc' inp', Returns (fun m => computeStart L m ctx full mc inp) (s, mc', inp') ∧ Open full d s mc' := by
  obtain ⟨w, h1, h2⟩ := startLoop_total ha hl hp hd hctx hin dec.transitions (ha.targets _ _ hdec) 0
    (w := ⟨.newBase full, [], mc, inp⟩) (Open.new hm)
  refine ⟨_, _, w.inp, ?_, h2⟩
  simp only [computeStart, hdec, Option.bind_some]
  exact h1.map _

end Antlr.Prediction
