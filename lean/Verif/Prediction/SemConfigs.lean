import Verif.Prediction.SemSteps

/-!
# Helper lemmas: the configurations of `closure`, with predicates
-/

namespace Antlr.Prediction.Sem
open Antlr StackSpec ConfigSet PC PredictionSpec LL1Spec

variable {I : Type}

/-- All threads the configuration stands for have the property. -/
structure Sound (full : Bool) (T : Int → Pos → Prop) (c : Config) : Prop where
  fit : Fit full c.ctx
  pos : ∀ s, HasStack c.ctx s → ∀ r ∈ s, 0 ≤ r
  all : ∀ s, HasStack c.ctx s → T c.alt (c.state, nats s)

theorem Sound.mono {full : Bool} {T T' : Int → Pos → Prop} {c : Config} (h : Sound full T c)
    (hT : ∀ p, T c.alt p → T' c.alt p) : Sound full T' c := ⟨h.fit, h.pos, fun s hs => hT _ (h.all s hs)⟩

theorem Sound.ex {full : Bool} {T : Int → Pos → Prop} {c : Config} (h : Sound full T c) : ∃ k, T c.alt (c.state, k) := by
  obtain ⟨s, hs⟩ := wf_nonempty_stack h.fit.wf; exact ⟨_, h.all s hs⟩

/-- The threads are closed under silent steps, and their states exist. -/
structure Moves (atn : ATN) (full eof : Bool) (T : Int → Pos → Prop) : Prop extends Goes atn full eof T where
  inside : ∀ j p, T j p → Inside atn p

theorem Sound.state {atn : ATN} {full eof : Bool} {T : Int → Pos → Prop} (hg : Moves atn full eof T) {c : Config}
    (h : Sound full T c) : ∃ st, atn.states[c.state]? = some st := by
  obtain ⟨k, hk⟩ := h.ex
  exact ⟨_, List.getElem?_eq_getElem (hg.inside _ _ hk).1⟩

theorem Sound.move {atn : ATN} (ha : Tame atn) {full eof : Bool} {T : Int → Pos → Prop} (hg : Goes atn full eof T)
    {c c' : Config} (hc : Sound full T c) {st : ATNState} {tr : Trans} (h1 : atn.states[c.state]? = some st)
    (h2 : st.stateType ≠ .ruleStop) (h3 : tr ∈ st.transitions) (h4 : Move atn eof c tr c') : Sound full T c' := by
  rcases h4 with ⟨s, hf, rfl⟩ | ⟨t, f, r, p, rfl, rfl⟩ | ⟨he, hn, ht, rfl⟩
  · exact ⟨hc.fit, hc.pos, fun s hs' => hg.step _ _ _ (hc.all s hs') (.free h1 h2 h3 hf)⟩
  · have hf := ha.follow _ _ h1 _ _ _ _ h3
    refine ⟨⟨.single (lt' ha hf) hc.fit.wf, fun hfull => loc_of (by simp [entries, hc.fit.loc hfull])⟩, ?_, ?_⟩
    · intro s hs'
      cases hs' with
      | @pushS _ _ s' hs2 =>
        intro x hx
        rcases List.mem_cons.1 hx with rfl | hx
        · omega
        · exact hc.pos s' hs2 x hx
    · intro s hs'
      cases hs' with
      | @pushS _ _ s' hs2 =>
        rw [nats, List.map_cons, usize' ha hf]
        exact hg.step _ _ _ (hc.all s' hs2) (.call h1 h2 h3)
  · exact ⟨hc.fit, hc.pos, fun s hs' => hg.read he _ _ _ (hc.all s hs') ⟨st, tr, h1, h2, h3, ht, rfl⟩⟩

/-- Leaving the rule without knowing where to. -/
theorem Sound.leave {atn : ATN} {full eof : Bool} {T : Int → Pos → Prop} (hg : Goes atn full eof T)
    {c c' : Config} (hc : Sound full T c) (hfull : full = false) (hctx : c.ctx = EMPTY) {st : ATNState} {f : Nat} {x : Int}
    (h1 : atn.states[c.state]? = some st) (h2 : st.stateType = .ruleStop) (h3 : .epsilon f x ∈ st.transitions)
    (e1 : c'.state = f) (e2 : c'.ctx = c.ctx) (e3 : c'.alt = c.alt) : Sound full T c' := by
  refine ⟨by rw [e2]; exact hc.fit, by rw [e2]; exact hc.pos, ?_⟩
  intro s hs
  rw [e2, hctx] at hs
  cases hs
  rw [e1, e3]
  exact hg.out hfull _ _ _ _ _ (hc.all [] (by rw [hctx]; exact .bottomS)) h1 h2 h3

theorem Sound.pop {atn : ATN} {full eof : Bool} {T : Int → Pos → Prop} (hg : Goes atn full eof T)
    {c : Config} (hc : Sound full T c) {st : ATNState} {p : PC} {r : Int} (h1 : atn.states[c.state]? = some st)
    (h2 : st.stateType = .ruleStop) (h3 : c.ctx.isEmpty = false) (h4 : (some p, r) ∈ c.ctx.entries) :
    Sound full T { state := asUsize r, alt := c.alt, ctx := p, sem := c.sem, reaches := c.reaches } := by
  have hw := (wf_entries hc.fit.wf).2 _ h4
  have hne : c.ctx ≠ EMPTY := by intro e; rw [e] at h3; simp [EMPTY, isEmpty] at h3
  refine ⟨⟨hw.2, fun hfull => ?_⟩, ?_, ?_⟩
  · obtain ⟨q, e, hl⟩ := loc_cases (hc.fit.loc hfull) hne _ h4
    simp only [Option.some.injEq] at e
    exact e ▸ hl
  · intro s hs' x hx
    exact hc.pos (r :: s) (den_pop (d := false) h4 hs') x (by simp [hx])
  · intro s hs'
    exact hg.step _ _ _ (hc.all (r :: s) (den_pop (d := false) h4 hs')) (.ret h1 h2)

/-- A step of `closure` that does not leave the rule into the unknown. -/
inductive Inner (atn : ATN) (eof : Bool) : Config → Config → Prop
  | edge {c c' : Config} {st : ATNState} {tr : Trans} : atn.states[c.state]? = some st → st.stateType ≠ .ruleStop →
      tr ∈ st.transitions → Move atn eof c tr c' → Inner atn eof c c'
  | pop {c : Config} {st : ATNState} {p : PC} {r : Int} : atn.states[c.state]? = some st →
      st.stateType = .ruleStop → c.ctx.isEmpty = false → (some p, r) ∈ c.ctx.entries → r ≠ EMPTY_RS →
      Inner atn eof c { state := asUsize r, alt := c.alt, ctx := p, sem := c.sem, reaches := c.reaches }

/-- `n` such steps in a row. -/
def CChain (atn : ATN) (eof : Bool) : Nat → Config → Prop
  | 0, _ => True
  | n + 1, c => ∃ c', Inner atn eof c c' ∧ CChain atn eof n c'

theorem cchain_thread {atn : ATN} (ha : Tame atn) {full eof : Bool} {T : Int → Pos → Prop} (hg : Moves atn full eof T)
    (n : Nat) : ∀ {c : Config}, Sound full T c → CChain atn eof n c →
      ∃ s, HasStack c.ctx s ∧ Chain atn n (c.state, nats s) := by
  induction n with
  | zero => intro c hs _; obtain ⟨s, h⟩ := wf_nonempty_stack hs.fit.wf; exact ⟨s, h, trivial⟩
  | succ n ih =>
    rintro c hs ⟨c', h1, h2⟩
    cases h1 with
    | @edge _ st tr g1 g2 g3 g4 =>
      obtain ⟨s', e1, e2⟩ := ih (hs.move ha hg.toGoes g1 g2 g3 g4) h2
      rcases g4 with ⟨s, hf, rfl⟩ | ⟨t, f, r, p, rfl, rfl⟩ | ⟨he, hn, ht, rfl⟩
      · exact ⟨s', e1, _, .inl (.free g1 g2 g3 hf), e2⟩
      · have hf := ha.follow _ _ g1 _ _ _ _ g3
        cases e1 with
        | @pushS _ _ s' hs2 =>
          rw [nats, List.map_cons, usize' ha hf] at e2
          exact ⟨s', hs2, _, .inl (.call g1 g2 g3), e2⟩
      · exact ⟨s', e1, _, .inr ⟨st, tr, g1, g2, g3, ht, rfl⟩, e2⟩
    | @pop st p r g1 g2 g3 g4 g5 =>
      obtain ⟨s', e1, e2⟩ := ih (hs.pop hg.toGoes g1 g2 g3 g4) h2
      exact ⟨r :: s', den_pop (d := false) g4 e1, _, .inl (.ret g1 g2), e2⟩

theorem cchain_ex {atn : ATN} (ha : Tame atn) {N : Nat} (hl : NoLoop atn N) {full eof : Bool} {T : Int → Pos → Prop}
    (hg : Moves atn full eof T) {c : Config} (hs : Sound full T c) : ∃ k, ¬ CChain atn eof k c := by
  obtain ⟨b, hb⟩ := stack_bound hs.fit.wf
  refine ⟨N * (b + 1), fun hc => ?_⟩
  obtain ⟨s, h1, h2⟩ := cchain_thread ha hg _ hs hc
  refine chain_bound hl (nats s) c.state (chain_le (Nat.mul_le_mul_left _ ?_) h2)
  have := hb s h1
  simp; omega

theorem cchain_empty {atn : ATN} (ha : Tame atn) {N : Nat} (hl : NoLoop atn N) {full eof : Bool} {T : Int → Pos → Prop}
    (hg : Moves atn full eof T) {c : Config} (hs : Sound full T c) (he : c.ctx = EMPTY) : ¬ CChain atn eof N c := by
  intro hc
  obtain ⟨s, h1, h2⟩ := cchain_thread ha hg _ hs hc
  rw [he] at h1
  cases h1
  exact hl _ h2

/-! ### Where an unknown caller goes on -/

/-- The configurations of alternative `a` in which `closure` may arrive after leaving the rule. -/
def outs (atn : ATN) (S : List SC) (a : Int) (κ : ConfigType) : List Config :=
  (List.range atn.states.length).flatMap fun f => S.flatMap fun s =>
    [{ state := f, alt := a, ctx := EMPTY, sem := s }, { state := f, alt := a, ctx := EMPTY, sem := s, suppressed := true },
      { state := f, alt := a, ctx := EMPTY, sem := s, kind := κ },
      { state := f, alt := a, ctx := EMPTY, sem := s, suppressed := true, kind := κ }]

/-- How many of them have not been seen. -/
def unseen (atn : ATN) (S : List SC) (a : Int) (κ : ConfigType) (busy : List Config) : Nat :=
  (outs atn S a κ).countP fun c => !busy.any (·.same c)

theorem unseen_mono {atn : ATN} {S : List SC} {a : Int} {κ : ConfigType} {b b' : List Config} (h : ∀ x ∈ b, x ∈ b') :
    unseen atn S a κ b' ≤ unseen atn S a κ b := by
  refine List.countP_mono_left fun x _ hx => ?_
  simp only [Bool.not_eq_true', List.any_eq_false] at hx ⊢
  exact fun y hy => hx y (h y hy)

theorem unseen_cons {atn : ATN} {S : List SC} {a : Int} {κ : ConfigType} {b : List Config} {c : Config}
    (h1 : c.state < atn.states.length) (h2 : c.alt = a) (h3 : c.ctx = EMPTY) (h4 : c.sem ∈ S)
    (h5 : c.kind = .base ∨ c.kind = κ) (h : b.any (·.same c) = false) : unseen atn S a κ (c :: b) < unseen atn S a κ b := by
  have hsame : ∃ x ∈ outs atn S a κ, x.norm = c.norm := by
    obtain ⟨s, al, ct, se, re, su, ki⟩ := c
    dsimp only at *
    subst h2 h3
    refine ⟨{ state := s, alt := al, ctx := EMPTY, sem := se, suppressed := su, kind := ki }, ?_, rfl⟩
    simp only [outs, List.mem_flatMap, List.mem_range]
    refine ⟨s, h1, se, h4, ?_⟩
    rcases h5 with rfl | rfl <;> cases su <;> simp
  obtain ⟨x, hx, e⟩ := hsame
  refine countP_lt _ ?_ ⟨x, hx, ?_, ?_⟩
  · intro y _ hy
    simp only [Bool.not_eq_true', List.any_eq_false] at hy ⊢
    exact fun z hz => hy z (List.mem_cons_of_mem _ hz)
  · simp only [Bool.not_eq_true', List.any_eq_false] at h ⊢
    intro z hz hc
    refine h z hz ?_
    rw [Config.same_iff] at hc ⊢
    rw [hc, e]
  · simp only [List.any_cons, Bool.not_eq_false', Bool.or_eq_true]
    exact .inl ((Config.same_iff _ _).2 e.symm)

/-! ### Sets of configurations -/

/-- A set of configurations and a merge cache to which configurations can be added; what was added satisfies
`Q`. -/
structure Open (full d : Bool) (Q : Config → Prop) (s : ConfigSet) (mc : PC.Cache) : Prop where
  cache : CacheFit full d mc
  holds : ∃ added, Holds full d added s ∧ ∀ a ∈ added, Q a
  flat : full = true → s.dips = false
  low : full = true → ∀ c ∈ s.configs, c.reaches ≤ 0

theorem addCached_total {full d : Bool} (hd : full = false → d = true) {Q : Config → Prop} {s : ConfigSet} {mc : PC.Cache}
    (h : Open full d Q s mc) {c : Config} (hc : Fit full c.ctx) (hf : full = true → c.reaches ≤ 0) (hq : Q c) :
    ∃ s' mc', s.addCached c (some mc) = some (s', some mc') ∧ Open full d Q s' mc' := by
  obtain ⟨added, hh, hQ⟩ := h.holds
  obtain ⟨b, hi⟩ := hh.inv
  obtain ⟨s2, m2, h1, -⟩ := addCached_inv (by simpa using hd) hi hc.wf h.cache.ok
  rw [addCached_dips, Option.map_eq_some_iff] at h1
  obtain ⟨⟨s', o⟩, h1, -⟩ := h1
  obtain ⟨⟨mc', rfl⟩, h2, h5⟩ := addCached_keeps h1
  obtain ⟨h3, h4⟩ := holds_addCached hd hh hc h.cache h1
  refine ⟨s', mc', h1, h4, ⟨_, h3, ?_⟩, fun e => ?_, fun e => h5 (h.low e) (hf e)⟩
  · intro a ha
    rcases List.mem_append.1 ha with ha | ha
    · exact hQ a ha
    · rw [List.mem_singleton] at ha; rw [ha]; exact hq
  · have := hf e
    rw [h2, h.flat e, Bool.false_or, decide_eq_false_iff_not]; omega

theorem add_total {full d : Bool} (hd : full = false → d = true) {Q : Config → Prop} {w : Work I}
    (h : Open full d Q w.configs w.mc) {c : Config} (hc : Fit full c.ctx) (hf : full = true → c.reaches ≤ 0) (hq : Q c) :
    ∃ w', w.add c = some w' ∧ Open full d Q w'.configs w'.mc ∧ w'.busy = w.busy ∧ w'.inp = w.inp := by
  obtain ⟨s', mc', h1, h2⟩ := addCached_total hd h hc hf hq
  exact ⟨{ w with configs := s', mc := mc' }, by simp [Work.add, h1], h2, rfl, rfl⟩

theorem Open.new {full d : Bool} {Q : Config → Prop} {mc : PC.Cache} (h : CacheFit full d mc) :
    Open full d Q (.newBase full) mc :=
  ⟨h, ⟨_, Holds.new full d, by simp⟩, fun _ => rfl, fun _ => by simp [newBase]⟩

theorem Open.mono {full d : Bool} {Q Q' : Config → Prop} {s : ConfigSet} {mc : PC.Cache} (h : Open full d Q s mc)
    (hq : ∀ c, Q c → Q' c) : Open full d Q' s mc := by
  obtain ⟨A, h1, h2⟩ := h.holds
  exact ⟨h.cache, ⟨A, h1, fun a ha => hq a (h2 a ha)⟩, h.flat, h.low⟩

theorem Holds.fit {full d : Bool} {A : List Config} {s : ConfigSet} (h : Holds full d A s) :
    ∀ c ∈ s.configs, Fit full c.ctx := by
  obtain ⟨⟨b, hi⟩, -, hl⟩ := h
  exact fun c hc => ⟨hi.wf c hc, fun hf => hl hf c hc⟩

theorem Open.fit {full d : Bool} {Q : Config → Prop} {s : ConfigSet} {mc : PC.Cache} (h : Open full d Q s mc) :
    ∀ c ∈ s.configs, Fit full c.ctx := by
  obtain ⟨A, h1, -⟩ := h.holds
  exact Holds.fit h1

/-- What is true of all added threads is true of all threads. -/
theorem holds_sound {full d : Bool} {A : List Config} {s : ConfigSet} (h : Holds full d A s) {T : Int → Pos → Prop}
    (hA : ∀ a ∈ A, Sound full T a) : ∀ c ∈ s.configs, Sound full T c := by
  intro c hc
  refine ⟨Holds.fit h c hc, ?_, ?_⟩
  · intro st hst
    obtain ⟨a, ha, -, -, h3⟩ := h.within c hc st hst
    exact (hA a ha).pos st h3
  · intro st hst
    obtain ⟨a, ha, h1, h2, h3⟩ := h.within c hc st hst
    rw [← h1, ← h2]
    exact (hA a ha).all st h3

theorem isStop_congr {atn : ATN} {a c : Config} (h : a.state = c.state) : isStop atn a = isStop atn c := by
  unfold isStop; rw [h]

theorem holds_ripe {atn : ATN} {full d : Bool} {A : List Config} {s : ConfigSet} (h : Holds full d A s)
    (hA : ∀ a ∈ A, Ripe atn a) : ∀ c ∈ s.configs, Ripe atn c := by
  intro c hc
  refine ⟨fun hs => ?_, ?_⟩
  · refine only_empty (Holds.fit h c hc).wf fun st hst => ?_
    obtain ⟨a, ha, h1, h2, h3⟩ := h.within c hc st hst
    have := (hA a ha).stop (by rw [isStop_congr h1]; exact hs)
    rw [this] at h3
    cases h3; rfl
  · obtain ⟨a, ha, h1, -⟩ := holds_mem h hc
    rw [← isStop_congr h1, ← h1]
    exact (hA a ha).wait

/-- Without the merge cache. -/
theorem holds_addNone {full d : Bool} (hd : full = false → d = true) {added : List Config} {s : ConfigSet}
    (h : Holds full d added s) {c : Config} (hc : Fit full c.ctx) :
    ∃ s' o, s.addCached c none = some (s', o) ∧ Holds full d (added ++ [c]) s' := by
  obtain ⟨⟨b, h⟩, hin, hloc⟩ := h
  obtain ⟨s2, m2, h1, h2, h3, _⟩ := addCached_inv (mc := none) (by simpa using hd) h hc.wf (by simp [CacheOk])
  rw [addCached_dips, Option.map_eq_some_iff] at h1
  obtain ⟨⟨s', o⟩, ha, h1⟩ := h1
  simp only [Prod.mk.injEq] at h1
  obtain ⟨rfl, rfl⟩ := h1
  refine ⟨s', o, ha, ?_⟩
  have key : ∀ c : Config, s.key c = .part c.state c.alt c.sem := by
    intro c; rw [ConfigSet.key, if_neg]; have := h.ord; dsimp only at this; rw [this]; simp
  have old : ∀ {x : Config} {st}, x ∈ s.configs → HasStack x.ctx st →
      ∃ a ∈ added ++ [c], a.state = x.state ∧ a.alt = x.alt ∧ HasStack a.ctx st := by
    intro x st hx hst
    obtain ⟨a, ha, h⟩ := hin x hx st hst
    exact ⟨a, List.mem_append_left _ ha, h⟩
  unfold ConfigSet.addCached at ha
  split at ha
  · simp at ha
  split at ha
  · rename_i i hl
    rw [Option.bind_eq_some_iff] at ha
    obtain ⟨e, he, ha⟩ := ha
    rw [Option.map_eq_some_iff] at ha
    obtain ⟨⟨r, mr⟩, hr, ha⟩ := ha
    simp only [Prod.mk.injEq] at ha
    obtain ⟨ha, rfl⟩ := ha
    have hem : e ∈ s.configs := List.mem_of_getElem? he
    have hi := (h.lookup _ _).1 hl
    rw [List.getElem?_map] at hi
    dsimp only at hi
    rw [he] at hi
    simp only [Option.map_some, Option.some.injEq] at hi
    have hk : s.key e = s.key c := hi
    rw [key, key] at hk
    simp only [Key.part.injEq] at hk
    obtain ⟨g1, g2⟩ := merge_within (!s.fullCtx) e.ctx c.ctx (h.wf e hem) hc.wf _ _ _ (by simp [CacheWithin]) hr
    have hlm : full = false → Loc r := by
      intro hf
      have e1 : s.fullCtx = full := h.full
      rw [e1, hf] at hr
      exact (merge_loc e.ctx c.ctx (hloc hf e hem) (hc.loc hf) _ _ _ (by simp [CacheLoc]) hr).1
    refine ⟨⟨_, h2⟩, ?_, ?_⟩
    rotate_left
    · intro hf x hx
      rw [← ha] at hx
      rcases List.mem_or_eq_of_mem_set hx with hx | rfl
      · exact hloc hf x hx
      · exact hlm hf
    intro x hx st hst
    rw [← ha] at hx
    rcases List.mem_or_eq_of_mem_set hx with hx | rfl
    · exact old hx hst
    · rcases g1 st hst with h | h
      · obtain ⟨a, ha, hrest⟩ := old hem h
        exact ⟨a, ha, hrest⟩
      · exact ⟨c, by simp, hk.1.symm, hk.2.1.symm, h⟩
  · simp only [Option.some.injEq, Prod.mk.injEq] at ha
    obtain ⟨ha, rfl⟩ := ha
    refine ⟨⟨_, h2⟩, ?_, ?_⟩
    rotate_left
    · intro hf x hx
      rw [← ha] at hx
      rcases List.mem_append.1 hx with hx | hx
      · exact hloc hf x hx
      · rw [List.mem_singleton] at hx
        subst hx
        exact hc.loc hf
    intro x hx st hst
    rw [← ha] at hx
    rcases List.mem_append.1 hx with hx | hx
    · exact old hx hst
    · rw [List.mem_singleton] at hx
      subst hx
      exact ⟨x, by simp, rfl, rfl, hst⟩

end Antlr.Prediction.Sem
