import Verif.Prediction.TotalReach
import Verif.Prediction.Predict

/-!
# Helper lemmas: the loop with context returns
-/

namespace Antlr.Prediction
open Antlr StackSpec ConfigSet PC PredictionSpec LL1Spec PredictionMode PredictionModeProps StackProps

variable {I : Type}

/-- The outermost rule of the thread is number `b`. -/
def Bottom (atn : ATN) (b : Nat) (p : Pos) : Prop :=
  ∀ x st, (p.1 :: p.2).getLast? = some x → atn.states[x]? = some st → st.ruleIndex = b

/-- Threads of the alternatives `1 … n` of a decision, entered with a stack whose outermost rule is `b`. -/
structure Home (atn : ATN) (b n : Nat) (j : Int) (p : Pos) : Prop where
  low : 1 ≤ j
  high : j ≤ n
  inside : Inside atn p
  bottom : Bottom atn b p

theorem bottom_swap {atn : ATN} {b s s' : Nat} {k : List Nat} (h : Bottom atn b (s, k)) (hs : s < atn.states.length)
    (he : ∀ st st', atn.states[s]? = some st → atn.states[s']? = some st' → st'.ruleIndex = st.ruleIndex) :
    Bottom atn b (s', k) := by
  intro x st hx hst
  cases k with
  | nil =>
    simp only [List.getLast?_singleton, Option.some.injEq] at hx
    subst hx
    rw [he _ _ (List.getElem?_eq_getElem hs) hst]
    exact h s _ (by simp) (List.getElem?_eq_getElem hs)
  | cons f k => exact h x st (by simpa using hx) hst

theorem Home.step {atn : ATN} (ha : Plain atn) {b n : Nat} {j : Int} {p q : Pos} (h : Home atn b n j p)
    (hs : Step atn p q) : Home atn b n j q := by
  refine ⟨h.low, h.high, (inside_goes ha true true).step j p q h.inside hs, ?_⟩
  have hb := h.bottom
  have hi := h.inside
  cases hs with
  | @free s k st tr h1 h2 h3 h4 =>
    refine bottom_swap hb hi.1 ?_
    intro st1 st2 e1 e2
    rw [h1, Option.some.injEq] at e1
    subst e1
    exact ha.sameRule s st h1 h2 tr h3 (by rintro _ _ _ _ rfl; exact h4) _ e2
  | @call s k st t f r p h1 h2 h3 =>
    have := bottom_swap (s' := f) hb hi.1 (by
      intro st1 st2 e1 e2
      rw [h1, Option.some.injEq] at e1
      subst e1
      exact ha.followRule s st h1 _ _ _ _ h3 _ e2)
    intro x st' hx hst'
    exact this x st' (by simpa using hx) hst'
  | ret h1 h2 =>
    intro x st' hx hst'
    exact hb x st' (by simpa using hx) hst'

theorem Home.read {atn : ATN} (ha : Plain atn) {b n : Nat} {j : Int} {t : Int} {p q : Pos} (h : Home atn b n j p)
    (hs : ReadStep atn t p q) : Home atn b n j q := by
  obtain ⟨st, tr, h1, h2, h3, h4, rfl⟩ := hs
  refine ⟨h.low, h.high, ⟨ha.targets _ _ h1 _ h3, h.inside.2⟩, ?_⟩
  refine bottom_swap h.bottom h.inside.1 ?_
  intro st1 st2 e1 e2
  rw [h1, Option.some.injEq] at e1
  subst e1
  exact ha.sameRule _ st h1 h2 tr h3 (by rintro _ _ _ _ rfl; exact h4) _ e2

theorem home_goes {atn : ATN} (ha : Plain atn) (b n : Nat) (eof : Bool) : Goes atn true eof (Home atn b n) where
  step := fun _ _ _ h hs => h.step ha hs
  out := by simp
  read := fun _ _ _ _ h hs => h.read ha hs

/-- What is true of all threads is true of the threads of a reach set, finished ones included. -/
theorem computeReach_keeps [TokStream I] {L : Local I} {fuel : Nat} {full d : Bool}
    (ha : Plain L.atn) (hp : L.isPrec = false) (hd : full = false → d = true) {cs : ConfigSet} {t : Int}
    {mc mc' : PC.Cache} {inp inp' : I} {s : ConfigSet} {T : Int → Pos → Prop}
    (hT : ∀ j p q, T j p → ReadStep L.atn t p q → T j q) (hg : Goes L.atn full (t == TOKEN_EOF) T)
    (hcs : ∀ c ∈ cs.configs, SoundC full T c) (hm : CacheFit full d mc)
    (h : computeReach L fuel cs t full mc inp = some (some s, mc', inp')) : ∀ c ∈ s.configs, SoundC full T c := by
  rw [computeReach, Option.bind_eq_some_iff] at h
  obtain ⟨⟨im, mc1, sk⟩, h1, h⟩ := h
  obtain ⟨A, S, i1, i2, i3, i4, i5, i6⟩ := reachLoop_spec ha hd _ (fun c hc => (hcs c hc).fit)
    (Holds.new full d) hm h1
  rw [List.nil_append] at i1 i4
  subst i4
  dsimp only at h
  have sA : ∀ a ∈ A, SoundC full T a := by
    intro a haA
    obtain ⟨c, hc, st, tr, e1, e2, e3, e4, rfl⟩ := (i3 a).1 haA
    have hk := hcs c hc
    exact ⟨hk.fit, hk.sem, fun s hsd => hT _ _ _ (hk.all s hsd) ⟨st, tr, e1, e2, e3, e4, rfl⟩⟩
  have sim : ∀ c ∈ im.configs, SoundC full T c := holds_sound i1 sA
  rw [Option.bind_eq_some_iff] at h
  obtain ⟨⟨reach, mc2, inp2⟩, h2, h⟩ := h
  dsimp only at h
  rw [Option.bind_eq_some_iff] at h
  obtain ⟨⟨reach3, mc3⟩, h3, h⟩ := h
  dsimp only at h
  rw [Option.map_eq_some_iff] at h
  obtain ⟨⟨reach4, mc4⟩, h4, h⟩ := h
  simp only [Prod.mk.injEq] at h
  obtain ⟨hr4, rfl, rfl⟩ := h
  have two : ∃ R, Holds full d R reach ∧ CacheFit full d mc2 ∧ ∀ a ∈ R, SoundC full T a := by
    split at h2
    · simp only [Option.some.injEq, Prod.mk.injEq] at h2
      obtain ⟨rfl, rfl, rfl⟩ := h2
      exact ⟨A, i1, i2, sA⟩
    · rw [Option.map_eq_some_iff] at h2
      obtain ⟨w, hw, h2⟩ := h2
      simp only [Prod.mk.injEq] at h2
      obtain ⟨rfl, rfl, rfl⟩ := h2
      obtain ⟨N, B, g, -⟩ := closeAll_grown ha hp hd (cls_sound ha hg) im.configs sim (K := fun _ => False) (by exact i2)
        (by simp) (Holds.new full d) hw
      have hB := g.holds
      rw [List.nil_append] at hB
      exact ⟨B, hB, g.cache, g.toClosed.sound⟩
  obtain ⟨R, k1, k2, k3⟩ := two
  have three : ∃ R, Holds full d R reach3 ∧ CacheFit full d mc3 ∧ ∀ a ∈ R, SoundC full T a := by
    split at h3
    · obtain ⟨R', l1, l2, l3, -⟩ := keepStops_spec hd (fun a h => (k3 a h).sem) k1
        (fun c hc => (holds_sound k1 k3 c hc).fit) k2 h3
      refine ⟨R', l1, l2, fun a h => ?_⟩
      rcases l3 a h with h | h
      · exact holds_sound k1 k3 a h
      · exact k3 a h
    · simp only [Option.some.injEq, Prod.mk.injEq] at h3
      obtain ⟨rfl, rfl⟩ := h3
      exact ⟨R, k1, k2, k3⟩
  obtain ⟨R3, l1, l2, l3⟩ := three
  have four : ∀ c ∈ reach4.configs, SoundC full T c := by
    split at h4
    · have sSk : ∀ c ∈ sk, SoundC full T c := fun c hc => hcs c ((i5 c).1 hc).1
      obtain ⟨g1, -⟩ := addEach_spec hd sk (fun c hc => (sSk c hc).fit) l1 l2 h4
      refine holds_sound g1 fun a h => ?_
      rcases List.mem_append.1 h with h | h
      · exact l3 a h
      · exact sSk a h
    · simp only [Option.some.injEq, Prod.mk.injEq] at h4
      obtain ⟨rfl, rfl⟩ := h4
      exact holds_sound l1 l3
  split at hr4
  · simp at hr4
  · rw [Option.some.injEq] at hr4
    rw [← hr4]; exact four

/-- A reading of the stream that returns: what the loops do with it. -/
structure LooksT [TokStream I] (start : Int) (w : Nat → Int) (At : Nat → I → Prop) : Prop extends Looks start w At where
  laT : ∀ {n i}, At n i → ∃ r, TokStream.la i 1 = some r
  consumeT : ∀ {n i}, At n i → w n ≠ TOKEN_EOF → ∃ i', TokStream.consume i = some i'
  seekT : ∀ {n i}, At n i → ∃ i', TokStream.seek i start = some i'
  getT : ∀ {n i}, At n i → ∃ t, TokStream.get i start = some t
  ltT : ∀ {n i}, At n i → ∃ t i', TokStream.lt i 1 = some (some t, i') ∧ At n i'
  releaseT : ∀ {n i}, At n i → ∀ m, ∃ i', TokStream.release i m = some i' ∧ At n i'

theorem noViableAlt_total [TokStream I] {L : Local I} {w : Nat → Int} {At : Nat → I → Prop} (hl : LooksT L.startIndex w At)
    {n : Nat} {inp : I} (h : At n inp) : ∃ a b i', noViableAlt L inp = some (.noAlt a b, i') ∧ At n i' := by
  obtain ⟨a, h1⟩ := hl.getT h
  obtain ⟨b, i', h2, h3⟩ := hl.ltT h
  exact ⟨a, b, i', by simp [noViableAlt, h1, h2], h3⟩

theorem addPlain_total {full d : Bool} (hd : full = false → d = true) (cs : List Config) (hc : ∀ c ∈ cs, WF c.ctx)
    {added : List Config} {s : ConfigSet} (hi : Inv false full d added s) : ∃ s', addPlain cs s = some s' := by
  induction cs generalizing s added with
  | nil => exact ⟨s, rfl⟩
  | cons c cs ih =>
    obtain ⟨s1, m1, h1, h2, -⟩ := addCached_inv (by simpa using hd) hi (hc c (by simp)) (mc := none) (by simp [CacheOk])
    obtain ⟨s', h3⟩ := ih (fun x hx => hc x (by simp [hx])) h2
    exact ⟨s', by simp only [addPlain, h1, Option.bind_some]; exact h3⟩

theorem synValidAlt_total {L : Local I} {cs : ConfigSet} {inp : I} (hc : ∀ c ∈ cs.configs, WF c.ctx) :
    ∃ k, synValidAlt L cs inp = some k := by
  unfold synValidAlt
  obtain ⟨s1, h1⟩ := addPlain_total (d := true) (fun _ => rfl)
    (cs.configs.filter fun c => decide (c.sem = SC.NONE) || evalPredicate L inp c.sem)
    (fun c h => hc c (List.mem_filter.1 h).1) (newBase_inv cs.fullCtx true)
  obtain ⟨s2, h2⟩ := addPlain_total (d := true) (fun _ => rfl)
    (cs.configs.filter fun c => !(decide (c.sem = SC.NONE) || evalPredicate L inp c.sem))
    (fun c h => hc c (List.mem_filter.1 h).1) (newBase_inv cs.fullCtx true)
  dsimp only
  rw [h1, Option.bind_some, h2, Option.map_some]
  exact ⟨_, rfl⟩

theorem fullDecision_total (mode : PredictionMode) (x : ConfigSet) : ∃ r, fullDecision mode x = some r := by
  have hok := C36_subsets_ok x _ (List.Perm.refl _)
  obtain ⟨r, hr1, -⟩ := C36_single_viable (conflictingAltSubsets x) (fun A hA => (hok A hA).1) (fun A hA => (hok A hA).2)
  unfold fullDecision
  dsimp only
  split
  · rw [hr1]; exact ⟨_, rfl⟩
  · split
    · rw [hr1]; exact ⟨_, rfl⟩
    · exact ⟨_, rfl⟩

theorem uniqueAlt_of {s : ConfigSet} (hne : s.configs ≠ []) {a : Int} (ha : a ≠ INVALID_ALT)
    (h : ∀ c ∈ s.configs, c.alt = a) : uniqueAlt s ≠ INVALID_ALT := by
  have key : ∀ l : List Config, (∀ c ∈ l, c.alt = a) → uniqueAltLoop l a = a := by
    intro l
    induction l with
    | nil => intro _; rfl
    | cons c l ih =>
      intro hl
      rw [uniqueAltLoop, if_neg ha, if_neg (by rw [hl c (by simp)]; simp)]
      exact ih (fun x hx => hl x (by simp [hx]))
  unfold uniqueAlt
  cases hl : s.configs with
  | nil => exact absurd hl hne
  | cons c l =>
    rw [hl] at h
    rw [uniqueAltLoop, if_pos rfl, h c (by simp), key l (fun x hx => h x (by simp [hx]))]
    exact ha

/-- Configurations of two alternatives with the same future decide the loop. -/
theorem fullDecision_same {mode : PredictionMode} {x : ConfigSet} (hne : x.configs ≠ [])
    (hr : ∀ c ∈ x.configs, 1 ≤ c.alt ∧ c.alt < 2 ^ 63)
    (hs : ∀ c ∈ x.configs, ∀ c' ∈ x.configs, c.state = c'.state ∧ c.ctx = c'.ctx) (hu : uniqueAlt x = INVALID_ALT) :
    ∃ q, fullDecision mode x = some (some q) := by
  obtain ⟨s1, s2, -⟩ := C36_subsets x _ (List.Perm.refl _)
  have hok := C36_subsets_ok x _ (List.Perm.refl _)
  obtain ⟨r, hr1, hr2⟩ := C36_single_viable (conflictingAltSubsets x) (fun A hA => (hok A hA).1) (fun A hA => (hok A hA).2)
  obtain ⟨c, hc⟩ := List.exists_mem_of_ne_nil _ hne
  obtain ⟨A, hA, hi⟩ := s2 c hc
  -- all subsets are equal
  have same : ∀ B ∈ conflictingAltSubsets x, ∀ m, m ∈ B ↔ ∃ y ∈ x.configs, asUsize y.alt = m := by
    intro B hB m
    obtain ⟨y, hy, hj⟩ := s1 B hB
    rw [hj.2 m]
    constructor
    · rintro ⟨z, hz, -, e⟩; exact ⟨z, hz, e⟩
    · rintro ⟨z, hz, e⟩
      obtain ⟨e1, e2⟩ := hs z hz y hy
      exact ⟨z, hz, by dsimp only; rw [e1, e2], e⟩
  obtain ⟨m, hm⟩ : ∃ m, A.head? = some m := by
    cases A with
    | nil => exact absurd rfl (hok _ hA).2
    | cons a _ => exact ⟨a, rfl⟩
  have hmA := (head_isMin A hi.1 m).1 hm
  have h0 : m ≠ 0 := by
    obtain ⟨y, hy, ey⟩ := (same A hA m).1 hmA.1
    have := asUsize_back (hr y hy).1 (hr y hy).2
    have := (hr y hy).1
    omega
  have hrm : r = m := (hr2 m h0).2 ⟨fun hn => by rw [hn] at hA; simp at hA, fun B hB => by
    refine ⟨(same B hB m).2 ((same A hA m).1 hmA.1), fun n hn => hmA.2 n ((same A hA n).2 ((same B hB n).1 hn))⟩⟩
  subst hrm
  unfold fullDecision
  dsimp only
  split
  · rw [hr1, Option.map_some, if_pos (by simp [INVALID_ALT]; exact h0)]
    exact ⟨_, rfl⟩
  · rw [if_pos]
    · rw [hr1]; exact ⟨_, rfl⟩
    · rw [C36_exact_ambiguity x _ (List.Perm.refl _)]
      intro B hB
      obtain ⟨b1, b2⟩ := hok B hB
      refine ⟨?_, fun C hC => ?_⟩
      · rw [one_lt_length_iff B b1]
        by_contra hcon
        refine uniqueAlt_of hne (a := c.alt) ?_ ?_ hu
        · have := (hr c hc).1; simp only [INVALID_ALT]; omega
        · intro y hy
          by_contra hy'
          refine hcon ⟨asUsize y.alt, (same B hB _).2 ⟨y, hy, rfl⟩, asUsize c.alt, (same B hB _).2 ⟨c, hc, rfl⟩, ?_⟩
          have e1 := asUsize_back (hr c hc).1 (hr c hc).2
          have e2 := asUsize_back (hr y hy).1 (hr y hy).2
          omega
      · exact bitSorted_ext _ _ (hok C hC).1 b1 fun n => (same C hC n).trans (same B hB n).symm

/-- The loop with context returns when EOF lies ahead. -/
theorem fullLoop_total [TokStream I] {L : Local I} {N : Nat} (ha : Plain L.atn) (hN : NoLoop L.atn N)
    (hu : Unmixed L.atn) (h1s : OneStop L.atn) (hp : L.isPrec = false)
    {w : Nat → Int} {At : Nat → I → Prop} (hl : LooksT L.startIndex w At) (dfa : DFA) {b na m : Nat} (hna : na < 2 ^ 63)
    (hm : w m = TOKEN_EOF) (hlt : ∀ i, i < m → w i ≠ TOKEN_EOF) (g : Nat) :
    ∀ (k n : Nat) (cs : ConfigSet) (mc : PC.Cache) (inp : I), k + g = m → g + 1 ≤ n →
      (∀ c ∈ cs.configs, SoundC true (Home L.atn b na) c ∧ Ripe L.atn c ∧ c.reaches ≤ 0) → CacheFit true true mc → At k inp →
      ∃ r, Returns (fun cf => fullLoop L cf dfa n cs (w k) mc inp) r ∧ ∃ k', At k' r.inp := by
  induction g using Nat.strongRecOn with
  | ind g ih =>
  intro k n cs mc inp hk hn hcs hmc hat
  obtain ⟨n, rfl⟩ : ∃ n', n = n' + 1 := ⟨n - 1, by omega⟩
  obtain ⟨r, mc', inp', ⟨m0, h0⟩, hO⟩ := computeReach_total (full := true) (d := true) (t := w k) ha hN hu hp (by simp)
    (cs := cs) (fun c hc => ⟨.inl ((hcs c hc).1.mono fun _ h => h.inside), (hcs c hc).2.1, fun _ => (hcs c hc).2.2⟩) hmc inp
  have hret : Returns (fun m => computeReach L m cs (w k) true mc inp) (r, mc', inp') := ⟨m0, h0⟩
  have hc0 := h0 m0 (Nat.le_refl _)
  obtain ⟨rfl, g2, g3, -, -⟩ := computeReach_spec (full := true) (d := true) (E := fun _ => False) (T0 := Home L.atn b na) (T1 := Home L.atn b na)
    ha hp (by simp)
    (fun j p q h hr => Home.read ha h hr) (home_goes ha b na _) (fun j p h => h.low) (fun c hc => .inl (hcs c hc).1) hmc hc0
  simp only [fullLoop]
  cases r with
  | none =>
    obtain ⟨i1, s1⟩ := hl.seekT hat
    have at1 := hl.seek hat s1
    obtain ⟨a, s2⟩ := synValidAlt_total (L := L) (cs := cs) (inp := i1) (fun c hc => (hcs c hc).1.wf)
    by_cases ha0 : a ≠ INVALID_ALT
    · refine ⟨{ out := .alt a, dfa := dfa, inp := i1 }, hret.bind ⟨0, fun _ _ => ?_⟩, 0, at1⟩
      simp only [s1, Option.bind_some, s2, if_pos ha0]
    · obtain ⟨x, y, i2, s3, at2⟩ := noViableAlt_total hl at1
      refine ⟨{ out := .noAlt x y, dfa := dfa, inp := i2 }, hret.bind ⟨0, fun _ _ => ?_⟩, 0, at2⟩
      simp only [s1, Option.bind_some, s2, if_neg ha0, s3, Option.map_some]
  | some reach =>
    have hr := g3 reach rfl
    have hsound : ∀ c ∈ reach.configs, SoundC true (Home L.atn b na) c :=
      computeReach_keeps (d := true) ha hp (by simp) (fun j p q h hr => Home.read ha h hr) (home_goes ha b na _)
        (fun c hc => (hcs c hc).1) hmc hc0
    by_cases hun : uniqueAlt reach ≠ INVALID_ALT
    · refine ⟨{ out := .alt (uniqueAlt reach), dfa := dfa, inp := inp', reports := [.sensitivity L.startIndex (TokStream.index inp') (uniqueAlt reach)] },
        hret.bind ⟨0, fun _ _ => ?_⟩, k, hat⟩
      simp only [if_pos hun]
    · obtain ⟨dc, hdc⟩ := fullDecision_total L.mode reach
      cases dc with
      | some q =>
        obtain ⟨kk, ex⟩ := q
        refine ⟨{ out := .alt kk, dfa := dfa, inp := inp', reports := [.ambiguity L.startIndex (TokStream.index inp') ex (altsOf reach)] },
          hret.bind ⟨0, fun _ _ => ?_⟩, k, hat⟩
        simp only [if_neg hun, hdc, Option.bind_some]
      | none =>
        rw [not_not] at hun
        have ripe := hr.stops hun
        by_cases heof : w k = TOKEN_EOF
        · -- all are at the end of the outermost rule
          exfalso
          have hall := hr.eof heof
          have end' : ∀ c ∈ reach.configs, c.ctx = EMPTY ∧ ∃ st, L.atn.states[c.state]? = some st ∧
              st.stateType = .ruleStop ∧ st.ruleIndex = b := by
            intro c hc
            have he := (ripe c hc).stop (hall c hc)
            have hh := (hsound c hc).all [] (by rw [he]; exact .bottomS)
            obtain ⟨st, hst⟩ := exists_state hh.inside.1
            exact ⟨he, st, hst, (isStop_iff hst).1 (hall c hc), hh.bottom _ _ (by simp [nats]) hst⟩
          obtain ⟨q, hq⟩ := fullDecision_same (mode := L.mode) hr.ne (fun c hc => by
            obtain ⟨s, hs⟩ := wf_nonempty_stack (hsound c hc).wf
            have := (hsound c hc).all s hs
            have h1 := this.low
            have h2 := this.high
            omega) (fun c hc c' hc' => by
              obtain ⟨e1, st, e2, e3, e4⟩ := end' c hc
              obtain ⟨e1', st', e2', e3', e4'⟩ := end' c' hc'
              exact ⟨h1s _ _ _ _ e2 e2' e3 e3' (e4.trans e4'.symm), e1.trans e1'.symm⟩) hun
          rw [hdc] at hq
          simp at hq
        · have hlt' : k < m := by
            rcases Nat.lt_or_ge k m with h | h
            · exact h
            · exfalso
              have : k = m := by omega
              rw [this] at heof
              exact heof hm
          obtain ⟨i1, s1⟩ := hl.consumeT hat heof
          have at1 := hl.consume hat heof s1
          obtain ⟨⟨t, i2⟩, s2⟩ := hl.laT at1
          obtain ⟨rfl, at2⟩ := hl.la at1 s2
          obtain ⟨res, h5, h6⟩ := ih (g - 1) (by omega) (k + 1) n reach mc' i2 (by omega) (by omega)
            (fun c hc => ⟨hsound c hc, ripe c hc, (hO reach rfl).low rfl c hc⟩) g2 at2
          refine ⟨res, hret.bind ?_, h6⟩
          have hun' : ¬ uniqueAlt reach ≠ INVALID_ALT := by rw [hun]; simp
          simp only [if_neg hun', hdc, Option.bind_some, if_pos heof, ne_eq, heof, not_false_eq_true, if_true, s1, s2]
          exact h5

theorem home_start {atn : ATN} (ha : Plain atn) {s : Nat} {dec : ATNState} (hdec : Decides atn s dec) {σ : List Nat}
    (hσ : Proper atn dec.ruleIndex σ) : ∃ b, ∀ (i : Nat) tr, dec.transitions[i]? = some tr →
      Home atn b dec.transitions.length ((i + 1 : Nat) : Int) (tr.target, σ) := by
  have hlt := proper_lt ha hσ
  have hin : ∀ tr ∈ dec.transitions, Inside atn (tr.target, σ) := fun tr h => ⟨ha.targets _ _ hdec.state _ h, hlt⟩
  obtain ⟨b, hb⟩ : ∃ b, Bottom atn b (s, σ) := by
    cases hx : (s :: σ).getLast? with
    | none => simp at hx
    | some x =>
      cases hst : atn.states[x]? with
      | none =>
        refine ⟨0, fun y st h1 h2 => ?_⟩
        rw [hx, Option.some.injEq] at h1
        subst h1
        rw [hst] at h2; simp at h2
      | some st =>
        refine ⟨st.ruleIndex, fun y st' h1 h2 => ?_⟩
        rw [hx, Option.some.injEq] at h1
        subst h1
        rw [hst, Option.some.injEq] at h2
        rw [h2]
  refine ⟨b, fun i tr hi => ?_⟩
  have htr := List.mem_of_getElem? hi
  have hi' := (List.getElem?_eq_some_iff.1 hi).1
  refine ⟨by omega, by omega, hin tr htr, bottom_swap hb ((List.getElem?_eq_some_iff.1 hdec.state).1) ?_⟩
  intro st st' e1 e2
  rw [hdec.state, Option.some.injEq] at e1
  subst e1
  obtain ⟨t, x, rfl⟩ := hdec.silent tr htr
  exact ha.sameRule _ _ hdec.state hdec.inner _ htr (by simp) _ e2

theorem needFull_total [TokStream I] {L : Local I} {N : Nat} (ha : Plain L.atn) (hN : NoLoop L.atn N)
    (hu : Unmixed L.atn) (h1s : OneStop L.atn) (hp : L.isPrec = false)
    {dec : ATNState} (hdec : Decides L.atn L.atnStart dec) {σ : List Nat} (hσ : Proper L.atn dec.ruleIndex σ)
    (hcalls : Calls L.atn L.outer (ints σ))
    {w : Nat → Int} {At : Nat → I → Prop} (hl : LooksT L.startIndex w At) (dfa : DFA) {n k m : Nat}
    (hm : w m = TOKEN_EOF) (hlt : ∀ i, i < m → w i ≠ TOKEN_EOF) (hn : m + 1 ≤ n)
    {D : DFAState} (hD : D.predicates = []) {mc : PC.Cache} {inp : I} (hmc : CacheFit true true mc) (hat : At k inp) :
    ∃ r, Returns (fun cf => needFull L cf n dfa D mc inp) r ∧ ∃ k', At k' r.inp := by
  have hlt' := proper_lt ha hσ
  obtain ⟨ctx, hc1, hc2⟩ := C32_from_rule_context _ _ _ hcalls
  obtain ⟨c', hc1', hc3⟩ := C32_well_formed _ _ _ hcalls (by
    intro f hf
    obtain ⟨g, hg, rfl⟩ := List.mem_map.1 hf
    exact ha.lt (hlt' g hg))
  rw [hc1, Option.some.injEq] at hc1'
  subst hc1'
  obtain ⟨b, hb⟩ := home_start ha hdec hσ
  have hstart : ∀ (i : Nat) tr, dec.transitions[i]? = some tr → ∀ k, HasStack ctx k →
      Home L.atn b dec.transitions.length ((i + 1 : Nat) : Int) (tr.target, nats k) := by
    intro i tr hi k hk
    rw [hc2] at hk
    subst hk
    rw [nats_ints ha σ hlt']
    exact hb i tr hi
  have hfit : Fit true ctx := ⟨hc3, by simp⟩
  obtain ⟨s0, mc1, i1, ⟨m0, h0⟩, hO⟩ := computeStart_total (full := true) (d := true) ha hN hp (by simp) hfit (by
    intro k hk
    rw [hc2] at hk
    subst hk
    rw [nats_ints ha σ hlt']
    exact hlt') hdec.state hmc inp
  have hret : Returns (fun m => computeStart L m ctx true mc inp) (s0, mc1, i1) := ⟨m0, h0⟩
  obtain ⟨rfl, g2, -, -, g4, g5, -⟩ := computeStart_spec (full := true) (d := true) ha hp (by simp) hdec.state hfit hstart
    (home_goes ha b _ _) hmc (h0 m0 (Nat.le_refl _))
  obtain ⟨i2, s1⟩ := hl.seekT hat
  have at1 := hl.seek hat s1
  obtain ⟨⟨t, i3⟩, s2⟩ := hl.laT at1
  obtain ⟨rfl, at2⟩ := hl.la at1 s2
  obtain ⟨r, h5, k', h6⟩ := fullLoop_total ha hN hu h1s hp hl dfa hdec.few hm hlt m 0 n s0 mc1 i3 (by omega) hn
    (fun c hc => ⟨g4 c hc, g5 c hc, hO.low rfl c hc⟩) g2 at2
  refine ⟨{ r with reports := .fullContext L.startIndex (TokStream.index i1) D.configs.conflictingAlts :: r.reports }, ?_, k', h6⟩
  simp only [needFull, conflictPreds, hD, List.isEmpty_nil, if_true, Option.bind_some, ne_eq, not_true, false_and, if_false,
    hc1]
  refine hret.bind ?_
  simp only [execFull, s1, Option.bind_some, s2]
  exact h5.map fun r => { r with reports := .fullContext L.startIndex (TokStream.index i1) D.configs.conflictingAlts :: r.reports }

end Antlr.Prediction
