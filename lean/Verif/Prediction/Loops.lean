import Verif.Prediction.Target
import Verif.IntervalSet.Props
import Verif.PredictionContext.Props

/-!
# The two loops of prediction on an ATN without predicates
-/

namespace Antlr.Prediction
open Antlr StackSpec ConfigSet PC PredictionSpec LL1Spec PredictionMode PredictionModeProps IntervalSpec

variable {I : Type}

/-! ### Input -/

/-- The token types ahead of the place `start` are `w 0`, `w 1`, …; `At n i`: the stream `i` is `n` tokens
further. -/
structure Looks [TokStream I] (start : Int) (w : Nat → Int) (At : Nat → I → Prop) : Prop where
  la : ∀ {n i r}, At n i → TokStream.la i 1 = some r → r.1 = w n ∧ At n r.2
  consume : ∀ {n i i'}, At n i → w n ≠ TOKEN_EOF → TokStream.consume i = some i' → At (n + 1) i'
  seek : ∀ {n i i'}, At n i → TokStream.seek i start = some i' → At 0 i'
  mark : ∀ {i}, At 0 i → At 0 (TokStream.mark i).2

theorem pre_succ (w : Nat → Int) (n : Nat) : pre w (n + 1) = pre w n ++ [w n] := by
  simp [pre, List.range_succ]

theorem ahead_begins {atn : ATN} {dec : ATNState} {S : List Nat → Prop} {w : Nat → Int} {v : List Int} {k : Int}
    (hv : Ahead w v) (hne : v ≠ []) (h : Matches atn dec S v k) : Begins atn dec (w 0) k := by
  obtain ⟨n, rfl, -⟩ := hv
  cases n with
  | zero => exact absurd rfl hne
  | succ n =>
    rw [pre, List.range_succ_eq_map, List.map_cons] at h
    exact matches_begins h

theorem begins_alt {atn : ATN} {dec : ATNState} {t k : Int} (h : Begins atn dec t k) : BeginsWell atn dec t (.alt k) := by
  intro k' e; cases e; exact h

theorem begins_noAlt {atn : ATN} {dec : ATNState} {t : Int} {a b : Tok} : BeginsWell atn dec t (.noAlt a b) := by
  intro k' e; cases e

theorem matches_of {atn : ATN} {dec : ATNState} {S : List Nat → Prop} {full : Bool} {v : List Int}
    {T : List Int → Int → Pos → Prop} (hT : ∀ v j p, T v j p → ∃ σ, S σ ∧ Live atn dec σ j v p) {c : Config}
    (h : SoundK atn full (T v) (EndedBefore atn T v) c) : Matches atn dec S v c.alt := by
  rcases h with h | ⟨-, -, -, u, p, h1, h2, h3⟩
  · obtain ⟨k, h⟩ := h.ex
    obtain ⟨σ, h1, h2⟩ := hT _ _ _ h
    exact ⟨σ, h1, .inl ⟨_, h2⟩⟩
  · obtain ⟨σ, g1, g2⟩ := hT _ _ _ h2
    exact ⟨σ, g1, .inr ⟨u, p, h1, g2, h3⟩⟩

/-! ### The fallback -/

theorem addCached_alts {s s' : ConfigSet} {c : Config} {mc mc' : Option PC.Cache}
    (h : s.addCached c mc = some (s', mc')) : ∀ x ∈ s'.configs, x.alt = c.alt ∨ ∃ y ∈ s.configs, y.alt = x.alt := by
  unfold addCached at h
  split at h
  · simp at h
  · split at h
    · rw [Option.bind_eq_some_iff] at h
      obtain ⟨e, he, h⟩ := h
      rw [Option.map_eq_some_iff] at h
      obtain ⟨r, -, h⟩ := h
      simp only [Prod.mk.injEq] at h
      obtain ⟨rfl, -⟩ := h
      intro x hx
      rcases List.mem_or_eq_of_mem_set hx with hx | rfl
      · exact .inr ⟨x, hx, rfl⟩
      · exact .inr ⟨e, List.mem_of_getElem? he, rfl⟩
    · simp only [Option.some.injEq, Prod.mk.injEq] at h
      obtain ⟨rfl, -⟩ := h
      intro x hx
      rcases List.mem_append.1 hx with hx | hx
      · exact .inr ⟨x, hx, rfl⟩
      · simp only [List.mem_singleton] at hx
        exact .inl (by rw [hx])

theorem addPlain_alts {cs : List Config} {s s' : ConfigSet} (h : addPlain cs s = some s') :
    ∀ x ∈ s'.configs, ∃ y, (y ∈ cs ∨ y ∈ s.configs) ∧ y.alt = x.alt := by
  induction cs generalizing s with
  | nil =>
    simp only [addPlain, Option.some.injEq] at h
    subst h
    exact fun x hx => ⟨x, .inr hx, rfl⟩
  | cons c cs ih =>
    rw [addPlain, Option.bind_eq_some_iff] at h
    obtain ⟨r, hr, h⟩ := h
    intro x hx
    obtain ⟨y, hy, e⟩ := ih h x hx
    rcases hy with hy | hy
    · exact ⟨y, .inl (by simp [hy]), e⟩
    · rcases addCached_alts (mc' := r.2) hr y hy with e' | ⟨z, hz, e'⟩
      · exact ⟨c, .inl (by simp), e' ▸ e⟩
      · exact ⟨z, .inr hz, e'.trans e⟩

theorem altThatFinished_mem {atn : ATN} {s : ConfigSet} (h : altThatFinished atn s ≠ INVALID_ALT) :
    ∃ c ∈ s.configs, (WF c.ctx → Finished atn c) ∧ c.alt = altThatFinished atn s := by
  unfold altThatFinished at h ⊢
  generalize hl : s.configs.filter _ = l at h ⊢
  have hsub : ∀ c ∈ l, c ∈ s.configs := by
    intro c hc; rw [← hl] at hc; exact (List.mem_filter.1 hc).1
  have hfin : ∀ c ∈ l, WF c.ctx → Finished atn c := by
    intro c hc hw
    rw [← hl] at hc
    have := (List.mem_filter.1 hc).2
    rw [Bool.or_eq_true, decide_eq_true_eq, Bool.and_eq_true, (StackProps.C29_has_empty_path c.ctx hw).1] at this
    refine this.imp id (fun h => ⟨?_, h.2⟩)
    have h1 := h.1
    unfold isStop at h1
    cases hs : atn.states[c.state]? with
    | none => rw [hs] at h1; simp at h1
    | some st => rw [hs] at h1; exact ⟨st, rfl, by simpa using h1⟩
  have hfold : l.foldl (fun (a : IntervalSet) c => a.addOne c.alt) IntervalSet.new =
      (l.map fun c => (⟨c.alt, c.alt⟩ : Interval)).foldl IntervalSet.addInterval IntervalSet.new := by
    rw [List.foldl_map]; rfl
  obtain ⟨h1, h2⟩ := IntervalProps.foldl_sound IntervalSet.new (l.map fun c => (⟨c.alt, c.alt⟩ : Interval))
    (by simp [IntervalSet.new])
  rw [hfold] at h ⊢
  generalize List.foldl IntervalSet.addInterval IntervalSet.new (l.map fun c => (⟨c.alt, c.alt⟩ : Interval)) = a at h h1 h2 ⊢
  unfold IntervalSet.getMin at h ⊢
  cases ha : a.intervals with
  | nil => rw [ha] at h; simp at h
  | cons r rs =>
    have hm : Mem a.intervals r.a := ⟨r, by simp [ha], Int.le_refl _, h1 r (by simp [ha])⟩
    rcases h2 _ hm with hm | ⟨q, hq, hq2⟩
    · obtain ⟨q, hq, -⟩ := hm
      simp [IntervalSet.new] at hq
    · obtain ⟨c, hc, rfl⟩ := List.mem_map.1 hq
      refine ⟨c, hsub c hc, hfin c hc, ?_⟩
      simp only [InIv] at hq2
      simp only [List.head?_cons, Option.map_some, Option.getD_some]
      omega

/-- The fallback answer is an alternative of the configurations. -/
theorem synValidAlt_mem {L : Local I} {cs : ConfigSet} {inp : I} {k : Int} (h : synValidAlt L cs inp = some k)
    (hk : k ≠ INVALID_ALT) : ∃ c ∈ cs.configs, ((∀ x ∈ cs.configs, WF x.ctx) → Finished L.atn c) ∧ c.alt = k := by
  rw [synValidAlt, Option.bind_eq_some_iff] at h
  obtain ⟨a, ha, h⟩ := h
  rw [Option.map_eq_some_iff] at h
  obtain ⟨b, hb, h⟩ := h
  have back : ∀ (f : Config → Bool) (s : ConfigSet), addPlain (cs.configs.filter f) (.newBase cs.fullCtx) = some s →
      ∀ x ∈ s.configs, (WF x.ctx → Finished L.atn x) →
        ∃ c ∈ cs.configs, ((∀ x ∈ cs.configs, WF x.ctx) → Finished L.atn c) ∧ c.alt = x.alt := by
    intro f s hs x hx hfin
    by_cases hw : ∀ x ∈ cs.configs, WF x.ctx
    · have hi := addPlain_inv (d := true) (fun _ => rfl) (newBase_inv cs.fullCtx true)
        (fun c hc => hw c (List.mem_filter.1 hc).1) hs
      obtain ⟨a, ha, e1, e2⟩ := Inv.finished hi hx (hfin (hi.wf x hx))
      exact ⟨a, (List.mem_filter.1 (by simpa using ha)).1, fun _ => e2, e1⟩
    · obtain ⟨y, hy | hy, e⟩ := addPlain_alts hs x hx
      · exact ⟨y, (List.mem_filter.1 hy).1, fun h => absurd h hw, e⟩
      · simp [newBase] at hy
  split at h
  · rename_i hne
    subst h
    obtain ⟨c, hc, hf, e⟩ := altThatFinished_mem hne
    obtain ⟨c', hc', hf', e'⟩ := back _ _ ha c hc hf
    exact ⟨c', hc', hf', e'.trans e⟩
  · split at h
    · exact absurd h.symm hk
    · subst h
      obtain ⟨c, hc, hf, e⟩ := altThatFinished_mem hk
      obtain ⟨c', hc', hf', e'⟩ := back _ _ hb c hc hf
      exact ⟨c', hc', hf', e'.trans e⟩

theorem noViableAlt_out [TokStream I] {L : Local I} {inp : I} {r : Outcome × I} (h : noViableAlt L inp = some r) :
    ∃ a b, r.1 = .noAlt a b := by
  rw [noViableAlt, Option.bind_eq_some_iff] at h
  obtain ⟨a, -, h⟩ := h
  rw [Option.bind_eq_some_iff] at h
  obtain ⟨b, -, h⟩ := h
  rw [Option.map_eq_some_iff] at h
  obtain ⟨c, -, rfl⟩ := h
  exact ⟨_, _, rfl⟩

/-! ### With context -/

theorem _root_.Antlr.PredictionSpec.FullRight.mono {atn : ATN} {dec : ATNState} {σ : List Nat} {w : Nat → Int} {c c' : Prop} {o : Outcome}
    (h : FullRight atn dec σ w c o) (hc : c' → c) : FullRight atn dec σ w c' o := by
  cases o with
  | alt k => obtain ⟨v, h1, h2, h3⟩ := h; exact ⟨v, h1, h2, fun x => h3 (hc x)⟩
  | noAlt a b => exact fun x => h (hc x)

/-- The configurations on which the loop with context works are right after the tokens `v`: before EOF … -/
structure FullAt (atn : ATN) (dec : ATNState) (σ : List Nat) (d : Bool) (cs : ConfigSet) (v : List Int) : Prop where
  sound : ∀ c ∈ cs.configs, SoundK atn true (fun j p => Live atn dec σ j v p)
    (EndedBefore atn (fun v j p => Live atn dec σ j v p) v) c
  more : d = false → (∀ j p, Live atn dec σ j v p → Waits atn p → Covers d (· ∈ cs.configs) j p)

/-- … and after EOF. -/
structure FullEnd (atn : ATN) (dec : ATNState) (σ : List Nat) (d : Bool) (cs : ConfigSet) (v : List Int) : Prop where
  sound : ∀ c ∈ cs.configs, SoundK atn true (fun j p => Live atn dec σ j v p)
    (EndedBefore atn (fun v j p => Live atn dec σ j v p) v) c
  eof : ∃ u, v = u ++ [TOKEN_EOF]
  all : ∀ c ∈ cs.configs, isStop atn c = true
  more : d = false → ∀ j p, Live atn dec σ j v p → Counts atn true v p → Covers d (· ∈ cs.configs) j p

/-- One step of the loop with context. -/
theorem fullStep [TokStream I] {L : Local I} {cf : Nat} (ha : Plain L.atn) (hp : L.isPrec = false)
    {s : Nat} {dec : ATNState} (hdec : Decides L.atn s dec) {σ : List Nat} (hσ : Proper L.atn dec.ruleIndex σ)
    {d : Bool} {cs : ConfigSet} {v v' : List Int} {t : Int} {mc mc' : PC.Cache} {inp inp' : I} {r : Option ConfigSet}
    (hm : CacheFit true d mc) (h : computeReach L cf cs t true mc inp = some (r, mc', inp'))
    (hv : (FullAt L.atn dec σ d cs v ∧ v' = v ++ [t]) ∨
      (FullEnd L.atn dec σ d cs v ∧ v' = v ∧ t = TOKEN_EOF)) :
    inp' = inp ∧ CacheFit true d mc' ∧
    (r = none → d = false → Stuck L.atn dec (· = σ) true v') ∧
    ∀ x, r = some x → x.configs ≠ [] ∧
      (∀ c ∈ x.configs, SoundK L.atn true (fun j p => Live L.atn dec σ j v' p)
        (EndedBefore L.atn (fun v j p => Live L.atn dec σ j v p) v') c) ∧
      (t = TOKEN_EOF → ∀ c ∈ x.configs, isStop L.atn c = true) ∧
      (d = false → (uniqueAlt x ≠ INVALID_ALT ∧ Sole L.atn dec (· = σ) true v' (uniqueAlt x)) ∨
        ∀ j p, Live L.atn dec σ j v' p → Counts L.atn true v' p → Covers d (· ∈ x.configs) j p) := by
  rcases hv with ⟨hv, rfl⟩ | ⟨hv, rfl, rfl⟩
  · obtain ⟨g1, g2, g3, g4, g5, -⟩ := computeReach_spec (full := true) (d := d) ha hp (by simp) (t := t)
      (T0 := fun j p => Live L.atn dec σ j v p)
      (T1 := fun j p => Live L.atn dec σ j (v ++ [t]) p) (fun j p q h hr => .read h hr)
      (live_goes (fun he => ⟨v, by rw [beq_iff_eq] at he; rw [he]⟩)) (fun j p h => h.range.1)
      hv.sound hm h
    have cov : d = false → _ := fun hd => g4 (by simp [hd]) (fun j p => Live L.atn dec σ j v p)
      (fun j p => Live L.atn dec σ j (v ++ [t]) p) (live_generated v t) (fun j p h => h.fair ha hdec hσ)
      (fun j p h hw => hv.more hd j p h hw)
    refine ⟨g1, g2, ?_, ?_⟩
    · rintro rfl hd τ rfl j p hj hc
      rw [alive_full] at hj
      rcases cov hd with ⟨x, hx, -⟩ | hcov
      · simp at hx
      · obtain ⟨x, hx, -⟩ := hcov j p hj hc.1 (fun e => hc.2 (by rw [e]; simp))
        simp at hx
    · rintro x rfl
      have hr := g3 x rfl
      refine ⟨hr.ne, fun c hc => (hr.sound c hc).mono (fun _ _ h => h) (fun j h => EndedBefore.next h), hr.eof, ?_⟩
      intro hd
      rcases cov hd with ⟨y, hy, h1, h2⟩ | hcov
      · simp only [Option.some.injEq] at hy
        subst hy
        left
        exact ⟨h1, by rintro τ rfl j p hj -; exact h2 j p (alive_full.1 hj)⟩
      · right
        intro j p hj hc
        obtain ⟨y, hy, hcy⟩ := hcov j p hj hc.1 (fun e => hc.2 (by rw [e]; simp))
        simp only [Option.some.injEq] at hy
        subst hy
        exact hcy
  · obtain ⟨u, hu⟩ := hv.eof
    subst hu
    obtain ⟨g1, g2, g3, -, g5, -⟩ := computeReach_spec (full := true) (d := d) ha hp (by simp) (t := TOKEN_EOF)
      (T0 := fun j p => Live L.atn dec σ j (u ++ [TOKEN_EOF]) p)
      (T1 := fun j p => Live L.atn dec σ j (u ++ [TOKEN_EOF]) p) (fun j p q h hr => .more h hr)
      (live_goes (fun he => ⟨u, rfl⟩)) (fun j p h => h.range.1)
      hv.sound hm h
    refine ⟨g1, g2, ?_, ?_⟩
    · rintro rfl hd τ rfl j p hj hc
      rw [alive_full] at hj
      obtain ⟨x, hx, -⟩ := g5 hv.all (.inl rfl) j p (hv.more hd j p hj hc)
      simp at hx
    · rintro x rfl
      have hr := g3 x rfl
      refine ⟨hr.ne, ?_, hr.eof, ?_⟩
      · intro c hc
        refine (hr.sound c hc).mono (fun _ _ h => h) ?_
        rintro j (h | ⟨p, h1, h2⟩)
        · exact h
        · exact ⟨_, p, List.prefix_refl _, h1, h2⟩
      · intro hd
        right
        intro j p hj hc
        obtain ⟨y, hy, hcy⟩ := g5 hv.all (.inl rfl) j p (hv.more hd j p hj hc)
        simp only [Option.some.injEq] at hy
        subst hy
        exact hcy

/-- The alternative decided on is the least of every group of configurations with the same future. -/
theorem fullDecision_spec {mode : PredictionMode} {x : ConfigSet} {k : Int} {e : Bool} (hne : x.configs ≠ [])
    (hr : ∀ c ∈ x.configs, 1 ≤ c.alt ∧ c.alt < 2 ^ 63) (h : fullDecision mode x = some (some (k, e))) :
    ∀ c ∈ x.configs, k ≤ c.alt ∧ ∃ y ∈ x.configs, y.state = c.state ∧ y.ctx = c.ctx ∧ y.alt = k := by
  obtain ⟨s1, s2, -⟩ := C36_subsets x _ (List.Perm.refl _)
  have hok := C36_subsets_ok x _ (List.Perm.refl _)
  obtain ⟨r, hr1, hr2⟩ := C36_single_viable (conflictingAltSubsets x) (fun A hA => (hok A hA).1) (fun A hA => (hok A hA).2)
  -- the answer is the minimum of all subsets
  have hmin : k = (r : Int) ∧ r ≠ 0 ∧ ∀ A ∈ conflictingAltSubsets x, IsMin r A := by
    unfold fullDecision at h
    dsimp only at h
    split at h
    · rw [hr1] at h
      simp only [Option.map_some, Option.some.injEq] at h
      split at h
      · rename_i hk
        simp only [Option.some.injEq, Prod.mk.injEq] at h
        have h0 : r ≠ 0 := by rintro rfl; exact hk rfl
        exact ⟨h.1.symm, h0, ((hr2 r h0).1 rfl).2⟩
      · simp at h
    · split at h
      · rename_i hex
        rw [hr1] at h
        simp only [Option.map_some, Option.some.injEq, Prod.mk.injEq] at h
        rw [C36_exact_ambiguity x _ (List.Perm.refl _)] at hex
        obtain ⟨c, hc⟩ := List.exists_mem_of_ne_nil _ hne
        obtain ⟨A, hA, hi⟩ := s2 c hc
        obtain ⟨m, hm⟩ : ∃ m, A.head? = some m := by
          cases A with
          | nil => exact absurd rfl (hok _ hA).2
          | cons a _ => exact ⟨a, rfl⟩
        have hmA := (head_isMin A hi.1 m).1 hm
        obtain ⟨y, hy, -, ey⟩ := (hi.2 m).1 hmA.1
        have h0 : m ≠ 0 := by
          have := asUsize_back (hr y hy).1 (hr y hy).2
          have := (hr y hy).1
          omega
        have : r = m := (hr2 m h0).2 ⟨fun hn => by rw [hn] at hA; simp at hA, fun B hB => by
          rw [(hex A hA).2 B hB]; exact hmA⟩
        subst this
        exact ⟨h.1.symm, h0, ((hr2 _ h0).1 rfl).2⟩
      · simp at h
  obtain ⟨rfl, h0, hmin⟩ := hmin
  intro c hc
  obtain ⟨A, hA, hi⟩ := s2 c hc
  obtain ⟨m1, m2⟩ := hmin A hA
  obtain ⟨y, hy, ek, ea⟩ := (hi.2 r).1 m1
  simp only [Prod.mk.injEq] at ek
  have e1 := asUsize_back (hr c hc).1 (hr c hc).2
  have e2 := asUsize_back (hr y hy).1 (hr y hy).2
  have e3 := m2 _ ((hi.2 (asUsize c.alt)).2 ⟨c, hc, rfl, rfl⟩)
  exact ⟨by omega, y, hy, ek.1, ek.2, by omega⟩

theorem proper_lt {atn : ATN} (ha : Plain atn) {r : Nat} {k : List Nat} (h : Proper atn r k) :
    ∀ f ∈ k, f < atn.states.length := by
  induction h with
  | nil => simp
  | call h1 h2 h3 h4 _ ih =>
    intro f hf
    rcases List.mem_cons.1 hf with rfl | hf
    · exact ha.follow _ _ h1 _ _ _ _ h2
    · exact ih f hf

theorem nats_ints {atn : ATN} (ha : Plain atn) (l : List Nat) (h : ∀ f ∈ l, f < atn.states.length) :
    nats (ints l) = l := by
  induction l with
  | nil => rfl
  | cons a l ih =>
    simp only [nats, ints, List.map_cons, List.cons.injEq] at ih ⊢
    exact ⟨ha.usize (h a (by simp)), ih (fun f hf => h f (by simp [hf]))⟩

theorem _root_.Antlr.PredictionSpec.Counts.state {atn : ATN} {full : Bool} {v : List Int} {p : Pos} (h : Counts atn full v p) :
    ∃ st, atn.states[p.1]? = some st := by
  rcases h.1 with ⟨st, h, -⟩ | ⟨⟨-, st, h, -⟩, -⟩ <;> exact ⟨st, h⟩

theorem fullLoop_spec [TokStream I] {L : Local I} {cf : Nat} (ha : Plain L.atn) (hp : L.isPrec = false)
    {s : Nat} {dec : ATNState} (hdec : Decides L.atn s dec) {σ : List Nat} (hσ : Proper L.atn dec.ruleIndex σ)
    {w : Nat → Int} {At : Nat → I → Prop} (hl : Looks L.startIndex w At) {d : Bool} {dfa : DFA}
    {n : Nat} {cs : ConfigSet} {t : Int} {mc : PC.Cache} {inp : I} {r : Res I} (hm : CacheFit true d mc)
    (h : fullLoop L cf dfa n cs t mc inp = some r)
    (hv : (∃ m, FullAt L.atn dec σ d cs (pre w m) ∧ t = w m ∧ At m inp ∧ (∀ i, i < m → w i ≠ TOKEN_EOF) ∧
        (m = 0 → Modest L.atn dec cs)) ∨
      (∃ v, Ahead w v ∧ FullEnd L.atn dec σ d cs v ∧ t = TOKEN_EOF)) :
    r.dfa = dfa ∧ BeginsWell L.atn dec (w 0) r.out ∧ FullRight L.atn dec σ w (d = false) r.out := by
  induction n generalizing cs t mc inp with
  | zero => simp [fullLoop] at h
  | succ n ih =>
    rw [fullLoop, Option.bind_eq_some_iff] at h
    obtain ⟨⟨x, mc1, i1⟩, h1, h⟩ := h
    dsimp only at h
    obtain ⟨v, v', hv1, hv2, hpre, hnil, hmod, hst, hprev, hcase⟩ : ∃ v v', Ahead w v ∧ Ahead w v' ∧ v <+: v' ∧
        v' ≠ [] ∧ (v = [] → Modest L.atn dec cs) ∧
        ((FullAt L.atn dec σ d cs v ∧ v' = v ++ [t]) ∨ (FullEnd L.atn dec σ d cs v ∧ v' = v ∧ t = TOKEN_EOF)) ∧
        (∀ c ∈ cs.configs, SoundK L.atn true (fun j p => Live L.atn dec σ j v p)
          (EndedBefore L.atn (fun v j p => Live L.atn dec σ j v p) v) c) ∧
        (t ≠ TOKEN_EOF → ∃ m, t = w m ∧ v' = pre w (m + 1) ∧ At m inp ∧ ∀ i, i < m → w i ≠ TOKEN_EOF) := by
      rcases hv with ⟨m, g1, g2, g3, g4, g5⟩ | ⟨v, g1, g2, g3⟩
      · refine ⟨pre w m, pre w m ++ [t], ⟨m, rfl, fun i hi => g4 i (by omega)⟩,
          ⟨m + 1, by rw [pre_succ, g2], fun i hi => g4 i (by omega)⟩, List.prefix_append _ _, by simp,
          fun e => g5 (by simpa [pre] using e), .inl ⟨g1, rfl⟩, g1.sound, ?_⟩
        intro _
        exact ⟨m, g2, by rw [pre_succ, g2], g3, g4⟩
      · have hne : v ≠ [] := by obtain ⟨u, hu⟩ := g2.eof; rw [hu]; simp
        exact ⟨v, v, g1, g1, List.prefix_refl _, hne, fun e => absurd e hne, .inr ⟨g2, rfl, g3⟩, g2.sound, fun h => absurd g3 h⟩
    have veof : t = TOKEN_EOF → ∃ u, v' = u ++ [TOKEN_EOF] := by
      intro e
      rcases hst with ⟨-, h⟩ | ⟨h, rfl, -⟩
      · exact ⟨v, by rw [h, e]⟩
      · exact h.eof
    obtain ⟨rfl, f2, f3, f4⟩ := fullStep ha hp hdec hσ hm h1 hst
    cases x with
    | none =>
      dsimp only at h
      rw [Option.bind_eq_some_iff] at h
      obtain ⟨i2, -, h⟩ := h
      rw [Option.bind_eq_some_iff] at h
      obtain ⟨k, hk, h⟩ := h
      split at h
      · rename_i hk0
        simp only [Option.some.injEq] at h
        subst h
        obtain ⟨c, hc, hfin, rfl⟩ := synValidAlt_mem hk hk0
        have hmt := matches_of (S := (· = σ)) (T := fun v j p => Live L.atn dec σ j v p) (fun v j p h => ⟨σ, rfl, h⟩) (hprev c hc)
        refine ⟨rfl, begins_alt ?_, v, hv1, hmt,
          fun hd => .inr (.inr ⟨v', hv2, hpre, f3 rfl hd⟩)⟩
        by_cases hv0 : v = []
        · exact falls_begins (hmod hv0 c hc (hfin (fun x hx => (hprev x hx).wf))) _
        · exact ahead_begins hv1 hv0 hmt
      · rw [Option.map_eq_some_iff] at h
        obtain ⟨q, hq, rfl⟩ := h
        obtain ⟨a, b, e⟩ := noViableAlt_out hq
        dsimp only
        rw [e]
        refine ⟨rfl, begins_noAlt, ?_⟩
        exact fun hd => ⟨v', hv2, f3 rfl hd⟩
    | some x =>
      dsimp only at h
      obtain ⟨e1, e2, e3, e4⟩ := f4 x rfl
      have rng : ∀ c ∈ x.configs, 1 ≤ c.alt ∧ c.alt < 2 ^ 63 := by
        intro c hc
        have hfew := hdec.few
        have := (e2 c hc).range (fun _ _ h => h.range) (fun j h => h.range (fun _ _ _ h => h.range))
        omega
      have mat : ∀ c ∈ x.configs, Matches L.atn dec (· = σ) v' c.alt := fun c hc =>
        matches_of (S := (· = σ)) (T := fun v j p => Live L.atn dec σ j v p) (fun v j p h => ⟨σ, rfl, h⟩) (e2 c hc)
      split at h
      · rename_i hu
        simp only [Option.some.injEq] at h
        subst h
        have hmt : Matches L.atn dec (· = σ) v' (uniqueAlt x) := by
          obtain ⟨c, hc, e⟩ := uniqueAlt_mem hu
          rw [← e]; exact mat c hc
        refine ⟨rfl, begins_alt (ahead_begins hv2 hnil hmt), v', hv2, hmt, ?_⟩
        · intro hd
          left
          rcases e4 hd with ⟨-, h⟩ | h
          · exact h
          · rintro τ rfl j p hj hc
            obtain ⟨y, hy, rfl, -⟩ := h j p (alive_full.1 hj) hc
            exact uniqueAlt_all hu (fun c hc => (rng c hc).1) y hy
      · rename_i hu
        rw [not_not] at hu
        rw [Option.bind_eq_some_iff] at h
        obtain ⟨dc, hdc, h⟩ := h
        have cov : d = false → ∀ j p, Live L.atn dec σ j v' p → Counts L.atn true v' p → Covers d (· ∈ x.configs) j p :=
          fun hd => (e4 hd).resolve_left (fun h => h.1 hu)
        cases dc with
        | some q =>
          obtain ⟨k, e⟩ := q
          simp only [Option.some.injEq] at h
          subst h
          have key := fullDecision_spec e1 rng hdc
          have hmt : Matches L.atn dec (· = σ) v' k := by
            obtain ⟨c, hc⟩ := List.exists_mem_of_ne_nil _ e1
            obtain ⟨-, y, hy, -, -, rfl⟩ := key c hc
            exact mat y hy
          refine ⟨rfl, begins_alt (ahead_begins hv2 hnil hmt), v', hv2, hmt, ?_⟩
          · rintro hd
            right; left
            rintro τ rfl j p hj hc
            obtain ⟨z, hz, rfl, ez, hden⟩ := cov hd j p hj hc
            obtain ⟨k1, y, hy, ey1, ey2, rfl⟩ := key z hz
            refine ⟨k1, ?_⟩
            rcases e2 y hy with h | ⟨-, -, -, u, p', h1, h2, h3⟩
            · left
              subst hd
              have := h.all (ints p.2) (by rw [ey2]; simpa [Den] using hden)
              obtain ⟨st, hst⟩ := hc.state
              rw [nats_ints ha _ (proper_lt ha (hj.fair ha hdec hσ st hst)), ey1, ez] at this
              exact this
            · exact .inr ⟨u, p', h1, h2, h3⟩
        | none =>
          dsimp only at h
          split at h
          · rename_i ht
            obtain ⟨m, hm1, hm2, hm3, hm4⟩ := hcase ht
            rw [Option.bind_eq_some_iff] at h
            obtain ⟨i2, hi2, h⟩ := h
            rw [Option.bind_eq_some_iff] at h
            obtain ⟨q, hq, h⟩ := h
            have a1 := hl.consume hm3 (by rw [← hm1]; exact ht) hi2
            obtain ⟨a2, a3⟩ := hl.la a1 hq
            refine ih f2 h (.inl ⟨m + 1, ⟨?_, ?_⟩, a2, a3, ?_, by omega⟩)
            · rw [← hm2]; exact e2
            · intro hd j p hj hw
              rw [← hm2] at hj
              refine cov hd j p hj ⟨.inl hw, ?_⟩
              intro hlast
              rw [hm2, pre_succ] at hlast
              simp at hlast
              exact absurd (hm1.trans hlast) ht
            · intro i hi
              by_cases e : i = m
              · subst e; rw [← hm1]; exact ht
              · exact hm4 i (by omega)
          · rename_i ht
            rw [not_not] at ht
            refine ih f2 h (.inr ⟨v', hv2, ⟨e2, veof ht, e3 ht, cov⟩, ht⟩)

end Antlr.Prediction
