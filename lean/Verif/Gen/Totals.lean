import Verif.Gen.ReturnSpec
import Verif.Gen.TrackCall
import Verif.ErrorStrategy.Props
import Verif.Prediction.Threads

/-! # The sets of the error strategy can always be computed -/

namespace Antlr.Gen
set_option linter.unusedSectionVars false
open Antlr ErrorSpec ErrorLemmas ErrorProps LL1Spec LL1Props IntervalSpec IntervalProps GenSpec PredictionSpec

/-! ## Contexts -/

/-- The context knows its caller, and so do those above it. -/
inductive SoundAt (atn : ATN) (rules : Nat) (h : List Ctx) : Nat → Prop
  | root {i x} : h[i]? = some x → x.rule < rules → x.parent = none → x.invoking < 0 → SoundAt atn rules h i
  | up {i x q y} : h[i]? = some x → x.rule < rules → x.parent = some q → q < i → h[q]? = some y →
      CallsRule atn x.invoking y.rule x.rule → SoundAt atn rules h q → SoundAt atn rules h i

section
variable {atn : ATN} {rules : Nat} {h : List Ctx}

theorem SoundAt.get {i : Nat} (hs : SoundAt atn rules h i) : ∃ x, h[i]? = some x ∧ x.rule < rules := by
  cases hs with
  | root h1 h2 => exact ⟨_, h1, h2⟩
  | up h1 h2 => exact ⟨_, h1, h2⟩

theorem SoundAt.lt {i : Nat} (hs : SoundAt atn rules h i) : i < h.length := by
  obtain ⟨x, h1, -⟩ := hs.get
  exact (List.getElem?_eq_some_iff.1 h1).1

theorem SoundAt.root_of {i : Nat} {x : Ctx} (hs : SoundAt atn rules h i) (hx : h[i]? = some x) (hp : x.parent = none) :
    x.invoking < 0 := by
  cases hs with
  | root h1 h2 h3 h4 => rw [h1] at hx; cases hx; exact h4
  | up h1 h2 h3 => rw [h1] at hx; cases hx; rw [hp] at h3; cases h3

theorem SoundAt.up_of {i q : Nat} {x : Ctx} (hs : SoundAt atn rules h i) (hx : h[i]? = some x) (hp : x.parent = some q) :
    q < i ∧ (∃ y, h[q]? = some y ∧ CallsRule atn x.invoking y.rule x.rule) ∧ SoundAt atn rules h q := by
  cases hs with
  | root h1 h2 h3 h4 => rw [h1] at hx; cases hx; rw [hp] at h3; cases h3
  | up h1 h2 h3 h4 h5 h6 h7 => rw [h1] at hx; cases hx; rw [hp] at h3; cases h3; exact ⟨h4, ⟨_, h5, h6⟩, h7⟩

theorem SoundAt.callers {i : Nat} (hs : SoundAt atn rules h i) :
    ∃ stack k, Callers h (some i) stack ∧ Climbs atn stack k ∧
      ∀ fuel, i < fuel → P.statesStackFrom h fuel i = some stack := by
  induction hs with
  | @root i x hx _ _ hp =>
    refine ⟨[], [], .root hx hp, .nil, ?_⟩
    intro fuel hf
    obtain ⟨fuel, rfl⟩ : ∃ k, fuel = k + 1 := ⟨fuel - 1, by omega⟩
    simp only [P.statesStackFrom, hx, Option.bind_some, if_pos hp]
  | @up i x q y hx _ hq h1 _ hp _ ih =>
    obtain ⟨a, s, t, f, p, ts, tst, h2, h3, h4, -⟩ := hp
    obtain ⟨stack, k, c1, c2, c3⟩ := ih
    refine ⟨x.invoking :: stack, f :: k, .up hx (by rw [h2]; exact Int.natCast_nonneg _) (by rw [hq]; exact c1),
      .cons ⟨a, s, t, _, p, ts, h2, h3, h4⟩ c2, ?_⟩
    intro fuel hf
    obtain ⟨fuel, rfl⟩ : ∃ k, fuel = k + 1 := ⟨fuel - 1, by omega⟩
    have hn : ¬ x.invoking < 0 := by rw [h2]; exact Int.not_lt.mpr (Int.natCast_nonneg _)
    simp only [P.statesStackFrom, hx, Option.bind_some, if_neg hn, hq, c3 fuel (by omega), Option.map_some]

theorem SoundAt.rooted {i : Nat} (hs : SoundAt atn rules h i) : Rooted h i := by
  induction hs with
  | root hx _ hq _ => exact .root hx hq
  | up hx _ hq _ _ _ _ ih => exact .up hx hq ih

/-- The stack of calls is one of the rule of the innermost context. -/
theorem SoundAt.proper {cs : List Nat} {outer : List Int} (hc : Chain h cs outer)
    (hs : ∀ c ∈ cs, SoundAt atn rules h c)
    (hne : cs ≠ []) : ∃ τ : List Nat, StackProps.Calls atn outer (Prediction.ints τ) ∧
      ∀ c x, cs.head? = some c → h[c]? = some x → Proper atn x.rule τ := by
  induction hc with
  | nil => exact absurd rfl hne
  | @cons c x cs l h1 h2 h3 h4 ih =>
    have hp := hs c (by simp)
    cases cs with
    | nil =>
      cases h4
      exact ⟨[], .root _, fun _ _ _ _ => .nil⟩
    | cons q cs =>
      obtain ⟨-, ⟨y, hy, a, s, t, f, p, ts, tst, e1, e2, e3, e4, e5, e6⟩, -⟩ := hp.up_of h1 h2
      obtain ⟨τ, hst, hpr⟩ := ih (fun c hc => hs c (by simp [hc])) (by simp)
      refine ⟨f :: τ, ?_, ?_⟩
      · rw [e1]
        refine .call (stack := Prediction.ints τ) a s t f _ p ts ?_ e2 e3 hst
        cases h4
        simp
      · intro c' x' hc' hx'
        cases hc'
        rw [h1, Option.some.injEq] at hx'
        subst hx'
        refine .call (t := t) (p := p) e2 (by rw [e3]; exact List.mem_cons_self) e5 e6 ?_
        rw [e4]; exact hpr q y rfl hy

theorem SoundAt.calls {cs : List Nat} {outer : List Int} (hc : Chain h cs outer) (hs : ∀ c ∈ cs, SoundAt atn rules h c)
    (hne : cs ≠ []) : ∃ stack, StackProps.Calls atn outer stack := by
  obtain ⟨τ, h1, -⟩ := SoundAt.proper hc hs hne
  exact ⟨_, h1⟩

/-- Only the context and those above it matter: they have smaller numbers. -/
theorem SoundAt.frame {i : Nat} (hs : SoundAt atn rules h i) {h' : List Ctx}
    (hl : ∀ j x, j ≤ i → h[j]? = some x →
      ∃ y, h'[j]? = some y ∧ y.parent = x.parent ∧ y.invoking = x.invoking ∧ y.rule = x.rule) : SoundAt atn rules h' i := by
  induction hs with
  | @root i x hx hr hq hp =>
    obtain ⟨y, h1, h2, h3, h4⟩ := hl i x (Nat.le_refl _) hx
    exact .root h1 (by rw [h4]; exact hr) (by rw [h2]; exact hq) (by rw [h3]; exact hp)
  | @up i x q z hx hr hq hlt hz hp _ ih =>
    obtain ⟨y, h1, h2, h3, h4⟩ := hl i x (Nat.le_refl _) hx
    obtain ⟨w, g1, g2, g3, g4⟩ := hl q z (Nat.le_of_lt hlt) hz
    exact .up h1 (by rw [h4]; exact hr) (by rw [h2]; exact hq) hlt g1 (by rw [h3, h4, g4]; exact hp)
      (ih fun j x hj => hl j x (by omega))

theorem SoundAt.links {i : Nat} (hs : SoundAt atn rules h i) {h' : List Ctx} (hl : SameLinks h h') : SoundAt atn rules h' i := by
  refine hs.frame fun j x _ hx => ?_
  have := hl.2 j
  rw [hx] at this
  cases hy : h'[j]? with
  | none => simp [hy] at this
  | some y =>
    rw [hy] at this
    simp only [Option.map_some, Option.some.injEq, Prod.mk.injEq] at this
    exact ⟨y, rfl, this.1, this.2.1, this.2.2⟩

theorem SoundAt.grow {i : Nat} (hs : SoundAt atn rules h i) (l : List Ctx) : SoundAt atn rules (h ++ l) i :=
  hs.frame fun j x _ hx => ⟨x, by rw [List.getElem?_append_left (List.getElem?_eq_some_iff.1 hx).1]; exact hx, rfl, rfl, rfl⟩

end

theorem _root_.Antlr.Gen.Chain.length {h : List Ctx} {cs : List Nat} {l : List Int} (hc : Chain h cs l) :
    l.length = cs.length := by
  induction hc with
  | nil => rfl
  | cons _ _ _ _ ih => simp [ih]

theorem _root_.Antlr.Gen.Chain.links {h h' : List Ctx} (hl : SameLinks h h') {cs : List Nat} {l : List Int}
    (hc : Chain h cs l) : Chain h' cs l := by
  refine hc.frame ?_
  intro c _ x hx
  rcases hl.get c with ⟨h1, -⟩ | ⟨y, y', h1, h2, h3, h4⟩
  · rw [hx] at h1; cases h1
  · rw [hx] at h1; cases h1
    exact ⟨y', h2, h3, h4⟩

/-! ## Sets -/

/-- Nothing below `EPSILON` is in the set. -/
def Low (s : IntervalSet) : Prop := ∀ r ∈ s.intervals, r.a ≤ r.b ∧ TOKEN_EPSILON ≤ r.a

theorem low_of_mem {s : IntervalSet} (h1 : ∀ r ∈ s.intervals, r.a ≤ r.b)
    (h2 : ∀ x, Mem s.intervals x → TOKEN_EPSILON ≤ x) : Low s := by
  intro r hr
  exact ⟨h1 r hr, h2 _ ⟨r, hr, Int.le_refl _, h1 r hr⟩⟩

theorem low_mem {s : IntervalSet} (h : Low s) {x : Int} (hx : Mem s.intervals x) : TOKEN_EPSILON ≤ x := by
  obtain ⟨r, hr, h1, -⟩ := hx
  have := (h r hr).2
  omega

/-- Taking `EPSILON` out of such a set does not panic. -/
theorem removeLoop_low (s : IntervalSet) (h : Low s) (n i : Nat) (hn : n ≤ s.intervals.length) :
    ∃ s', IntervalSet.removeLoop TOKEN_EPSILON n s i = some s' ∧ s'.readOnly = s.readOnly := by
  by_cases hi : i < n
  · induction hk : n - i generalizing i with
    | zero => omega
    | succ k ih =>
      rw [IntervalSet.removeLoop, if_pos hi]
      have hx : s.intervals[i]? = some s.intervals[i] := List.getElem?_eq_getElem (by omega)
      have hl := h _ (List.mem_of_getElem? hx)
      rw [hx]
      dsimp only
      split
      · exact ⟨_, rfl, rfl⟩
      split
      · exact ⟨_, rfl, rfl⟩
      split
      · exact ⟨_, rfl, rfl⟩
      split
      · exact ⟨_, rfl, rfl⟩
      split
      · omega
      · by_cases hi' : i + 1 < n
        · exact ih (i + 1) hi' (by omega)
        · rw [IntervalSet.removeLoop, if_neg hi']
          exact ⟨_, rfl, rfl⟩
  · rw [IntervalSet.removeLoop, if_neg hi]
    exact ⟨_, rfl, rfl⟩

theorem removeOne_low {s : IntervalSet} (h : Low s) (hr : s.readOnly = false) :
    ∃ s', s.removeOne TOKEN_EPSILON = some s' ∧ Low s' ∧ s'.readOnly = false := by
  obtain ⟨s', h1, h2⟩ := removeLoop_low s h s.intervals.length 0 (Nat.le_refl _)
  have h3 : s.removeOne TOKEN_EPSILON = some s' := by
    unfold IntervalSet.removeOne
    rw [if_neg (by simp [hr]), h1]
  have h4 := C05_remove_one_sound s s' _ (fun r hr => (h r hr).1) h3
  exact ⟨s', h3, low_of_mem h4.1 fun x hx => low_mem h (h4.2 x hx), by rw [h2, hr]⟩

theorem addInterval_readOnly (s : IntervalSet) (r : Interval) : (s.addInterval r).readOnly = s.readOnly := by
  simp only [IntervalSet.addInterval]; split <;> rfl

theorem addSet_readOnly (s o : IntervalSet) : (s.addSet o).readOnly = s.readOnly := by
  unfold IntervalSet.addSet
  induction o.intervals generalizing s with
  | nil => rfl
  | cons r l ih => rw [List.foldl_cons, ih, addInterval_readOnly]

theorem addSet_low {s o : IntervalSet} (hs : Low s) (ho : Low o) : Low (s.addSet o) := by
  have h := foldl_sound s o.intervals fun r hr => (hs r hr).1
  refine low_of_mem h.1 ?_
  intro x hx
  rcases h.2 x hx with h | h
  · exact low_mem hs h
  · exact low_mem ho h

theorem low_new : Low IntervalSet.new := by
  intro r hr; simp [IntervalSet.new] at hr

section
variable {atn : ATN}

theorem canMatch_low (hl : RealLabels atn) {p : Pos} {x : Int} (h : CanMatch atn p x) : TOKEN_EPSILON ≤ x := by
  obtain ⟨s, k, st, tr, -, h1, -, h2, h3⟩ := h
  have := hl s st tr h1 h2 x h3
  simp only [TOKEN_EOF, TOKEN_EPSILON] at this ⊢
  omega

theorem nextTokens_low (wf : WFAtn atn) (hl : RealLabels atn) {fuel a : Nat} (ha : a < atn.states.length)
    {set : IntervalSet} (h : nextTokens atn fuel a = some set) : Low set := by
  refine low_of_mem ?_ ?_
  · obtain ⟨st', h1, rfl⟩ := nextTokens_eq h
    obtain ⟨adds, h2, -, -, -⟩ := look_adds wf ha (by simp) h1
    simp only [h2, IntervalProps.run, foldl_perform]
    exact (foldl_sound IntervalSet.new _ (by simp [IntervalSet.new])).1
  · intro x hx
    rcases nextTokens_mem wf ha h x hx with h | h
    · exact canMatch_low hl h
    · rw [h.1]; exact Int.le_refl _

theorem expectedLoop_total (wf : WFAtn atn) (hl : RealLabels atn) {fuel : Nat}
    (hn : ∀ a, a < atn.states.length → ∃ set, nextTokens atn fuel a = some set) {stack : List Int} {k : List Nat}
    (hk : Climbs atn stack k) (following expected : IntervalSet) (he : Low expected) (hr : expected.readOnly = false) :
    ∃ r, expectedLoop atn fuel stack following expected = some r := by
  induction hk generalizing following expected with
  | nil => exact ⟨_, rfl⟩
  | @cons i f stack k hi _ ih =>
    obtain ⟨n, st, t, r, p, ts, rfl, h1, h2⟩ := hi
    have hfl := wf.follow n st t f r p h1 (by simp [h2])
    rw [expectedLoop]
    split
    · exact ⟨_, rfl⟩
    · obtain ⟨set, hs⟩ := hn f hfl
      have hfo : followOf atn (n : Int) = some f := by simp [followOf, ATN.stateAt, h1, h2]
      obtain ⟨e', r1, r2, r3⟩ := removeOne_low (addSet_low he (nextTokens_low wf hl hfl hs))
        (by rw [addSet_readOnly, hr])
      rw [hfo, Option.bind_some, if_pos hfl, hs, Option.bind_some, r1, Option.bind_some]
      exact ih set e' r2 r3

theorem expected_total (wf : WFAtn atn) (hl : RealLabels atn) {fuel : Nat}
    (hn : ∀ a, a < atn.states.length → ∃ set, nextTokens atn fuel a = some set) {stack : List Int} {k : List Nat}
    (hk : Climbs atn stack k) {a : Nat} (ha : a < atn.states.length) :
    ∃ E, Antlr.getExpectedTokens atn fuel a stack = some E := by
  obtain ⟨set, hs⟩ := hn a ha
  unfold Antlr.getExpectedTokens
  rw [if_pos (Int.natCast_nonneg a), Int.toNat_natCast, hs, Option.bind_some]
  split
  · exact ⟨_, rfl⟩
  · obtain ⟨e', r1, r2, r3⟩ := removeOne_low (addSet_low low_new (nextTokens_low wf hl ha hs))
      (by rw [addSet_readOnly]; rfl)
    obtain ⟨r, hr⟩ := expectedLoop_total wf hl hn hk set e' r2 r3
    rw [r1, Option.bind_some, hr]
    exact ⟨_, rfl⟩

end

/-! ## The parser's sets -/

section
variable {I : Type} [TokStream I] {env : EEnv I} {rules : Nat} {p : P I}

theorem statesStack_total {c : Nat} (hs : SoundAt env.atn rules p.heap c) :
    ∃ stack k, p.statesStack c = some stack ∧ Callers p.heap (some c) stack ∧ Climbs env.atn stack k := by
  obtain ⟨stack, k, h1, h2, h3⟩ := hs.callers
  exact ⟨stack, k, h3 _ hs.lt, h1, h2⟩

theorem getExpected_total (wf : WFAtn env.atn) (hl : RealLabels env.atn)
    (hn : ∀ a, a < env.atn.states.length → ∃ set, nextTokens env.atn env.fuel a = some set)
    {c : Nat} (hs : SoundAt env.atn rules p.heap c) (hctx : p.ctx = some c)
    {a : Nat} (ha : a < env.atn.states.length) (hp : p.state = a) : ∃ E, p.getExpectedTokens env = some E := by
  obtain ⟨stack, k, h1, -, h2⟩ := statesStack_total hs
  obtain ⟨E, h3⟩ := expected_total wf hl hn h2 ha
  exact ⟨E, by rw [P.getExpectedTokens, hctx, Option.bind_some, h1, Option.bind_some, hp, h3]⟩

theorem recoverySet_total (wf : WFAtn env.atn) (hl : RealLabels env.atn)
    (hn : ∀ a, a < env.atn.states.length → ∃ set, nextTokens env.atn env.fuel a = some set)
    {c : Nat} (hs : SoundAt env.atn rules p.heap c) (hctx : p.ctx = some c) :
    ∃ R, ES.recoverySet env p = some R := by
  obtain ⟨stack, k, -, h1, h2⟩ := statesStack_total hs
  obtain ⟨sets, h3⟩ : ∃ sets, List.Forall₂ (fun f s => f < env.atn.states.length ∧
      nextTokens env.atn env.fuel f = some s) k sets := by
    clear h1
    induction h2 with
    | nil => exact ⟨[], .nil⟩
    | @cons i f stack k hi _ ih =>
      obtain ⟨n, st, t, r, p, ts, rfl, e1, e2⟩ := hi
      have hfl := wf.follow n st t f r p e1 (by simp [e2])
      obtain ⟨sets, h⟩ := ih
      obtain ⟨set, hset⟩ := hn f hfl
      exact ⟨set :: sets, .cons ⟨hfl, hset⟩ h⟩
  rw [recoverySet_eq env wf p hctx h1 h2 sets (h3.imp fun _ _ h => h.2)]
  have hlow : ∀ (k : List Nat) (sets : List IntervalSet) (acc : IntervalSet), List.Forall₂ (fun f s =>
      f < env.atn.states.length ∧ nextTokens env.atn env.fuel f = some s) k sets → Low acc →
      acc.readOnly = false → Low (joined sets acc) ∧ (joined sets acc).readOnly = false := by
    intro k sets acc h
    induction h generalizing acc with
    | nil => intro h1 h2; exact ⟨h1, h2⟩
    | cons hx _ ih =>
      intro h1 h2
      exact ih _ (addSet_low h1 (nextTokens_low wf hl hx.1 hx.2)) (by rw [addSet_readOnly, h2])
  obtain ⟨l1, l2⟩ := hlow k sets IntervalSet.new h3 low_new rfl
  obtain ⟨R, hR, -⟩ := removeOne_low l1 l2
  exact ⟨R, hR⟩

theorem afterExpected_total (wf : WFAtn env.atn) {K : Nat}
    (hn : ∀ a, a < env.atn.states.length → ∀ chain stack, StackProps.Calls env.atn chain stack → chain.length ≤ K →
      ∃ set, nextTokensInCtx env.atn env.fuel a (some chain) = some set)
    {c : Nat} {cs : List Nat} {outer : List Int} (hs : ∀ d ∈ c :: cs, SoundAt env.atn rules p.heap d) (hctx : p.ctx = some c)
    (hch : Chain p.heap (c :: cs) outer) (hK : (c :: cs).length ≤ K) (he : HasEdge env.atn p.state) :
    ∃ L, ES.afterExpected env p = some L := by
  obtain ⟨a, s, tr, ts, h1, h2, h3⟩ := he
  have ht := wf.target a s tr h2 (by simp [h3])
  obtain ⟨stack, hst⟩ := SoundAt.calls hch hs (by simp)
  obtain ⟨set, hset⟩ := hn tr.target ht outer stack hst (by rw [hch.length]; exact hK)
  have hfrom : P.chainFrom p.heap p.heap.length (some c) = some outer :=
    hch.from (fun q hq => by cases hq; exact hch.lt c (by simp))
  refine ⟨set, ?_⟩
  simp only [ES.afterExpected, h1, ATN.stateAt, Int.natCast_nonneg, if_true, Int.toNat_natCast, h2, Option.bind_some,
    h3, List.head?_cons, ht, hctx, hfrom, hset]

end
end Antlr.Gen
