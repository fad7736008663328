import Verif.LL1.Spec
import Verif.IntervalSet.Props
import Verif.Prelude

/-!
# The depth-first search of `look_work`: helper lemmas
-/

namespace Antlr.LL1Lemmas
open Antlr IntervalSpec LL1Spec IntervalProps

/-- The context for a stack; the bottom is "no context" or the empty context. -/
def toPC (eof : Bool) : List Nat → Option PC
  | [] => if eof then some PC.EMPTY else none
  | f :: k => some (.single (toPC eof k) f)

def endTok (eof : Bool) : Int := if eof then TOKEN_EOF else TOKEN_EPSILON

theorem toPC_inj (eof : Bool) : ∀ k k', toPC eof k = toPC eof k' → k = k'
  | [], [], _ => rfl
  | [], f :: k, h => by
    cases eof <;> simp [toPC, PC.EMPTY] at h
    cases k <;> simp [toPC] at h
  | f :: k, [], h => by
    cases eof <;> simp [toPC, PC.EMPTY] at h
    cases k <;> simp [toPC] at h
  | f :: k, g :: k', h => by
    simp only [toPC, Option.some.injEq, PC.single.injEq, Int.natCast_inj] at h
    rw [toPC_inj eof k k' h.1, h.2]

def key (eof : Bool) (p : Pos) : Nat × Option PC := (p.1, toPC eof p.2)

theorem key_inj {eof : Bool} {p q : Pos} (h : key eof p = key eof q) : p = q := by
  simp only [key, Prod.mk.injEq] at h
  exact Prod.ext h.1 (toPC_inj eof _ _ h.2)

/-- What a position contributes itself. -/
def Emits (atn : ATN) (eof : Bool) (p : Pos) (x : Int) : Prop :=
  ∃ st, atn.states[p.1]? = some st ∧
    ((st.stateType ≠ .ruleStop ∧ ∃ tr ∈ st.transitions, Matches atn.maxTokenType tr x) ∨
     (st.stateType = .ruleStop ∧ p.2 = [] ∧ x = endTok eof))

/-- The add call made for a consuming edge. -/
def edgeCall (atn : ATN) : Trans → AddCall
  | .atom _ l => .set [⟨l, l⟩]
  | .range _ a b => .set (if b < a then [] else [⟨a, b⟩])
  | .set _ l => .set l.intervals
  | .notSet _ l => .set (l.complement 1 atn.maxTokenType).intervals
  | .wildcard _ => .range 1 atn.maxTokenType
  | _ => .set []

/-- The add calls the search can make. -/
def Shape (atn : ATN) (eof : Bool) (c : AddCall) : Prop :=
  c = .one (endTok eof) ∨ ∃ (s : Nat) (st : ATNState) (tr : Trans),
    atn.states[s]? = some st ∧ tr ∈ st.transitions ∧ c = edgeCall atn tr

/-- What a piece of the search does: `Good` positions are the ones it may visit. -/
structure Grow (atn : ATN) (eof : Bool) (Good : Pos → Prop) (st st' : LookState)
    (adds : List AddCall) : Prop where
  sub : ∀ n ∈ st.busy, n ∈ st'.busy
  called : st'.called = st.called
  look : st'.look = adds.foldl perform st.look
  shape : ∀ c ∈ adds, Shape atn eof c
  sound : ∀ c ∈ adds, ∀ x, c.Asks x → ∃ p, Good p ∧ Emits atn eof p x
  new : ∀ n ∈ st'.busy, n ∉ st.busy → ∃ p, n = key eof p ∧ Good p ∧
    (∀ x, Emits atn eof p x → ∃ c ∈ adds, c.Asks x) ∧
    (NoLeftRecursion atn → ∀ q, Step atn p q → key eof q ∈ st'.busy)

variable {atn : ATN} {eof : Bool} {Good : Pos → Prop}

theorem Grow.refl (st : LookState) : Grow atn eof Good st st [] :=
  ⟨fun _ h => h, rfl, rfl, by simp, by simp, fun n h h' => absurd h h'⟩

theorem Grow.trans {a b c : LookState} {x y : List AddCall} (h1 : Grow atn eof Good a b x)
    (h2 : Grow atn eof Good b c y) : Grow atn eof Good a c (x ++ y) where
  sub n h := h2.sub n (h1.sub n h)
  called := h2.called.trans h1.called
  look := by rw [h2.look, h1.look, List.foldl_append]
  shape d hd := by
    rcases List.mem_append.mp hd with h | h
    · exact h1.shape d h
    · exact h2.shape d h
  sound d hd := by
    rcases List.mem_append.mp hd with h | h
    · exact h1.sound d h
    · exact h2.sound d h
  new n hn hn' := by
    by_cases hb : n ∈ b.busy
    · obtain ⟨p, hp, hg, he, hs⟩ := h1.new n hb hn'
      refine ⟨p, hp, hg, fun x hx => ?_, fun hl q hq => h2.sub _ (hs hl q hq)⟩
      obtain ⟨c, hc, hx⟩ := he x hx
      exact ⟨c, by simp [hc], hx⟩
    · obtain ⟨p, hp, hg, he, hs⟩ := h2.new n hn hb
      refine ⟨p, hp, hg, fun x hx => ?_, hs⟩
      obtain ⟨c, hc, hx⟩ := he x hx
      exact ⟨c, by simp [hc], hx⟩

/-- Only a call of `add`. -/
theorem Grow.add (st : LookState) (c : AddCall) (hs : Shape atn eof c)
    (h : ∀ x, c.Asks x → ∃ p, Good p ∧ Emits atn eof p x) :
    Grow atn eof Good st { st with look := perform st.look c } [c] where
  sub _ h := h
  called := rfl
  look := rfl
  shape d hd := by simp only [List.mem_singleton] at hd; subst hd; exact hs
  sound d hd := by simp only [List.mem_singleton] at hd; subst hd; exact h
  new n hn hn' := absurd hn hn'

/-- The rules marked as called are exactly pending calls: for each there is an entry from which the
current position was reached. -/
def CInv (atn : ATN) (called : Nat → Bool) (p : Pos) : Prop :=
  ∀ r, called r = true → ∃ e est k1, Entry atn e ∧ atn.states[e]? = some est ∧ est.ruleIndex = r ∧
    k1 <+: p.2 ∧ Reach atn (e, []) (p.1, k1)

/-- The rule of the bottom-most activation of a position. -/
theorem reach_rule (wf : WFAtn atn) {e : Nat} {est : ATNState} (he : atn.states[e]? = some est) {p : Pos}
    (h : Reach atn (e, []) p) :
    ∀ s st, (p.2.getLast? = some s ∨ (p.2 = [] ∧ p.1 = s)) → atn.states[s]? = some st →
      st.ruleIndex = est.ruleIndex := by
  induction h with
  | refl =>
    intro s st h hst
    simp at h; subst h; rw [he] at hst; cases hst; rfl
  | tail _ hstep ih =>
    intro s' st' h hst'
    cases hstep with
    | @free s k st tr h1 h2 h3 h4 =>
      rcases h with h | ⟨h, h'⟩
      · exact ih s' st' (Or.inl h) hst'
      · simp at h h'; subst h h'
        rw [wf.sameRule s st tr st' h1 h2 h3 h4 hst']
        exact ih s st (Or.inr ⟨rfl, rfl⟩) h1
    | @call s k st t f r p h1 h2 h3 =>
      rcases h with h | ⟨h, h'⟩
      · cases k with
        | nil =>
          simp at h; subst h
          rw [wf.followRule s st t f r p st' h1 h2 h3 hst']
          exact ih s st (Or.inr ⟨rfl, rfl⟩) h1
        | cons g k =>
          exact ih s' st' (Or.inl (by simpa using h)) hst'
      · simp at h
    | @ret s f k st h1 h2 =>
      refine ih s' st' (Or.inl ?_) hst'
      cases k with
      | nil => simpa using h
      | cons g k => simpa using h

theorem CInv.free (h : CInv atn called (s, k)) (hs : ∀ k, Step atn (s, k) (t, k)) :
    CInv atn called (t, k) := by
  intro r hr
  obtain ⟨e, est, k1, h1, h2, h3, h4, h5⟩ := h r hr
  exact ⟨e, est, k1, h1, h2, h3, h4, h5.tail (hs _)⟩

theorem CInv.call {called : Nat → Bool} {s t f : Nat} {k : List Nat} {tst : ATNState}
    (h : CInv atn called (s, k)) (hs : ∀ k, Step atn (s, k) (t, f :: k)) (he : Entry atn t)
    (ht : atn.states[t]? = some tst) :
    CInv atn (fun r => if r = tst.ruleIndex then true else called r) (t, f :: k) := by
  intro r hr
  by_cases hrt : r = tst.ruleIndex
  · exact ⟨t, tst, [], he, ht, hrt.symm, by simp, .refl⟩
  · simp only [hrt, if_false] at hr
    obtain ⟨e, est, k1, h1, h2, h3, h4, h5⟩ := h r hr
    exact ⟨e, est, f :: k1, h1, h2, h3, by simpa using h4, h5.tail (hs _)⟩

theorem CInv.ret (wf : WFAtn atn) {called : Nat → Bool} {s f : Nat} {k : List Nat} {st : ATNState}
    (h : CInv atn called (s, f :: k)) (hst : atn.states[s]? = some st)
    (hstop : st.stateType = .ruleStop) :
    CInv atn (fun r => if r = st.ruleIndex then false else called r) (f, k) := by
  intro r hr
  by_cases hrt : r = st.ruleIndex
  · simp [hrt] at hr
  · simp only [hrt, if_false] at hr
    obtain ⟨e, est, k1, h1, h2, h3, h4, h5⟩ := h r hr
    cases k1 with
    | nil =>
      exfalso; apply hrt
      rw [← h3]
      exact (reach_rule wf h2 h5 s st (Or.inr ⟨rfl, rfl⟩) hst).symm
    | cons g k1 =>
      have := List.cons_prefix_cons.mp h4
      obtain ⟨rfl, h6⟩ := this
      exact ⟨e, est, k1, h1, h2, h3, h6, h5.tail (.ret hst hstop)⟩

/-- What the search does when started at a position. -/
def RecOK (atn : ATN) (eof : Bool) (Good : Pos → Prop)
    (rec : Nat → Option PC → LookState → Option LookState) : Prop :=
  ∀ s k st st', s < atn.states.length → (∀ f ∈ k, f < atn.states.length) → Good (s, k) →
    (NoLeftRecursion atn → CInv atn st.called (s, k)) → rec s (toPC eof k) st = some st' →
    ∃ adds, Grow atn eof Good st st' adds ∧ key eof (s, k) ∈ st'.busy

/-- What following one edge must have achieved. -/
def Followed (atn : ATN) (eof : Bool) (k : List Nat) (tr : Trans) (st' : LookState)
    (adds : List AddCall) : Prop :=
  (∀ x, Matches atn.maxTokenType tr x → ∃ c ∈ adds, c.Asks x) ∧
  (Free tr → key eof (tr.target, k) ∈ st'.busy) ∧
  (NoLeftRecursion atn → ∀ t f r p, tr = .rule t f r p → key eof (t, f :: k) ∈ st'.busy)

theorem Followed.mono {k : List Nat} {tr : Trans} {a b : LookState} {x y x' : List AddCall}
    (h : Followed atn eof k tr a x) (hs : ∀ n ∈ a.busy, n ∈ b.busy) :
    Followed atn eof k tr b (x' ++ x ++ y) := by
  refine ⟨fun v hv => ?_, fun hf => hs _ (h.2.1 hf), fun hl t f r p he => hs _ (h.2.2 hl t f r p he)⟩
  obtain ⟨c, hc, hx⟩ := h.1 v hv
  exact ⟨c, by simp [hc], hx⟩

/-- The add call for a consuming edge. -/
theorem edge_adds {s : Nat} {k : List Nat} {state : ATNState} {tr : Trans}
    {st st' : LookState}
    (hst : atn.states[s]? = some state) (hns : state.stateType ≠ .ruleStop)
    (htr : tr ∈ state.transitions) (hg : Good (s, k)) (c : AddCall)
    (hshape : c = edgeCall atn tr) (hc : ∀ x, c.Asks x ↔ Matches atn.maxTokenType tr x) (hf : ¬ Free tr)
    (hr : ∀ t f r p, tr ≠ .rule t f r p)
    (h : st' = { st with look := perform st.look c }) :
    ∃ adds, Grow atn eof Good st st' adds ∧ Followed atn eof k tr st' adds := by
  subst h
  refine ⟨[c], Grow.add st c (Or.inr ⟨s, state, tr, hst, htr, hshape⟩) fun x hx => ⟨(s, k), hg, state, hst, Or.inl ⟨hns, tr, htr, (hc x).mp hx⟩⟩,
    fun x hx => ⟨c, by simp, (hc x).mpr hx⟩, fun h => absurd h hf, fun _ t f r p he => absurd he (hr t f r p)⟩

theorem addOne_new (l : Int) : (IntervalSet.new.addOne l).intervals = [⟨l, l⟩] := by
  simp [IntervalSet.addOne, IntervalSet.addRange, addInterval_intervals, IntervalSet.new,
    IntervalSet.addS]

theorem addRange_new (a b : Int) :
    (IntervalSet.new.addRange a b).intervals = if b < a then [] else [⟨a, b⟩] := by
  rw [IntervalSet.addRange, addInterval_intervals]
  simp [IntervalSet.new, IntervalSet.addS]

theorem lookEdge_grow (wf : WFAtn atn) (hclosed : ∀ p q, Good p → Step atn p q → Good q)
    {s : Nat} {k : List Nat} {state : ATNState} {tr : Trans}
    {rec : Nat → Option PC → LookState → Option LookState} (hrec : RecOK atn eof Good rec)
    {st st' : LookState}
    (hst : atn.states[s]? = some state) (hns : state.stateType ≠ .ruleStop)
    (htr : tr ∈ state.transitions) (hg : Good (s, k)) (hk : ∀ f ∈ k, f < atn.states.length)
    (hi : NoLeftRecursion atn → CInv atn st.called (s, k))
    (h : lookEdge atn rec (toPC eof k) st tr = some st') :
    ∃ adds, Grow atn eof Good st st' adds ∧ Followed atn eof k tr st' adds := by
  have htl := wf.target s state tr hst htr
  obtain ⟨tst, htgt⟩ : ∃ tst, atn.states[tr.target]? = some tst := ⟨_, List.getElem?_eq_getElem htl⟩
  have hfree : Free tr → rec tr.target (toPC eof k) st = some st' →
      (∀ x, ¬ Matches atn.maxTokenType tr x) → (∀ t f r p, tr ≠ .rule t f r p) →
      ∃ adds, Grow atn eof Good st st' adds ∧ Followed atn eof k tr st' adds := by
    intro hf h hm hr
    have hstep : ∀ k, Step atn (s, k) (tr.target, k) := fun k => .free hst hns htr hf
    obtain ⟨adds, h1, h2⟩ := hrec tr.target k st st' htl hk (hclosed _ _ hg (hstep k))
      (fun hl => (hi hl).free hstep) h
    exact ⟨adds, h1, fun x hx => absurd hx (hm x), fun _ => h2,
      fun _ t f r p he => absurd he (hr t f r p)⟩
  simp only [lookEdge, htgt, Option.bind_some] at h
  cases tr with
  | epsilon t p => exact hfree trivial (by simpa [Trans.isEpsilon] using h) (fun _ h => h) (by simp)
  | predicate t a b c =>
    exact hfree trivial (by simpa [Trans.isEpsilon] using h) (fun _ h => h) (by simp)
  | action t a b c d =>
    exact hfree trivial (by simpa [Trans.isEpsilon] using h) (fun _ h => h) (by simp)
  | precedence t a => exact hfree trivial (by simpa [Trans.isEpsilon] using h) (fun _ h => h) (by simp)
  | range t a b =>
    refine edge_adds hst hns htr hg (.set (if b < a then [] else [⟨a, b⟩])) rfl ?_ (fun h => h) (by simp) ?_
    · intro x
      simp only [AddCall.Asks, Matches]
      split
      · simp [Mem]; omega
      · simp [Mem, InIv]
    · simp [Trans.isEpsilon, Trans.label] at h
      rw [← h]
      simp [perform, IntervalSet.addSet, addRange_new]
  | atom t l =>
    refine edge_adds hst hns htr hg (.set [⟨l, l⟩]) rfl ?_ (fun h => h) (by simp) ?_
    · intro x
      simp only [AddCall.Asks, Matches]
      simp [Mem, InIv]; omega
    · simp [Trans.isEpsilon, Trans.label] at h
      rw [← h]
      simp [perform, IntervalSet.addSet, addOne_new]
  | set t l =>
    refine edge_adds hst hns htr hg (.set l.intervals) rfl (fun x => Iff.rfl) (fun h => h) (by simp) ?_
    simp [Trans.isEpsilon, Trans.label] at h
    rw [← h]
    simp [perform, IntervalSet.addSet]
  | notSet t l =>
    refine edge_adds hst hns htr hg (.set (l.complement 1 atn.maxTokenType).intervals) rfl ?_ (fun h => h) (by simp) ?_
    · intro x
      have hs := wf.sorted s state t l hst htr
      have := C04_complement l hs 1 atn.maxTokenType x
      rw [IntervalSet.contains_iff _ (C04_complement_canonical l hs _ _).sortedDisjoint,
        IntervalSet.contains_iff _ hs] at this
      exact this
    · simp [Trans.isEpsilon] at h
      rw [← h]
      simp [perform, IntervalSet.addSet, TOKEN_MIN_USER]
  | wildcard t =>
    refine edge_adds hst hns htr hg (.range 1 atn.maxTokenType) rfl (fun x => Iff.rfl) (fun h => h) (by simp) ?_
    simp at h
    rw [← h]
    simp [perform, TOKEN_MIN_USER]
  | rule t f r p =>
    simp only [Trans.target] at htl htgt h
    have hfl := wf.follow s state t f r p hst htr
    split at h
    · rename_i hc
      cases h
      refine ⟨[], Grow.refl _, fun x hx => hx.elim, fun h => h.elim, fun hl t' f' r' p' he => ?_⟩
      exfalso
      obtain ⟨e, est, k1, h1, h2, h3, h4, h5⟩ := hi hl _ hc
      exact hl ⟨e, est, s, state, k1, t, f, r, p, _, h1, h2, h5, hst, hns, htr, htgt, h3.symm⟩
    · rename_i hc
      have hstep : ∀ k, Step atn (s, k) (t, f :: k) := fun k => .call hst hns htr
      obtain ⟨st1, h1, h2⟩ := Option.map_eq_some_iff.mp h
      obtain ⟨adds, g1, g2⟩ := hrec t (f :: k) _ st1 htl (by simpa using ⟨hfl, hk⟩)
        (hclosed _ _ hg (hstep k))
        (fun hl => (hi hl).call hstep ⟨s, state, f, r, p, hst, htr⟩ htgt) h1
      subst h2
      refine ⟨adds, ⟨g1.sub, ?_, g1.look, g1.shape, g1.sound, g1.new⟩, fun x hx => hx.elim, fun h => h.elim,
        fun hl t' f' r' p' he => ?_⟩
      · funext r'
        simp only [g1.called]
        by_cases hr' : r' = tst.ruleIndex
        · simp only [hr', if_true]
          simpa using hc
        · simp [hr']
      · cases he; exact g2

theorem edges_grow (wf : WFAtn atn) (hclosed : ∀ p q, Good p → Step atn p q → Good q)
    {s : Nat} {k : List Nat} {state : ATNState}
    {rec : Nat → Option PC → LookState → Option LookState} (hrec : RecOK atn eof Good rec)
    (hst : atn.states[s]? = some state) (hns : state.stateType ≠ .ruleStop)
    (hg : Good (s, k)) (hk : ∀ f ∈ k, f < atn.states.length) :
    ∀ (trs : List Trans) (st st' : LookState), (∀ tr ∈ trs, tr ∈ state.transitions) →
    (NoLeftRecursion atn → CInv atn st.called (s, k)) →
    trs.foldlM (lookEdge atn rec (toPC eof k)) st = some st' →
    ∃ adds, Grow atn eof Good st st' adds ∧ ∀ tr ∈ trs, Followed atn eof k tr st' adds
  | [], st, st', _, _, h => by
    cases h; exact ⟨[], Grow.refl _, by simp⟩
  | tr :: trs, st, st', hsub, hi, h => by
    obtain ⟨st1, h1, h2⟩ := Option.bind_eq_some_iff.mp h
    obtain ⟨a1, g1, f1⟩ := lookEdge_grow wf hclosed hrec hst hns (hsub tr (by simp)) hg hk hi h1
    obtain ⟨a2, g2, f2⟩ := edges_grow wf hclosed hrec hst hns hg hk trs st1 st'
      (fun t ht => hsub t (by simp [ht])) (by rw [g1.called]; exact hi) h2
    refine ⟨a1 ++ a2, g1.trans g2, fun t ht => ?_⟩
    rcases List.mem_cons.mp ht with rfl | ht
    · simpa using f1.mono (x' := []) (y := a2) g2.sub
    · simpa using (f2 t ht).mono (x' := a1) (y := []) (fun n h => h)

theorem lookWork_grow (wf : WFAtn atn) (hclosed : ∀ p q, Good p → Step atn p q → Good q) :
    ∀ fuel, RecOK atn eof Good (lookWork atn fuel)
  | 0 => fun s k st st' _ _ _ _ h => by simp [lookWork] at h
  | fuel + 1 => fun s k st st' hs hk hg hi h => by
    have ih := lookWork_grow wf hclosed fuel
    obtain ⟨state, hst⟩ : ∃ state, atn.states[s]? = some state := ⟨_, List.getElem?_eq_getElem hs⟩
    simp only [lookWork, lookBody] at h
    split at h
    · rename_i hb
      cases h; exact ⟨[], Grow.refl _, hb⟩
    rename_i hb
    simp only [hst, Option.bind_some] at h
    -- inserting the position itself, given what the rest did
    have close : ∀ (adds : List AddCall),
        Grow atn eof Good { st with busy := (s, toPC eof k) :: st.busy } st' adds →
        (∀ x, Emits atn eof (s, k) x → ∃ c ∈ adds, c.Asks x) →
        (NoLeftRecursion atn → ∀ q, Step atn (s, k) q → key eof q ∈ st'.busy) →
        ∃ adds, Grow atn eof Good st st' adds ∧ key eof (s, k) ∈ st'.busy := by
      intro adds g he hq
      refine ⟨adds, ⟨fun n hn => g.sub n (by simp [hn]), g.called, g.look, g.shape, g.sound, ?_⟩,
        g.sub _ (by simp [key])⟩
      intro n hn hn'
      by_cases hne : n = (s, toPC eof k)
      · exact ⟨(s, k), hne, hg, he, hq⟩
      · exact g.new n hn (by simp [hne, hn'])
    split at h
    · rename_i hstop
      cases k with
      | nil =>
        have hend : st' = { st with
              busy := (s, toPC eof []) :: st.busy
              look := perform st.look (.one (endTok eof)) } := by
          cases eof <;> simp [toPC, PC.isEmpty, PC.EMPTY] at h <;> rw [← h] <;> rfl
        have hcl := close [.one (endTok eof)] ?_ ?_ ?_
        · exact hcl
        · rw [hend]
          refine Grow.add { st with busy := (s, toPC eof []) :: st.busy } _ (Or.inl rfl) fun x hx => ?_
          exact ⟨(s, []), hg, _, hst, Or.inr ⟨hstop, rfl, hx⟩⟩
        · rintro x ⟨st0, h0, h1 | ⟨_, _, h1⟩⟩
          · rw [hst] at h0; cases h0; exact absurd hstop h1.1
          · exact ⟨.one (endTok eof), by simp, h1⟩
        · intro hl q hq
          cases hq with
          | free h0 h1 => rw [hst] at h0; cases h0; exact absurd hstop h1
          | call h0 h1 => rw [hst] at h0; cases h0; exact absurd hstop h1
      | cons f k =>
        have hfl := hk f (by simp)
        have hne : ¬ ((f : Int) = PC.EMPTY_RS) := by have := wf.small; omega
        have hne2 : ¬ (PC.single (toPC eof k) f = PC.EMPTY) := by simp [PC.EMPTY, hne]
        simp only [toPC, PC.isEmpty, beq_iff_eq, hne, hne2, Bool.and_eq_true, false_and, if_false, PC.entries,
          List.foldlM_cons, List.foldlM_nil] at h
        obtain ⟨st1, h1, h2⟩ := Option.map_eq_some_iff.mp h
        simp only [Int.natCast_nonneg, if_true, Int.toNat_natCast, bind_pure] at h1
        obtain ⟨adds, g1, g2⟩ := ih f k _ st1 hfl (fun g hg => hk g (by simp [hg]))
          (hclosed _ _ hg (.ret hst hstop)) (fun hl => (hi hl).ret wf hst hstop) h1
        have hbusy : st'.busy = st1.busy := by rw [← h2]; split <;> rfl
        have hlook : st'.look = st1.look := by rw [← h2]; split <;> rfl
        refine close adds ⟨?_, ?_, ?_, g1.shape, g1.sound, ?_⟩ ?_ ?_
        · intro n hn; rw [hbusy]; exact g1.sub n hn
        · funext r
          rw [← h2]
          by_cases hr : r = state.ruleIndex
          · subst hr
            split
            · rename_i hc; simp [hc]
            · rename_i hc; simp [g1.called]; simpa using hc
          · split <;> simp [g1.called, hr]
        · rw [hlook]; exact g1.look
        · rw [hbusy]; exact g1.new
        · rintro x ⟨st0, h0, h1 | ⟨_, h1, _⟩⟩
          · rw [hst] at h0; cases h0; exact absurd hstop h1.1
          · simp at h1
        · intro hl q hq
          cases hq with
          | free h0 h1 => rw [hst] at h0; cases h0; exact absurd hstop h1
          | call h0 h1 => rw [hst] at h0; cases h0; exact absurd hstop h1
          | ret _ _ => rw [hbusy]; exact g2
    · rename_i hns
      obtain ⟨adds, g1, f1⟩ := edges_grow wf hclosed ih hst hns hg hk _
        { st with busy := (s, toPC eof k) :: st.busy } st' (fun _ h => h) (fun hl => hi hl) h
      refine close adds g1 ?_ ?_
      · rintro x ⟨st0, h0, ⟨_, tr, h1, h2⟩ | ⟨h1, _⟩⟩
        · rw [hst] at h0; cases h0; exact (f1 tr h1).1 x h2
        · rw [hst] at h0; cases h0; exact absurd h1 hns
      · intro hl q hq
        cases hq with
        | free h0 h1 h2 h3 => rw [hst] at h0; cases h0; exact (f1 _ h2).2.1 h3
        | call h0 h1 h2 => rw [hst] at h0; cases h0; exact (f1 _ h2).2.2 hl _ _ _ _ rfl
        | ret h0 h1 => rw [hst] at h0; cases h0; exact absurd h1 hns

end Antlr.LL1Lemmas
