import Verif.Prediction.SemSpec
import Verif.Prediction.TotalFull

/-!
# Helper lemmas: the steps of `closure`, with predicates
-/

namespace Antlr.Prediction.Sem
open Antlr StackSpec ConfigSet PC PredictionSpec LL1Spec

variable {I : Type}

theorem lt' {atn : ATN} (ha : Tame atn) {f : Nat} (h : f < atn.states.length) : (f : Int) < EMPTY_RS := by
  have := ha.small; omega

theorem usize' {atn : ATN} (ha : Tame atn) {f : Nat} (h : f < atn.states.length) :
    asUsize (f : Int) = f := asUsize_nat (by have := lt' ha h; simp only [EMPTY_RS] at this; omega)

theorem nats_ints' {atn : ATN} (ha : Tame atn) (k : List Nat) (h : ∀ f ∈ k, f < atn.states.length) :
    nats (ints k) = k := by
  induction k with
  | nil => rfl
  | cons f k ih =>
    have h1 := usize' ha (h f (by simp))
    have h2 := ih fun x hx => h x (by simp [hx])
    simp only [nats, ints, List.map_cons] at h2 ⊢
    rw [h1, h2]

theorem matches_iff' {atn : ATN} (ha : Tame atn) {s : Nat} {st : ATNState} (hs : atn.states[s]? = some st)
    {tr : Trans} (h : tr ∈ st.transitions) {t lo hi : Int} (hlo : lo = 0 ∧ hi = atn.maxTokenType ∨ lo = 0 ∧ (∃ a l, tr = .atom a l) ∨
      lo = 0 ∧ (∃ a l, tr = .set a l) ∨ lo = 0 ∧ (∃ a l u, tr = .range a l u)) {b : Bool} (hm : tr.matches t lo hi = some b) :
    b = true → Takes atn.maxTokenType tr t := by
  have h1 := ha.sets s st hs tr h
  intro hb
  subst hb
  cases tr with
  | set n x =>
    simp only [Trans.matches, Option.some.injEq] at hm
    exact (IntervalSet.contains_iff x h1 t).1 hm
  | notSet n x =>
    have := IntervalSet.contains_iff x h1 t
    simp only [reduceCtorEq, exists_false, and_false, or_false] at hlo
    obtain ⟨rfl, rfl⟩ := hlo
    simp only [Trans.matches, Option.some.injEq] at hm
    rw [Bool.and_eq_true, Bool.and_eq_true, Bool.not_eq_true'] at hm
    rw [Takes, ← this]
    simpa [and_assoc] using hm
  | rule => simp [Trans.matches] at hm
  | wildcard n =>
    simp only [reduceCtorEq, exists_false, and_false, or_false] at hlo
    obtain ⟨rfl, rfl⟩ := hlo
    simp only [Trans.matches, Option.some.injEq] at hm
    rw [Takes]; simp at hm; omega
  | atom n l => simp [Trans.matches] at hm; simp [Takes, hm]
  | range n l u => simp [Trans.matches] at hm; simp [Takes, hm]
  | _ => simp [Trans.matches] at hm

/-- A step of `closure` along an edge: a step without reading, a call, or reading EOF.  A predicate may be
noted. -/
def Move (atn : ATN) (eof : Bool) (c : Config) (tr : Trans) (c' : Config) : Prop :=
  (∃ s, Free tr ∧ c' = { c with state := tr.target, sem := s }) ∨
  (∃ t f r p, tr = .rule t f r p ∧ c' = { c with state := t, ctx := .single (some c.ctx) f }) ∨
  (eof = true ∧ tr.isEpsilon = false ∧ Takes atn.maxTokenType tr TOKEN_EOF ∧ c' = { c with state := tr.target })

theorem Move.same {atn : ATN} {eof : Bool} {c c' : Config} {tr : Trans} (h : Move atn eof c tr c') :
    c'.alt = c.alt ∧ c'.reaches = c.reaches ∧ c'.kind = c.kind ∧ c'.suppressed = c.suppressed := by
  rcases h with ⟨s, -, rfl⟩ | ⟨t, f, r, p, -, rfl⟩ | ⟨-, -, -, rfl⟩ <;> exact ⟨rfl, rfl, rfl, rfl⟩

/-- The stream can be read at the start of the decision and left as it was. -/
def Back [TokStream I] (start : Int) (Z : I → Prop) : Prop :=
  ∀ i, Z i → ∃ i1, TokStream.seek i start = some i1 ∧ ∃ i2, TokStream.seek i1 (TokStream.index i) = some i2 ∧ Z i2

/-- The predicates noted so far stay among those in `S`. -/
def Stays (atn : ATN) (ord : List SC → List SC) (S : List SC) : Prop :=
  ∀ s ∈ S, ∀ p, IsPred atn p → SC.mkAnd ord (some s) (some p) ∈ S

theorem epsilonTarget_sem [TokStream I] {L : Local I} (ha : Tame L.atn) {full eof : Bool} {c : Config} {st : ATNState}
    (hst : L.atn.states[c.state]? = some st) {tr : Trans} (htr : tr ∈ st.transitions) (cc ic : Bool)
    {Z : I → Prop} (hZ : full = true → cc = true → Back L.startIndex Z) {inp : I} (hz : Z inp) :
    ∃ o inp', epsilonTarget L full eof c tr cc ic inp = some (o, inp') ∧ Z inp' ∧ ∀ c', o = some c' →
      Move L.atn eof c tr c' ∧ (full = false → ∀ S, c.sem ∈ S → (cc = true → Stays L.atn L.ord S) → c'.sem ∈ S) := by
  have ht := ha.targets _ _ hst _ htr
  have cl : ∀ c : Config, cloned L.atn c tr.target = some { c with state := tr.target } := by
    intro c; simp [cloned, List.getElem?_eq_getElem ht]
  have pred : ∀ (p : SC) (test : Bool), tr.getPredicate = some p → (test = true → cc = true) → Free tr →
      ∃ o inp', predTransition L full c tr.target p test inp = some (o, inp') ∧ Z inp' ∧ ∀ c', o = some c' →
      Move L.atn eof c tr c' ∧ (full = false → ∀ S, c.sem ∈ S → (cc = true → Stays L.atn L.ord S) → c'.sem ∈ S) := by
    intro p test hp htest hfree
    simp only [predTransition, cl, Option.bind_some]
    cases test with
    | false =>
      refine ⟨_, _, rfl, hz, ?_⟩
      rintro c' h
      simp only [Option.some.injEq] at h
      subst h
      exact ⟨.inl ⟨c.sem, hfree, rfl⟩, fun _ S h _ => h⟩
    | true =>
      cases full with
      | true =>
        obtain ⟨i1, h1, i2, h2, h3⟩ := hZ rfl (htest rfl) inp hz
        simp only [if_true, h1, Option.bind_some, h2, Option.map_some]
        refine ⟨_, _, rfl, h3, ?_⟩
        rintro c' h
        split at h
        · simp only [Option.some.injEq] at h
          subst h
          exact ⟨.inl ⟨c.sem, hfree, rfl⟩, fun _ S h _ => h⟩
        · simp at h
      | false =>
        simp only [Bool.false_eq_true, if_false, if_true]
        refine ⟨_, _, rfl, hz, ?_⟩
        rintro c' h
        simp only [Option.some.injEq] at h
        subst h
        exact ⟨.inl ⟨_, hfree, rfl⟩, fun _ S h h' => h' (htest rfl) _ h _ ⟨_, _, _, hst, htr, hp⟩⟩
  have read : tr.isEpsilon = false → (∃ a l, tr = .atom a l) ∨ (∃ a l, tr = .set a l) ∨ (∃ a l u, tr = .range a l u) →
      ∃ o inp', (if eof then (tr.matches TOKEN_EOF 0 1).bind fun m =>
        if m then (cloned L.atn c tr.target).map fun c' => (some c', inp) else some (none, inp)
        else some (none, inp)) = some (o, inp') ∧ Z inp' ∧ ∀ c', o = some c' →
      Move L.atn eof c tr c' ∧ (full = false → ∀ S, c.sem ∈ S → (cc = true → Stays L.atn L.ord S) → c'.sem ∈ S) := by
    intro hne hk
    cases eof with
    | false => exact ⟨none, inp, rfl, hz, by simp⟩
    | true =>
      obtain ⟨b, hb⟩ : ∃ b, tr.matches TOKEN_EOF 0 1 = some b := by
        rcases hk with ⟨a, l, rfl⟩ | ⟨a, l, rfl⟩ | ⟨a, l, u, rfl⟩ <;> exact ⟨_, rfl⟩
      simp only [if_true, hb, Option.bind_some, cl, Option.map_some]
      cases b with
      | false => exact ⟨none, inp, rfl, hz, by simp⟩
      | true =>
        refine ⟨_, _, rfl, hz, ?_⟩
        rintro c' h
        simp only [Option.some.injEq] at h
        subst h
        refine ⟨.inr (.inr ⟨rfl, hne, matches_iff' ha hst htr (.inr ?_) hb rfl, rfl⟩), fun _ S h _ => h⟩
        rcases hk with hk | hk | hk
        · exact .inl ⟨rfl, hk⟩
        · exact .inr (.inl ⟨rfl, hk⟩)
        · exact .inr (.inr ⟨rfl, hk⟩)
  have free : Free tr → ∃ o inp', ((cloned L.atn c tr.target).map fun c' => (some c', inp)) = some (o, inp') ∧ Z inp' ∧
      ∀ c', o = some c' →
      Move L.atn eof c tr c' ∧ (full = false → ∀ S, c.sem ∈ S → (cc = true → Stays L.atn L.ord S) → c'.sem ∈ S) := by
    intro hf
    rw [cl]
    refine ⟨_, _, rfl, hz, ?_⟩
    rintro c' h
    simp only [Option.some.injEq] at h
    subst h
    exact ⟨.inl ⟨c.sem, hf, rfl⟩, fun _ S h _ => h⟩
  cases tr with
  | epsilon t x => exact free trivial
  | action t a b x y => exact free trivial
  | predicate t d r p =>
    simp only [epsilonTarget]
    exact pred (.predicate r p d) _ rfl (by simp only [Bool.and_eq_true]; exact fun h => h.1) trivial
  | precedence t p =>
    simp only [epsilonTarget]
    exact pred (.precedence p) _ rfl (by simp only [Bool.and_eq_true]; exact fun h => h.1) trivial
  | rule t f r p =>
    simp only [epsilonTarget]
    rw [show t = (Trans.rule t f r p).target from rfl, cl]
    refine ⟨_, _, rfl, hz, ?_⟩
    rintro c' h
    simp only [Option.some.injEq] at h
    subst h
    exact ⟨.inr (.inl ⟨_, _, _, _, rfl, rfl⟩), fun _ S h _ => h⟩
  | notSet => exact ⟨none, inp, rfl, hz, by simp⟩
  | wildcard => exact ⟨none, inp, rfl, hz, by simp⟩
  | atom t l => exact read rfl (.inl ⟨_, _, rfl⟩)
  | set t l => exact read rfl (.inr (.inl ⟨_, _, rfl⟩))
  | range t l u => exact read rfl (.inr (.inr ⟨_, _, _, rfl⟩))

/-! ### The edge into the loop of a left-recursive rule -/

/-- The return state exists. -/
def RetOk (atn : ATN) (r : Int) : Prop := 0 ≤ r ∧ r.toNat < atn.states.length

theorem stateAt_of {atn : ATN} {r : Int} (h : RetOk atn r) :
    ∃ st, atn.stateAt r = some st ∧ atn.states[r.toNat]? = some st := by
  unfold ATN.stateAt
  rw [if_pos h.1]
  exact ⟨_, List.getElem?_eq_getElem h.2, List.getElem?_eq_getElem h.2⟩

theorem sameRuleLoop_total {atn : ATN} (rule : Nat) (rs : List Int) (h : ∀ r ∈ rs, RetOk atn r) :
    ∃ b, sameRuleLoop atn rule rs = some b := by
  induction rs with
  | nil => exact ⟨_, rfl⟩
  | cons r rs ih =>
    obtain ⟨st, h1, -⟩ := stateAt_of (h r (by simp))
    rw [sameRuleLoop, h1, Option.bind_some]
    split
    · exact ih fun x hx => h x (by simp [hx])
    · exact ⟨_, rfl⟩

theorem canDropReturn_total {atn : ATN} (ha : Tame atn) (s e : Nat) {r : Int} (h : RetOk atn r) :
    ∃ b, canDropReturn atn s e r = some b := by
  obtain ⟨st, h1, hst⟩ := stateAt_of h
  rw [canDropReturn, h1, Option.bind_some]
  split
  · rename_i tr htr
    split
    · have ht := ha.targets _ _ hst tr (by rw [htr]; simp)
      rw [List.getElem?_eq_getElem ht, Option.map_some]
      exact ⟨_, rfl⟩
    · exact ⟨_, rfl⟩
  · exact ⟨_, rfl⟩

theorem canDropLoop_total {atn : ATN} (ha : Tame atn) (s e : Nat) (rs : List Int)
    (h : ∀ r ∈ rs, RetOk atn r) : ∃ b, canDropLoop atn s e rs = some b := by
  induction rs with
  | nil => exact ⟨_, rfl⟩
  | cons r rs ih =>
    obtain ⟨b, h1⟩ := canDropReturn_total ha s e (h r (by simp))
    rw [canDropLoop, h1, Option.bind_some]
    split
    · exact ih fun x hx => h x (by simp [hx])
    · exact ⟨_, rfl⟩

theorem canDrop_total {atn : ATN} (ha : Tame atn) {c : Config} {st : ATNState} (hst : atn.states[c.state]? = some st)
    (hw : WF c.ctx) (hin : ∀ s, HasStack c.ctx s → ∀ r ∈ s, RetOk atn r) : ∃ b, canDrop atn c = some b := by
  unfold canDrop
  rw [hst, Option.bind_some]
  split
  · rename_i n g l p hp
    split
    · exact ⟨_, rfl⟩
    · rename_i hno
      simp only [Bool.or_eq_true, Bool.not_eq_true', not_or, Bool.not_eq_false] at hno
      obtain ⟨⟨rfl, h2⟩, h3⟩ := hno
      rw [Bool.not_eq_true] at h2 h3
      have hrs : ∀ r ∈ c.ctx.entries.map (·.2), RetOk atn r := by
        intro r hr
        obtain ⟨⟨o, r'⟩, he, rfl⟩ := List.mem_map.1 hr
        cases o with
        | none =>
          exfalso
          have : HasStack c.ctx [] := by
            rw [hasStack_iff]; exact ⟨_, he, (wf_entries hw).2 _ he, .inr rfl⟩
          rw [← (StackProps.C29_has_empty_path c.ctx hw).1, h3] at this
          simp at this
        | some p =>
          obtain ⟨s, hs⟩ := wf_nonempty_stack ((wf_entries hw).2 _ he).2
          exact hin (r' :: s) (den_pop (d := false) he hs) _ (by simp)
      obtain ⟨b, hb⟩ := sameRuleLoop_total st.ruleIndex _ hrs
      rw [hb, Option.bind_some]
      split
      · exact ⟨_, rfl⟩
      · obtain ⟨tr, block, h4, h5, n', g', e, k, h6⟩ := ha.loops _ _ hst _ _ _ hp
        rw [h4, Option.bind_some, h5, Option.bind_some, h6]
        exact canDropLoop_total ha _ _ _ hrs
  · exact ⟨_, rfl⟩

end Antlr.Prediction.Sem
