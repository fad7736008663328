import Verif.LL1.Termination
import Verif.PredictionContext.Props

/-!
# Next-token and expected-token sets: properties C42, C43
-/

namespace Antlr.LL1Props
open Antlr IntervalSpec LL1Spec LL1Lemmas IntervalProps

/-! ## Helpers -/

theorem reach_trans {atn : ATN} {p q r : Pos} (h1 : Reach atn p q) (h2 : Reach atn q r) :
    Reach atn p r := by
  induction h2 with
  | refl => exact h1
  | tail _ hs ih => exact ih.tail hs

theorem step_lift {atn : ATN} {s t : Nat} {a b : List Nat} (k : List Nat)
    (h : Step atn (s, a) (t, b)) : Step atn (s, a ++ k) (t, b ++ k) := by
  cases h with
  | free h1 h2 h3 h4 => exact .free h1 h2 h3 h4
  | call h1 h2 h3 => exact .call h1 h2 h3
  | ret h1 h2 => exact .ret h1 h2

theorem reach_lift {atn : ATN} {p q : Pos} (k : List Nat) (h : Reach atn p q) :
    Reach atn (p.1, p.2 ++ k) (q.1, q.2 ++ k) := by
  induction h with
  | refl => exact .refl
  | tail _ hs ih => exact ih.tail (step_lift k hs)

/-- A path above a stack either stays above it or first ends the rule it started in. -/
theorem reach_split {atn : ATN} {s : Nat} {k : List Nat} {p : Pos} (h : Reach atn (s, k) p) :
    (∃ b, p.2 = b ++ k ∧ Reach atn (s, []) (p.1, b)) ∨
    (∃ f k2, k = f :: k2 ∧ CanEnd atn (s, []) ∧ Reach atn (f, k2) p) := by
  induction h with
  | refl => exact Or.inl ⟨[], rfl, .refl⟩
  | tail _ hs ih =>
    rcases ih with ⟨b, hb, hr⟩ | ⟨f, k2, h1, h2, h3⟩
    · cases hs with
      | free h1 h2 h3 h4 => exact Or.inl ⟨b, hb, hr.tail (.free h1 h2 h3 h4)⟩
      | @call s' k' st t f r p h1 h2 h3 =>
        exact Or.inl ⟨f :: b, by simpa using hb, hr.tail (.call h1 h2 h3)⟩
      | @ret s' f k' st h1 h2 =>
        cases b with
        | nil =>
          refine Or.inr ⟨f, k', by simpa using hb.symm, ⟨s', st, hr, h1, h2⟩, .refl⟩
        | cons g b =>
          simp only [List.cons_append, List.cons.injEq] at hb
          obtain ⟨rfl, hb⟩ := hb
          exact Or.inl ⟨b, hb, hr.tail (.ret h1 h2)⟩
    · exact Or.inr ⟨f, k2, h1, h2, h3.tail hs⟩

theorem canEnd_return {atn : ATN} {s f : Nat} {k : List Nat} (h : CanEnd atn (s, [])) :
    Reach atn (s, f :: k) (f, k) := by
  obtain ⟨s', st, hr, h1, h2⟩ := h
  exact (reach_lift (f :: k) hr).tail (.ret h1 h2)

theorem canMatch_cons {atn : ATN} {s f : Nat} {k : List Nat} {x : Int} :
    CanMatch atn (s, f :: k) x ↔
      CanMatch atn (s, []) x ∨ (CanEnd atn (s, []) ∧ CanMatch atn (f, k) x) := by
  constructor
  · rintro ⟨s', k', st, tr, hr, h1, h2, h3, h4⟩
    rcases reach_split hr with ⟨b, hb, hr'⟩ | ⟨f', k2, he, hc, hr'⟩
    · exact Or.inl ⟨s', b, st, tr, hr', h1, h2, h3, h4⟩
    · cases he
      exact Or.inr ⟨hc, s', k', st, tr, hr', h1, h2, h3, h4⟩
  · rintro (⟨s', k', st, tr, hr, h1, h2, h3, h4⟩ | ⟨hc, s', k', st, tr, hr, h1, h2, h3, h4⟩)
    · exact ⟨s', k' ++ f :: k, st, tr, reach_lift (f :: k) hr, h1, h2, h3, h4⟩
    · exact ⟨s', k', st, tr, reach_trans (canEnd_return hc) hr, h1, h2, h3, h4⟩

theorem canEnd_cons {atn : ATN} {s f : Nat} {k : List Nat} :
    CanEnd atn (s, f :: k) ↔ CanEnd atn (s, []) ∧ CanEnd atn (f, k) := by
  constructor
  · rintro ⟨s', st, hr, h1, h2⟩
    rcases reach_split hr with ⟨b, hb, hr'⟩ | ⟨f', k2, he, hc, hr'⟩
    · simp at hb
    · cases he
      exact ⟨hc, s', st, hr', h1, h2⟩
  · rintro ⟨hc, s', st, hr, h1, h2⟩
    exact ⟨s', st, reach_trans (canEnd_return hc) hr, h1, h2⟩

/-- What is reachable is what the visited positions emit. -/
theorem emits_iff {atn : ATN} {eof : Bool} {p : Pos} {x : Int} :
    (∃ q, Reach atn p q ∧ Emits atn eof q x) ↔
      CanMatch atn p x ∨ (x = endTok eof ∧ CanEnd atn p) := by
  constructor
  · rintro ⟨⟨s, k⟩, hr, st, h0, ⟨h1, tr, h2, h3⟩ | ⟨h1, h2, h3⟩⟩
    · exact Or.inl ⟨s, k, st, tr, hr, h0, h1, h2, h3⟩
    · simp only at h2; subst h2
      exact Or.inr ⟨h3, s, st, hr, h0, h1⟩
  · rintro (⟨s, k, st, tr, hr, h0, h1, h2, h3⟩ | ⟨h3, s, st, hr, h0, h1⟩)
    · exact ⟨(s, k), hr, st, h0, Or.inl ⟨h1, tr, h2, h3⟩⟩
    · exact ⟨(s, []), hr, st, h0, Or.inr ⟨h1, rfl, h3⟩⟩

theorem look_adds {atn : ATN} (wf : WFAtn atn) {eof : Bool} {fuel s : Nat} {k : List Nat} {st' : LookState}
    (hs : s < atn.states.length) (hk : ∀ f ∈ k, f < atn.states.length)
    (h : lookWork atn fuel s (toPC eof k) {} = some st') :
    ∃ adds : List AddCall, st'.look = run adds ∧ (∀ c ∈ adds, Shape atn eof c) ∧
      (∀ c ∈ adds, ∀ x, c.Asks x → CanMatch atn (s, k) x ∨ (x = endTok eof ∧ CanEnd atn (s, k))) ∧
      (NoLeftRecursion atn → ∀ x, CanMatch atn (s, k) x ∨ (x = endTok eof ∧ CanEnd atn (s, k)) →
        ∃ c ∈ adds, c.Asks x) := by
  obtain ⟨adds, g, hin⟩ := lookWork_grow (Good := Reach atn (s, k)) wf (fun p q hp hs => hp.tail hs) fuel
    s k {} st' hs hk .refl (fun _ r hr => by simp at hr) h
  refine ⟨adds, g.look, g.shape, fun c hc x hx => emits_iff.mp (g.sound c hc x hx), fun hl x hx => ?_⟩
  obtain ⟨q, hr, he⟩ := emits_iff.mpr hx
  have hq : key eof q ∈ st'.busy := by
    clear he
    induction hr with
    | refl => exact hin
    | tail _ hstep ih =>
      obtain ⟨p, hp, _, _, hs⟩ := g.new _ ih (by simp)
      cases key_inj hp
      exact hs hl _ hstep
  obtain ⟨p, hp, _, he', _⟩ := g.new _ hq (by simp)
  cases key_inj hp
  exact he' x he

theorem look_exists {atn : ATN} (wf : WFAtn atn) (eof : Bool) {s : Nat} {k : List Nat}
    (hs : s < atn.states.length) (hk : ∀ f ∈ k, f < atn.states.length) :
    ∃ F st', ∀ fuel, F ≤ fuel → lookWork atn fuel s (toPC eof k) {} = some st' := by
  let d := k.length + idle atn fun _ => false
  obtain ⟨st', h, _⟩ := lookWork_total (eof := eof) wf d (left atn eof d [] + 1) s k {} hs hk
    (Nat.le_refl _) (Nat.lt_succ_self _)
  exact ⟨_, st', fun fuel hf => lookWork_mono atn hf _ _ _ _ h⟩

theorem nextTokens_eq {atn : ATN} {fuel s : Nat} {set : IntervalSet}
    (h : nextTokens atn fuel s = some set) :
    ∃ st', lookWork atn fuel s (toPC false []) {} = some st' ∧
      set = { st'.look with readOnly := true } := by
  simp only [nextTokens, nextTokensInCtx, Option.map_map, Option.map_eq_some_iff] at h
  obtain ⟨st', h1, h2⟩ := h
  exact ⟨st', h1, h2.symm⟩

theorem contains_readOnly (s : IntervalSet) (b : Bool) (x : Int) :
    ({ s with readOnly := b } : IntervalSet).contains x = s.contains x := rfl

/-! ## C42 next-token sets -/

/-- **C42 (termination).**  In every well-formed ATN, recursive or not, the computation of the next
tokens of a state ends without panicking, with one definite result. -/
theorem C42_terminates (atn : ATN) (wf : WFAtn atn) (s : Nat) (hs : s < atn.states.length) :
    ∃ F set, ∀ fuel, F ≤ fuel → nextTokens atn fuel s = some set := by
  obtain ⟨F, st', h⟩ := look_exists wf false hs (k := []) (by simp)
  refine ⟨F, { st'.look with readOnly := true }, fun fuel hf => ?_⟩
  simp only [nextTokens, nextTokensInCtx]
  rw [show (none : Option PC) = toPC false [] from rfl, h fuel hf]
  rfl

/-- **C42 (soundness, every well-formed ATN).**  A token in the set can be matched next without
leaving the rule; `EPSILON` is in it only if the end of the rule can be reached without consuming. -/
theorem C42_only_reachable (atn : ATN) (wf : WFAtn atn) (fuel s : Nat) (hs : s < atn.states.length)
    (set : IntervalSet) (h : nextTokens atn fuel s = some set) (x : Int) (hx : set.contains x = true) :
    CanMatch atn (s, []) x ∨ (x = TOKEN_EPSILON ∧ CanEnd atn (s, [])) := by
  obtain ⟨st', h1, rfl⟩ := nextTokens_eq h
  obtain ⟨adds, h2, _, h3, _⟩ := look_adds wf hs (by simp) h1
  rw [contains_readOnly, h2] at hx
  obtain ⟨c, hc, hx⟩ := C01_contains_only_added adds x hx
  exact h3 c hc x hx

/-- **C42 (the requests).**  Without left recursion the set is built by asking for exactly the tokens
that can be matched next, and `EPSILON` exactly if the rule end can be reached. -/
theorem C42_requests_exact (atn : ATN) (wf : WFAtn atn) (hl : NoLeftRecursion atn) (fuel s : Nat)
    (hs : s < atn.states.length) (set : IntervalSet) (h : nextTokens atn fuel s = some set) :
    ∃ adds : List AddCall, set.intervals = (run adds).intervals ∧
      ∀ x, (∃ c ∈ adds, c.Asks x) ↔
        CanMatch atn (s, []) x ∨ (x = TOKEN_EPSILON ∧ CanEnd atn (s, [])) := by
  obtain ⟨st', h1, rfl⟩ := nextTokens_eq h
  obtain ⟨adds, h2, _, h3, h4⟩ := look_adds wf hs (by simp) h1
  exact ⟨adds, by rw [h2], fun x => ⟨fun ⟨c, hc, hx⟩ => h3 c hc x hx, h4 hl x⟩⟩

/-- The set holds exactly the tokens that can be matched next, and `EPSILON` if the rule can end. -/
def Exact (atn : ATN) (fuel s : Nat) : Prop :=
  ∃ set, nextTokens atn fuel s = some set ∧ Canonical set.intervals ∧
    ∀ x, set.contains x = true ↔
      CanMatch atn (s, []) x ∨ (x = TOKEN_EPSILON ∧ CanEnd atn (s, []))

/-- Every label only has runs of at most two tokens, so that joining labels never bridges two gaps
at once. -/
def Narrow (atn : ATN) : Prop :=
  ∀ (s : Nat) (st : ATNState) (tr : Trans), atn.states[s]? = some st → tr ∈ st.transitions →
    match tr with
    | .range _ a b => b ≤ a + 1
    | .set _ l => ∀ r ∈ l.intervals, r.b ≤ r.a + 1
    | .notSet _ l => ∀ x, 1 ≤ x → x + 2 ≤ atn.maxTokenType →
        Mem l.intervals x ∨ Mem l.intervals (x + 1) ∨ Mem l.intervals (x + 2)
    | .wildcard _ => atn.maxTokenType ≤ 2
    | _ => True

theorem gentle_narrow (rs : List Interval) (h : ∀ r ∈ rs, r.b ≤ r.a + 1) :
    ∀ S, GentleFrom S rs := by
  induction rs with
  | nil => intro S; trivial
  | cons r rs ih =>
    intro S
    refine ⟨?_, ih (fun q hq => h q (by simp [hq])) _⟩
    intro p g q g' s _ _ _ _ _ h1 h2 h3 h4 h5 h6
    have := h r (by simp)
    omega

theorem narrow_ranges {atn : ATN} (wf : WFAtn atn) (hn : Narrow atn) {eof : Bool} {c : AddCall}
    (h : Shape atn eof c) : ∀ r ∈ c.ranges, r.b ≤ r.a + 1 := by
  rcases h with rfl | ⟨s, st, tr, h1, h2, rfl⟩
  · simp [AddCall.ranges]; omega
  · have hn := hn s st tr h1 h2
    cases tr with
    | atom t l => simp [edgeCall, AddCall.ranges]; omega
    | range t a b =>
      simp only [edgeCall, AddCall.ranges] at hn ⊢
      intro r hr
      split at hr
      · simp at hr
      · simp at hr; subst hr; exact hn
    | set t l => exact hn
    | notSet t l =>
      intro r hr
      simp only [edgeCall, AddCall.ranges] at hn hr
      have hs := wf.sorted s st t l h1 h2
      have hc := C04_complement_canonical l hs 1 atn.maxTokenType
      by_contra hlt
      have hin : ∀ y, r.a ≤ y → y ≤ r.b → 1 ≤ y ∧ y ≤ atn.maxTokenType ∧ ¬ Mem l.intervals y := by
        intro y h1 h2
        have := (C04_complement l hs 1 atn.maxTokenType y).mp
          ((IntervalSet.contains_iff _ hc.sortedDisjoint y).mpr ⟨r, hr, h1, h2⟩)
        rwa [IntervalSet.contains_iff _ hs] at this
      have i0 := hin r.a (by omega) (by omega)
      have i1 := hin (r.a + 1) (by omega) (by omega)
      have i2 := hin (r.a + 2) (by omega) (by omega)
      rcases hn r.a i0.1 i2.2.1 with h | h | h
      · exact i0.2.2 h
      · exact i1.2.2 h
      · exact i2.2.2 h
    | wildcard t =>
      simp only [edgeCall, AddCall.ranges, List.mem_singleton] at hn ⊢
      rintro r rfl
      simp only; omega
    | _ => simp [edgeCall, AddCall.ranges]

theorem run_exact (adds : List AddCall) (hg : GentleFrom (fun _ => False) (adds.flatMap AddCall.ranges)) :
    Canonical (run adds).intervals ∧ ∀ x, (run adds).contains x = true ↔ ∃ c ∈ adds, c.Asks x := by
  refine ⟨?_, C01_contains_iff_added_partial adds hg⟩
  rw [run, foldl_perform]
  refine (foldl_exact IntervalSet.new _ (by simp [IntervalSet.new, Canonical]) ?_).1
  have e : (fun _ => False) = Mem IntervalSet.new.intervals := by
    funext x; simp [IntervalSet.new]
  rwa [← e]

/-- **C42, partial.**  Without left recursion and with narrow labels the next-token set is exact.
Missing: wide labels lose tokens (`C42_false_wide`, inherited from C01) and left recursion hides
alternatives (`C42_false_left_recursion`). -/
theorem C42_exact_partial (atn : ATN) (wf : WFAtn atn) (hl : NoLeftRecursion atn) (hn : Narrow atn)
    (s : Nat) (hs : s < atn.states.length) : ∃ F, ∀ fuel, F ≤ fuel → Exact atn fuel s := by
  obtain ⟨F, set, h⟩ := C42_terminates atn wf s hs
  refine ⟨F, fun fuel hf => ⟨set, h fuel hf, ?_⟩⟩
  obtain ⟨st', h1, rfl⟩ := nextTokens_eq (h fuel hf)
  obtain ⟨adds, h2, h3, h4, h5⟩ := look_adds wf hs (by simp) h1
  have hg : GentleFrom (fun _ => False) (adds.flatMap AddCall.ranges) := by
    apply gentle_narrow
    intro r hr
    obtain ⟨c, hc, hr⟩ := List.mem_flatMap.mp hr
    exact narrow_ranges wf hn (h3 c hc) r hr
  obtain ⟨hc, hx⟩ := run_exact adds hg
  refine ⟨by rw [h2]; exact hc, fun x => ?_⟩
  rw [contains_readOnly, h2, hx]
  exact ⟨fun ⟨c, hc, hx⟩ => h4 c hc x hx, h5 hl x⟩

theorem calls_toPC {atn : ATN} (wf : WFAtn atn) {chain stack : List Int}
    (h : StackProps.Calls atn chain stack) :
    ∃ k : List Nat, stack = k.map Int.ofNat ∧ PC.fromRuleContext atn chain = toPC true k ∧
      ∀ f ∈ k, f < atn.states.length := by
  induction h with
  | root i => exact ⟨[], rfl, rfl, by simp⟩
  | nobody rest => exact ⟨[], rfl, by cases rest <;> simp [PC.fromRuleContext, toPC], by simp⟩
  | @call rest stack n st target follow rule prec ts hne hst htr _ ih =>
    obtain ⟨k, rfl, h2, h3⟩ := ih
    refine ⟨follow :: k, rfl, ?_, ?_⟩
    · match rest, hne with
      | j :: rest, _ =>
        rw [PC.fromRuleContext.eq_def]
        simp only [show ¬ ((n : Int) = -1) by omega, if_false, h2]
        cases hk : toPC true k with
        | none => cases k <;> simp [toPC] at hk
        | some c => simp [ATN.stateAt, hst, htr, toPC, hk]
    · have := wf.follow n st target follow rule prec hst (by simp [htr])
      simpa using ⟨this, h3⟩

theorem ofNat_inj : ∀ {a b : List Nat}, a.map Int.ofNat = b.map Int.ofNat → a = b
  | [], [], _ => rfl
  | [], _ :: _, h => by simp at h
  | _ :: _, [], h => by simp at h
  | x :: a, y :: b, h => by
    simp only [List.map_cons, List.cons.injEq] at h
    rw [ofNat_inj h.2, Int.ofNat.inj h.1]

/-- **C42 in a calling context.**  The next tokens in a full calling context (used to decide
whether a missing token can be conjured up) are sound for the whole stack of callers, and `EOF`
stands for the end of the outermost rule; they are complete under the conditions of
`C42_exact_partial`. -/
theorem C42_in_context (atn : ATN) (wf : WFAtn atn) (fuel s : Nat) (hs : s < atn.states.length)
    (chain : List Int) (k : List Nat) (hc : StackProps.Calls atn chain (k.map Int.ofNat))
    (set : IntervalSet) (h : nextTokensInCtx atn fuel s (some chain) = some set) :
    (∀ x, set.contains x = true → CanMatch atn (s, k) x ∨ (x = TOKEN_EOF ∧ CanEnd atn (s, k))) ∧
    (NoLeftRecursion atn → Narrow atn → ∀ x,
      CanMatch atn (s, k) x ∨ (x = TOKEN_EOF ∧ CanEnd atn (s, k)) → set.contains x = true) := by
  obtain ⟨k', h1, h2, h3⟩ := calls_toPC wf hc
  cases ofNat_inj h1
  simp only [nextTokensInCtx, h2] at h
  obtain ⟨c, hc1, hc2⟩ := Option.bind_eq_some_iff.mp h
  rw [← hc1] at hc2
  obtain ⟨st', h4, rfl⟩ := Option.map_eq_some_iff.mp hc2
  obtain ⟨adds, g1, g2, g3, g4⟩ := look_adds wf hs h3 h4
  refine ⟨fun x hx => ?_, fun hl hn x hx => ?_⟩
  · rw [g1] at hx
    obtain ⟨c, hc, hx⟩ := C01_contains_only_added adds x hx
    exact g3 c hc x hx
  · rw [g1, (run_exact adds (gentle_narrow _ ?_ _)).2]
    · exact g4 hl x hx
    · intro r hr
      obtain ⟨c, hc, hr⟩ := List.mem_flatMap.mp hr
      exact narrow_ranges wf hn (g2 c hc) r hr

/-- It ends without panicking. -/
theorem C42_in_context_terminates (atn : ATN) (wf : WFAtn atn) (s : Nat) (hs : s < atn.states.length)
    (chain stack : List Int) (hc : StackProps.Calls atn chain stack) :
    ∃ F set, ∀ fuel, F ≤ fuel → nextTokensInCtx atn fuel s (some chain) = some set := by
  obtain ⟨k, h1, h2, h3⟩ := calls_toPC wf hc
  obtain ⟨F, st', h⟩ := look_exists wf true hs h3
  refine ⟨F, st'.look, fun fuel hf => ?_⟩
  simp only [nextTokensInCtx, h2]
  have := h fuel hf
  cases hk : toPC true k with
  | none => cases k <;> simp [toPC] at hk
  | some c => rw [hk] at this; simp [this]

/-! ## C43 expected tokens -/

/-- The invoking states of the active rules, innermost first, each with the state its call returns
to. -/
def Climbs (atn : ATN) (stack : List Int) (k : List Nat) : Prop :=
  List.Forall₂ (fun i f => ∃ (n : Nat) (st : ATNState) (t : Nat) (r p : Int) (ts : List Trans),
    i = (n : Int) ∧ atn.states[n]? = some st ∧ st.transitions = .rule t f r p :: ts) stack k

/-- Joining the next-token sets of the states one after the other never bridges two gaps at once. -/
def JoinsGently (atn : ATN) (fuel : Nat) : (Int → Prop) → List Nat → Prop
  | _, [] => True
  | S, f :: fs => ∀ set, nextTokens atn fuel f = some set →
      GentleFrom S set.intervals ∧
      JoinsGently atn fuel (fun x => x ≠ TOKEN_EPSILON ∧ (S x ∨ Mem set.intervals x)) fs

theorem canMatch_ne {atn : ATN} (wf : WFAtn atn) {p : Pos} {x : Int} (h : CanMatch atn p x) :
    x ≠ TOKEN_EPSILON := by
  rintro rfl
  obtain ⟨s, k, st, tr, _, h1, _, h2, h3⟩ := h
  exact wf.noEpsilon s st tr h1 h2 h3

/-- One step: adding an exact set and removing `EPSILON`. -/
theorem join_step {expected set : IntervalSet} {S : Int → Prop} (hc : Canonical expected.intervals)
    (hro : expected.readOnly = false) (hS : ∀ x, Mem expected.intervals x ↔ S x)
    (hg : GentleFrom S set.intervals) :
    ∃ e', (expected.addSet set).removeOne TOKEN_EPSILON = some e' ∧ Canonical e'.intervals ∧
      e'.readOnly = false ∧
      ∀ x, Mem e'.intervals x ↔ x ≠ TOKEN_EPSILON ∧ (S x ∨ Mem set.intervals x) := by
  have hS' : S = Mem expected.intervals := by funext x; rw [hS]
  subst hS'
  obtain ⟨h1, h2⟩ := foldl_exact expected set.intervals hc hg
  have hro' : ∀ (l : List Interval) (s : IntervalSet), s.readOnly = false →
      (l.foldl IntervalSet.addInterval s).readOnly = false := by
    intro l
    induction l with
    | nil => intro s h; exact h
    | cons r l ih =>
      intro s h
      apply ih
      simp only [IntervalSet.addInterval]; split <;> exact h
  obtain ⟨e', h3, h4, h5, h6⟩ := C05_remove_one (expected.addSet set) TOKEN_EPSILON h1 (hro' _ _ hro)
  refine ⟨e', h3, h4, h5, fun x => ?_⟩
  have := h6 x
  rw [IntervalSet.contains_iff _ h4.sortedDisjoint, IntervalSet.contains_iff (expected.addSet set) h1.sortedDisjoint] at this
  rw [this]
  show Mem (List.foldl IntervalSet.addInterval expected set.intervals).intervals x ∧ _ ↔ _
  rw [h2]; tauto

/-- What the callers add once the current rule can end. -/
def Above (atn : ATN) : List Nat → Int → Prop
  | [], x => x = TOKEN_EOF
  | f :: k, x => CanMatch atn (f, k) x ∨ (x = TOKEN_EOF ∧ CanEnd atn (f, k))

theorem above_iff {atn : ATN} {s : Nat} (k : List Nat) {x : Int} :
    (CanMatch atn (s, k) x ∨ (x = TOKEN_EOF ∧ CanEnd atn (s, k))) ↔
      CanMatch atn (s, []) x ∨ (CanEnd atn (s, []) ∧ Above atn k x) := by
  cases k with
  | nil => simp only [Above]; tauto
  | cons f k => rw [canMatch_cons, canEnd_cons]; simp only [Above]; tauto

theorem expectedLoop_ok {atn : ATN} (wf : WFAtn atn) (fuel : Nat) :
    ∀ (stack : List Int) (k : List Nat) (c : Nat) (following expected : IntervalSet) (S : Int → Prop),
    Climbs atn stack k → (∀ f ∈ k, Exact atn fuel f) →
    (following.contains TOKEN_EPSILON = true ↔ CanEnd atn (c, [])) →
    Canonical expected.intervals → expected.readOnly = false →
    (∀ x, Mem expected.intervals x ↔ S x) → (∀ x, S x → x ≠ TOKEN_EPSILON) →
    JoinsGently atn fuel S k →
    ∃ f' e', expectedLoop atn fuel stack following expected = some (f', e') ∧
      Canonical (if f'.contains TOKEN_EPSILON then e'.addOne TOKEN_EOF else e').intervals ∧
      ∀ x, Mem (if f'.contains TOKEN_EPSILON then e'.addOne TOKEN_EOF else e').intervals x ↔
        S x ∨ (CanEnd atn (c, []) ∧ Above atn k x)
  | _, _, c, following, expected, S, .nil, _, hf, hc, hro, hS, hne, _ => by
    refine ⟨following, expected, rfl, ?_⟩
    by_cases he : following.contains TOKEN_EPSILON = true
    · simp only [he, if_true]
      have hcall := foldl_exact expected [⟨TOKEN_EOF, TOKEN_EOF⟩] hc (gentle_narrow _ (by simp; omega) _)
      refine ⟨hcall.1, fun x => ?_⟩
      rw [show (expected.addOne TOKEN_EOF).intervals =
        (List.foldl IntervalSet.addInterval expected [⟨TOKEN_EOF, TOKEN_EOF⟩]).intervals from rfl,
        hcall.2, hS]
      simp only [Above, hf.mp he, true_and]
      simp [Mem, InIv]
      constructor
      · rintro (h | h)
        · exact Or.inl h
        · right; omega
      · rintro (h | h)
        · exact Or.inl h
        · right; omega
    · simp only [he, Bool.false_eq_true, if_false]
      refine ⟨hc, fun x => ?_⟩
      rw [hS]
      have : ¬ CanEnd atn (c, []) := fun h => he (hf.mpr h)
      tauto
  | i :: stack, f :: k, c, following, expected, S, .cons hi hrest, hex, hf, hc, hro, hS, hne, hj => by
    by_cases he : following.contains TOKEN_EPSILON = true
    · obtain ⟨n, st, t, r, p, ts, rfl, h1, h2⟩ := hi
      obtain ⟨set, hset, hset2, hset3⟩ := hex f (by simp)
      have hset4 : ∀ x, Mem set.intervals x ↔
          CanMatch atn (f, []) x ∨ (x = TOKEN_EPSILON ∧ CanEnd atn (f, [])) := by
        intro x; rw [← IntervalSet.contains_iff _ hset2.sortedDisjoint]; exact hset3 x
      obtain ⟨hj1, hj2⟩ := hj set hset
      obtain ⟨e', e1, e2, e3, e4⟩ := join_step hc hro hS hj1
      have hfl := wf.follow n st t f r p h1 (by simp [h2])
      obtain ⟨f'', e'', g1, g2, g3⟩ := expectedLoop_ok wf fuel stack k f set e' _ hrest
        (fun g hg => hex g (by simp [hg]))
        (by
          rw [hset3]
          exact ⟨fun h => h.elim (fun h => absurd rfl (canMatch_ne wf h)) (·.2), fun h => Or.inr ⟨rfl, h⟩⟩)
        e2 e3 e4 (fun x hx => hx.1) hj2
      refine ⟨f'', e'', ?_, g2, fun x => ?_⟩
      · simp only [expectedLoop, he, Bool.not_true, Bool.false_eq_true, if_false, followOf, ATN.stateAt,
          Int.natCast_nonneg, if_true, Int.toNat_natCast, h1, h2, List.head?_cons, Option.bind_some, hfl,
          hset, e1]
        exact g1
      · rw [g3, hset4]
        simp only [Above]
        rw [above_iff]
        simp only [hf.mp he, true_and]
        have := hne x
        have := @canMatch_ne atn wf (f, []) x
        constructor
        · rintro (⟨h1, h2 | h2 | h2⟩ | h2)
          · exact Or.inl h2
          · exact Or.inr (Or.inl h2)
          · exact absurd h2.1 h1
          · exact Or.inr (Or.inr h2)
        · rintro (h1 | h1 | h1)
          · exact Or.inl ⟨hne x h1, Or.inl h1⟩
          · exact Or.inl ⟨this h1, Or.inr (Or.inl h1)⟩
          · exact Or.inr h1
    · refine ⟨following, expected, by simp [expectedLoop, he], ?_⟩
      simp only [he, Bool.false_eq_true, if_false]
      refine ⟨hc, fun x => ?_⟩
      rw [hS]
      have : ¬ CanEnd atn (c, []) := fun h => he (hf.mpr h)
      tauto

theorem nextTokens_mem {atn : ATN} (wf : WFAtn atn) {fuel s : Nat} (hs : s < atn.states.length)
    {set : IntervalSet} (h : nextTokens atn fuel s = some set) :
    ∀ x, Mem set.intervals x → CanMatch atn (s, []) x ∨ (x = TOKEN_EPSILON ∧ CanEnd atn (s, [])) := by
  intro x hx
  obtain ⟨st', h1, rfl⟩ := nextTokens_eq h
  obtain ⟨adds, h2, _, h3, _⟩ := look_adds wf hs (by simp) h1
  simp only [h2, run, foldl_perform] at hx
  rcases (foldl_sound IntervalSet.new _ (by simp [IntervalSet.new])).2 x hx with h4 | h4
  · simp [IntervalSet.new] at h4
  · rw [← asks_flat] at h4
    obtain ⟨c, hc, hx⟩ := h4
    exact h3 c hc x hx

theorem expectedLoop_sound {atn : ATN} (wf : WFAtn atn) (fuel : Nat) (S : Int → Prop) :
    ∀ (stack : List Int) (k : List Nat) (c : Nat) (following expected f' e' : IntervalSet),
    Climbs atn stack k →
    (following.contains TOKEN_EPSILON = true → CanEnd atn (c, [])) →
    (CanEnd atn (c, []) → ∀ x, Above atn k x → S x) →
    (∀ r ∈ expected.intervals, r.a ≤ r.b) →
    (∀ x, Mem expected.intervals x → x ≠ TOKEN_EPSILON → S x) →
    expectedLoop atn fuel stack following expected = some (f', e') →
    ∀ x, Mem (if f'.contains TOKEN_EPSILON then e'.addOne TOKEN_EOF else e').intervals x →
      x ≠ TOKEN_EPSILON → S x
  | _, _, c, following, expected, f', e', .nil, hf, hA, hv, hS, h, x, hx, hne => by
    simp only [expectedLoop, Option.some.injEq, Prod.mk.injEq] at h
    obtain ⟨rfl, rfl⟩ := h
    split at hx
    · rename_i he
      rcases (foldl_sound expected [⟨TOKEN_EOF, TOKEN_EOF⟩] hv).2 x hx with h | h
      · exact hS x h hne
      · simp only [IntervalSet.mem_cons, IntervalSet.mem_nil, InIv, or_false] at h
        exact hA (hf he) x (by simp only [Above]; omega)
    · exact hS x hx hne
  | _, _, c, following, expected, f', e', .cons (a := i) (b := f) (l₁ := rest) (l₂ := k) hi hrest,
      hf, hA, hv, hS, h, x, hx, hne => by
    obtain ⟨n, st, t, r, p, ts, rfl, hst, htr⟩ := hi
    have hfo : followOf atn (n : Int) = some f := by
      simp [followOf, ATN.stateAt, hst, htr]
    have hlt : f < atn.states.length := wf.follow n st t f r p hst (by simp [htr])
    rw [expectedLoop] at h
    by_cases he : following.contains TOKEN_EPSILON = true
    · rw [if_neg (by simp [he]), hfo, Option.bind_some, if_pos hlt] at h
      simp only [Option.bind_eq_some_iff] at h
      obtain ⟨set, h1, e1, h2, h3⟩ := h
      have hA' := hA (hf he)
      have hmem := nextTokens_mem wf hlt h1
      have s1 := foldl_sound expected set.intervals hv
      have s2 := C05_remove_one_sound _ e1 _ s1.1 h2
      refine expectedLoop_sound wf fuel S rest k f set e1 f' e' hrest ?_ ?_ s2.1 ?_ h3 x hx hne
      · intro hc
        rcases hmem _ (IntervalSet.contains_sound _ _ hc) with h | h
        · exact absurd rfl (canMatch_ne wf h)
        · exact h.2
      · intro hend y hy
        apply hA'
        have := (above_iff (atn := atn) (s := f) k (x := y)).mpr (Or.inr ⟨hend, hy⟩)
        exact this
      · intro y hy hny
        rcases s1.2 y (s2.2 y hy) with h | h
        · exact hS y h hny
        · apply hA'
          rcases hmem y h with h | h
          · have := (above_iff (atn := atn) (s := f) k (x := y)).mpr (Or.inl h)
            exact this
          · exact absurd h.1 hny
    · rw [if_pos (by simpa using he)] at h
      simp only [Option.some.injEq, Prod.mk.injEq] at h
      obtain ⟨rfl, rfl⟩ := h
      rw [if_neg he] at hx
      exact hS x hx hne

/-- **C43 (nothing superfluous).**  Whatever token is reported as expected really can be matched next
under the current callers, or is `EOF` and all active rules can end; no condition on the sets. -/
theorem C43_only_possible (atn : ATN) (wf : WFAtn atn) (fuel s : Nat) (hs : s < atn.states.length)
    (stack : List Int) (k : List Nat) (hk : Climbs atn stack k) (E : IntervalSet)
    (h : getExpectedTokens atn fuel s stack = some E) (x : Int) (hx : E.contains x = true)
    (hne : x ≠ TOKEN_EPSILON) :
    CanMatch atn (s, k) x ∨ (x = TOKEN_EOF ∧ CanEnd atn (s, k)) := by
  replace hx := IntervalSet.contains_sound _ _ hx
  simp only [getExpectedTokens, Int.natCast_nonneg, if_true, Int.toNat_natCast,
    Option.bind_eq_some_iff] at h
  obtain ⟨set, h1, h2⟩ := h
  have hmem := nextTokens_mem wf hs h1
  split at h2
  · cases h2
    rw [above_iff]
    rcases hmem x hx with h | h
    · exact .inl h
    · exact absurd h.1 hne
  · simp only [Option.bind_eq_some_iff, Option.map_eq_some_iff, Prod.exists] at h2
    obtain ⟨e1, h3, f', e', h4, rfl⟩ := h2
    have s1 := foldl_sound IntervalSet.new set.intervals (by simp [IntervalSet.new])
    have s2 := C05_remove_one_sound _ e1 _ s1.1 h3
    refine expectedLoop_sound wf fuel
      (fun x => CanMatch atn (s, k) x ∨ (x = TOKEN_EOF ∧ CanEnd atn (s, k)))
      stack k s set e1 f' e' hk ?_ ?_ s2.1 ?_ h4 x hx hne
    · intro hc
      rcases hmem _ (IntervalSet.contains_sound _ _ hc) with h | h
      · exact absurd rfl (canMatch_ne wf h)
      · exact h.2
    · intro hend y hy
      rw [above_iff]; exact .inr ⟨hend, hy⟩
    · intro y hy hny
      rw [above_iff]
      rcases s1.2 y (s2.2 y hy) with h | h
      · simp [IntervalSet.new] at h
      · rcases hmem y h with h | h
        · exact .inl h
        · exact absurd h.1 hny

/-- **C43, partial.**  With exact next-token sets that join gently, the expected tokens are exactly
those that can be matched next from the current state under the current callers, climbing to a
caller only when the rule can end, with `EOF` exactly if every active rule can end.  Missing: the
joins can lose tokens (`C43_false`). -/
theorem C43_expected_partial (atn : ATN) (wf : WFAtn atn) (fuel s : Nat)
    (stack : List Int) (k : List Nat) (hk : Climbs atn stack k)
    (hex : ∀ f ∈ s :: k, Exact atn fuel f) (hj : JoinsGently atn fuel (fun _ => False) (s :: k)) :
    ∃ E, getExpectedTokens atn fuel s stack = some E ∧ Canonical E.intervals ∧
      ∀ x, E.contains x = true ↔ CanMatch atn (s, k) x ∨ (x = TOKEN_EOF ∧ CanEnd atn (s, k)) := by
  obtain ⟨set, hset, hset2, hset3⟩ := hex s (by simp)
  have hset4 : ∀ x, Mem set.intervals x ↔
      CanMatch atn (s, []) x ∨ (x = TOKEN_EPSILON ∧ CanEnd atn (s, [])) := by
    intro x; rw [← IntervalSet.contains_iff _ hset2.sortedDisjoint]; exact hset3 x
  have hend : set.contains TOKEN_EPSILON = true ↔ CanEnd atn (s, []) := by
    rw [hset3]
    exact ⟨fun h => h.elim (fun h => absurd rfl (canMatch_ne wf h)) (·.2), fun h => Or.inr ⟨rfl, h⟩⟩
  by_cases he : set.contains TOKEN_EPSILON = true
  · obtain ⟨hj1, hj2⟩ := hj set hset
    obtain ⟨e', e1, e2, e3, e4⟩ := join_step (expected := IntervalSet.new) (S := fun _ => False)
      (by simp [IntervalSet.new, Canonical]) rfl (by simp [IntervalSet.new]) hj1
    obtain ⟨f', e'', g1, g2, g3⟩ := expectedLoop_ok wf fuel stack k s set e' _ hk
      (fun f hf => hex f (by simp [hf])) hend e2 e3 e4 (fun x hx => hx.1) hj2
    refine ⟨_, ?_, g2, fun x => ?_⟩
    · simp only [getExpectedTokens, Int.natCast_nonneg, if_true, Int.toNat_natCast, hset, Option.bind_some,
        he, Bool.not_true, Bool.false_eq_true, if_false, e1, g1, Option.map_some]
    · rw [IntervalSet.contains_iff _ g2.sortedDisjoint, g3, above_iff, hset4]
      have := @canMatch_ne atn wf (s, []) x
      constructor
      · rintro (⟨h1, h2 | h2 | h2⟩ | h2)
        · exact h2.elim
        · exact Or.inl h2
        · exact absurd h2.1 h1
        · exact Or.inr h2
      · rintro (h1 | h1)
        · exact Or.inl ⟨this h1, Or.inr (Or.inl h1)⟩
        · exact Or.inr h1
  · refine ⟨set, ?_, hset2, fun x => ?_⟩
    · simp [getExpectedTokens, hset, he]
    · have hne : ¬ CanEnd atn (s, []) := fun h => he (hend.mpr h)
      rw [hset3, above_iff]
      tauto

/-! ## Concrete cases -/

instance (max : Int) (tr : Trans) (x : Int) : Decidable (Matches max tr x) := by
  cases tr <;> simp only [Matches] <;> infer_instance

instance (tr : Trans) : Decidable (Free tr) := by
  cases tr <;> simp only [Free] <;> infer_instance

/-- A check for well-formedness. -/
def wfCheck (atn : ATN) : Bool :=
  decide ((atn.states.length : Int) ≤ PC.EMPTY_RS) &&
  atn.states.all fun st => st.transitions.all fun tr =>
    decide (tr.target < atn.states.length) &&
    decide (¬ Matches atn.maxTokenType tr TOKEN_EPSILON) &&
    (match tr with
     | .notSet _ set => decide (SortedDisjoint set.intervals)
     | .rule _ f _ _ => decide (f < atn.states.length) && (decide (st.stateType = .ruleStop) ||
         atn.states[f]?.all fun st' => decide (st'.ruleIndex = st.ruleIndex))
     | _ => true) &&
    (decide (st.stateType = .ruleStop) || decide (¬ Free tr) ||
      atn.states[tr.target]?.all fun st' => decide (st'.ruleIndex = st.ruleIndex))

theorem wf_of_check (atn : ATN) (h : wfCheck atn = true) : WFAtn atn := by
  simp only [wfCheck, Bool.and_eq_true, decide_eq_true_eq, List.all_eq_true] at h
  obtain ⟨h0, h⟩ := h
  have h' : ∀ {s : Nat} {st : ATNState} {tr : Trans}, atn.states[s]? = some st → tr ∈ st.transitions → _ :=
    fun h1 h2 => h _ (List.mem_of_getElem? h1) _ h2
  refine ⟨h0, fun s st tr h1 h2 => (h' h1 h2).1.1.1, fun s st t f r p h1 h2 => ?_,
    fun s st t set h1 h2 => ?_, fun s st tr h1 h2 => (h' h1 h2).1.1.2,
    fun s st tr st' h1 h2 h3 h4 h5 => ?_, fun s st t f r p st' h1 h2 h3 h4 => ?_⟩
  · have := (h' h1 h2).1.2
    simp only [Bool.and_eq_true, decide_eq_true_eq] at this
    exact this.1
  · have := (h' h1 h2).1.2
    simpa using this
  · have := (h' h1 h3).2
    simpa [h2, h4, h5] using this
  · have := (h' h1 h3).1.2
    simp only [Bool.and_eq_true, decide_eq_true_eq] at this
    simpa [h2, h4] using this.2

/-- Rule 0 is `r1 B`, rule 1 is `A?` (tokens 7 and 5). -/
def optATN : ATN :=
  { grammarType := .parser, maxTokenType := 9,
    states := [
      { stateType := .basic, transitions := [.rule 2 1 1 0] },
      { stateType := .basic, transitions := [.atom 3 5] },
      { stateType := .basic, ruleIndex := 1, transitions := [.atom 4 7, .epsilon 4 0] },
      { stateType := .ruleStop },
      { stateType := .ruleStop, ruleIndex := 1 }] }

example : WFAtn optATN := wf_of_check _ (by decide +kernel)

example : Narrow optATN := by
  intro s st tr h htr
  have := List.mem_of_getElem? h
  simp only [optATN, List.mem_cons, List.not_mem_nil, or_false] at this
  rcases this with rfl | rfl | rfl | rfl | rfl <;> simp at htr
  · subst htr; trivial
  · subst htr; trivial
  · rcases htr with rfl | rfl <;> trivial

/-- The only entry is state 2, from which nothing is called. -/
example : NoLeftRecursion optATN := by
  rintro ⟨e, est, s, st, k, t, f, r, p, tst, ⟨s0, st0, f0, r0, p0, h0, h0'⟩, he, hr, hs, hns, htr, ht, hi⟩
  have he2 : e = 2 := by
    have := List.mem_of_getElem? h0
    simp only [optATN, List.mem_cons, List.not_mem_nil, or_false] at this
    rcases this with rfl | rfl | rfl | rfl | rfl <;> simp at h0'
    exact h0'.1
  subst he2
  have hpos : ∀ q, Reach optATN (2, []) q → q = (2, []) ∨ q = (4, []) := by
    intro q hq
    induction hq with
    | refl => exact Or.inl rfl
    | tail _ hstep ih =>
      rcases ih with rfl | rfl
      · cases hstep with
        | free h1 h2 h3 h4 =>
          simp [optATN] at h1; subst h1; simp at h3
          rcases h3 with rfl | rfl
          · exact h4.elim
          · exact Or.inr rfl
        | call h1 h2 h3 => simp [optATN] at h1; subst h1; simp at h3
      · cases hstep with
        | free h1 h2 h3 h4 => simp [optATN] at h1; subst h1; simp at h2
        | call h1 h2 h3 => simp [optATN] at h1; subst h1; simp at h2
  rcases hpos _ hr with h | h <;> cases h <;> simp [optATN] at hs <;> subst hs <;> simp at htr

example : nextTokens optATN 10 0 = some ⟨[⟨5, 5⟩, ⟨7, 7⟩], true⟩ := by decide +kernel
example : nextTokens optATN 10 2 = some ⟨[⟨-2, -2⟩, ⟨7, 7⟩], true⟩ := by decide +kernel
example : Climbs optATN [0] [1] := .cons ⟨0, _, 2, 1, 0, [], rfl, rfl, rfl⟩ .nil
example : getExpectedTokens optATN 10 2 [0] = some ⟨[⟨5, 5⟩, ⟨7, 7⟩], false⟩ := by decide +kernel

/-- A state with edges for 1, 3, 5, 12 and 1 to 10. -/
def wideATN : ATN :=
  { grammarType := .parser, maxTokenType := 12,
    states := [
      { stateType := .basic,
        transitions := [.atom 1 1, .atom 1 3, .atom 1 5, .atom 1 12, .range 1 1 10] },
      { stateType := .ruleStop }] }

/-- **C42 is false with wide labels**: token 7 can be matched next but is not in the set (data loss
of interval sets, C01). -/
theorem C42_false_wide : WFAtn wideATN ∧ CanMatch wideATN (0, []) 7 ∧
    ∀ fuel, 2 ≤ fuel → ∃ set, nextTokens wideATN fuel 0 = some set ∧ set.contains 7 = false := by
  refine ⟨wf_of_check _ (by decide +kernel),
    ⟨0, [], _, .range 1 1 10, .refl, rfl, by simp, by simp, by simp [Matches]⟩, fun fuel hf => ?_⟩
  cases h : lookWork wideATN 2 0 none {} with
  | none => exact absurd h (by
      intro h
      have : (nextTokens wideATN 2 0).isSome = true := by decide +kernel
      simp [nextTokens, nextTokensInCtx, h] at this)
  | some st =>
    have h3 : (nextTokens wideATN 2 0).map (·.contains 7) = some false := by decide +kernel
    simp only [nextTokens, nextTokensInCtx, h, lookWork_mono _ hf _ _ _ _ h] at h3 ⊢
    exact ⟨_, rfl, by simpa using h3⟩

/-- Rule 0 is `r1`, rule 1 is `r1 B | ` (token 5). -/
def leftATN : ATN :=
  { grammarType := .parser, maxTokenType := 9,
    states := [
      { stateType := .basic, transitions := [.rule 2 1 1 0] },
      { stateType := .ruleStop },
      { stateType := .basic, ruleIndex := 1, transitions := [.rule 2 3 1 0, .epsilon 4 0] },
      { stateType := .basic, ruleIndex := 1, transitions := [.atom 4 5] },
      { stateType := .ruleStop, ruleIndex := 1 }] }

/-- **C42 is false with left recursion** (which the ANTLR tool rewrites or rejects): token 5 can be
matched next but is not in the set. -/
theorem C42_false_left_recursion : WFAtn leftATN ∧ CanMatch leftATN (0, []) 5 ∧
    ∃ set, nextTokens leftATN 10 0 = some set ∧ set.contains 5 = false := by
  refine ⟨wf_of_check _ (by decide +kernel), ⟨3, [1], _, .atom 4 5, ?_, rfl, by simp, by simp, rfl⟩,
    ⟨⟨[⟨-2, -2⟩], true⟩, by decide +kernel, by decide +kernel⟩⟩
  have s1 : Step leftATN (0, []) (2, [1]) := .call (r := 1) (p := 0) rfl (by simp) (by simp)
  have s2 : Step leftATN (2, [1]) (2, [3, 1]) := .call (r := 1) (p := 0) rfl (by simp) (by simp)
  have s3 : Step leftATN (2, [3, 1]) (4, [3, 1]) := .free (tr := .epsilon 4 0) rfl (by simp) (by simp) trivial
  have s4 : Step leftATN (4, [3, 1]) (3, [1]) := .ret rfl rfl
  exact (((Reach.refl.tail s1).tail s2).tail s3).tail s4

/-- Rule 0 is `r1 (1|2|3|4|5|6|7)`, rule 1 is `(1|3|5|12)?`. -/
def joinATN : ATN :=
  { grammarType := .parser, maxTokenType := 12,
    states := [
      { stateType := .basic, transitions := [.rule 2 1 1 0] },
      { stateType := .basic, transitions := [.atom 3 1, .atom 3 2, .atom 3 3, .atom 3 4, .atom 3 5,
          .atom 3 6, .atom 3 7] },
      { stateType := .basic, ruleIndex := 1,
        transitions := [.atom 4 1, .atom 4 3, .atom 4 5, .atom 4 12, .epsilon 4 0] },
      { stateType := .ruleStop },
      { stateType := .ruleStop, ruleIndex := 1 }] }

/-- **C43 is false in general**: even with single-token labels, joining the sets of rule and caller
loses tokens: 7 can come next but is not expected. -/
theorem C43_false : WFAtn joinATN ∧ Climbs joinATN [0] [1] ∧ CanMatch joinATN (2, [1]) 7 ∧
    ∃ E, getExpectedTokens joinATN 10 2 [0] = some E ∧ E.contains 7 = false := by
  refine ⟨wf_of_check _ (by decide +kernel), .cons ⟨0, _, 2, 1, 0, [], rfl, rfl, rfl⟩ .nil,
    ⟨1, [], _, .atom 3 7, ?_, rfl, by simp, by simp, rfl⟩,
    ⟨⟨[⟨1, 7⟩, ⟨5, 5⟩, ⟨12, 12⟩], false⟩, by decide +kernel, by decide +kernel⟩⟩
  have s1 : Step joinATN (2, [1]) (4, [1]) := .free (tr := .epsilon 4 0) rfl (by simp) (by simp) trivial
  have s2 : Step joinATN (4, [1]) (1, []) := .ret rfl rfl
  exact (Reach.refl.tail s1).tail s2

end Antlr.LL1Props
