import Verif.Prediction.Work
import Verif.ATN.TransitionProps

/-!
# Configurations and threads

A configuration stands for the threads with its state and one of the stacks of its context.
-/

namespace Antlr.Prediction
open Antlr StackSpec ConfigSet PC PredictionSpec LL1Spec

/-- A stack of return states as the code stores it, and back. -/
abbrev nats (s : List Int) : List Nat := s.map asUsize
abbrev ints (k : List Nat) : List Int := k.map (fun x : Nat => (x : Int))

theorem asUsize_nat {f : Nat} (h : (f : Int) < 2 ^ 64) : asUsize (f : Int) = f := by
  rw [asUsize_small _ (by omega) h]; simp

theorem _root_.Antlr.PredictionSpec.Plain.lt {atn : ATN} (ha : Plain atn) {f : Nat} (h : f < atn.states.length) :
    (f : Int) < EMPTY_RS := by have := ha.small; omega

theorem _root_.Antlr.PredictionSpec.Plain.usize {atn : ATN} (ha : Plain atn) {f : Nat} (h : f < atn.states.length) :
    asUsize (f : Int) = f := asUsize_nat (by have := ha.lt h; simp only [EMPTY_RS] at this; omega)

theorem den_push (d : Bool) (p : PC) (r : Int) (s : List Int) :
    Den d (.single (some p) r) s ↔ ∃ s', s = r :: s' ∧ Den d p s' := by
  rw [den_iff]; simp [entries, EDen]

theorem den_pop {d : Bool} {c p : PC} {r : Int} {s : List Int} (h : (some p, r) ∈ c.entries) (hs : Den d p s) :
    Den d c (r :: s) := by
  rw [den_iff]; exact ⟨_, h, s, rfl, hs⟩

theorem den_true_path {c : PC} (h : WF c) (he : c.hasEmptyPath = true) (s : List Int) : Den true c s := by
  have := (StackProps.C29_has_empty_path c h).1.1 he
  simp only [Den, if_true]
  exact ⟨[], s, rfl, this⟩

theorem wf_den {c : PC} (h : WF c) (d : Bool) : ∃ s, Den d c s := by
  have : ∃ s, HasStack c s := by
    induction h with
    | empty => exact ⟨[], .bottomS⟩
    | single h1 h2 ih => obtain ⟨s, hs⟩ := ih; exact ⟨_, .pushS hs⟩
    | @array l h1 h2 h3 h4 h5 ih =>
      match l, h1 with
      | (none, r) :: l, _ => have := h3 r (by simp); subst this; exact ⟨[], .bottomA (by simp)⟩
      | (some p, r) :: l, _ => obtain ⟨s, hs⟩ := ih p r (by simp); exact ⟨r :: s, .pushA (p := p) (by simp) hs⟩
  obtain ⟨s, hs⟩ := this
  cases d with
  | false => exact ⟨s, hs⟩
  | true => exact ⟨s, by simp only [Den, if_true]; exact ⟨s, [], by simp, hs⟩⟩

/-- All threads the configuration stands for have the property. -/
structure SoundC (full : Bool) (T : Int → Pos → Prop) (c : Config) : Prop where
  fit : Fit full c.ctx
  sem : c.sem = SC.NONE
  all : ∀ s, HasStack c.ctx s → T c.alt (c.state, nats s)

theorem SoundC.wf {full : Bool} {T : Int → Pos → Prop} {c : Config} (h : SoundC full T c) : WF c.ctx := h.fit.wf

theorem SoundC.mono {full : Bool} {T T' : Int → Pos → Prop} {c : Config} (h : SoundC full T c)
    (hT : ∀ p, T c.alt p → T' c.alt p) : SoundC full T' c := ⟨h.fit, h.sem, fun s hs => hT _ (h.all s hs)⟩

theorem SoundC.ex {full : Bool} {T : Int → Pos → Prop} {c : Config} (h : SoundC full T c) : ∃ k, T c.alt (c.state, k) := by
  obtain ⟨s, hs⟩ := wf_nonempty_stack h.wf; exact ⟨_, h.all s hs⟩

/-- The threads are closed under silent steps; without the context, the end of a rule goes on wherever a
call of the rule returns. -/
structure Goes (atn : ATN) (full eof : Bool) (T : Int → Pos → Prop) : Prop where
  step : ∀ j p q, T j p → Step atn p q → T j q
  out : full = false → ∀ j (s : Nat) st f x, T j (s, []) → atn.states[s]? = some st → st.stateType = .ruleStop →
    .epsilon f x ∈ st.transitions → T j (f, [])
  read : eof = true → ∀ j p q, T j p → ReadStep atn TOKEN_EOF p q → T j q

theorem matches_iff {atn : ATN} (ha : Plain atn) {s : Nat} {st : ATNState} (hs : atn.states[s]? = some st)
    {tr : Trans} (h : tr ∈ st.transitions) {t : Int} {b : Bool} (hm : tr.matches t 0 atn.maxTokenType = some b) :
    b = true ↔ Takes atn.maxTokenType tr t := by
  have h1 := ha.sets s st hs tr h
  cases tr with
  | set n x =>
    simp only [Trans.matches, Option.some.injEq] at hm
    rw [← hm]; exact IntervalSet.contains_iff x h1 t
  | notSet n x =>
    have := IntervalSet.contains_iff x h1 t
    simp only [Trans.matches, Option.some.injEq] at hm
    rw [← hm, Bool.and_eq_true, Bool.and_eq_true, Bool.not_eq_true', Takes, ← this]
    simp [and_assoc]
  | rule => simp [Trans.matches] at hm
  | wildcard n =>
    simp only [Trans.matches, Option.some.injEq] at hm
    rw [← hm, Takes]; simp; omega
  | _ => simp [Trans.matches] at hm; simp [Takes, ← hm]

theorem eof_takes {atn : ATN} (ha : Plain atn) {s : Nat} {st : ATNState} (hs : atn.states[s]? = some st)
    {tr : Trans} (h : tr ∈ st.transitions) {c c' : Config} (he : edgeTo true c tr = some c')
    (hne : tr.isEpsilon = false) : Takes atn.maxTokenType tr TOKEN_EOF ∧ c' = { c with state := tr.target } := by
  have h1 := ha.sets s st hs tr h
  cases tr with
  | set n x =>
    simp only [edgeTo, Bool.true_and] at he
    split at he
    · rename_i e
      simp only [Option.some.injEq] at he
      simp only [Trans.matches, beq_iff_eq, Option.some.injEq] at e
      exact ⟨(IntervalSet.contains_iff x h1 _).1 e, he.symm⟩
    · simp at he
  | atom n l =>
    simp only [edgeTo, Bool.true_and] at he
    split at he
    · rename_i e
      simp only [Option.some.injEq] at he
      simp [Trans.matches] at e
      exact ⟨by simp [Takes, ← e], he.symm⟩
    · simp at he
  | range n a b =>
    simp only [edgeTo, Bool.true_and] at he
    split at he
    · rename_i e
      simp only [Option.some.injEq] at he
      simp [Trans.matches] at e
      exact ⟨by simp [Takes, e], he.symm⟩
    · simp at he
  | notSet => simp [edgeTo] at he
  | wildcard => simp [edgeTo] at he
  | _ => simp [Trans.isEpsilon] at hne

theorem takes_eof {atn : ATN} (ha : Plain atn) {s : Nat} {st : ATNState} (hs : atn.states[s]? = some st)
    {tr : Trans} (h : tr ∈ st.transitions) (ht : Takes atn.maxTokenType tr TOKEN_EOF) (c : Config) :
    edgeTo true c tr = some { c with state := tr.target } := by
  have h1 := ha.sets s st hs tr h
  cases tr with
  | set n x =>
    simp only [Takes] at ht
    simp [edgeTo, Trans.matches, Trans.target, (IntervalSet.contains_iff x h1 _).2 ht]
  | atom n l => simp only [Takes] at ht; simp [edgeTo, Trans.matches, Trans.target, ← ht]
  | range n a b => simp only [Takes] at ht; simp [edgeTo, Trans.matches, Trans.target, ht]
  | notSet n x => simp [Takes, TOKEN_EOF] at ht
  | wildcard n => simp [Takes, TOKEN_EOF] at ht
  | _ => simp [Takes] at ht

theorem edgeTo_read {c : Config} {tr : Trans} {c' : Config} {eof : Bool} (h : edgeTo eof c tr = some c')
    (hne : tr.isEpsilon = false) : eof = true := by
  cases tr <;> simp [Trans.isEpsilon] at hne <;> simp [edgeTo] at h <;> exact h.1.1

/-- Closure adds threads only that exist. -/
theorem cls_sound {atn : ATN} (ha : Plain atn) {full eof : Bool} {T : Int → Pos → Prop}
    (hg : Goes atn full eof T) : Cls atn full eof (SoundC full T) := by
  refine ⟨fun c h => h.fit, ?_⟩
  intro c c' hc h
  cases h with
  | @edge c' st tr h1 h2 h3 h4 =>
    by_cases hst : st.stateType = .ruleStop
    · -- leaving the rule without knowing where to
      have h2 := h2.resolve_left (fun h => h hst)
      have hpath : c.ctx.hasEmptyPath = true := by
        rcases h2.2 with h | h
        · exact wf_isEmpty_hasEmptyPath hc.wf h
        · exact h
      obtain ⟨f, x, rfl, -⟩ := ha.stops _ _ h1 hst tr h3
      simp only [edgeTo, Option.some.injEq] at h4
      subst h4
      rw [outOf, if_pos hst]
      have hE := loc_path (hc.fit.loc h2.1) hc.wf hpath
      refine ⟨hc.fit, hc.sem, ?_⟩
      intro s hs
      dsimp only at hs
      rw [hE] at hs
      cases hs
      exact hg.out h2.1 _ _ _ _ _ (hc.all [] (by rw [hE]; exact .bottomS)) h1 hst h3
    · rw [outOf, if_neg hst]
      have free : ∀ t, Free tr → tr.target = t → c' = { c with state := t } → SoundC full T c' := by
        rintro t hf rfl rfl
        exact ⟨hc.fit, hc.sem, fun s hs' => hg.step _ _ _ (hc.all s hs') (.free h1 hst h3 hf)⟩
      have read : tr.isEpsilon = false → SoundC full T c' := by
        intro hne
        have he := edgeTo_read h4 hne
        subst he
        obtain ⟨e1, e2⟩ := eof_takes ha h1 h3 h4 hne
        subst e2
        exact ⟨hc.fit, hc.sem, fun s hs' => hg.read rfl _ _ _ (hc.all s hs') ⟨st, tr, h1, hst, h3, e1, rfl⟩⟩
      cases tr with
      | epsilon t x => simp only [edgeTo, Option.some.injEq] at h4; exact free t trivial rfl h4.symm
      | action t a b x y => simp only [edgeTo, Option.some.injEq] at h4; exact free t trivial rfl h4.symm
      | rule t f r p =>
        simp only [edgeTo, Option.some.injEq] at h4
        subst h4
        have hf := ha.follow _ _ h1 _ _ _ _ h3
        refine ⟨⟨.single (ha.lt hf) hc.wf, fun hfull => loc_of (by simp [entries, hc.fit.loc hfull])⟩, hc.sem, ?_⟩
        intro s hs'
        cases hs' with
        | @pushS _ _ s' hs2 =>
          rw [nats, List.map_cons, ha.usize hf]
          exact hg.step _ _ _ (hc.all s' hs2) (.call h1 hst h3)
      | predicate => simp [edgeTo] at h4
      | precedence => simp [edgeTo] at h4
      | _ => exact read rfl
  | @pop st p r h1 h2 h3 h4 h5 =>
    have hw := (wf_entries hc.wf).2 _ h4
    have hne : c.ctx ≠ EMPTY := by intro e; rw [e] at h3; simp [EMPTY, isEmpty] at h3
    refine ⟨⟨hw.2, fun hfull => ?_⟩, hc.sem, ?_⟩
    · obtain ⟨q, e, hl⟩ := loc_cases (hc.fit.loc hfull) hne _ h4
      simp only [Option.some.injEq] at e
      exact e ▸ hl
    intro s hs'
    exact hg.step _ _ _ (hc.all (r :: s) (den_pop (d := false) h4 hs')) (.ret h1 h2)

/-- The stack of the thread is one that calls can leave behind. -/
def Fair (atn : ATN) (p : Pos) : Prop := ∀ st, atn.states[p.1]? = some st → Proper atn st.ruleIndex p.2

theorem Fair.step {atn : ATN} (ha : Plain atn) {p q : Pos} (h : Fair atn p) (hs : Step atn p q) : Fair atn q := by
  intro st' hst'
  cases hs with
  | @free s k st tr h1 h2 h3 h4 =>
    rw [ha.sameRule s st h1 h2 tr h3 (by rintro _ _ _ _ rfl; exact h4) st' hst']
    exact h st h1
  | @call s k st t f r p h1 h2 h3 => exact .call h1 h3 hst' rfl (h st h1)
  | @ret s f k st h1 h2 =>
    cases h st h1 with
    | @call _ s' st0 t tst f i p k g1 g2 g3 g4 g5 =>
      rw [ha.followRule s' st0 g1 t f i p g2 st' hst']
      exact g5

theorem Fair.read {atn : ATN} (ha : Plain atn) {t : Int} {p q : Pos} (h : Fair atn p) (hs : ReadStep atn t p q) :
    Fair atn q := by
  obtain ⟨st, tr, h1, h2, h3, h4, rfl⟩ := hs
  intro st' hst'
  rw [ha.sameRule _ st h1 h2 tr h3 (by rintro _ _ _ _ rfl; exact h4) st' hst']
  exact h st h1

/-- A configuration of the class stands for the thread. -/
def Covers (d : Bool) (N : Config → Prop) (j : Int) (p : Pos) : Prop :=
  ∃ x, N x ∧ x.alt = j ∧ x.state = p.1 ∧ Den d x.ctx (ints p.2)

/-- The class is closed under what `closure` follows. -/
def ClosedU (atn : ATN) (full eof : Bool) (N : Config → Prop) : Prop :=
  ∀ x, N x → ∀ y, Succ atn full eof x y → ∃ z, N z ∧ z.norm = y.norm

theorem Covers.of_succ {atn : ATN} {full eof d : Bool} {N : Config → Prop} (hc : ClosedU atn full eof N)
    {x y : Config} (hx : N x) (hy : Succ atn full eof x y) {p : Pos} (h1 : y.state = p.1)
    (h2 : Den d y.ctx (ints p.2)) : Covers d N y.alt p := by
  obtain ⟨z, hz, e⟩ := hc x hx y hy
  simp only [Config.norm, Config.mk.injEq] at e
  exact ⟨z, hz, e.2.1, e.1.trans h1, e.2.2.1 ▸ h2⟩

theorem Covers.step {atn : ATN} (ha : Plain atn) {full eof : Bool} {N : Config → Prop}
    (hc : ClosedU atn full eof N) (hw : ∀ x, N x → WF x.ctx) {j : Int} {p q : Pos} (hf : Fair atn p)
    (h : Covers (!full) N j p) (hs : Step atn p q) : Covers (!full) N j q := by
  obtain ⟨x, hx, rfl, e, hden⟩ := h
  cases hs with
  | @free s k st tr h1 h2 h3 h4 =>
    have he : edgeTo eof x tr = some { x with state := tr.target } := by
      have := ha.noPred s st h1 tr h3
      cases tr <;> simp_all [Free, edgeTo, Trans.getPredicate, Trans.target]
    have hsucc : Succ atn full eof x (outOf st { x with state := tr.target }) :=
      .edge (by rw [e]; exact h1) (.inl h2) h3 he
    rw [outOf, if_neg h2] at hsucc
    exact .of_succ hc hx hsucc rfl hden
  | @call s k st t f r p h1 h2 h3 =>
    have hsucc : Succ atn full eof x (outOf st { x with state := t, ctx := .single (some x.ctx) f }) :=
      .edge (by rw [e]; exact h1) (.inl h2) h3 rfl
    rw [outOf, if_neg h2] at hsucc
    refine .of_succ hc hx hsucc rfl ?_
    exact (den_push ..).2 ⟨_, rfl, hden⟩
  | @ret s f k st h1 h2 =>
    obtain ⟨⟨o, r⟩, hm, hd⟩ := (den_iff ..).1 hden
    have hlt : ∀ {r : Int} {p : PC}, (some p, r) ∈ x.ctx.entries → r < EMPTY_RS := by
      intro r p h; exact ((wf_entries (hw x hx)).2 _ h).1
    cases o with
    | none =>
      obtain ⟨hr, hor⟩ := hd
      rcases hor with hor | hor
      · simp only [Bool.not_eq_true'] at hor
        subst hor
        have hpath : x.ctx.hasEmptyPath = true :=
          (StackProps.C29_has_empty_path _ (hw x hx)).1.2
            ((hasStack_iff _ _).2 ⟨_, hm, hr, .inr rfl⟩)
        have hp := hf st h1
        cases hp with
        | @call _ s' st0 t tst f i p k g1 g2 g3 g4 g5 =>
          obtain ⟨y, hy⟩ := ha.returns s st h1 h2 s' st0 g1 t f i p g2 tst g3 g4
          have hsucc : Succ atn false eof x (outOf st { x with state := f }) :=
            .edge (by rw [e]; exact h1) (.inr ⟨rfl, .inr hpath⟩) hy rfl
          rw [outOf, if_pos h2] at hsucc
          exact .of_succ hc hx hsucc rfl (den_true_path (hw x hx) hpath _)
      · simp at hor
    | some p =>
      obtain ⟨s', e1, e2⟩ := hd
      simp only [List.map_cons, List.cons.injEq] at e1
      obtain ⟨e1, rfl⟩ := e1
      have hlt := hlt hm
      have hem : x.ctx.isEmpty = false := by
        rw [Bool.eq_false_iff]
        intro h
        rw [(wf_isEmpty (hw x hx)).1 h] at hm
        simp [EMPTY, entries] at hm
      have hsucc : Succ atn full eof x _ := .pop (by rw [e]; exact h1) h2 hem hm (by omega)
      have hu : asUsize r = f := by
        rw [← e1]; exact asUsize_nat (by rw [← e1] at hlt; simp only [EMPTY_RS] at hlt; omega)
      exact .of_succ hc hx hsucc hu e2

theorem Covers.read_eof {atn : ATN} (ha : Plain atn) {full d : Bool} {N : Config → Prop}
    (hc : ClosedU atn full true N) {j : Int} {p q : Pos}
    (h : Covers d N j p) (hs : ReadStep atn TOKEN_EOF p q) : Covers d N j q := by
  obtain ⟨x, hx, rfl, e, hden⟩ := h
  obtain ⟨st, tr, h1, h2, h3, h4, rfl⟩ := hs
  have hsucc : Succ atn full true x (outOf st { x with state := tr.target }) :=
    .edge (by rw [e]; exact h1) (.inl h2) h3 (takes_eof ha h1 h3 h4 x)
  rw [outOf, if_neg h2] at hsucc
  exact .of_succ hc hx hsucc rfl hden

/-! ### From the processed configurations to the set -/

theorem holds_covers {full d : Bool} {A : List Config} {s : ConfigSet} (hh : Holds full d A s)
    (hsem : ∀ a ∈ A, a.sem = SC.NONE) {j : Int} {p : Pos} :
    Covers d (· ∈ s.configs) j p ↔ Covers d (· ∈ A) j p := by
  obtain ⟨⟨b, hh⟩, -, -⟩ := hh
  have key : ∀ c : Config, ({ s with dips := b } : ConfigSet).key c = .part c.state c.alt c.sem := by
    intro c; rw [ConfigSet.key, if_neg]; rw [hh.ord]; simp
  constructor
  · rintro ⟨x, hx, h1, h2, h3⟩
    obtain ⟨a, ha, e, hd⟩ := (hh.den x hx _).1 h3
    rw [key, key] at e
    simp only [Key.part.injEq] at e
    exact ⟨a, ha, e.2.1.trans h1, e.1.trans h2, hd⟩
  · rintro ⟨a, ha, h1, h2, h3⟩
    have : ({ s with dips := b } : ConfigSet).key a ∈ s.configs.map ({ s with dips := b } : ConfigSet).key := by
      rw [hh.keys, (firsts_spec _).2]; exact List.mem_map_of_mem ha
    obtain ⟨x, hx, e⟩ := List.mem_map.1 this
    have hd := (hh.den x hx _).2 ⟨a, ha, e.symm, h3⟩
    rw [key, key] at e
    simp only [Key.part.injEq] at e
    exact ⟨x, hx, e.2.1.trans h1, e.1.trans h2, hd⟩

theorem holds_sound {full d : Bool} {A : List Config} {s : ConfigSet} (hh : Holds full d A s)
    {T : Int → Pos → Prop} (h : ∀ a ∈ A, SoundC full T a) : ∀ c ∈ s.configs, SoundC full T c := by
  obtain ⟨⟨b, hi⟩, hw, hl⟩ := hh
  have key : ∀ c : Config, ({ s with dips := b } : ConfigSet).key c = .part c.state c.alt c.sem := by
    intro c; rw [ConfigSet.key, if_neg]; rw [hi.ord]; simp
  intro c hc
  have : ({ s with dips := b } : ConfigSet).key c ∈ A.map ({ s with dips := b } : ConfigSet).key := by
    rw [← (firsts_spec _).2, ← hi.keys]; exact List.mem_map_of_mem hc
  obtain ⟨a, ha, e⟩ := List.mem_map.1 this
  refine ⟨⟨hi.wf c hc, fun hf => hl hf c hc⟩, ?_, ?_⟩
  · rw [key, key] at e
    simp only [Key.part.injEq] at e
    rw [← e.2.2]; exact (h a ha).sem
  · intro st hst
    obtain ⟨a, ha, e1, e2, hd⟩ := hw c hc st hst
    rw [← e1, ← e2]
    exact (h a ha).all st hd

end Antlr.Prediction
