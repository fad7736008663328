import Verif.Prediction.Reach

/-!
# How an alternative begins

A thread of an alternative that has read a token: the alternative can begin with that token, or it can get
to the end of the rule of the decision without one.  Before the first token only those configurations have
finished the rule whose alternative can do the latter.
-/

namespace Antlr.Prediction
open Antlr StackSpec ConfigSet PC PredictionSpec LL1Spec

variable {I : Type}

theorem step_split {atn : ATN} {s : Nat} {k σ : List Nat} {p q : Pos} (hp : p = (s, k ++ σ)) (h : Step atn p q) :
    (∃ k', q.2 = k' ++ σ ∧ Step atn (s, k) (q.1, k')) ∨
    (k = [] ∧ ∃ st, atn.states[s]? = some st ∧ st.stateType = .ruleStop) := by
  cases h with
  | free h1 h2 h3 h4 =>
    cases hp
    exact .inl ⟨k, rfl, .free h1 h2 h3 h4⟩
  | call h1 h2 h3 =>
    cases hp
    exact .inl ⟨_ :: k, rfl, .call h1 h2 h3⟩
  | ret h1 h2 =>
    simp only [Prod.mk.injEq] at hp
    obtain ⟨rfl, hp⟩ := hp
    cases k with
    | nil => exact .inr ⟨rfl, _, h1, h2⟩
    | cons g k =>
      simp only [List.cons_append, List.cons.injEq] at hp
      obtain ⟨rfl, rfl⟩ := hp
      exact .inl ⟨k, rfl, .ret h1 h2⟩

/-- Where a thread can be before the first token: inside the alternative, or beyond the rule, if the
alternative can get to its end. -/
def Early (atn : ATN) (dec : ATNState) (σ : List Nat) (j : Int) (p : Pos) : Prop :=
  ∃ (i : Nat) (tr : Trans), j = ((i + 1 : Nat) : Int) ∧ dec.transitions[i]? = some tr ∧
    ((∃ k, p.2 = k ++ σ ∧ Reach atn (tr.target, []) (p.1, k)) ∨ CanEnd atn (tr.target, []))

theorem Early.step {atn : ATN} {dec : ATNState} {σ : List Nat} {j : Int} {p q : Pos} (h : Early atn dec σ j p)
    (hs : Step atn p q) : Early atn dec σ j q := by
  obtain ⟨i, tr, h1, h2, ⟨k, h3, h4⟩ | h3⟩ := h
  · refine ⟨i, tr, h1, h2, ?_⟩
    rcases step_split (s := p.1) (k := k) (σ := σ) (by rw [← h3]) hs with ⟨k', g1, g2⟩ | ⟨rfl, st, g1, g2⟩
    · exact .inl ⟨k', g1, h4.tail g2⟩
    · exact .inr ⟨_, st, h4, g1, g2⟩
  · exact ⟨i, tr, h1, h2, .inr h3⟩

theorem Early.falls {atn : ATN} {dec : ATNState} {σ : List Nat} {j : Int} {p : Pos} (h : Early atn dec σ j p)
    (he : Ended atn p) : Falls atn dec j := by
  obtain ⟨i, tr, h1, h2, ⟨k, h3, h4⟩ | h3⟩ := h
  · obtain ⟨e1, st, e2, e3⟩ := he
    rw [e1] at h3
    obtain ⟨rfl, -⟩ := List.append_eq_nil_iff.1 h3.symm
    exact ⟨i, tr, h1, h2, _, st, h4, e2, e3⟩
  · exact ⟨i, tr, h1, h2, h3⟩

theorem falls_begins {atn : ATN} {dec : ATNState} {k : Int} (h : Falls atn dec k) (t : Int) : Begins atn dec t k := by
  obtain ⟨i, tr, h1, h2, h3⟩ := h
  exact ⟨i, tr, h1, h2, .inr h3⟩

theorem live_begins {atn : ATN} {dec : ATNState} {σ : List Nat} {j : Int} {v : List Int} {p : Pos}
    (h : Live atn dec σ j v p) : (v = [] → Early atn dec σ j p) ∧ ∀ t l, v = t :: l → Begins atn dec t j := by
  induction h with
  | @start i tr h => exact ⟨fun _ => ⟨i, tr, rfl, h, .inl ⟨[], rfl, .refl⟩⟩, by simp⟩
  | silent _ hs ih => exact ⟨fun e => (ih.1 e).step hs, ih.2⟩
  | @read j v p q t h hs ih =>
    refine ⟨by simp, fun t' l e => ?_⟩
    cases v with
    | cons x v =>
      simp only [List.cons_append, List.cons.injEq] at e
      exact ih.2 t' v (by rw [e.1])
    | nil =>
      simp only [List.nil_append, List.cons.injEq] at e
      obtain ⟨rfl, -⟩ := e
      obtain ⟨i, tr, h1, h2, ⟨k, h3, h4⟩ | h3⟩ := ih.1 rfl
      · obtain ⟨st, tr', g1, g2, g3, g4, -⟩ := hs
        exact ⟨i, tr, h1, h2, .inl ⟨_, (tr'.target, k), h4, st, tr', g1, g2, g3, g4, rfl⟩⟩
      · exact ⟨i, tr, h1, h2, .inr h3⟩
  | more _ _ ih => exact ⟨fun e => absurd e (by simp), ih.2⟩

/-- An alternative that matches tokens can begin with the first of them. -/
theorem matches_begins {atn : ATN} {dec : ATNState} {S : List Nat → Prop} {t : Int} {l : List Int} {k : Int}
    (h : PredictionSpec.Matches atn dec S (t :: l) k) : Begins atn dec t k := by
  obtain ⟨σ, -, ⟨p, h⟩ | ⟨u, p, h1, h2, h3⟩⟩ := h
  · exact (live_begins h).2 t l rfl
  · cases u with
    | nil => exact falls_begins (((live_begins h2).1 rfl).falls h3) t
    | cons x u =>
      obtain ⟨r, hr⟩ := h1
      simp only [List.cons_append, List.cons.injEq] at hr
      exact (live_begins h2).2 t u (by rw [hr.1])

/-- Only those configurations have finished the rule whose alternative can get to its end without a token. -/
def Modest (atn : ATN) (dec : ATNState) (s : ConfigSet) : Prop :=
  ∀ c ∈ s.configs, Finished atn c → Falls atn dec c.alt

theorem early_goes (atn : ATN) (dec : ATNState) (full : Bool) (σ : List Nat) :
    Goes atn full false (Early atn dec σ) := by
  refine ⟨fun j p q h hs => h.step hs, ?_, by simp⟩
  intro hf j s st f x h h1 h2 _
  obtain ⟨i, tr, e1, e2, e3⟩ := h.falls (p := (s, [])) ⟨rfl, st, h1, h2⟩
  exact ⟨i, tr, e1, e2, .inr e3⟩

theorem edgeTo_same {eof : Bool} {c c' : Config} {tr : Trans} (h : edgeTo eof c tr = some c') :
    c'.alt = c.alt ∧ c'.reaches = c.reaches := by
  cases tr <;> simp only [edgeTo] at h <;> (try split at h) <;> simp at h <;> subst h <;> exact ⟨rfl, rfl⟩

theorem cls_early {atn : ATN} (ha : Plain atn) {dec : ATNState} {full : Bool} {σ : List Nat} :
    Cls atn full false (fun c => SoundC full (Early atn dec σ) c ∧ (0 < c.reaches → Falls atn dec c.alt)) := by
  have hg := cls_sound ha (early_goes atn dec full σ)
  refine ⟨fun c h => hg.fit c h.1, ?_⟩
  rintro c c' ⟨h1, h2⟩ hs
  refine ⟨hg.succ c c' h1 hs, ?_⟩
  cases hs with
  | @edge c' st tr e1 e2 e3 e4 =>
    obtain ⟨f1, f2⟩ := edgeTo_same e4
    unfold outOf
    split
    · rename_i hst
      intro _
      dsimp only
      rw [f1]
      have hpath : c.ctx.hasEmptyPath = true := by
        rcases (e2.resolve_left (fun h => h hst)).2 with h | h
        · exact wf_isEmpty_hasEmptyPath h1.wf h
        · exact h
      exact (h1.all [] ((StackProps.C29_has_empty_path _ h1.wf).1.1 hpath)).falls ⟨rfl, st, e1, hst⟩
    · rw [f1, f2]; exact h2
  | pop => exact h2

theorem den_nil {d : Bool} {c : PC} : Den d c [] ↔ HasStack c [] := by
  rw [den_iff, hasStack_iff]
  refine exists_congr fun e => and_congr_right fun _ => ?_
  obtain ⟨o, r⟩ := e
  cases o <;> simp [EDen]

theorem Inv.finished {f d : Bool} {A : List Config} {s : ConfigSet} (h : ConfigSet.Inv false f d A s) {atn : ATN}
    {c : Config} (hc : c ∈ s.configs) (hf : Finished atn c) : ∃ a ∈ A, a.alt = c.alt ∧ Finished atn a := by
  have key : ∀ c : Config, s.key c = .part c.state c.alt c.sem := by
    intro c; rw [ConfigSet.key, if_neg]; rw [h.ord]; simp
  rcases hf with hf | ⟨hs, hf⟩
  · obtain ⟨a, ha, e1, e2⟩ := (h.reach c hc).1
    rw [key, key] at e1
    simp only [Key.part.injEq] at e1
    exact ⟨a, ha, e1.2.1, .inl (by rw [← e2]; exact hf)⟩
  · obtain ⟨a, ha, e1, e2⟩ := (h.den c hc _).1 (den_nil.2 hf)
    rw [key, key] at e1
    simp only [Key.part.injEq] at e1
    exact ⟨a, ha, e1.2.1, .inr ⟨by rw [e1.1]; exact hs, den_nil.1 e2⟩⟩

/-- What has finished in the set had finished when it was added. -/
theorem Holds.finished {full d : Bool} {A : List Config} {s : ConfigSet} (h : Holds full d A s) {atn : ATN}
    {c : Config} (hc : c ∈ s.configs) (hf : Finished atn c) : ∃ a ∈ A, a.alt = c.alt ∧ Finished atn a := by
  obtain ⟨⟨b, h⟩, -, -⟩ := h
  exact Inv.finished h hc hf

theorem addPlain_inv {f d : Bool} (hd : f = false → d = true) {A cs : List Config} {s s' : ConfigSet}
    (hi : ConfigSet.Inv false f d A s) (hw : ∀ c ∈ cs, WF c.ctx) (h : addPlain cs s = some s') :
    ConfigSet.Inv false f d (A ++ cs) s' := by
  induction cs generalizing A s with
  | nil =>
    simp only [addPlain, Option.some.injEq] at h
    subst h; simpa using hi
  | cons c cs ih =>
    rw [addPlain, Option.bind_eq_some_iff] at h
    obtain ⟨⟨s1, m1⟩, h1, h⟩ := h
    obtain ⟨s2, m2, g1, g2, -, -⟩ := addCached_inv (d := d) (by simpa using hd) hi (hw c (by simp)) (mc := none)
      (by intro _ h; simp at h)
    rw [h1] at g1
    simp only [Option.some.injEq, Prod.mk.injEq] at g1
    obtain ⟨rfl, rfl⟩ := g1
    have := ih g2 (fun c hc => hw c (by simp [hc])) h
    simpa using this

/-- The configurations before the first token. -/
theorem computeStart_modest [TokStream I] {L : Local I} {fuel : Nat} {full d : Bool}
    (ha : Plain L.atn) (hp : L.isPrec = false) (hd : full = false → d = true) {ctx : PC} {dec : ATNState}
    (hdec : L.atn.states[L.atnStart]? = some dec)
    {mc mc' : PC.Cache} {inp inp' : I} {s : ConfigSet} {σ : List Nat} (hctx : Fit full ctx)
    (hst : ∀ k, HasStack ctx k → nats k = σ) (hm : CacheFit full d mc)
    (h : computeStart L fuel ctx full mc inp = some (s, mc', inp')) : Modest L.atn dec s := by
  rw [computeStart, hdec, Option.bind_some, Option.map_eq_some_iff] at h
  obtain ⟨w, hw, h⟩ := h
  simp only [Prod.mk.injEq] at h
  obtain ⟨rfl, rfl, rfl⟩ := h
  obtain ⟨N, A, g1, -, -, g4, -⟩ := startLoop_spec ha hp hd (cls_early ha (dec := dec) (σ := σ)) dec.transitions 0
    (fun i tr h => ⟨⟨hctx, rfl, fun k hk => ⟨i, tr, by simp, h, .inl ⟨[], by rw [hst k hk]; rfl, .refl⟩⟩⟩, by simp⟩)
    (by exact hm) (Holds.new full d) hw
  rw [List.nil_append] at g4
  intro c hc hfin
  obtain ⟨a, haA, e1, hfin⟩ := Holds.finished g4 hc hfin
  rw [← e1]
  obtain ⟨x, hx, h1⟩ := g1.out a haA
  obtain ⟨hs, hr⟩ := g1.cls x hx
  rcases hfin with hfin | ⟨⟨st, f1, f2⟩, e3⟩
  · cases h1 with
    | self => exact hr hfin
    | atEnd => exact hr hfin
    | someEnd => exact hr hfin
  · have key : HasStack x.ctx [] → x.state = a.state → Falls L.atn dec x.alt := fun h0 hx =>
      (hs.all [] h0).falls ⟨rfl, st, by rw [← hx] at f1; exact f1, f2⟩
    cases h1 with
    | self => exact key e3 rfl
    | atEnd => exact key e3 rfl
    | someEnd _ _ _ _ h5 => exact key ((StackProps.C29_has_empty_path _ hs.wf).1.1 h5) rfl

end Antlr.Prediction
