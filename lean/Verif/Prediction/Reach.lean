import Verif.Prediction.Verdict
import Verif.Prediction.Threads

/-!
# `compute_reach_set` and `compute_start_state` on an ATN without predicates
-/

namespace Antlr.Prediction
open Antlr StackSpec ConfigSet PC PredictionSpec LL1Spec

variable {I : Type}

/-- The configuration stands for threads that exist (`T`), or it is one that finished the outermost rule
before (`E`). -/
def SoundK (atn : ATN) (full : Bool) (T : Int → Pos → Prop) (E : Int → Prop) (c : Config) : Prop :=
  SoundC full T c ∨ (isStop atn c = true ∧ Fit full c.ctx ∧ c.sem = SC.NONE ∧ E c.alt)

theorem SoundK.fit {atn : ATN} {full : Bool} {T : Int → Pos → Prop} {E : Int → Prop} {c : Config}
    (h : SoundK atn full T E c) : Fit full c.ctx := h.elim (·.fit) (·.2.1)

theorem SoundK.wf {atn : ATN} {full : Bool} {T : Int → Pos → Prop} {E : Int → Prop} {c : Config}
    (h : SoundK atn full T E c) : WF c.ctx := h.fit.wf

theorem SoundK.sem {atn : ATN} {full : Bool} {T : Int → Pos → Prop} {E : Int → Prop} {c : Config}
    (h : SoundK atn full T E c) : c.sem = SC.NONE := h.elim (·.sem) (·.2.2.1)

theorem SoundK.mono {atn : ATN} {full : Bool} {T T' : Int → Pos → Prop} {E E' : Int → Prop} {c : Config}
    (h : SoundK atn full T E c) (hT : ∀ j p, T j p → T' j p) (hE : ∀ j, E j → E' j) : SoundK atn full T' E' c :=
  h.elim (fun h => .inl (h.mono (hT _))) (fun h => .inr ⟨h.1, h.2.1, h.2.2.1, hE _ h.2.2.2⟩)

theorem holds_soundK {atn : ATN} {full d : Bool} {A : List Config} {s : ConfigSet} (hh : Holds full d A s)
    {T : Int → Pos → Prop} {E : Int → Prop} (h : ∀ a ∈ A, SoundK atn full T E a) :
    ∀ c ∈ s.configs, SoundK atn full T E c := by
  obtain ⟨⟨b, hi⟩, hw, hl⟩ := hh
  have key : ∀ c : Config, ({ s with dips := b } : ConfigSet).key c = .part c.state c.alt c.sem := by
    intro c; rw [ConfigSet.key, if_neg]; rw [hi.ord]; simp
  intro c hc
  have : ({ s with dips := b } : ConfigSet).key c ∈ A.map ({ s with dips := b } : ConfigSet).key := by
    rw [← (firsts_spec _).2, ← hi.keys]; exact List.mem_map_of_mem hc
  obtain ⟨a, ha, e⟩ := List.mem_map.1 this
  have hsem : c.sem = SC.NONE := by
    rw [key, key] at e
    simp only [Key.part.injEq] at e
    rw [← e.2.2]; exact (h a ha).sem
  have hfit : Fit full c.ctx := ⟨hi.wf c hc, fun hf => hl hf c hc⟩
  by_cases hk : ∃ a ∈ A, a.state = c.state ∧ a.alt = c.alt ∧ isStop atn a = true ∧ E a.alt
  · obtain ⟨a, ha, e1, e2, e3, e4⟩ := hk
    refine .inr ⟨?_, hfit, hsem, e2 ▸ e4⟩
    unfold isStop at e3 ⊢
    rw [← e1]; exact e3
  · refine .inl ⟨hfit, hsem, ?_⟩
    intro st hst
    obtain ⟨a, ha, e1, e2, hd⟩ := hw c hc st hst
    rcases h a ha with h | h
    · rw [← e1, ← e2]; exact h.all st hd
    · exact absurd ⟨a, ha, e1, e2, h.1, h.2.2.2⟩ hk

theorem holds_mem {full d : Bool} {A : List Config} {s : ConfigSet} (hh : Holds full d A s) {c : Config}
    (hc : c ∈ s.configs) : ∃ a ∈ A, a.state = c.state ∧ a.alt = c.alt ∧ a.sem = c.sem := by
  obtain ⟨⟨b, hh⟩, -, -⟩ := hh
  have key : ∀ c : Config, ({ s with dips := b } : ConfigSet).key c = .part c.state c.alt c.sem := by
    intro c; rw [ConfigSet.key, if_neg]; rw [hh.ord]; simp
  have : ({ s with dips := b } : ConfigSet).key c ∈ A.map ({ s with dips := b } : ConfigSet).key := by
    rw [← (firsts_spec _).2, ← hh.keys]; exact List.mem_map_of_mem hc
  obtain ⟨a, ha, e⟩ := List.mem_map.1 this
  rw [key, key] at e
  simp only [Key.part.injEq] at e
  exact ⟨a, ha, e⟩

theorem Holds.new (full d : Bool) : Holds full d [] (.newBase full) :=
  ⟨⟨false, newBase_inv full d⟩, by simp [newBase], by simp [newBase]⟩

theorem Holds.fullCtx {full d : Bool} {A : List Config} {s : ConfigSet} (h : Holds full d A s) : s.fullCtx = full := by
  obtain ⟨⟨b, h⟩, -, -⟩ := h; exact h.full

theorem Holds.hasSem {full d : Bool} {A : List Config} {s : ConfigSet} (h : Holds full d A s)
    (hs : ∀ a ∈ A, a.sem = SC.NONE) : s.hasSem = false := by
  obtain ⟨⟨b, h⟩, -, -⟩ := h
  rw [Bool.eq_false_iff]
  intro he
  obtain ⟨a, ha, hne⟩ := h.hasSem.1 he
  exact hne (hs a ha)

/-! ### Reading a token -/

theorem cloned_eq {atn : ATN} {c c' : Config} {t : Nat} (h : cloned atn c t = some c') : c' = { c with state := t } := by
  rw [cloned, Option.map_eq_some_iff] at h
  obtain ⟨_, _, h⟩ := h; exact h.symm

theorem reachTrans_spec {atn : ATN} (ha : Plain atn) {full d : Bool} (hd : full = false → d = true) {t : Int} {c : Config}
    {st : ATNState} (hst : atn.states[c.state]? = some st) (hc : Fit full c.ctx) (trs : List Trans)
    (htr : ∀ tr ∈ trs, tr ∈ st.transitions) {acc acc' : ConfigSet × PC.Cache} {added : List Config}
    (hh : Holds full d added acc.1) (hm : CacheFit full d acc.2) (h : reachTrans atn t c trs acc = some acc') :
    ∃ A, Holds full d (added ++ A) acc'.1 ∧ CacheFit full d acc'.2 ∧
      ∀ a, a ∈ A ↔ ∃ tr ∈ trs, Takes atn.maxTokenType tr t ∧ a = { c with state := tr.target } := by
  induction trs generalizing acc added with
  | nil =>
    simp only [reachTrans, Option.some.injEq] at h
    subst h
    exact ⟨[], by simpa using hh, hm, by simp⟩
  | cons tr trs ih =>
    rw [reachTrans] at h
    obtain ⟨b, hb, h⟩ := Option.bind_eq_some_iff.1 h
    have hiff := matches_iff ha hst (htr tr (by simp)) hb
    cases b with
    | false =>
      simp only [Bool.false_eq_true, if_false] at h
      obtain ⟨A, h1, h2, h3⟩ := ih (fun x hx => htr x (by simp [hx])) hh hm h
      refine ⟨A, h1, h2, ?_⟩
      intro a
      rw [h3]
      simp only [Bool.false_eq_true, false_iff] at hiff
      simp [hiff]
    | true =>
      simp only [if_true] at h
      rw [Option.bind_eq_some_iff] at h
      obtain ⟨c', hc', h⟩ := h
      have e := cloned_eq hc'
      subst e
      rw [Option.bind_eq_some_iff] at h
      obtain ⟨⟨s', o⟩, h1, h⟩ := h
      rw [Option.bind_eq_some_iff] at h
      obtain ⟨mc', h2, h⟩ := h
      dsimp only at h2 h
      subst h2
      obtain ⟨g1, g2⟩ := holds_addCached hd hh (by exact hc) hm h1
      obtain ⟨A, k1, k2, k3⟩ := ih (acc := (s', mc')) (fun x hx => htr x (by simp [hx])) g1 g2 h
      refine ⟨{ c with state := tr.target } :: A, ?_, k2, ?_⟩
      · rw [List.append_cons]; exact k1
      · intro a
        simp only [true_iff] at hiff
        simp [k3, hiff]

theorem isStop_iff {atn : ATN} {c : Config} {st : ATNState} (h : atn.states[c.state]? = some st) :
    isStop atn c = true ↔ st.stateType = .ruleStop := by simp [isStop, h]

/-- What reading `t` from `c` gives. -/
def ReadC (atn : ATN) (t : Int) (c a : Config) : Prop :=
  ∃ st tr, atn.states[c.state]? = some st ∧ st.stateType ≠ .ruleStop ∧ tr ∈ st.transitions ∧
    Takes atn.maxTokenType tr t ∧ a = { c with state := tr.target }

theorem reachLoop_spec {atn : ATN} (ha : Plain atn) {full d : Bool} (hd : full = false → d = true) {t : Int}
    (cs : List Config) (hc : ∀ c ∈ cs, Fit full c.ctx) {acc : ConfigSet × PC.Cache} {sk : List Config}
    {im : ConfigSet} {mc' : PC.Cache} {sk' : List Config} {added : List Config}
    (hh : Holds full d added acc.1) (hm : CacheFit full d acc.2)
    (h : reachLoop atn t full cs acc sk = some (im, mc', sk')) :
    ∃ A S, Holds full d (added ++ A) im ∧ CacheFit full d mc' ∧
      (∀ a, a ∈ A ↔ ∃ c ∈ cs, ReadC atn t c a) ∧ sk' = sk ++ S ∧
      (∀ x, x ∈ S ↔ x ∈ cs ∧ isStop atn x = true ∧ (full = true ∨ t = TOKEN_EOF)) ∧
      (∀ c ∈ cs, isStop atn c = true → c.ctx = EMPTY) := by
  induction cs generalizing acc sk added with
  | nil =>
    simp only [reachLoop, Option.some.injEq, Prod.mk.injEq] at h
    obtain ⟨h1, h2, h3⟩ := h
    subst h1 h2 h3
    exact ⟨[], [], by simpa using hh, hm, by simp, by simp, by simp, by simp⟩
  | cons c cs ih =>
    rw [reachLoop] at h
    obtain ⟨st, hst, h⟩ := Option.bind_eq_some_iff.1 h
    by_cases hs : st.stateType = .ruleStop
    · rw [if_pos hs] at h
      split at h
      · rename_i hem
        obtain ⟨A, S, h1, h2, h3, h4, h5, h6⟩ := ih (fun x hx => hc x (by simp [hx])) hh hm h
        have hrd : ∀ a, ¬ ReadC atn t c a := by
          rintro a ⟨st', tr, e1, e2, _⟩
          rw [hst] at e1; cases e1; exact e2 hs
        refine ⟨A, (if full || t == TOKEN_EOF then [c] else []) ++ S, h1, h2, ?_, ?_, ?_, ?_⟩
        · intro a; rw [h3]; simp [hrd]
        · rw [h4]; split <;> simp
        · intro x
          simp only [List.mem_append, h5, List.mem_cons]
          have := (isStop_iff hst).2 hs
          split
          · rename_i e
            simp only [Bool.or_eq_true, beq_iff_eq] at e
            simp only [List.mem_singleton]
            constructor
            · rintro (rfl | h)
              · exact ⟨.inl rfl, this, e⟩
              · exact ⟨.inr h.1, h.2⟩
            · rintro ⟨rfl | h, h2⟩
              · exact .inl rfl
              · exact .inr ⟨h, h2⟩
          · rename_i e
            simp only [Bool.or_eq_true, beq_iff_eq] at e
            simp only [List.not_mem_nil, false_or]
            constructor
            · rintro h; exact ⟨.inr h.1, h.2⟩
            · rintro ⟨_, h2, h3⟩; exact absurd h3 e
        · intro x hx hxs
          rcases List.mem_cons.1 hx with rfl | hx
          · exact (wf_isEmpty (hc x (by simp)).wf).1 hem
          · exact h6 x hx hxs
      · simp at h
    · rw [if_neg hs] at h
      obtain ⟨acc1, h1, h⟩ := Option.bind_eq_some_iff.1 h
      obtain ⟨A1, g1, g2, g3⟩ := reachTrans_spec ha hd hst (hc c (by simp)) _ (fun _ h => h) hh hm h1
      obtain ⟨A, S, h1, h2, h3, h4, h5, h6⟩ := ih (fun x hx => hc x (by simp [hx])) g1 g2 h
      have hns : isStop atn c = false := by
        rw [Bool.eq_false_iff]; intro h; exact hs ((isStop_iff hst).1 h)
      refine ⟨A1 ++ A, S, ?_, h2, ?_, h4, ?_, ?_⟩
      · rw [← List.append_assoc]; exact h1
      · intro a
        rw [List.mem_append, g3, h3]
        simp only [List.mem_cons, exists_eq_or_imp]
        refine or_congr ?_ Iff.rfl
        constructor
        · rintro ⟨tr, e1, e2, e3⟩; exact ⟨st, tr, hst, hs, e1, e2, e3⟩
        · rintro ⟨st', tr, e1, e2, e3, e4, e5⟩
          rw [hst] at e1; cases e1; exact ⟨tr, e3, e4, e5⟩
      · intro x
        rw [h5]
        simp only [List.mem_cons]
        constructor
        · rintro ⟨e1, e2⟩; exact ⟨.inr e1, e2⟩
        · rintro ⟨rfl | e1, e2, e3⟩
          · rw [hns] at e2; simp at e2
          · exact ⟨e1, e2, e3⟩
      · intro x hx hxs
        rcases List.mem_cons.1 hx with rfl | hx
        · rw [hns] at hxs; simp at hxs
        · exact h6 x hx hxs

/-! ### Closure of a list -/

theorem closeAll_grown [TokStream I] {L : Local I} {fuel : Nat} {full eof d : Bool} {Q : Config → Prop}
    (ha : Plain L.atn) (hp : L.isPrec = false) (hd : full = false → d = true) (hcls : Cls L.atn full eof Q)
    (cs : List Config) (hq : ∀ c ∈ cs, Q c) {w w' : Work I} {K : Config → Prop}
    (hm : CacheFit full d w.mc) (hb : ∀ b ∈ w.busy, K b) {added : List Config}
    (hh : Holds full d added w.configs) (h : closeAll L fuel full eof cs w = some w') :
    ∃ N A, Grown L.atn full eof d Q K added w N A w' ∧ ∀ c ∈ cs, N c := by
  induction cs generalizing w K added with
  | nil =>
    simp only [closeAll, Option.some.injEq] at h
    subst h
    exact ⟨_, _, .nil hb hm hh, by simp⟩
  | cons c cs ih =>
    rw [closeAll] at h
    rw [Option.bind_eq_some_iff] at h
    obtain ⟨w1, h1, h⟩ := h
    rw [closure, Option.bind_eq_some_iff] at h1
    obtain ⟨w2, h1, h3⟩ := h1
    split at h3
    · simp at h3
    · simp only [Option.some.injEq] at h3
      subst h3
      obtain ⟨N1, A1, n1, g1⟩ := closureCheck_ok ha hp hd hcls fuel c false 0 w w2 K added (hq c (by simp)) hm hh
        (fun b h => .inl (hb b h)) h1
      obtain ⟨N2, A2, g2, e2⟩ := ih (fun x hx => hq x (by simp [hx])) g1.cache g1.busy g1.holds h
      refine ⟨_, _, g1.trans g2, ?_⟩
      intro x hx
      rcases List.mem_cons.1 hx with rfl | hx
      · exact .inl n1
      · exact .inr (e2 x hx)

/-- The configurations of a closure. -/
structure Closed (atn : ATN) (full eof : Bool) (Q N : Config → Prop) (A : List Config) : Prop where
  cls : ∀ x, N x → Q x
  closed : ClosedU atn full eof N
  into : ∀ x, N x → ∀ y, Adds atn full x y → y ∈ A
  out : ∀ y ∈ A, ∃ x, N x ∧ Adds atn full x y

theorem Grown.toClosed {atn : ATN} {full eof d : Bool} {Q N : Config → Prop} {added A : List Config} {w w' : Work I}
    (h : Grown atn full eof d Q (fun _ => False) added w N A w') : Closed atn full eof Q N A :=
  ⟨h.cls, fun x hx y hy => by obtain ⟨z, hz, e⟩ := h.closed x hx y hy; exact ⟨z, by tauto, e⟩, h.into, h.out⟩

theorem startLoop_spec [TokStream I] {L : Local I} {fuel : Nat} {full d : Bool} {Q : Config → Prop} {ctx : PC}
    (ha : Plain L.atn) (hp : L.isPrec = false) (hd : full = false → d = true) (hcls : Cls L.atn full false Q)
    (trs : List Trans) (n : Nat)
    (hq : ∀ i tr, trs[i]? = some tr → Q { state := tr.target, alt := ((n + i + 1 : Nat) : Int), ctx := ctx })
    {w w' : Work I} (hm : CacheFit full d w.mc) {added : List Config}
    (hh : Holds full d added w.configs) (h : startLoop L fuel ctx full trs n w = some w') :
    ∃ N A, Closed L.atn full false Q N A ∧ w'.inp = w.inp ∧ CacheFit full d w'.mc ∧
      Holds full d (added ++ A) w'.configs ∧
      ∀ i tr, trs[i]? = some tr → N { state := tr.target, alt := ((n + i + 1 : Nat) : Int), ctx := ctx } := by
  induction trs generalizing w added n with
  | nil =>
    simp only [startLoop, Option.some.injEq] at h
    subst h
    exact ⟨fun _ => False, [], ⟨by simp, by simp [ClosedU], by simp, by simp⟩, rfl, hm, by simpa using hh, by simp⟩
  | cons tr trs ih =>
    rw [startLoop] at h
    rw [Option.bind_eq_some_iff] at h
    obtain ⟨c, hc, h⟩ := h
    have e := cloned_eq hc
    simp only at e
    subst e
    rw [Option.bind_eq_some_iff] at h
    obtain ⟨w1, h1, h⟩ := h
    rw [closure, Option.bind_eq_some_iff] at h1
    obtain ⟨w2, h1, h3⟩ := h1
    split at h3
    · simp at h3
    · simp only [Option.some.injEq] at h3
      subst h3
      obtain ⟨N1, A1, n1, g1⟩ := closureCheck_ok ha hp hd hcls fuel _ true 0 { w with busy := [] } w2 (fun _ => False) added
        (by simpa using hq 0 tr rfl) hm hh (by simp) h1
      obtain ⟨N2, A2, g2, i2, m2, h2, e2⟩ := ih (n + 1) (fun i x hx => by
        have := hq (i + 1) x (by simpa using hx)
        rw [show n + 1 + i + 1 = n + (i + 1) + 1 by omega]; exact this) g1.cache g1.holds h
      have c1 := g1.toClosed
      refine ⟨fun x => N1 x ∨ N2 x, A1 ++ A2, ⟨?_, ?_, ?_, ?_⟩, i2.trans g1.inp, m2, ?_, ?_⟩
      · rintro x (hx | hx)
        · exact c1.cls x hx
        · exact g2.cls x hx
      · rintro x (hx | hx) y hy
        · obtain ⟨z, hz, e⟩ := c1.closed x hx y hy; exact ⟨z, .inl hz, e⟩
        · obtain ⟨z, hz, e⟩ := g2.closed x hx y hy; exact ⟨z, .inr hz, e⟩
      · rintro x (hx | hx) y hy
        · exact List.mem_append_left _ (c1.into x hx y hy)
        · exact List.mem_append_right _ (g2.into x hx y hy)
      · intro y hy
        rcases List.mem_append.1 hy with hy | hy
        · obtain ⟨x, hx, h⟩ := c1.out y hy; exact ⟨x, .inl hx, h⟩
        · obtain ⟨x, hx, h⟩ := g2.out y hy; exact ⟨x, .inr hx, h⟩
      · rw [← List.append_assoc]; exact h2
      · intro i x hx
        cases i with
        | zero => simp at hx; subst hx; exact .inl n1
        | succ i =>
          have := e2 i x (by simpa using hx)
          rw [show n + (i + 1) + 1 = n + 1 + i + 1 by omega]; exact .inr this

/-- What a closure adds stands for threads that exist. -/
theorem Closed.sound {atn : ATN} {full eof : Bool} {T : Int → Pos → Prop} {N : Config → Prop} {A : List Config}
    (h : Closed atn full eof (SoundC full T) N A) : ∀ a ∈ A, SoundC full T a := by
  intro a ha
  obtain ⟨x, hx, h1⟩ := h.out a ha
  have hs := h.cls x hx
  cases h1 with
  | self => exact hs
  | atEnd => exact hs
  | someEnd h1 h2 h3 h4 h5 =>
    refine ⟨.empty _, hs.sem, ?_⟩
    intro s hsd
    refine hs.all s ?_
    cases hsd
    exact (StackProps.C29_has_empty_path _ hs.wf).1.1 h5

/-- Closure adds configurations for all threads worth going on with. -/
theorem Closed.covers {atn : ATN} (ha : Plain atn) {full eof : Bool} {Q N : Config → Prop} {A : List Config}
    (h : Closed atn full eof Q N A) (hw : ∀ x, Q x → WF x.ctx) {j : Int} {p : Pos} (hc : Covers (!full) N j p)
    (hp : Worth atn full p) : Covers (!full) (· ∈ A) j p := by
  obtain ⟨x, hx, rfl, e, hd⟩ := hc
  have hwf := hw x (h.cls x hx)
  rcases hp with ⟨st, h1, h2, tr, h3, h4⟩ | ⟨⟨h1, st, h2, h3⟩, h4⟩
  · refine ⟨x, h.into x hx x (.self (st := st) (by rw [e]; exact h1) (.inl h2) ?_), rfl, e, hd⟩
    rw [Bool.eq_false_iff]
    intro he
    have := ((ha.marks _ _ h1).1 he).2 tr h3
    rw [h4] at this; simp at this
  · obtain ⟨s, k⟩ := p
    dsimp only at h1 h2 e hd
    subst h1
    have hempty : x.ctx.hasEmptyPath = true ∧ Den (!full) EMPTY (ints []) := by
      cases full with
      | true =>
        simp only [Bool.not_true, Den, Bool.false_eq_true, if_false] at hd ⊢
        exact ⟨(StackProps.C29_has_empty_path _ hwf).1.2 hd, .bottomS⟩
      | false =>
        simp only [Bool.not_false, Den, if_true] at hd ⊢
        obtain ⟨t, u, e1, e2⟩ := hd
        simp only [List.map_nil] at e1
        have : t = [] := by
          cases t with
          | nil => rfl
          | cons => simp at e1
        subst this
        exact ⟨(StackProps.C29_has_empty_path _ hwf).1.2 e2, [], [], rfl, .bottomS⟩
    cases full with
    | true =>
      by_cases hem : x.ctx.isEmpty = true
      · exact ⟨x, h.into x hx x (.atEnd (by rw [e]; exact h2) h3 rfl hem), rfl, e, hd⟩
      · exact ⟨_, h.into x hx _ (.someEnd (by rw [e]; exact h2) h3 rfl (by simpa using hem) hempty.1), rfl, e, hempty.2⟩
    | false =>
      simp only [Bool.false_eq_true, false_or] at h4
      refine ⟨x, h.into x hx x (.self (st := st) (by rw [e]; exact h2) (.inr ⟨rfl, .inr hempty.1⟩) ?_), rfl, e, hd⟩
      rw [Bool.eq_false_iff]
      intro he
      exact ((ha.marks _ _ h2).1 he).1 (h4 st h2)

theorem addEach_spec {full d : Bool} (hd : full = false → d = true) (cs : List Config) (hc : ∀ c ∈ cs, Fit full c.ctx)
    {s s' : ConfigSet} {mc mc' : PC.Cache} {added : List Config} (hh : Holds full d added s) (hm : CacheFit full d mc)
    (h : addEach cs s mc = some (s', mc')) : Holds full d (added ++ cs) s' ∧ CacheFit full d mc' := by
  induction cs generalizing s mc added with
  | nil =>
    simp only [addEach, Option.some.injEq, Prod.mk.injEq] at h
    obtain ⟨rfl, rfl⟩ := h
    exact ⟨by simpa using hh, hm⟩
  | cons c cs ih =>
    rw [addEach] at h
    obtain ⟨⟨s1, o⟩, h1, h⟩ := Option.bind_eq_some_iff.1 h
    obtain ⟨mc1, h2, h⟩ := Option.bind_eq_some_iff.1 h
    dsimp only at h2 h
    subst h2
    obtain ⟨g1, g2⟩ := holds_addCached hd hh (hc c (by simp)) hm h1
    have := ih (fun x hx => hc x (by simp [hx])) g1 g2 h
    rw [List.append_cons]; exact this

theorem keepStops_spec {atn : ATN} {full d : Bool} (hd : full = false → d = true) {s s' : ConfigSet}
    {mc mc' : PC.Cache} {R : List Config} (hR : ∀ a ∈ R, a.sem = SC.NONE) (hh : Holds full d R s) (hw : ∀ c ∈ s.configs, Fit full c.ctx)
    (hm : CacheFit full d mc) (h : keepStops atn s mc = some (s', mc')) :
    ∃ R', Holds full d R' s' ∧ CacheFit full d mc' ∧ (∀ a ∈ R', a ∈ s.configs ∨ a ∈ R) ∧
      (∀ c ∈ s'.configs, isStop atn c = true) ∧
      (∀ j p, Covers d (· ∈ s.configs) j p → (∃ st, atn.states[p.1]? = some st ∧ st.stateType = .ruleStop) →
        Covers d (· ∈ s'.configs) j p) := by
  rw [keepStops] at h
  split at h
  · rename_i hall
    simp only [Option.some.injEq, Prod.mk.injEq] at h
    obtain ⟨rfl, rfl⟩ := h
    rw [List.all_eq_true] at hall
    exact ⟨R, hh, hm, fun a h => .inr h, hall, fun j p h _ => h⟩
  · have hnew := Holds.new full d
    rw [hh.fullCtx] at h
    obtain ⟨g1, g2⟩ := addEach_spec hd _ (fun c hc => hw c (List.mem_filter.1 hc).1) hnew hm h
    rw [List.nil_append] at g1
    have hsem : ∀ a ∈ s.configs.filter (isStop atn), a.sem = SC.NONE := by
      intro a ha
      obtain ⟨b, hb, -, -, e⟩ := holds_mem hh (List.mem_filter.1 ha).1
      exact e ▸ hR b hb
    refine ⟨_, g1, g2, fun a h => .inl (List.mem_filter.1 h).1, ?_, ?_⟩
    · intro c hc
      obtain ⟨a, ha, e, -⟩ := holds_mem g1 hc
      have := (List.mem_filter.1 ha).2
      unfold isStop at this ⊢
      rw [← e]; exact this
    · rintro j p ⟨x, hx, h1, h2, h3⟩ ⟨st, e1, e2⟩
      rw [holds_covers g1 hsem]
      exact ⟨x, List.mem_filter.2 ⟨hx, (isStop_iff (by rw [h2]; exact e1)).2 e2⟩, h1, h2, h3⟩

/-! ### Unique alternatives -/

theorem uniqueAltLoop_spec (cs : List Config) (a : Int) (h : uniqueAltLoop cs a ≠ INVALID_ALT) :
    (a ≠ INVALID_ALT → uniqueAltLoop cs a = a) ∧ ∀ c ∈ cs, c.alt = INVALID_ALT ∨ c.alt = uniqueAltLoop cs a := by
  induction cs generalizing a with
  | nil => simp [uniqueAltLoop]
  | cons c cs ih =>
    rw [uniqueAltLoop] at h ⊢
    split at h
    · rename_i ha
      rw [if_pos ha]
      obtain ⟨h1, h2⟩ := ih _ h
      refine ⟨fun h => absurd ha h, ?_⟩
      intro x hx
      rcases List.mem_cons.1 hx with rfl | hx
      · by_cases h0 : x.alt = INVALID_ALT
        · exact .inl h0
        · exact .inr (h1 h0).symm
      · exact h2 x hx
    · rename_i ha
      rw [if_neg ha]
      split at h
      · simp at h
      · rename_i hc
        rw [if_neg hc]
        obtain ⟨h1, h2⟩ := ih _ h
        refine ⟨fun _ => h1 ha, ?_⟩
        intro x hx
        rcases List.mem_cons.1 hx with rfl | hx
        · right; rw [h1 ha]; simpa using hc
        · exact h2 x hx

theorem uniqueAlt_all {s : ConfigSet} (h : uniqueAlt s ≠ INVALID_ALT) (hpos : ∀ c ∈ s.configs, 1 ≤ c.alt) :
    ∀ c ∈ s.configs, c.alt = uniqueAlt s := by
  intro c hc
  rcases (uniqueAltLoop_spec _ _ h).2 c hc with e | e
  · have := hpos c hc; rw [e] at this; simp [INVALID_ALT] at this
  · exact e

theorem uniqueAlt_mem {s : ConfigSet} (h : uniqueAlt s ≠ INVALID_ALT) : ∃ c ∈ s.configs, c.alt = uniqueAlt s := by
  have : ∀ cs a, uniqueAltLoop cs a ≠ INVALID_ALT → uniqueAltLoop cs a = a ∨ ∃ c ∈ cs, c.alt = uniqueAltLoop cs a := by
    intro cs
    induction cs with
    | nil => simp [uniqueAltLoop]
    | cons c cs ih =>
      intro a h
      rw [uniqueAltLoop] at h ⊢
      split at h
      · rename_i ha
        rw [if_pos ha]
        rcases ih _ h with e | ⟨x, hx, e⟩
        · exact .inr ⟨c, by simp, e.symm⟩
        · exact .inr ⟨x, by simp [hx], e⟩
      · rename_i ha
        rw [if_neg ha]
        split at h
        · simp at h
        · rename_i hc
          rw [if_neg hc]
          rcases ih _ h with e | ⟨x, hx, e⟩
          · exact .inl e
          · exact .inr ⟨x, by simp [hx], e⟩
  rcases this _ _ h with e | h
  · rw [uniqueAlt] at h; exact absurd e h
  · exact h

/-! ### `compute_reach_set` -/

theorem readStep_waits {atn : ATN} {t : Int} {p q : Pos} (h : ReadStep atn t p q) : Waits atn p := by
  obtain ⟨st, tr, h1, h2, h3, h4, -⟩ := h
  refine ⟨st, h1, h2, tr, h3, ?_⟩
  cases tr <;> simp [Takes] at h4 <;> rfl

/-- How threads `C1` after the token arise from the threads `C0` before. -/
def Generated (atn : ATN) (t : Int) (C0 C1 : Int → Pos → Prop) : Prop :=
  ∀ P : Int → Pos → Prop, (∀ j p q, C0 j p → ReadStep atn t p q → P j q) →
    (∀ j p q, C1 j p → P j p → Step atn p q → P j q) →
    (t = TOKEN_EOF → ∀ j p q, C1 j p → P j p → ReadStep atn TOKEN_EOF p q → P j q) →
    ∀ j p, C1 j p → P j p

/-- Where the configurations of a finished set stand: past the last rule with nothing to return to, or where something
can be read. -/
structure Ripe (atn : ATN) (c : Config) : Prop where
  stop : isStop atn c = true → c.ctx = EMPTY
  wait : isStop atn c = true ∨ ∃ st, atn.states[c.state]? = some st ∧ st.epsilonOnly = false

/-- The outcome of `compute_reach_set`. -/
structure Reached (atn : ATN) (full d : Bool) (t : Int) (T1 : Int → Pos → Prop) (E : Int → Prop) (s : ConfigSet) :
    Prop where
  ne : s.configs ≠ []
  noSem : s.hasSem = false
  fullCtx : s.fullCtx = full
  holds : ∃ R, Holds full d R s
  eof : t = TOKEN_EOF → ∀ c ∈ s.configs, isStop atn c = true
  sound : ∀ c ∈ s.configs, SoundK atn full T1 E c
  stops : uniqueAlt s = INVALID_ALT → ∀ c ∈ s.configs, Ripe atn c

theorem only_empty {c : PC} (h : WF c) (hs : ∀ st, HasStack c st → st = []) : c = EMPTY := by
  by_contra hne
  have hsome : ∃ p r, (some p, r) ∈ c.entries := by
    cases h with
    | empty => exact absurd rfl hne
    | single h1 h2 => exact ⟨_, _, by simp [entries]; exact ⟨rfl, rfl⟩⟩
    | @array l h1 h2 h3 h4 h5 =>
      match l, h1, h2, h3 with
      | (some p, r) :: l, _, _, _ => exact ⟨p, r, by simp [entries]⟩
      | (none, r) :: (some p, q) :: l, _, _, _ => exact ⟨p, q, by simp [entries]⟩
      | (none, r) :: (none, q) :: l, _, h2, h3 =>
        have e1 := h3 r (by simp)
        have e2 := h3 q (by simp)
        simp only [List.pairwise_cons, List.mem_cons, forall_eq_or_imp] at h2
        have := h2.1.1
        rw [e1, e2] at this
        simp at this
  obtain ⟨p, r, hm⟩ := hsome
  obtain ⟨s, hp⟩ := wf_nonempty_stack ((wf_entries h).2 _ hm).2
  have := hs (r :: s) (den_pop (d := false) hm hp)
  simp at this

theorem isStop_state {atn : ATN} {a c : Config} (e : a.state = c.state) (h : isStop atn c = true) :
    isStop atn a = true := by
  unfold isStop at h ⊢; rw [e]; exact h

theorem holds_stops {atn : ATN} {full d : Bool} {A : List Config} {s : ConfigSet} (hh : Holds full d A s)
    (h : ∀ a ∈ A, Ripe atn a) : ∀ c ∈ s.configs, Ripe atn c := by
  intro c hc
  obtain ⟨x, hx, e, -⟩ := holds_mem hh hc
  obtain ⟨⟨b, hi⟩, hw, -⟩ := hh
  refine ⟨fun hst => only_empty (hi.wf c hc) ?_, ?_⟩
  · intro st hs
    obtain ⟨a, ha, e1, -, e2⟩ := hw c hc st hs
    rw [(h a ha).stop (isStop_state e1 hst)] at e2
    cases e2; rfl
  · rcases (h x hx).wait with h1 | h1
    · exact .inl (isStop_state e.symm h1)
    · rw [e] at h1; exact .inr h1

theorem Closed.stops {atn : ATN} {full eof : Bool} {T : Int → Pos → Prop} {N : Config → Prop} {A : List Config}
    (h : Closed atn full eof (SoundC full T) N A) : ∀ a ∈ A, Ripe atn a := by
  intro a ha
  obtain ⟨x, hx, h1⟩ := h.out a ha
  have hq := h.cls x hx
  cases h1 with
  | @self st e1 e2 e4 =>
    refine ⟨fun hs => ?_, .inr ⟨st, e1, e4⟩⟩
    rcases e2 with e2 | ⟨e2, e3⟩
    · exact absurd ((isStop_iff e1).1 hs) e2
    · have hp : a.ctx.hasEmptyPath = true := by
        rcases e3 with h | h
        · exact wf_isEmpty_hasEmptyPath hq.wf h
        · exact h
      exact loc_path (hq.fit.loc e2) hq.wf hp
  | atEnd e1 e2 _ e => exact ⟨fun _ => (wf_isEmpty hq.wf).1 e, .inl ((isStop_iff e1).2 e2)⟩
  | @someEnd st e1 e2 => exact ⟨fun _ => rfl, .inl ((isStop_iff (c := { x with ctx := EMPTY }) e1).2 e2)⟩

theorem computeReach_spec [TokStream I] {L : Local I} {fuel : Nat} {full d : Bool}
    (ha : Plain L.atn) (hp : L.isPrec = false) (hd : full = false → d = true) {cs : ConfigSet} {t : Int}
    {mc mc' : PC.Cache} {inp inp' : I} {r : Option ConfigSet} {T0 T1 : Int → Pos → Prop} {E : Int → Prop}
    (hT : ∀ j p q, T0 j p → ReadStep L.atn t p q → T1 j q) (hg : Goes L.atn full (t == TOKEN_EOF) T1)
    (hpos : ∀ j p, T1 j p → 1 ≤ j)
    (hcs : ∀ c ∈ cs.configs, SoundK L.atn full T0 E c) (hm : CacheFit full d mc)
    (h : computeReach L fuel cs t full mc inp = some (r, mc', inp')) :
    inp' = inp ∧ CacheFit full d mc' ∧
    (∀ s, r = some s →
      Reached L.atn full d t T1 (fun j => E j ∨ ∃ p, T0 j p ∧ Ended L.atn p) s) ∧
    (d = (!full) → ∀ C0 C1 : Int → Pos → Prop, Generated L.atn t C0 C1 → (∀ j p, C1 j p → Fair L.atn p) →
      (∀ j p, C0 j p → Waits L.atn p → Covers d (· ∈ cs.configs) j p) →
      (∃ s, r = some s ∧ uniqueAlt s ≠ INVALID_ALT ∧ ∀ j p, C1 j p → j = uniqueAlt s) ∨
      ∀ j p, C1 j p → Worth L.atn full p → (t = TOKEN_EOF → Ended L.atn p) →
        ∃ s, r = some s ∧ Covers d (· ∈ s.configs) j p) ∧
    ((∀ c ∈ cs.configs, isStop L.atn c = true) → full = true ∨ t = TOKEN_EOF →
      ∀ j p, Covers d (· ∈ cs.configs) j p → ∃ s, r = some s ∧ Covers d (· ∈ s.configs) j p) ∧
    (full = false → t = TOKEN_EOF → ∀ j p, Covers d (· ∈ cs.configs) j p → Ended L.atn p →
      ∃ s, r = some s ∧ Covers d (· ∈ s.configs) j p) := by
  rw [computeReach, Option.bind_eq_some_iff] at h
  obtain ⟨⟨im, mc1, sk⟩, h1, h⟩ := h
  obtain ⟨A, S, i1, i2, i3, i4, i5, i6⟩ := reachLoop_spec ha hd _ (fun c hc => (hcs c hc).fit)
    (Holds.new full d) hm h1
  rw [List.nil_append] at i1 i4
  subst i4
  dsimp only at h
  -- the configurations read into
  have sA : ∀ a ∈ A, SoundC full T1 a := by
    intro a haA
    obtain ⟨c, hc, st, tr, e1, e2, e3, e4, rfl⟩ := (i3 a).1 haA
    rcases hcs c hc with hk | hk
    · exact ⟨hk.fit, hk.sem, fun s hsd => hT _ _ _ (hk.all s hsd) ⟨st, tr, e1, e2, e3, e4, rfl⟩⟩
    · exact absurd ((isStop_iff e1).1 hk.1) e2
  have sim : ∀ c ∈ im.configs, SoundC full T1 c := holds_sound i1 sA
  have sSk : ∀ c ∈ sk, SoundK L.atn full T1 (fun j => E j ∨ ∃ p, T0 j p ∧ Ended L.atn p) c := by
    intro c hc
    obtain ⟨e1, e2, -⟩ := (i5 c).1 hc
    refine .inr ⟨e2, (hcs c e1).fit, (hcs c e1).sem, ?_⟩
    rcases hcs c e1 with hk | hk
    · right
      have e := i6 c e1 e2
      refine ⟨_, hk.all [] ?_, ?_⟩
      · rw [e]; exact .bottomS
      · refine ⟨rfl, ?_⟩
        unfold isStop at e2
        split at e2
        · rename_i st hst
          exact ⟨st, hst, by simpa using e2⟩
        · simp at e2
    · exact .inl hk.2.2.2
  -- threads right after the token
  have cim : ∀ {C0 : Int → Pos → Prop}, (∀ j p, C0 j p → Waits L.atn p → Covers d (· ∈ cs.configs) j p) →
      ∀ j p q, C0 j p → ReadStep L.atn t p q → Covers d (· ∈ im.configs) j q := by
    intro C0 h0 j p q hj hread
    obtain ⟨x, hx, rfl, e, hden⟩ := h0 j p hj (readStep_waits hread)
    obtain ⟨st, tr, e1, e2, e3, e4, rfl⟩ := hread
    rw [holds_covers i1 (fun a h => (sA a h).sem)]
    exact ⟨_, (i3 _).2 ⟨x, hx, st, tr, by rw [e]; exact e1, e2, e3, e4, rfl⟩, rfl, rfl, hden⟩
  rw [Option.bind_eq_some_iff] at h
  obtain ⟨⟨reach, mc2, inp2⟩, h2, h⟩ := h
  dsimp only at h
  rw [Option.bind_eq_some_iff] at h
  obtain ⟨⟨reach3, mc3⟩, h3, h⟩ := h
  dsimp only at h
  rw [Option.map_eq_some_iff] at h
  obtain ⟨⟨reach4, mc4⟩, h4, h⟩ := h
  simp only [Prod.mk.injEq] at h
  obtain ⟨hr4, rfl, rfl⟩ := h
  -- the three steps after the closure, from a set that stands for `R`
  have finish : ∀ R, Holds full d R reach → (∀ a ∈ R, SoundC full T1 a) → CacheFit full d mc2 →
      ((∀ a ∈ R, Ripe L.atn a) ∨ uniqueAlt reach4 ≠ INVALID_ALT) →
      CacheFit full d mc4 ∧
      (∀ s, r = some s →
        Reached L.atn full d t T1 (fun j => E j ∨ ∃ p, T0 j p ∧ Ended L.atn p) s) ∧
      (∀ j p, Covers d (· ∈ reach.configs) j p → Worth L.atn full p → (t = TOKEN_EOF → Ended L.atn p) →
        ∃ s, r = some s ∧ Covers d (· ∈ s.configs) j p) ∧
      (reach.configs = [] ∨ full = false → ∀ j p, Covers d (· ∈ sk) j p →
        ∃ s, r = some s ∧ Covers d (· ∈ s.configs) j p) := by
    intro R hR sR hm2 hz
    have keep : ∃ R3, Holds full d R3 reach3 ∧ CacheFit full d mc3 ∧ (∀ a ∈ R3, SoundC full T1 a) ∧
        ((∀ a ∈ R, Ripe L.atn a) → ∀ a ∈ R3, Ripe L.atn a) ∧
        (t = TOKEN_EOF → ∀ c ∈ reach3.configs, isStop L.atn c = true) ∧
        (∀ j p, Covers d (· ∈ reach.configs) j p → (t = TOKEN_EOF → Ended L.atn p) →
          Covers d (· ∈ reach3.configs) j p) ∧ (reach.configs = [] → reach3.configs = []) := by
      split at h3
      · rename_i ht
        obtain ⟨R', k1, k2, k3, k4, k5⟩ := keepStops_spec hd (fun a h => (sR a h).sem) hR
          (fun c hc => (holds_sound hR sR c hc).fit) hm2 h3
        refine ⟨R', k1, k2, ?_, ?_, fun _ => k4, ?_, ?_⟩
        · intro a haR
          rcases k3 a haR with h | h
          · exact holds_sound hR sR a h
          · exact sR a h
        · intro hz a haR
          rcases k3 a haR with h | h
          · exact holds_stops hR hz a h
          · exact hz a h
        · intro j p hc he
          obtain ⟨-, st, e1, e2⟩ := he ht
          exact k5 j p hc ⟨st, e1, e2⟩
        · intro he
          have h3' := h3
          rw [keepStops, he] at h3'
          simp only [List.all_nil, if_true, Option.some.injEq, Prod.mk.injEq] at h3'
          rw [← h3'.1]; exact he
      · rename_i ht
        simp only [Option.some.injEq, Prod.mk.injEq] at h3
        obtain ⟨rfl, rfl⟩ := h3
        exact ⟨R, hR, hm2, sR, fun h => h, fun h => absurd h ht, fun j p h _ => h, fun h => h⟩
    obtain ⟨R3, k1, k2, k3, kz, k4, k5, k6⟩ := keep
    have last : ∃ R4, Holds full d R4 reach4 ∧ CacheFit full d mc4 ∧
        (∀ a ∈ R4, SoundK L.atn full T1 (fun j => E j ∨ ∃ p, T0 j p ∧ Ended L.atn p) a) ∧
        ((∀ a ∈ R3, Ripe L.atn a) → ∀ a ∈ R4, Ripe L.atn a) ∧
        (t = TOKEN_EOF → ∀ c ∈ reach4.configs, isStop L.atn c = true) ∧
        (∀ j p, Covers d (· ∈ reach3.configs) j p → Covers d (· ∈ reach4.configs) j p) ∧
        (reach3.configs = [] ∨ full = false → ∀ j p, Covers d (· ∈ sk) j p → Covers d (· ∈ reach4.configs) j p) := by
      split at h4
      · obtain ⟨g1, g2⟩ := addEach_spec hd sk (fun c hc => (sSk c hc).fit) k1 k2 h4
        have sem : ∀ a ∈ R3 ++ sk, a.sem = SC.NONE := by
          intro a haR
          rcases List.mem_append.1 haR with h | h
          · exact (k3 a h).sem
          · exact (sSk a h).sem
        refine ⟨_, g1, g2, ?_, ?_, ?_, ?_, ?_⟩
        · intro a haR
          rcases List.mem_append.1 haR with h | h
          · exact .inl (k3 a h)
          · exact sSk a h
        · intro hz a haR
          rcases List.mem_append.1 haR with h | h
          · exact hz a h
          · exact ⟨i6 a ((i5 a).1 h).1, .inl ((i5 a).1 h).2.1⟩
        · intro ht c hc
          have hpre : ∀ a ∈ R3 ++ sk, isStop L.atn a = true := by
            intro a haR
            rcases List.mem_append.1 haR with h | h
            · obtain ⟨⟨b, hb⟩, -, -⟩ := k1
              have : ({ reach3 with dips := b } : ConfigSet).key a ∈
                  reach3.configs.map ({ reach3 with dips := b } : ConfigSet).key := by
                rw [hb.keys, (firsts_spec _).2]; exact List.mem_map_of_mem h
              obtain ⟨x, hx, e⟩ := List.mem_map.1 this
              have hxs := k4 ht x hx
              rw [ConfigSet.key, ConfigSet.key, if_neg (by rw [hb.ord]; simp), if_neg (by rw [hb.ord]; simp)] at e
              simp only [Key.part.injEq] at e
              unfold isStop at hxs ⊢
              rw [← e.1]; exact hxs
            · exact ((i5 a).1 h).2.1
          obtain ⟨a, haR, e, -⟩ := holds_mem g1 hc
          have := hpre a haR
          unfold isStop at this ⊢
          rw [← e]; exact this
        · intro j p hc
          rw [holds_covers g1 sem]
          rw [holds_covers k1 (fun a h => (k3 a h).sem)] at hc
          obtain ⟨x, hx, hrest⟩ := hc
          exact ⟨x, List.mem_append_left _ hx, hrest⟩
        · intro _ j p hc
          rw [holds_covers g1 sem]
          obtain ⟨x, hx, hrest⟩ := hc
          exact ⟨x, List.mem_append_right _ hx, hrest⟩
      · rename_i hcond
        simp only [Option.some.injEq, Prod.mk.injEq] at h4
        obtain ⟨rfl, rfl⟩ := h4
        refine ⟨R3, k1, k2, fun a h => .inl (k3 a h), fun h => h, k4, fun j p h => h, ?_⟩
        rintro he j p ⟨x, hx, -⟩
        have : sk = [] := by
          rcases he with he | he
          · rw [he] at hcond
            simpa using hcond
          · rw [he] at hcond
            simpa using hcond
        rw [this] at hx; simp at hx
    obtain ⟨R4, l1, l2, l3, lz, l4, l5, l6⟩ := last
    have some_of : ∀ {j p}, Covers d (· ∈ reach4.configs) j p → r = some reach4 := by
      rintro j p ⟨x, hx, -⟩
      have : reach4.configs.isEmpty = false := by
        rw [Bool.eq_false_iff]; intro h; rw [List.isEmpty_iff] at h; rw [h] at hx; simp at hx
      rw [this] at hr4
      exact hr4.symm
    refine ⟨l2, ?_, ?_, ?_⟩
    · intro s hs
      rw [← hr4] at hs
      split at hs
      · simp at hs
      · rename_i hne
        simp only [Option.some.injEq] at hs
        subst hs
        exact ⟨by simpa using hne, l1.hasSem (fun a h => (l3 a h).sem), l1.fullCtx, ⟨_, l1⟩, l4, holds_soundK l1 l3,
          fun hu => (hz.elim (fun h => holds_stops l1 (lz (kz h))) (fun h => absurd hu h))⟩
    · intro j p hc _ he
      have := l5 j p (k5 j p hc he)
      exact ⟨_, some_of this, this⟩
    · intro he j p hc
      have := l6 (he.imp k6 id) j p hc
      exact ⟨_, some_of this, this⟩
  split at h2
  · -- no closure
    rename_i hcond
    simp only [Option.some.injEq, Prod.mk.injEq] at h2
    obtain ⟨rfl, rfl, rfl⟩ := h2
    simp only [Bool.and_eq_true, List.isEmpty_iff, bne_iff_ne, ne_eq, Bool.or_eq_true, beq_iff_eq] at hcond
    obtain ⟨⟨hsk, ht⟩, hu⟩ := hcond
    have posim : ∀ c ∈ im.configs, 1 ≤ c.alt := by
      intro c hc
      obtain ⟨p, hp⟩ := (sim c hc).ex
      exact hpos _ _ hp
    have hu' : uniqueAlt im ≠ INVALID_ALT := by
      rcases hu with hu | hu
      · obtain ⟨c, hc⟩ := List.length_eq_one_iff.1 hu
        have := posim c (by rw [hc]; simp)
        rw [uniqueAlt, hc]
        simp only [uniqueAltLoop, if_true, INVALID_ALT]
        simp only [ne_eq]
        omega
      · exact hu
    have e3 : reach3 = im ∧ reach4 = im := by
      rw [if_neg ht] at h3
      simp only [Option.some.injEq, Prod.mk.injEq] at h3
      rw [hsk] at h4
      simp only [List.isEmpty_nil, Bool.not_true, Bool.false_and, Bool.false_eq_true, if_false,
        Option.some.injEq, Prod.mk.injEq] at h4
      exact ⟨h3.1.symm, h4.1.symm.trans h3.1.symm⟩
    obtain ⟨f1, f2, f3, f4⟩ := finish A i1 sA i2 (.inr (by rw [e3.2]; exact hu'))
    refine ⟨rfl, f1, f2, ?_, ?_, fun _ h => absurd h ht⟩
    · intro hdf C0 C1 hgen _ h0
      left
      have hne : im.configs.isEmpty = false := by
        rw [Bool.eq_false_iff]
        intro he
        rw [List.isEmpty_iff] at he
        exact hu' (by rw [uniqueAlt, he]; rfl)
      rw [e3.2, hne] at hr4
      refine ⟨im, hr4.symm, hu', ?_⟩
      refine hgen (fun j _ => j = uniqueAlt im) ?_ (fun _ _ _ _ h _ => h) (fun _ _ _ _ _ h _ => h)
      intro j p q hj hread
      obtain ⟨x, hx, hxj, -⟩ := cim h0 j p q hj hread
      rw [← hxj]; exact uniqueAlt_all hu' posim x hx
    · intro hall hor j p hc
      obtain ⟨x, hx, -⟩ := hc
      have : x ∈ sk := (i5 x).2 ⟨hx, hall x hx, hor⟩
      rw [hsk] at this; simp at this
  · rw [Option.map_eq_some_iff] at h2
    obtain ⟨w, hw, h2⟩ := h2
    simp only [Prod.mk.injEq] at h2
    obtain ⟨rfl, rfl, rfl⟩ := h2
    have hcls : Cls L.atn full (t == TOKEN_EOF) (SoundC full T1) :=
      cls_sound ha hg
    obtain ⟨N, B, g, gst⟩ := closeAll_grown ha hp hd hcls im.configs sim (K := fun _ => False) (by exact i2) (by simp)
      (Holds.new full d) hw
    have hcl := g.toClosed
    have hB := g.holds
    rw [List.nil_append] at hB
    have sB := hcl.sound
    obtain ⟨f1, f2, f3, f4⟩ := finish B hB sB g.cache (.inl hcl.stops)
    refine ⟨g.inp, f1, f2, ?_, ?_, ?_⟩
    rotate_right
    · intro hfull ht j p hc hend
      obtain ⟨x, hx, hx1, hx2, hx3⟩ := hc
      obtain ⟨-, st, e1, e2⟩ := hend
      exact f4 (.inr hfull) j p ⟨x, (i5 x).2 ⟨hx, (isStop_iff (by rw [hx2]; exact e1)).2 e2, .inr ht⟩, hx1, hx2, hx3⟩
    · intro hdf C0 C1 hgen hfair h0
      right
      intro j p hj hworth heof
      subst hdf
      have hN : ∀ j p, C1 j p → Covers (!full) N j p := by
        refine hgen _ ?_ ?_ ?_
        · intro j p q hj hread
          obtain ⟨x, hx, hrest⟩ := cim h0 j p q hj hread
          exact ⟨x, gst x hx, hrest⟩
        · intro j p q hj hc hstep
          exact hc.step ha hcl.closed (fun x hx => (hcl.cls x hx).wf) (hfair j p hj) hstep
        · intro ht j p q _ hc hread
          have e : (t == TOKEN_EOF) = true := by simpa using ht
          rw [e] at hcl
          exact hc.read_eof ha hcl.closed hread
      refine f3 j p ?_ hworth heof
      rw [holds_covers hB (fun a h => (sB a h).sem)]
      exact hcl.covers ha (fun x hx => hx.wf) (hN j p hj) hworth
    · intro hall hor j p hc
      have him : A = [] := by
        rw [List.eq_nil_iff_forall_not_mem]
        intro a haA
        obtain ⟨c, hc, st, tr, e1, e2, -⟩ := (i3 a).1 haA
        exact e2 ((isStop_iff e1).1 (hall c hc))
      have hnil : im.configs = [] := by
        rw [List.eq_nil_iff_forall_not_mem]
        intro c hc
        obtain ⟨a, haA, -⟩ := holds_mem i1 hc
        rw [him] at haA; simp at haA
      have hwnil : w.configs.configs = [] := by
        rw [hnil] at hw
        simp only [closeAll, Option.some.injEq] at hw
        rw [← hw]; rfl
      obtain ⟨x, hx, hrest⟩ := hc
      exact f4 (.inl hwnil) j p ⟨x, (i5 x).2 ⟨hx, hall x hx, hor⟩, hrest⟩

/-- `compute_start_state` gives the threads of the alternatives before the first token. -/
theorem computeStart_spec [TokStream I] {L : Local I} {fuel : Nat} {full d : Bool}
    (ha : Plain L.atn) (hp : L.isPrec = false) (hd : full = false → d = true) {ctx : PC} {dec : ATNState}
    (hdec : L.atn.states[L.atnStart]? = some dec)
    {mc mc' : PC.Cache} {inp inp' : I} {s : ConfigSet} {T : Int → Pos → Prop} (hctx : Fit full ctx)
    (hT : ∀ (i : Nat) tr, dec.transitions[i]? = some tr → ∀ k, HasStack ctx k → T ((i + 1 : Nat) : Int) (tr.target, nats k))
    (hg : Goes L.atn full false T) (hm : CacheFit full d mc)
    (h : computeStart L fuel ctx full mc inp = some (s, mc', inp')) :
    inp' = inp ∧ CacheFit full d mc' ∧ (∃ R, Holds full d R s) ∧ s.hasSem = false ∧ (∀ c ∈ s.configs, SoundC full T c) ∧
    (∀ c ∈ s.configs, Ripe L.atn c) ∧
    (d = (!full) → ∀ σ, Den d ctx (ints σ) → (∀ j p, Live L.atn dec σ j [] p → Fair L.atn p) →
      ∀ j p, Live L.atn dec σ j [] p → Worth L.atn full p → Covers d (· ∈ s.configs) j p) := by
  rw [computeStart, hdec, Option.bind_some, Option.map_eq_some_iff] at h
  obtain ⟨w, hw, h⟩ := h
  simp only [Prod.mk.injEq] at h
  obtain ⟨rfl, rfl, rfl⟩ := h
  have hcls : Cls L.atn full false (SoundC full T) := cls_sound ha hg
  obtain ⟨N, A, g1, g2, g3, g4, g5⟩ := startLoop_spec ha hp hd hcls dec.transitions 0
    (fun i tr h => ⟨hctx, rfl, by simpa using hT i tr h⟩) (by exact hm) (Holds.new full d) hw
  rw [List.nil_append] at g4
  have sA := g1.sound
  refine ⟨g2, g3, ⟨_, g4⟩, g4.hasSem (fun a h => (sA a h).sem), holds_sound g4 sA, holds_stops g4 g1.stops, ?_⟩
  intro hdf σ hσ hfair j p hj hworth
  subst hdf
  rw [holds_covers g4 (fun a h => (sA a h).sem)]
  refine g1.covers ha (fun x hx => hx.wf) ?_ hworth
  clear hworth
  generalize hv : ([] : List Int) = v at hj
  induction hj with
  | @start i tr h1 => exact ⟨_, g5 i tr h1, by simp, rfl, hσ⟩
  | @silent j v p q h1 h2 ih =>
    subst hv
    exact (ih rfl).step ha g1.closed (fun x hx => (g1.cls x hx).wf) (hfair _ _ h1) h2
  | read => simp at hv
  | more => simp at hv

end Antlr.Prediction
