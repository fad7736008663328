import Verif.Lexer.Path
import Verif.Lexer.CacheMatch

/-!
# The loop of the matcher against the threads of the automaton
-/

namespace Antlr.LexPaths
open Antlr Lexer LexSpec LexCache IntervalSpec IntervalSet

set_option linter.unusedSectionVars false

section
variable {q : Option (List LexerAction) → Option (List LexerAction)} {atn : ATN}
  {pred : Int → Int → Option Bool} {holds : Int → Int → Prop} {past : Prop}

/-! ## Replacing executors -/

theorem passed_er {c : Config} : passedOf (er q c) = passedOf c := by
  simp only [passedOf, er]; cases c.kind <;> rfl

theorem lin_er {c : Config} {k : List Nat} : Lin (er q c) k ↔ Lin c k := by
  have hl : Plain (er q c) ↔ Plain c := by
    obtain ⟨s, a, x, se, re, su, k⟩ := c
    constructor
    · rintro ⟨h1, h2, h3, e, p, h4⟩
      cases k with
      | base => simp [er] at h4
      | lexer e' p' => exact ⟨h1, h2, h3, e', p', rfl⟩
    · rintro ⟨h1, h2, h3, e, p, h4⟩
      simp only at h4; subst h4
      exact ⟨h1, h2, h3, q e, p, rfl⟩
  exact ⟨fun h => ⟨h.ctx, h.small, hl.mp h.plain⟩, fun h => ⟨h.ctx, h.small, hl.mpr h.plain⟩⟩

theorem sh_er {c : Config} {x : Thread} : Sh (er q c) x ↔ Sh c x :=
  ⟨fun h => ⟨h.state, lin_er.mp h.lin⟩, fun h => ⟨h.state, lin_er.mpr h.lin⟩⟩

theorem ea_er {c : Config} {x : Thread} : Ea (er q c) x ↔ Ea c x :=
  ⟨fun h => ⟨sh_er.mp h.toSh, passed_er ▸ h.passed⟩, fun h => ⟨sh_er.mpr h.toSh, passed_er.trans h.passed⟩⟩

theorem rep_er (hq : Blur q) {c : Config} {x : Thread} : Rep q (er q c) x ↔ Rep q c x := by
  have he : Plain c → q (execOf (er q c)) = q (execOf c) := by
    rintro ⟨-, -, -, e, p, h⟩
    simp [execOf, er, h, hq.idem]
  exact ⟨fun h => ⟨sh_er.mp h.toSh, by rw [← he (sh_er.mp h.toSh).lin.plain]; exact h.acts⟩,
    fun h => ⟨sh_er.mpr h.toSh, by rw [he h.lin.plain]; exact h.acts⟩⟩

/-! ## One configuration reads a symbol -/

/-- `x` reads `t` and goes on to `z`. -/
def Steps (atn : ATN) (holds : Int → Int → Prop) (past : Prop) (t : Int) (x z : Thread) : Prop :=
  ∃ st tr, atn.states[x.state]? = some st ∧ tr ∈ st.transitions ∧ ReadsSym tr t ∧
    Relation.ReflTransGen (Silent atn holds past) { x with state := tr.target } z

/-- ... without coming to a non-greedy decision. -/
def QuietSteps (atn : ATN) (holds : Int → Int → Prop) (past : Prop) (t : Int) (x z : Thread) : Prop :=
  ∃ st tr, atn.states[x.state]? = some st ∧ tr ∈ st.transitions ∧ ReadsSym tr t ∧ Calm atn tr.target ∧
    Relation.ReflTransGen (Quiet atn holds past) { x with state := tr.target } z

theorem contrib_sound (hq : Blur q) (hg : Tidy atn) (hp : ∀ r p v, pred r p = some v → (v = true ↔ holds r p))
    {fuel : Nat} {t off : Int} (he : t = EOF ↔ past) {c : Config} {x : Thread} (hr : Rep q c x) {st : ATNState}
    (hx : atn.states[x.state]? = some st) {flag : Bool} : ∀ {trs : List Trans} (_ : ∀ tr ∈ trs, tr ∈ st.transitions)
    {ys : List Config} {o : Bool × Bool}, contrib atn pred fuel t off c flag trs = some (ys, o) →
    ∀ y ∈ ys, ∃ z, Steps atn holds past t x z ∧ Rep q y z ∧ Worth atn z := by
  intro trs
  induction trs with
  | nil => intro _ ys o h; simp [contrib] at h; obtain ⟨rfl, _⟩ := h; simp
  | cons tr trs ih =>
    intro hsub ys o h
    simp only [contrib] at h
    obtain ⟨m, hm, h⟩ := Option.bind_eq_some_iff.mp h
    simp only [Trans.getReachableTarget, Option.map_eq_some_iff] at hm
    obtain ⟨b, hb, hm⟩ := hm
    have htr := hsub tr (by simp)
    have hsub' : ∀ tr ∈ trs, tr ∈ st.transitions := fun a ha => hsub a (by simp [ha])
    cases m with
    | none => exact ih hsub' h
    | some target =>
      have hb' : b = true := by cases b <;> simp_all
      have htg : tr.target = target := by simpa [hb'] using hm
      have hread := (matches_iff tr (hg.sets _ _ hx tr htr) hb).mp hb'
      simp only at h
      obtain ⟨tst, hts, h⟩ := Option.bind_eq_some_iff.mp h
      obtain ⟨r, hrr, h⟩ := Option.bind_eq_some_iff.mp h
      have hrep : Rep q (clonedExec c target tst ((execOf c).map (fixOffset off))) { x with state := target } :=
        ⟨⟨rfl, lin_clonedExec hr.lin⟩, by rw [exec_clonedExec hr.lin.plain, hq.fix]; exact hr.acts⟩
      have key : ∀ y ∈ (emitted flag r.1).1, ∃ z, Steps atn holds past t x z ∧ Rep q y z ∧ Worth atn z := by
        intro y hy
        obtain ⟨e, e1, e2⟩ := mem_emitted hy
        obtain ⟨z, z1, z2, z3⟩ := trace_sound hq hg hp (by simpa using he) fuel (evs := r.1) (b := r.2) hrr hrep e e1
        exact ⟨z, ⟨st, tr, hx, htr, hread, by rw [htg]; exact z1⟩, by rw [← e2]; exact z2, z3⟩
      split at h
      · simp only [Option.some.injEq, Prod.mk.injEq] at h
        rw [← h.1]; exact key
      · simp only [Option.map_eq_some_iff] at h
        obtain ⟨⟨ys', o'⟩, hc, h⟩ := h
        simp only [Prod.mk.injEq] at h
        intro y hy
        rw [← h.1, List.mem_append] at hy
        rcases hy with hy | hy
        · exact key y hy
        · exact ih hsub' hc y hy

theorem reads_worth (hg : Tidy atn) {x : Thread} {st : ATNState} {tr : Trans} {t : Int}
    (hx : atn.states[x.state]? = some st) (htr : tr ∈ st.transitions) (hr : ReadsSym tr t) :
    st.stateType ≠ .ruleStop ∧ st.epsilonOnly = false ∧ st.transitions = [tr] := by
  have h1 : ¬ (st.epsilonOnly = true ∨ st.stateType = .ruleStop) := by
    intro h
    have := hg.free _ _ hx h tr htr
    rw [readsSym_not_epsilon hr] at this; simp at this
  have h2 : st.stateType ≠ .ruleStop := fun h => h1 (.inr h)
  have h3 : st.epsilonOnly = false := by
    cases h : st.epsilonOnly with
    | false => rfl
    | true => exact absurd (.inl h) h1
  refine ⟨h2, h3, ?_⟩
  have := hg.one _ _ hx h3 h2
  cases hl : st.transitions with
  | nil => rw [hl] at htr; simp at htr
  | cons a l =>
    cases l with
    | nil => rw [hl] at htr; simp at htr; rw [htr]
    | cons b l => rw [hl] at this; simp at this

theorem contrib_complete (hg : Tidy atn) (hp : ∀ r p v, pred r p = some v → (v = true ↔ holds r p))
    {fuel : Nat} {t off : Int} (he : t = EOF ↔ past) {c : Config} {x z : Thread} (hr : Ea c x) {st : ATNState}
    (hx : atn.states[x.state]? = some st) {flag : Bool} {ys : List Config} {o : Bool × Bool}
    (h : contrib atn pred fuel t off c flag st.transitions = some (ys, o)) (hs : QuietSteps atn holds past t x z)
    (hw : Worth atn z) : ∃ y ∈ ys, y.alt = c.alt ∧ Ea y z := by
  obtain ⟨st', tr, h1, h2, h3, hcalm, h4⟩ := hs
  rw [hx] at h1
  injection h1 with h1; subst h1
  have h5 := (reads_worth hg hx h2 h3).2.2
  have hmem := contrib_mem hr.lin.plain h
  rw [h5] at h
  simp only [contrib] at h
  obtain ⟨m, hm, h⟩ := Option.bind_eq_some_iff.mp h
  simp only [Trans.getReachableTarget, Option.map_eq_some_iff] at hm
  obtain ⟨b, hb, hm⟩ := hm
  have hb' := (matches_iff tr (hg.sets _ _ hx tr h2) hb).mpr h3
  rw [if_pos hb'] at hm
  subst hm
  simp only at h
  obtain ⟨tst, hts, h⟩ := Option.bind_eq_some_iff.mp h
  obtain ⟨r, hrr, h⟩ := Option.bind_eq_some_iff.mp h
  have hrep : Ea (clonedExec c tr.target tst ((execOf c).map (fixOffset off))) { x with state := tr.target } :=
    ea_clonedExec hcalm hts hr
  obtain ⟨e, e1, e2⟩ := trace_complete hg hp (by simpa using he) h4 hw (evs := r.1) (b := r.2) hrr hrep
  have hy : e.cfg ∈ ys := by
    split at h
    · simp only [Option.some.injEq, Prod.mk.injEq] at h
      rw [← h.1]; exact emitted_mem e1 e2.passed
    · simp only [Option.map_some, Option.some.injEq, Prod.mk.injEq] at h
      rw [← h.1]; exact List.mem_append_left _ (emitted_mem e1 e2.passed)
  exact ⟨_, hy, (hmem _ hy).2, e2⟩

/-! ## The whole list -/

theorem reachList_sound (hq : Blur q) (hg : Tidy atn) (hp : ∀ r p v, pred r p = some v → (v = true ↔ holds r p))
    {fuel : Nat} {t off : Int} (he : t = EOF ↔ past) (l : List Config) :
    ∀ {skip : Int} {ys : List Config} {b : Bool}, (∀ c ∈ l, ∃ x, Rep q c x) →
    reachList atn pred fuel t off l skip = some (ys, b) →
    ∀ y ∈ ys, ∃ c ∈ l, y.alt = c.alt ∧ ∀ x, Rep q c x → ∃ z, Steps atn holds past t x z ∧ Rep q y z ∧ Worth atn z := by
  induction l with
  | nil => intro skip ys b _ h; simp [reachList] at h; obtain ⟨rfl, _⟩ := h; simp
  | cons c rest ih =>
    intro skip ys b hl h
    have hl' : ∀ c ∈ rest, ∃ x, Rep q c x := fun c hc => hl c (by simp [hc])
    simp only [reachList] at h
    split at h
    · intro y hy
      obtain ⟨c', h1, h2⟩ := ih hl' h y hy
      exact ⟨c', by simp [h1], h2⟩
    · obtain ⟨st, hst, h⟩ := Option.bind_eq_some_iff.mp h
      obtain ⟨⟨r1, r2⟩, hr, h⟩ := Option.bind_eq_some_iff.mp h
      simp only [Option.map_eq_some_iff] at h
      obtain ⟨⟨ys', b'⟩, hq', h⟩ := h
      simp only [Prod.mk.injEq] at h
      intro y hy
      rw [← h.1, List.mem_append] at hy
      rcases hy with hy | hy
      · refine ⟨c, by simp, ?_, ?_⟩
        · obtain ⟨x, hx⟩ := hl c (by simp)
          exact (contrib_mem hx.lin.plain hr y hy).2
        · intro x hx
          exact contrib_sound hq hg hp he hx (by rw [← hx.state]; exact hst) (fun _ h => h) hr y hy
      · obtain ⟨c', h1, h2⟩ := ih hl' hq' y hy
        exact ⟨c', by simp [h1], h2⟩

theorem reachList_complete (hg : Tidy atn) (hp : ∀ r p v, pred r p = some v → (v = true ↔ holds r p))
    {fuel : Nat} {t off : Int} (he : t = EOF ↔ past) (l : List Config) :
    ∀ {skip : Int} {ys : List Config} {b : Bool}, reachList atn pred fuel t off l skip = some (ys, b) →
    ∀ c ∈ l, ∀ x z, Ea c x → QuietSteps atn holds past t x z → Worth atn z → ∃ y ∈ ys, y.alt = c.alt ∧ Ea y z := by
  induction l with
  | nil => simp
  | cons c0 rest ih =>
    intro skip ys b h c hc x z hx hs hw
    simp only [reachList] at h
    simp only [List.mem_cons] at hc
    split at h
    · rename_i h0
      rcases hc with rfl | hc
      · rw [hx.passed] at h0; simp at h0
      · exact ih h c hc x z hx hs hw
    · obtain ⟨st, hst, h⟩ := Option.bind_eq_some_iff.mp h
      obtain ⟨⟨r1, r2⟩, hr, h⟩ := Option.bind_eq_some_iff.mp h
      simp only [Option.map_eq_some_iff] at h
      obtain ⟨⟨ys', b'⟩, hq', h'⟩ := h
      simp only [Prod.mk.injEq] at h'
      rcases hc with rfl | hc
      · obtain ⟨y, y1, y2⟩ := contrib_complete hg hp he hx (by rw [← hx.state]; exact hst) hr hs hw
        exact ⟨y, by rw [← h'.1]; simp [y1], y2⟩
      · obtain ⟨y, y1, y2⟩ := ih hq' c hc x z hx hs hw
        exact ⟨y, by rw [← h'.1]; simp [y1], y2⟩

theorem rep_start (q : Option (List LexerAction) → Option (List LexerAction)) (tr : Trans) (i : Nat) :
    Rep q (startCfg tr i) ⟨tr.target, [], []⟩ :=
  ⟨⟨rfl, ⟨rfl, by simp, rfl, rfl, rfl, none, false, rfl⟩⟩, rfl⟩

theorem ea_start (tr : Trans) (i : Nat) : Ea (startCfg tr i) ⟨tr.target, [], []⟩ :=
  ⟨(rep_start nothing tr i).toSh, rfl⟩

theorem startList_sound (hq : Blur q) (hg : Tidy atn) (hp : ∀ r p v, pred r p = some v → (v = true ↔ holds r p))
    (hn : ¬ past) {fuel : Nat} (trs : List Trans) : ∀ {i : Nat} {ys : List Config} {b : Bool},
    startList atn pred fuel trs i = some (ys, b) → ∀ y ∈ ys, ∃ j tr z, trs[j]? = some tr ∧
      y.alt = ((i + j + 1 : Nat) : Int) ∧
      Relation.ReflTransGen (Silent atn holds past) ⟨tr.target, [], []⟩ z ∧ Rep q y z ∧ Worth atn z := by
  induction trs with
  | nil => intro i ys b h; simp [startList] at h; obtain ⟨rfl, _⟩ := h; simp
  | cons tr trs ih =>
    intro i ys b h
    simp only [startList] at h
    obtain ⟨r, hr, h⟩ := Option.bind_eq_some_iff.mp h
    simp only [Option.map_eq_some_iff] at h
    obtain ⟨⟨ys', b'⟩, hq', h⟩ := h
    simp only [Prod.mk.injEq] at h
    intro y hy
    rw [← h.1, List.mem_append] at hy
    rcases hy with hy | hy
    · obtain ⟨e, e1, e2⟩ := mem_emitted hy
      obtain ⟨z, z1, z2, z3⟩ := trace_sound hq hg hp (by simpa using hn) fuel (evs := r.1) (b := r.2) hr
        (rep_start q tr i) e e1
      refine ⟨0, tr, z, rfl, ?_, z1, by rw [← e2]; exact z2, z3⟩
      rw [← e2]
      exact (trace_mem fuel (evs := r.1) (b := r.2) (rep_start q tr i).lin.plain hr e e1).2
    · obtain ⟨j, tr', z, h1, h2, h3⟩ := ih hq' y hy
      exact ⟨j + 1, tr', z, by simpa using h1, by rw [h2]; congr 1; omega, h3⟩

theorem startList_complete (hg : Tidy atn) (hp : ∀ r p v, pred r p = some v → (v = true ↔ holds r p))
    (hn : ¬ past) {fuel : Nat} (trs : List Trans) : ∀ {i : Nat} {ys : List Config} {b : Bool},
    startList atn pred fuel trs i = some (ys, b) → ∀ j tr z, trs[j]? = some tr →
      Relation.ReflTransGen (Quiet atn holds past) ⟨tr.target, [], []⟩ z → Worth atn z →
      ∃ y ∈ ys, y.alt = ((i + j + 1 : Nat) : Int) ∧ Ea y z := by
  induction trs with
  | nil => simp
  | cons tr trs ih =>
    intro i ys b h
    simp only [startList] at h
    obtain ⟨r, hr, h⟩ := Option.bind_eq_some_iff.mp h
    simp only [Option.map_eq_some_iff] at h
    obtain ⟨⟨ys', b'⟩, hq', h⟩ := h
    simp only [Prod.mk.injEq] at h
    intro j tr' z hj hz hw
    cases j with
    | zero =>
      simp only [List.getElem?_cons_zero, Option.some.injEq] at hj
      subst hj
      obtain ⟨e, e1, e2⟩ := trace_complete hg hp (by simpa using hn) hz hw (evs := r.1) (b := r.2) hr
        (ea_start tr i)
      refine ⟨e.cfg, ?_, (trace_mem fuel (evs := r.1) (b := r.2) (rep_start nothing tr i).lin.plain hr e e1).2, e2⟩
      rw [← h.1]; exact List.mem_append_left _ (emitted_mem e1 e2.passed)
    | succ j =>
      obtain ⟨y, y1, y2, y3⟩ := ih hq' j tr' z (by simpa using hj) hz hw
      exact ⟨y, by rw [← h.1]; simp [y1], by rw [y2]; congr 1; omega, y3⟩

/-! ## The accepting configuration -/

theorem accOf_none {l : List Config} (h : accOf q atn l = some none) :
    ∀ c ∈ l, ∀ st, atn.states[c.state]? = some st → st.stateType ≠ .ruleStop := by
  induction l with
  | nil => simp
  | cons c l ih =>
    rw [accOf_cons] at h
    obtain ⟨st, hst, h⟩ := Option.bind_eq_some_iff.mp h
    split at h
    · simp at h
    · rename_i h0
      intro c' hc st' hst'
      simp only [List.mem_cons] at hc
      rcases hc with rfl | hc
      · rw [hst] at hst'; injection hst' with hst'; subst hst'; exact h0
      · exact ih h c' hc st' hst'

theorem accOf_some {l : List Config} (hs : l.Pairwise fun a b => a.alt ≤ b.alt) {tt : Int} {e}
    (h : accOf q atn l = some (some (tt, e))) :
    ∃ c ∈ l, ∃ st, atn.states[c.state]? = some st ∧ st.stateType = .ruleStop ∧
      atn.ruleToTokenType[st.ruleIndex]? = some tt ∧ e = q (execOf c) ∧
      ∀ c' ∈ l, ∀ st', atn.states[c'.state]? = some st' → st'.stateType = .ruleStop → c.alt ≤ c'.alt := by
  induction l with
  | nil => simp [accOf, firstStop] at h
  | cons c l ih =>
    rw [accOf_cons] at h
    obtain ⟨st, hst, h⟩ := Option.bind_eq_some_iff.mp h
    have hs' := List.pairwise_cons.mp hs
    split at h
    · rename_i h0
      simp only [Option.map_eq_some_iff, Option.some.injEq, Prod.mk.injEq] at h
      obtain ⟨tt', h1, rfl, rfl⟩ := h
      refine ⟨c, by simp, st, hst, h0, h1, rfl, ?_⟩
      intro c' hc st' _ _
      simp only [List.mem_cons] at hc
      rcases hc with rfl | hc
      · omega
      · exact hs'.1 c' hc
    · rename_i h0
      obtain ⟨c1, h1, st1, h2, h3, h4, h5, h6⟩ := ih hs'.2 h
      refine ⟨c1, by simp [h1], st1, h2, h3, h4, h5, ?_⟩
      intro c' hc st' hst' hstop
      simp only [List.mem_cons] at hc
      rcases hc with rfl | hc
      · rw [hst] at hst'; injection hst' with hst'; subst hst'; exact absurd hstop h0
      · exact h6 c' hc st' hst' hstop

end

end Antlr.LexPaths
