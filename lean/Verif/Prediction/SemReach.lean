import Verif.Prediction.SemClosure
import Mathlib.Data.List.Perm.Subperm

/-!
# Helper lemmas: `compute_reach_set`, `compute_start_state`, and `apply_precedence_filter` return, with predicates
-/

namespace Antlr.Prediction.Sem
open Antlr StackSpec ConfigSet PC PredictionSpec LL1Spec

variable {I : Type}

/-! ### The predicates that can be noted -/

/-- The words over `P` of at most `n` letters. -/
def words (P : List SC) : Nat → List (List SC)
  | 0 => [[]]
  | n + 1 => [] :: P.flatMap fun p => (words P n).map (p :: ·)

theorem mem_words {P : List SC} {n : Nat} {l : List SC} (hl : l.length ≤ n) (hs : ∀ x ∈ l, x ∈ P) : l ∈ words P n := by
  induction n generalizing l with
  | zero => rw [List.length_eq_zero_iff.1 (Nat.le_zero.1 hl)]; simp [words]
  | succ n ih =>
    cases l with
    | nil => simp [words]
    | cons a l =>
      simp only [words, List.mem_cons, reduceCtorEq, false_or, List.mem_flatMap, List.mem_map]
      exact ⟨a, hs a (by simp), l, ih (by simpa using hl) (fun x hx => hs x (by simp [hx])), rfl⟩

/-- No predicate, one, or several. -/
def noted (P : List SC) : List SC := SC.NONE :: P ++ (words P P.length).map .and

theorem and_noted {P : List SC} {ops : List SC} (hn : ops.Nodup) (hs : ∀ x ∈ ops, x ∈ P) : SC.and ops ∈ noted P := by
  have h : ops.length ≤ P.length := (hn.subperm hs).length_le
  simp only [noted, List.mem_append, List.mem_map]
  exact .inr ⟨ops, mem_words h hs, rfl⟩

theorem insertSet_ok {P l : List SC} {x : SC} (hn : l.Nodup) (hs : ∀ y ∈ l, y ∈ P) (hx : x ∈ P) :
    (SC.insertSet l x).Nodup ∧ ∀ y ∈ SC.insertSet l x, y ∈ P := by
  unfold SC.insertSet
  split
  · exact ⟨hn, hs⟩
  · rename_i h
    refine ⟨?_, ?_⟩
    · rw [List.nodup_append]
      refine ⟨hn, by simp, ?_⟩
      rintro a ha b hb rfl
      rw [List.mem_singleton] at hb
      exact h (hb ▸ ha)
    · intro y hy
      rcases List.mem_append.1 hy with hy | hy
      · exact hs y hy
      · rw [List.mem_singleton] at hy; rw [hy]; exact hx

theorem extendSet_ok {P : List SC} (m : List SC) : ∀ {l : List SC}, l.Nodup → (∀ y ∈ l, y ∈ P) → (∀ y ∈ m, y ∈ P) →
    (SC.extendSet l m).Nodup ∧ ∀ y ∈ SC.extendSet l m, y ∈ P := by
  induction m with
  | nil => intro l h1 h2 _; exact ⟨h1, h2⟩
  | cons a m ih =>
    intro l h1 h2 h3
    obtain ⟨g1, g2⟩ := insertSet_ok h1 h2 (h3 a (by simp))
    exact ih g1 g2 (fun y hy => h3 y (by simp [hy]))

theorem minPrec_mem {l : List Int} {m : Int} (h : SC.minPrec l = some m) : m ∈ l := by
  cases l with
  | nil => simp [SC.minPrec] at h
  | cons x xs =>
    simp only [SC.minPrec, Option.some.injEq] at h
    subst h
    have : ∀ (xs : List Int) (x : Int), xs.foldl min x ∈ x :: xs := by
      intro xs
      induction xs with
      | nil => intro x; simp
      | cons a xs ih =>
        intro x
        rw [List.foldl_cons]
        have := ih (min x a)
        rcases List.mem_cons.1 this with h | h
        · rw [h]
          rcases Int.le_total x a with h | h
          · rw [Int.min_eq_left h]; simp
          · rw [Int.min_eq_right h]; simp
        · simp [h]
    exact this xs x

theorem reduceAnd_ok {ord : List SC → List SC} (hord : ∀ l, (ord l).Perm l) {P l : List SC} (hn : l.Nodup)
    (hs : ∀ y ∈ l, y ∈ P) : (SC.reduceAnd ord l).Nodup ∧ ∀ y ∈ SC.reduceAnd ord l, y ∈ P := by
  have h1 : (l.filter fun o => o.prec?.isNone).Nodup := hn.filter _
  have h2 : ∀ y ∈ l.filter fun o => o.prec?.isNone, y ∈ P := fun y hy => hs y (List.mem_filter.1 hy).1
  unfold SC.reduceAnd
  dsimp only
  split
  · rename_i m hm
    have := minPrec_mem hm
    obtain ⟨x, hx, e⟩ := List.mem_filterMap.1 this
    have hx' := (hord l).mem_iff.1 hx
    have : x = .precedence m := by
      cases x <;> simp [SC.prec?] at e
      rw [e]
    exact insertSet_ok h1 h2 (this ▸ hs x hx')
  · exact ⟨h1, h2⟩

/-- The predicates noted stay in this list. -/
theorem noted_stays {atn : ATN} {ord : List SC → List SC} (hord : ∀ l, (ord l).Perm l) {P : List SC}
    (hP : ∀ p, p ∈ P ↔ IsPred atn p) : ∃ S, SC.NONE ∈ S ∧ Stays atn ord S := by
  have atom : ∀ p ∈ P, (∃ a b c, p = .predicate a b c) ∨ ∃ n, p = .precedence n := by
    intro p hp
    obtain ⟨s, st, tr, -, -, h⟩ := (hP p).1 hp
    cases tr <;> simp [Trans.getPredicate] at h
    · exact .inl ⟨_, _, _, h.symm⟩
    · exact .inr ⟨_, h.symm⟩
  -- those that occur
  let Ok : SC → Prop := fun s => s = SC.NONE ∨ s ∈ P ∨ ∃ ops, s = .and ops ∧ ops.Nodup ∧ ∀ x ∈ ops, x ∈ P
  have hmem : ∀ s, Ok s → s ∈ noted P := by
    rintro s (rfl | h | ⟨ops, rfl, h1, h2⟩)
    · simp [noted]
    · simp [noted, h]
    · exact and_noted h1 h2
  have step : ∀ s, Ok s → ∀ p ∈ P, Ok (SC.mkAnd ord (some s) (some p)) := by
    intro s hs p hp
    unfold SC.mkAnd
    dsimp only
    split
    · exact .inr (.inl hp)
    split
    · exact hs
    have hops : (SC.operandsAnd s p).Nodup ∧ ∀ y ∈ SC.operandsAnd s p, y ∈ P := by
      have hb : ∀ l : List SC, l.Nodup → (∀ y ∈ l, y ∈ P) →
          (match p with | .and ops => SC.extendSet l ops | b => SC.insertSet l b).Nodup ∧
          ∀ y ∈ (match p with | .and ops => SC.extendSet l ops | b => SC.insertSet l b), y ∈ P := by
        intro l h1 h2
        rcases atom p hp with ⟨a, b, c, rfl⟩ | ⟨n, rfl⟩ <;> exact insertSet_ok h1 h2 hp
      have hE : ([] : List SC).Nodup ∧ ∀ y ∈ ([] : List SC), y ∈ P := ⟨.nil, by simp⟩
      rcases hs with rfl | h | ⟨ops, rfl, h1, h2⟩
      · exact absurd rfl (by assumption)
      · rcases atom s h with ⟨a, b, c, rfl⟩ | ⟨n, rfl⟩
        · obtain ⟨g1, g2⟩ := insertSet_ok hE.1 hE.2 h
          exact hb _ g1 g2
        · obtain ⟨g1, g2⟩ := insertSet_ok hE.1 hE.2 h
          exact hb _ g1 g2
      · obtain ⟨g1, g2⟩ := extendSet_ok ops hE.1 hE.2 h2
        exact hb _ g1 g2
    obtain ⟨r1, r2⟩ := reduceAnd_ok hord hops.1 hops.2
    unfold SC.newAnd
    split
    · rename_i o ho
      rw [ho] at r2
      exact .inr (.inl (r2 o (by simp)))
    · exact .inr (.inr ⟨_, rfl, (hord _).nodup_iff.2 r1, fun x hx => r2 x ((hord _).mem_iff.1 hx)⟩)
  classical
  refine ⟨(noted P).filter fun s => decide (Ok s), ?_, ?_⟩
  · rw [List.mem_filter]
    exact ⟨by simp [noted], by simp [Ok]⟩
  · intro s hs p hp
    rw [List.mem_filter, decide_eq_true_eq] at hs ⊢
    have := step s hs.2 p ((hP p).2 hp)
    exact ⟨hmem _ this, this⟩

/-- The predicates of the automaton. -/
def preds (atn : ATN) : List SC := atn.states.flatMap fun st => st.transitions.filterMap Trans.getPredicate

theorem mem_preds (atn : ATN) (p : SC) : p ∈ preds atn ↔ IsPred atn p := by
  simp only [preds, List.mem_flatMap, List.mem_filterMap, IsPred]
  constructor
  · rintro ⟨st, h1, tr, h2, h3⟩
    obtain ⟨s, h⟩ := List.getElem?_of_mem h1
    exact ⟨s, st, tr, h, h2, h3⟩
  · rintro ⟨s, st, tr, h1, h2, h3⟩
    exact ⟨st, List.mem_of_getElem? h1, tr, h2, h3⟩

theorem stays_ex {ord : List SC → List SC} (hord : ∀ l, (ord l).Perm l) (atn : ATN) :
    ∃ S, SC.NONE ∈ S ∧ Stays atn ord S := noted_stays hord (mem_preds atn)

/-! ### Reading a token -/

theorem matches_total {tr : Trans} (h1 : ∀ t f r p, tr ≠ .rule t f r p) (h2 : tr.getPredicate = none) (t a b : Int) :
    ∃ m, tr.matches t a b = some m := Antlr.Prediction.matches_total h1 h2 t a b

theorem ripe_reads {atn : ATN} (ha : Tame atn) {c : Config} (h : Ripe atn c) {st : ATNState}
    (hst : atn.states[c.state]? = some st) (hn : st.stateType ≠ .ruleStop) :
    ∀ tr ∈ st.transitions, (∀ t f r p, tr ≠ .rule t f r p) ∧ tr.getPredicate = none := by
  intro tr htr
  by_contra hcon
  have hbad : (∃ t f r p, tr = .rule t f r p) ∨ tr.getPredicate ≠ none := by
    by_cases hp : tr.getPredicate = none
    · left
      by_contra hr
      exact hcon ⟨fun t f r p e => hr ⟨t, f, r, p, e⟩, hp⟩
    · exact .inr hp
  rcases h.wait with h | ⟨st', h1, h2⟩
  · exact hn ((isStop_iff hst).1 h)
  · rw [hst, Option.some.injEq] at h1
    subst h1
    have := (ha.marks _ _ hst).2 ⟨List.ne_nil_of_mem htr, ha.unmixed _ _ hst _ htr hbad⟩
    rw [this] at h2; simp at h2

theorem reachTrans_total {atn : ATN} (ha : Tame atn) {full d : Bool} (hd : full = false → d = true) {t : Int}
    {T : Int → Pos → Prop} (hT : ∀ j p q, T j p → ReadStep atn t p q → T j q) {c : Config}
    {st : ATNState} (hst : atn.states[c.state]? = some st) (hn : st.stateType ≠ .ruleStop) (hc : Fine atn full T c)
    (hf : full = true → c.reaches ≤ 0) (trs : List Trans) (hsub : ∀ tr ∈ trs, tr ∈ st.transitions)
    {acc : ConfigSet × PC.Cache} (ho : Open full d (Sound full T) acc.1 acc.2) :
    ∃ acc', reachTrans atn t c trs acc = some acc' ∧ Open full d (Sound full T) acc'.1 acc'.2 := by
  induction trs generalizing acc with
  | nil => exact ⟨acc, rfl, ho⟩
  | cons tr trs ih =>
    have htr := hsub tr (by simp)
    obtain ⟨q1, q2⟩ := ripe_reads ha hc.2 hst hn tr htr
    obtain ⟨m, hm⟩ := matches_total q1 q2 t 0 atn.maxTokenType
    rw [reachTrans, hm, Option.bind_some]
    cases m with
    | false => exact ih (fun x hx => hsub x (by simp [hx])) ho
    | true =>
      have hcl : cloned atn c tr.target = some { c with state := tr.target } := by
        simp [cloned, List.getElem?_eq_getElem (ha.targets _ _ hst _ htr)]
      have hs : Sound full T { c with state := tr.target } :=
        ⟨hc.1.fit, hc.1.pos, fun s hs => hT _ _ _ (hc.1.all s hs)
          ⟨st, tr, hst, hn, htr, matches_iff' ha hst htr (.inl ⟨rfl, rfl⟩) hm rfl, rfl⟩⟩
      obtain ⟨s', mc', h1, h2⟩ := addCached_total hd ho hs.fit hf hs
      simp only [if_true, hcl, Option.bind_some, h1]
      exact ih (fun x hx => hsub x (by simp [hx])) h2

theorem ripe_state {atn : ATN} {c : Config} (h : Ripe atn c) : ∃ st, atn.states[c.state]? = some st := by
  rcases h.wait with h | ⟨st, h, -⟩
  · unfold isStop at h
    split at h
    · exact ⟨_, by assumption⟩
    · simp at h
  · exact ⟨st, h⟩

theorem reachLoop_total {atn : ATN} (ha : Tame atn) {full d : Bool} (hd : full = false → d = true) {t : Int}
    {T : Int → Pos → Prop} (hT : ∀ j p q, T j p → ReadStep atn t p q → T j q)
    (cs : List Config) (hc : ∀ c ∈ cs, Fine atn full T c ∧ (full = true → c.reaches ≤ 0)) {acc : ConfigSet × PC.Cache}
    {sk : List Config} (ho : Open full d (Sound full T) acc.1 acc.2) :
    ∃ im mc' sk', reachLoop atn t full cs acc sk = some (im, mc', sk') ∧ Open full d (Sound full T) im mc' ∧
      ∀ x ∈ sk', x ∈ sk ∨ (x ∈ cs ∧ isStop atn x = true) := by
  induction cs generalizing acc sk with
  | nil => exact ⟨_, _, _, rfl, ho, fun x h => .inl h⟩
  | cons c cs ih =>
    obtain ⟨hF, hf⟩ := hc c (by simp)
    obtain ⟨st, hst⟩ := ripe_state hF.2
    rw [reachLoop, hst, Option.bind_some]
    by_cases hs : st.stateType = .ruleStop
    · have hstop := (isStop_iff hst).2 hs
      have := hF.2.stop hstop
      rw [if_pos hs, if_pos (by rw [this]; rfl)]
      obtain ⟨im, mc', sk', h1, h2, h3⟩ := ih (fun x hx => hc x (by simp [hx])) ho
        (sk := if full || t == TOKEN_EOF then sk ++ [c] else sk)
      refine ⟨im, mc', sk', h1, h2, fun x hx => ?_⟩
      rcases h3 x hx with h | h
      · split at h
        · rcases List.mem_append.1 h with h | h
          · exact .inl h
          · rw [List.mem_singleton] at h; subst h; exact .inr ⟨by simp, hstop⟩
        · exact .inl h
      · exact .inr ⟨by simp [h.1], h.2⟩
    · rw [if_neg hs]
      obtain ⟨acc', h1, h2⟩ := reachTrans_total ha hd hT hst hs hF hf _ (fun _ h => h) ho
      rw [h1, Option.bind_some]
      obtain ⟨im, mc', sk', g1, g2, g3⟩ := ih (sk := sk) (fun x hx => hc x (by simp [hx])) h2
      refine ⟨im, mc', sk', g1, g2, fun x hx => ?_⟩
      rcases g3 x hx with h | h
      · exact .inl h
      · exact .inr ⟨by simp [h.1], h.2⟩

theorem closeAll_total [TokStream I] {L : Local I} {N : Nat} {full eof d : Bool} {T : Int → Pos → Prop} {Z : I → Prop}
    (ha : Tame L.atn) (hl : NoLoop L.atn N) (hg : Moves L.atn full eof T)
    (hst0 : ∃ st, L.atn.states[L.atnStart]? = some st) (hd : full = false → d = true) (cs : List Config)
    (hs : ∀ c ∈ cs, Sound full T c ∧ (full = true → c.reaches ≤ 0))
    {w : Work I} (ho : Open full d (Fine L.atn full T) w.configs w.mc) (hz : Z w.inp) :
    ∃ w', Returns (fun m => closeAll L m full eof cs w) w' ∧ Open full d (Fine L.atn full T) w'.configs w'.mc ∧ Z w'.inp := by
  induction cs generalizing w with
  | nil => exact ⟨w, .const rfl, ho, hz⟩
  | cons c cs ih =>
    obtain ⟨w1, h1, h2, h3⟩ := closure_returns (eof := eof) (S := [c.sem]) (κ := c.kind) (collect := false) ha hl hg hst0 hd
      ⟨(hs c (by simp)).1, (hs c (by simp)).2, .inr rfl, fun _ => by simp⟩ (by simp) ho hz
    obtain ⟨w2, h4, h5, h6⟩ := ih (fun x hx => hs x (by simp [hx])) h2 h3
    exact ⟨w2, h1.bind h4, h5, h6⟩

theorem addEach_total {full d : Bool} (hd : full = false → d = true) {Q : Config → Prop} (cs : List Config)
    (hc : ∀ c ∈ cs, Fit full c.ctx ∧ (full = true → c.reaches ≤ 0) ∧ Q c) {s : ConfigSet} {mc : PC.Cache}
    (ho : Open full d Q s mc) : ∃ s' mc', addEach cs s mc = some (s', mc') ∧ Open full d Q s' mc' := by
  induction cs generalizing s mc with
  | nil => exact ⟨_, _, rfl, ho⟩
  | cons c cs ih =>
    obtain ⟨f1, f2, f3⟩ := hc c (by simp)
    obtain ⟨s', mc', h1, h2⟩ := addCached_total hd ho f1 f2 f3
    obtain ⟨s2, mc2, h3, h4⟩ := ih (fun x hx => hc x (by simp [hx])) h2
    exact ⟨s2, mc2, by simp only [addEach, h1, Option.bind_some]; exact h3, h4⟩

theorem Open.fine {atn : ATN} {full d : Bool} {T : Int → Pos → Prop} {s : ConfigSet} {mc : PC.Cache}
    (h : Open full d (Fine atn full T) s mc) : ∀ c ∈ s.configs, Fine atn full T c := by
  obtain ⟨A, h1, h2⟩ := h.holds
  exact fun c hc => ⟨holds_sound h1 (fun a ha => (h2 a ha).1) c hc, holds_ripe h1 (fun a ha => (h2 a ha).2) c hc⟩

/-- What `compute_reach_set` makes. -/
structure Reached (atn : ATN) (full d : Bool) (T : Int → Pos → Prop) (t : Int) (s : ConfigSet) : Prop where
  ne : s.configs ≠ []
  marks : s.uniqueAlt = 0 ∧ s.conflictingAlts = []
  sound : ∀ c ∈ s.configs, Sound full T c
  ripe : uniqueAlt s = INVALID_ALT → ∀ c ∈ s.configs, Ripe atn c
  eof : t = TOKEN_EOF → ∀ c ∈ s.configs, isStop atn c = true
  low : full = true → ∀ c ∈ s.configs, c.reaches ≤ 0

theorem holds_stops {atn : ATN} {full d : Bool} {A : List Config} {s : ConfigSet} (h : Holds full d A s)
    (hA : ∀ a ∈ A, isStop atn a = true) : ∀ c ∈ s.configs, isStop atn c = true := by
  intro c hc
  obtain ⟨a, ha, h1, -⟩ := holds_mem h hc
  rw [← isStop_congr h1]
  exact hA a ha

/-- `compute_reach_set` returns. -/
theorem computeReach_total [TokStream I] {L : Local I} {N : Nat} {full d : Bool} {T : Int → Pos → Prop} {Z : I → Prop}
    {t : Int} (ha : Tame L.atn) (hl : NoLoop L.atn N) (hg : Moves L.atn full (t == TOKEN_EOF) T)
    (hlow : ∀ j p, T j p → 1 ≤ j) (hT : ∀ j p q, T j p → ReadStep L.atn t p q → T j q)
    (hst0 : ∃ st, L.atn.states[L.atnStart]? = some st) (hd : full = false → d = true) {cs : ConfigSet}
    (hc : ∀ c ∈ cs.configs, Fine L.atn full T c ∧ (full = true → c.reaches ≤ 0)) {mc : PC.Cache} (hm : CacheFit full d mc)
    {inp : I} (hz : Z inp) :
    ∃ r mc' inp', Returns (fun m => computeReach L m cs t full mc inp) (r, mc', inp') ∧ Z inp' ∧ CacheFit full d mc' ∧
      ∀ s, r = some s → Reached L.atn full d T t s := by
  obtain ⟨im, mc1, sk, h1, o1, hsk⟩ := reachLoop_total (t := t) (acc := (.newBase full, mc)) (sk := []) ha hd hT _ hc
    (Open.new hm)
  have hsk' : ∀ x ∈ sk, x ∈ cs.configs ∧ isStop L.atn x = true := by
    intro x hx
    rcases hsk x hx with h | h
    · simp at h
    · exact h
  obtain ⟨A, hA1, hA2⟩ := o1.holds
  have sim : ∀ c ∈ im.configs, Sound full T c := holds_sound hA1 hA2
  by_cases hq : (sk.isEmpty && t != TOKEN_EOF && (im.configs.length == 1 || uniqueAlt im != INVALID_ALT)) = true
  · -- one alternative is left
    have hq' := hq
    simp only [Bool.and_eq_true, bne_iff_ne, ne_eq, Bool.or_eq_true, beq_iff_eq] at hq'
    obtain ⟨⟨k1, k2⟩, k3⟩ := hq'
    have hu : im.configs ≠ [] → uniqueAlt im ≠ INVALID_ALT := by
      intro hne
      rcases k3 with k3 | k3
      · obtain ⟨c, hcc⟩ := List.length_eq_one_iff.1 k3
        obtain ⟨k, hk⟩ := (sim c (by rw [hcc]; simp)).ex
        have := hlow _ _ hk
        refine uniqueAlt_of hne (a := c.alt) (by simp only [INVALID_ALT]; omega) ?_
        intro x hx
        rw [hcc, List.mem_singleton] at hx
        rw [hx]
      · exact k3
    refine ⟨if im.configs.isEmpty then none else some im, mc1, inp, ⟨0, fun m _ => ?_⟩, hz, o1.cache, ?_⟩
    · unfold computeReach
      simp only [h1, Option.bind_some]
      rw [if_pos hq]
      simp only [Option.bind_some, if_neg k2, k1, Bool.not_true, Bool.false_and, Bool.false_eq_true, if_false, Option.map_some]
    · intro s hs
      split at hs
      · simp at hs
      · rename_i hne
        rw [Option.some.injEq] at hs; subst hs
        have hne : im.configs ≠ [] := by simpa using hne
        exact ⟨hne, Holds.marks hA1, sim, fun e => absurd e (hu hne), fun e => absurd e k2, o1.low⟩
  · obtain ⟨w, g1, g2, g3⟩ := closeAll_total (eof := (t == TOKEN_EOF)) (Z := Z) ha hl hg hst0 hd im.configs
      (fun c h => ⟨sim c h, fun e => o1.low e c h⟩) (w := ⟨.newBase full, [], mc1, inp⟩) (Open.new o1.cache) hz
    -- at EOF only the ends of rules count
    let Q : Config → Prop := fun c => Fine L.atn full T c ∧ (t = TOKEN_EOF → isStop L.atn c = true)
    have third : ∃ reach3 mc3, (if t = TOKEN_EOF then keepStops L.atn w.configs w.mc else some (w.configs, w.mc)) =
        some (reach3, mc3) ∧ Open full d Q reach3 mc3 := by
      split
      · rename_i heof
        unfold keepStops
        obtain ⟨B, hB, -⟩ := g2.holds
        by_cases hall : w.configs.configs.all (isStop L.atn) = true
        · rw [if_pos hall]
          obtain ⟨B, hB, hB2⟩ := g2.holds
          refine ⟨_, _, rfl, g2.cache, ⟨B, hB, fun a haB => ⟨hB2 a haB, fun _ => ?_⟩⟩, g2.flat, g2.low⟩
          obtain ⟨⟨b, hi⟩, -, -⟩ := hB
          have key : ∀ c : Config, ({ w.configs with dips := b } : ConfigSet).key c = .part c.state c.alt c.sem := by
            intro c; rw [ConfigSet.key, if_neg]; rw [hi.ord]; simp
          have : ({ w.configs with dips := b } : ConfigSet).key a ∈
              w.configs.configs.map ({ w.configs with dips := b } : ConfigSet).key := by
            have := hi.keys
            dsimp only at this
            rw [this, (firsts_spec _).2]; exact List.mem_map_of_mem haB
          obtain ⟨c, hcm, e⟩ := List.mem_map.1 this
          rw [key, key] at e
          simp only [Key.part.injEq] at e
          rw [← isStop_congr e.1]
          exact List.all_eq_true.1 hall c hcm
        · rw [if_neg hall, hB.fullCtx]
          refine addEach_total hd _ (fun c hcf => ?_) (Open.new g2.cache)
          obtain ⟨hcm, hcs⟩ := List.mem_filter.1 hcf
          exact ⟨(g2.fine c hcm).1.fit, fun e => g2.low e c hcm, g2.fine c hcm, fun _ => hcs⟩
      · rename_i hne
        exact ⟨_, _, rfl, g2.mono fun c h => ⟨h, fun e => absurd e hne⟩⟩
    obtain ⟨reach3, mc3, g4, g5⟩ := third
    have fourth : ∃ reach4 mc4, (if !sk.isEmpty && (!full || !reach3.configs.any (isStop L.atn)) then addEach sk reach3 mc3
        else some (reach3, mc3)) = some (reach4, mc4) ∧ Open full d Q reach4 mc4 := by
      split
      · refine addEach_total hd _ (fun c h => ?_) g5
        obtain ⟨k1, k2⟩ := hsk' c h
        exact ⟨(hc c k1).1.1.fit, (hc c k1).2, (hc c k1).1, fun _ => k2⟩
      · exact ⟨_, _, rfl, g5⟩
    obtain ⟨reach4, mc4, g6, g7⟩ := fourth
    obtain ⟨B, hB1, hB2⟩ := g7.holds
    refine ⟨if reach4.configs.isEmpty then none else some reach4, mc4, w.inp, ?_, g3, g7.cache, ?_⟩
    · unfold computeReach
      simp only [h1, Option.bind_some, if_neg hq]
      refine (g1.map _).bind (.const ?_)
      simp only [g4, Option.bind_some, g6, Option.map_some]
    · intro s hs
      split at hs
      · simp at hs
      · rename_i hne
        rw [Option.some.injEq] at hs; subst hs
        exact ⟨by simpa using hne, Holds.marks hB1, holds_sound hB1 fun a h => (hB2 a h).1.1,
          fun _ => holds_ripe hB1 fun a h => (hB2 a h).1.2, fun e => holds_stops hB1 fun a h => (hB2 a h).2 e, g7.low⟩

/-! ### The start -/

theorem startLoop_total [TokStream I] {L : Local I} {N : Nat} {full d : Bool} {T : Int → Pos → Prop} {Z : I → Prop}
    {S : List SC} (ha : Tame L.atn) (hl : NoLoop L.atn N) (hg : Moves L.atn full false T)
    (hst0 : ∃ st, L.atn.states[L.atnStart]? = some st) (hd : full = false → d = true)
    (hS : SC.NONE ∈ S) (hall : Allowed L full S Z) {ctx : PC} (hctx : Fit full ctx)
    (hpos : ∀ s, HasStack ctx s → ∀ r ∈ s, 0 ≤ r) (trs : List Trans) (i : Nat)
    (htr : ∀ (n : Nat) tr, trs[n]? = some tr → ∀ s, HasStack ctx s → T ((i + n + 1 : Nat) : Int) (tr.target, nats s))
    {w : Work I} (ho : Open full d (Fine L.atn full T) w.configs w.mc) (hz : Z w.inp) :
    ∃ w', Returns (fun m => startLoop L m ctx full trs i w) w' ∧ Open full d (Fine L.atn full T) w'.configs w'.mc ∧
      Z w'.inp := by
  induction trs generalizing i w with
  | nil => exact ⟨w, .const rfl, ho, hz⟩
  | cons tr trs ih =>
    have hs : Sound full T { state := tr.target, alt := ((i + 1 : Nat) : Int), ctx := ctx } :=
      ⟨hctx, hpos, fun s h => htr 0 tr rfl s h⟩
    have hlt : tr.target < L.atn.states.length := by
      obtain ⟨k, hk⟩ := hs.ex
      exact (hg.inside _ _ hk).1
    have hcl : cloned L.atn { state := tr.target, alt := ((i + 1 : Nat) : Int), ctx := ctx } tr.target =
        some { state := tr.target, alt := ((i + 1 : Nat) : Int), ctx := ctx } := by
      simp [cloned, List.getElem?_eq_getElem hlt]
    obtain ⟨w1, h1, h2, h3⟩ := closure_returns (eof := false) (S := S) (κ := .base) (collect := true)
      (w := { w with busy := [] }) ha hl hg hst0 hd ⟨hs, fun _ => Int.le_refl _, .inl rfl, fun _ => hS⟩ (fun _ => hall) ho hz
    obtain ⟨w2, h4, h5, h6⟩ := ih (i + 1) (fun n tr' hn s h => by
      have := htr (n + 1) tr' (by simpa using hn) s h
      rwa [show i + (n + 1) + 1 = i + 1 + n + 1 by omega] at this) h2 h3
    refine ⟨w2, ?_, h5, h6⟩
    simp only [startLoop, hcl, Option.bind_some]
    exact h1.bind h4

/-- `compute_start_state` returns. -/
theorem computeStart_total [TokStream I] {L : Local I} {N : Nat} {full d : Bool} {T : Int → Pos → Prop} {Z : I → Prop}
    {S : List SC} (ha : Tame L.atn) (hl : NoLoop L.atn N) (hg : Moves L.atn full false T)
    {dec : ATNState} (hdec : L.atn.states[L.atnStart]? = some dec) (hd : full = false → d = true)
    (hS : SC.NONE ∈ S) (hall : Allowed L full S Z) {ctx : PC} (hctx : Fit full ctx)
    (hpos : ∀ s, HasStack ctx s → ∀ r ∈ s, 0 ≤ r)
    (htr : ∀ (n : Nat) tr, dec.transitions[n]? = some tr → ∀ s, HasStack ctx s → T ((n + 1 : Nat) : Int) (tr.target, nats s))
    {mc : PC.Cache} (hm : CacheFit full d mc) {inp : I} (hz : Z inp) :
    ∃ s mc' inp', Returns (fun m => computeStart L m ctx full mc inp) (s, mc', inp') ∧
      Open full d (Fine L.atn full T) s mc' ∧ Z inp' := by
  obtain ⟨w, h1, h2, h3⟩ := startLoop_total ha hl hg ⟨_, hdec⟩ hd hS hall hctx hpos dec.transitions 0
    (fun n tr hn s h => by rw [Nat.zero_add]; exact htr n tr hn s h)
    (w := ⟨.newBase full, [], mc, inp⟩) (Open.new hm) hz
  refine ⟨_, _, w.inp, ?_, h2, h3⟩
  simp only [computeStart, hdec, Option.bind_some]
  exact h1.map _

/-! ### The precedence filter -/

theorem filterFirst_total {atn : ATN} {T : Int → Pos → Prop} (ord : List SC → List SC) (env : SC.Env) (cs : List Config)
    (hc : ∀ c ∈ cs, Fine atn false T c) (m : List (Nat × PC)) {s : ConfigSet} {mc : PC.Cache}
    (ho : Open false true (Fine atn false T) s mc) :
    ∃ m' s' mc', filterFirst ord env cs m s mc = some (m', s', mc') ∧ Open false true (Fine atn false T) s' mc' := by
  induction cs generalizing m s mc with
  | nil => exact ⟨_, _, _, rfl, ho⟩
  | cons c cs ih =>
    have ih' := ih fun x hx => hc x (by simp [hx])
    rw [filterFirst]
    split
    · exact ih' m ho
    · split
      · exact ih' m ho
      · rename_i sem hsem
        have hf := hc c (by simp)
        have hq : Fine atn false T (if sem ≠ c.sem then { state := c.state, alt := c.alt, ctx := c.ctx, sem := sem } else c) := by
          split
          · exact ⟨⟨hf.1.fit, hf.1.pos, hf.1.all⟩, ⟨hf.2.stop, hf.2.wait⟩⟩
          · exact hf
        obtain ⟨s', mc', h1, h2⟩ := addCached_total (by simp) ho hq.1.fit (by simp) hq
        rw [h1, Option.bind_some, Option.bind_some]
        exact ih' _ h2

theorem filterRest_total {atn : ATN} {T : Int → Pos → Prop} (m : List (Nat × PC)) (cs : List Config)
    (hc : ∀ c ∈ cs, Fine atn false T c) {s : ConfigSet} {A : List Config} (ho : Holds false true A s)
    (hA : ∀ a ∈ A, Fine atn false T a) :
    ∃ s' A', filterRest m cs s = some s' ∧ Holds false true A' s' ∧ ∀ a ∈ A', Fine atn false T a := by
  induction cs generalizing s A with
  | nil => exact ⟨_, _, rfl, ho, hA⟩
  | cons c cs ih =>
    have hc' : ∀ x ∈ cs, Fine atn false T x := fun x hx => hc x (by simp [hx])
    rw [filterRest]
    split
    · exact ih hc' ho hA
    · split
      · exact ih hc' ho hA
      · obtain ⟨s', o, h1, h2⟩ := holds_addNone (fun _ => rfl) ho (hc c (by simp)).1.fit
        rw [h1, Option.bind_some]
        refine ih hc' h2 fun a ha => ?_
        rcases List.mem_append.1 ha with ha | ha
        · exact hA a ha
        · rw [List.mem_singleton] at ha; rw [ha]; exact hc c (by simp)

/-- A set of configurations that waits for a token. -/
structure Waits (atn : ATN) (T : Int → Pos → Prop) (s : ConfigSet) : Prop where
  fine : ∀ c ∈ s.configs, Fine atn false T c
  marks : s.uniqueAlt = 0 ∧ s.conflictingAlts = []

theorem waits_of {atn : ATN} {T : Int → Pos → Prop} {s : ConfigSet} {A : List Config} {d : Bool} (h : Holds false d A s)
    (hA : ∀ a ∈ A, Fine atn false T a) : Waits atn T s :=
  ⟨fun c hc => ⟨holds_sound h (fun a ha => (hA a ha).1) c hc, holds_ripe h (fun a ha => (hA a ha).2) c hc⟩, Holds.marks h⟩

theorem applyPrecedenceFilter_total {L : Local I} {T : Int → Pos → Prop} {cs : ConfigSet} {mc : PC.Cache} (inp : I)
    (ho : Open false true (Fine L.atn false T) cs mc) :
    ∃ s mc', applyPrecedenceFilter L cs mc inp = some (s, mc') ∧ Waits L.atn T s ∧ CacheFit false true mc' := by
  obtain ⟨A, hA, -⟩ := ho.holds
  unfold applyPrecedenceFilter
  rw [hA.fullCtx]
  obtain ⟨m, s, mc', h1, h2⟩ := filterFirst_total L.ord (L.env inp) cs.configs ho.fine [] (Open.new ho.cache)
  obtain ⟨B, hB1, hB2⟩ := h2.holds
  obtain ⟨s', B', h3, h4, h5⟩ := filterRest_total m cs.configs ho.fine hB1 hB2
  simp only [h1, Option.bind_some, h3, Option.map_some]
  exact ⟨_, _, rfl, waits_of h4 h5, h2.cache⟩

end Antlr.Prediction.Sem
