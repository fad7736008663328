import Verif.Deserializer.Reading

/-!
# Reading back the segments: states, rules, sets, edges, actions
-/

namespace Antlr.Deserial
open Antlr SerialSpec IntervalSpec

/-! ## Sets -/

theorem written_length (l : List Interval) : (written l).length ≤ l.length := List.length_filterMap_le _ _

theorem reads_set {bound : Rd Int} {w : Int → List Int} {l : List Interval} (hc : Canonical l)
    (h : ∀ i ∈ l, -1 ≤ i.a) (hl : l.length < 0xFFFE)
    (hb : ∀ r ∈ written l, ReadsAs bound (w r.a) r.a ∧ ReadsAs bound (w r.b) r.b) :
    ReadsAs (readSet bound) (setWords w l) ⟨l, false⟩ := by
  intro rest
  have h1 : ReadsAs countI [((written l).length : Int)] (written l).length :=
    reads_countI (by have := written_length l; simp only [Fits]; omega)
  have h2 : ReadsAs next [if hasEof l then (1 : Int) else 0] (if hasEof l then 1 else 0) :=
    reads_next (by simp only [Fits]; split <;> omega)
  have h3 : ReadsAs (times (readInterval bound) (written l).length)
      ((written l).flatMap fun i => w i.a ++ w i.b) ((written l).map id) :=
    reads_times (written l) fun r hr => reads_interval (hb r hr).1 (hb r hr).2
  have e : setWords w l = [((written l).length : Int)] ++ ([if hasEof l then (1 : Int) else 0] ++
      (written l).flatMap fun i => w i.a ++ w i.b) := by simp [setWords]
  rw [e]
  simp only [readSet, List.map_append, List.append_assoc]
  rw [h1]
  simp only [Option.bind_some]
  rw [h2]
  simp only [Option.bind_some]
  rw [h3]
  simp only [Option.map_some, List.map_id]
  rw [← rebuild l hc h]
  cases hasEof l <;> simp

theorem mem_allSets {src : Src} {l : List Interval} :
    l ∈ allSets src ↔ ∃ s ∈ src.states, ∃ t ∈ s.edges, l ∈ carried t := by
  simp only [allSets, List.mem_eraseDups, List.mem_flatMap]
  constructor
  · rintro ⟨t, ⟨s, hs, ht⟩, hl⟩; exact ⟨s, hs, t, ht, hl⟩
  · rintro ⟨s, hs, t, ht, hl⟩; exact ⟨t, ⟨s, hs, ht⟩, hl⟩

theorem good_sets {src : Src} (h : WF src) {l : List Interval} (hl : l ∈ allSets src) :
    Canonical l ∧ ∀ i ∈ l, -1 ≤ i.a ∧ i.b ≤ 0x10FFFF := by
  obtain ⟨s, hs, t, ht, hl⟩ := mem_allSets.mp hl
  have := h.edges s hs t ht
  cases t <;> simp only [carried, List.mem_singleton, List.not_mem_nil] at hl <;>
    · subst hl; exact this.2

/-- What the two tables are read as. -/
def table (src : Src) : List IntervalSet := (smallSets src ++ bigSets src).map fun l => ⟨l, false⟩

theorem reads_small {src : Src} (h : WF src) :
    ReadsAs (readSets bound16) (setsWords word16 (smallSets src)) ((smallSets src).map fun l => ⟨l, false⟩) := by
  intro rest
  have h1 : ReadsAs countI [((smallSets src).length : Int)] (smallSets src).length :=
    reads_countI (by
      have := h.fewSets
      have : (smallSets src).length ≤ (allSets src).length := List.length_filter_le _ _
      simp only [Fits]; omega)
  have h2 : ReadsAs (times (readSet bound16) (smallSets src).length) ((smallSets src).flatMap (setWords word16))
      ((smallSets src).map fun l => ⟨l, false⟩) := by
    apply reads_times
    intro l hl
    have hl' := List.mem_filter.mp hl
    obtain ⟨hc, hi⟩ := good_sets h hl'.1
    refine reads_set hc (fun i hi' => (hi i hi').1) (h.fewIntervals l hl'.1) ?_
    intro r hr
    obtain ⟨i, hi', h3, h4⟩ := mem_written hr
    have h5 := hc.1 i hi'
    have h6 := hi i hi'
    have h7 := List.all_eq_true.mp hl'.2 i hi'
    simp only [decide_eq_true_eq] at h7
    exact ⟨reads_bound16 (by omega) (by omega), reads_bound16 (by omega) (by omega)⟩
  have e : setsWords word16 (smallSets src) = [((smallSets src).length : Int)] ++
      (smallSets src).flatMap (setWords word16) := rfl
  rw [e]
  simp only [readSets, List.map_append, List.append_assoc]
  rw [h1]
  simp only [Option.bind_some]
  rw [h2]

theorem reads_big {src : Src} (h : WF src) :
    ReadsAs (readSets bound32) (setsWords word32 (bigSets src)) ((bigSets src).map fun l => ⟨l, false⟩) := by
  intro rest
  have h1 : ReadsAs countI [((bigSets src).length : Int)] (bigSets src).length :=
    reads_countI (by
      have := h.fewSets
      have : (bigSets src).length ≤ (allSets src).length := List.length_filter_le _ _
      simp only [Fits]; omega)
  have h2 : ReadsAs (times (readSet bound32) (bigSets src).length) ((bigSets src).flatMap (setWords word32))
      ((bigSets src).map fun l => ⟨l, false⟩) := by
    apply reads_times
    intro l hl
    have hl' := List.mem_filter.mp hl
    obtain ⟨hc, hi⟩ := good_sets h hl'.1
    refine reads_set hc (fun i hi' => (hi i hi').1) (h.fewIntervals l hl'.1) ?_
    intro r hr
    obtain ⟨i, hi', h3, h4⟩ := mem_written hr
    have h5 := hc.1 i hi'
    have h6 := hi i hi'
    exact ⟨reads_bound32 (by omega) (by omega), reads_bound32 (by omega) (by omega)⟩
  have e : setsWords word32 (bigSets src) = [((bigSets src).length : Int)] ++
      (bigSets src).flatMap (setWords word32) := rfl
  rw [e]
  simp only [readSets, List.map_append, List.append_assoc]
  rw [h1]
  simp only [Option.bind_some]
  rw [h2]

theorem setIndex_spec {src : Src} {l : List Interval} (hl : l ∈ allSets src) :
    (table src)[setIndex src l]? = some ⟨l, false⟩ := by
  have hm : l ∈ smallSets src ++ bigSets src := by
    simp only [smallSets, bigSets, List.mem_append, List.mem_filter]
    cases h : isSmall l
    · exact .inr ⟨hl, by simp⟩
    · exact .inl ⟨hl, rfl⟩
  simp only [table, setIndex, List.getElem?_map]
  rw [List.getElem?_eq_getElem (List.idxOf_lt_length_of_mem hm), List.getElem_idxOf]
  rfl

/-! ## Edges -/

theorem reads_edge {src : Src} {i : Nat} {t : Trans} (hf : ∀ v ∈ edgeWords src i t, Fits v)
    (hg : GoodEdge src t) (hs : ∀ l ∈ carried t, l ∈ allSets src) :
    ReadsAs (readEdge (table src)) (edgeWords src i t) (i, t) := by
  have six : ∀ (a b : Nat) (c d e f : Int) (r : Trans), (∀ v ∈ [(a : Int), (b : Int), c, d, e, f], Fits v) →
      edgeFactory (table src) c b d e f = some r →
      ReadsAs (readEdge (table src)) [(a : Int), (b : Int), c, d, e, f] (a, r) := by
    intro a b c d e f r h hr rest
    simp only [List.mem_cons, List.not_mem_nil, or_false, forall_eq_or_imp, forall_eq] at h
    obtain ⟨ha, hb, hc, hd, he, hf⟩ := h
    have e0 : [(a : Int), (b : Int), c, d, e, f] = [(a : Int)] ++ ([(b : Int)] ++ ([c] ++ ([d] ++ ([e] ++ [f])))) := rfl
    rw [e0]
    simp only [readEdge, List.map_append, List.append_assoc]
    rw [reads_ref ha]
    simp only [Option.bind_some]
    rw [reads_ref hb]
    simp only [Option.bind_some]
    rw [reads_next hc]
    simp only [Option.bind_some]
    rw [reads_next hd]
    simp only [Option.bind_some]
    rw [reads_next he]
    simp only [Option.bind_some]
    rw [reads_next hf]
    simp only [Option.bind_some, hr, Option.map_some]
  have small : ∀ n : Nat, Fits n → asUsize (n : Int) = n := by
    intro n hn
    simp only [Fits] at hn
    exact asUsize_nat (by omega)
  cases t with
  | epsilon t o =>
    obtain rfl : o = 0 := hg
    exact six _ _ _ _ _ _ _ hf rfl
  | range t a b =>
    simp only [edgeWords] at hf ⊢
    split at hf
    · rw [if_pos (by assumption)]
      refine six _ _ _ _ _ _ _ hf ?_
      simp [edgeFactory, *]
    · rw [if_neg (by assumption)]
      exact six _ _ _ _ _ _ _ hf (by simp [edgeFactory])
  | rule t f r p =>
    refine six _ _ _ _ _ _ _ hf ?_
    have : Fits (t : Int) := hf _ (by simp [edgeWords])
    simp [edgeFactory, small t this]
  | predicate t d r p =>
    refine six _ _ _ _ _ _ _ hf ?_
    cases d <;> simp [edgeFactory]
  | atom t l =>
    simp only [edgeWords] at hf ⊢
    split at hf
    · rw [if_pos (by assumption)]
      refine six _ _ _ _ _ _ _ hf ?_
      simp [edgeFactory, *]
    · rw [if_neg (by assumption)]
      exact six _ _ _ _ _ _ _ hf (by simp [edgeFactory])
  | action t d r a p =>
    obtain rfl : p = 0 := hg
    refine six _ _ _ _ _ _ _ hf ?_
    cases d <;> simp [edgeFactory]
  | set t s =>
    refine six _ _ _ _ _ _ _ hf ?_
    have : Fits (setIndex src s.intervals : Int) := hf _ (by simp [edgeWords])
    obtain ⟨ivs, ro⟩ := s
    have hro : ro = false := hg.1
    subst hro
    simp only [edgeFactory, small _ this]
    rw [setIndex_spec (hs _ (by simp [carried]))]
    rfl
  | notSet t s =>
    refine six _ _ _ _ _ _ _ hf ?_
    have : Fits (setIndex src s.intervals : Int) := hf _ (by simp [edgeWords])
    obtain ⟨ivs, ro⟩ := s
    have hro : ro = false := hg.1
    subst hro
    simp only [edgeFactory, small _ this]
    rw [setIndex_spec (hs _ (by simp [carried]))]
    rfl
  | wildcard t => exact six _ _ _ _ _ _ _ hf rfl
  | precedence t p => exact six _ _ _ _ _ _ _ hf rfl

theorem mem_allEdges {src : Src} {e : Nat × Trans} :
    e ∈ allEdges src ↔ ∃ s : SState, src.states[e.1]? = some s ∧ e.2 ∈ s.edges := by
  obtain ⟨i, t⟩ := e
  simp only [allEdges, List.mem_flatMap, List.mem_map, Prod.mk.injEq, Prod.exists]
  constructor
  · rintro ⟨s, j, hm, u, hu, rfl, rfl⟩
    exact ⟨s, List.mem_zipIdx_iff_getElem?.mp hm, hu⟩
  · rintro ⟨s, hs, ht⟩
    exact ⟨s, i, List.mem_zipIdx_iff_getElem?.mpr hs, t, ht, rfl, rfl⟩

theorem reads_edges {src : Src} (h : WF src) :
    ReadsAs (fun r => (countI r).bind fun n => times (readEdge (table src)) n.1 n.2) (edgesWords src)
      (allEdges src) := by
  intro rest
  have hfit : ∀ v ∈ edgesWords src, Fits v := fun v hv => h.fits v (by simp [back, hv])
  have h1 : ReadsAs countI [((allEdges src).length : Int)] (allEdges src).length :=
    reads_countI (hfit _ (by simp [edgesWords]))
  have h2 : ReadsAs (times (readEdge (table src)) (allEdges src).length)
      ((allEdges src).flatMap fun e => edgeWords src e.1 e.2) ((allEdges src).map id) := by
    apply reads_times
    intro e he
    obtain ⟨s, hs, ht⟩ := mem_allEdges.mp he
    have hs' := List.mem_of_getElem? hs
    refine reads_edge (fun v hv => hfit v ?_) (h.edges s hs' e.2 ht) ?_
    · simp only [edgesWords, List.mem_cons, List.mem_flatMap]
      exact .inr ⟨e, he, hv⟩
    · intro l hl
      exact mem_allSets.mpr ⟨s, hs', e.2, ht, hl⟩
  have e : edgesWords src = [((allEdges src).length : Int)] ++
      (allEdges src).flatMap fun e => edgeWords src e.1 e.2 := rfl
  rw [e]
  simp only [List.map_append, List.append_assoc]
  rw [h1]
  simp only [Option.bind_some]
  rw [h2, List.map_id]

/-! ## Actions -/

theorem reads_action {a : LexerAction} (hf : ∀ v ∈ actionWords a, Fits v) (h : ∀ o b, a ≠ .indexedCustom o b) :
    ReadsAs readAction (actionWords a) a := by
  have three : ∀ (c d e : Int), (∀ v ∈ [c, d, e], Fits v) → actionFactory c d e = some a →
      ReadsAs readAction [c, d, e] a := by
    intro c d e h hr rest
    simp only [List.mem_cons, List.not_mem_nil, or_false, forall_eq_or_imp, forall_eq] at h
    obtain ⟨hc, hd, he⟩ := h
    have e0 : [c, d, e] = [c] ++ ([d] ++ [e]) := rfl
    rw [e0]
    simp only [readAction, List.map_append, List.append_assoc]
    rw [reads_next hc]
    simp only [Option.bind_some]
    rw [reads_next hd]
    simp only [Option.bind_some]
    rw [reads_next he]
    simp only [Option.bind_some]
    simp only [Fits] at hd he
    rw [if_neg (by omega), if_neg (by omega), hr]
    rfl
  cases a with
  | indexedCustom o b => exact absurd rfl (h o b)
  | _ => exact three _ _ _ hf (by simp [actionFactory])

theorem reads_actions {l : List LexerAction} (hf : ∀ v ∈ (l.length : Int) :: l.flatMap actionWords, Fits v)
    (h : ∀ a ∈ l, ∀ o b, a ≠ .indexedCustom o b) :
    ReadsAs readLexerActions ((l.length : Int) :: l.flatMap actionWords) l := by
  intro rest
  have h1 : ReadsAs countU [(l.length : Int)] l.length := reads_countU (hf _ (by simp))
  have h2 : ReadsAs (times readAction l.length) (l.flatMap actionWords) (l.map id) := by
    apply reads_times
    intro a ha
    refine reads_action (fun v hv => hf v ?_) (h a ha)
    simp only [List.mem_cons, List.mem_flatMap]
    exact .inr ⟨a, ha, hv⟩
  have e : (l.length : Int) :: l.flatMap actionWords = [(l.length : Int)] ++ l.flatMap actionWords := rfl
  rw [e]
  simp only [readLexerActions, List.map_append, List.append_assoc]
  rw [h1]
  simp only [Option.bind_some]
  rw [h2, List.map_id]

/-! ## States -/

/-- The type of a state when it has been read. -/
def kindType : SKind → StateType
  | .basic => .basic
  | .ruleStart _ => .ruleStart 0 false
  | .blockStart e => .decision (-1) false (.blockStart e .basic)
  | .plusBlockStart e => .decision (-1) false (.blockStart e (.plus 0))
  | .starBlockStart e => .decision (-1) false (.blockStart e .star)
  | .tokenStart => .decision (-1) false .tokenStart
  | .ruleStop => .ruleStop
  | .blockEnd => .blockEnd 0
  | .starLoopBack => .starLoopback
  | .starLoopEntry => .decision (-1) false (.starLoopEntry 0 false)
  | .plusLoopBack => .decision (-1) false .plusLoopBack
  | .loopEnd b => .loopEnd b

/-- A state when it has been read. -/
def state0 (i : Nat) (s : SState) : ATNState :=
  { ruleIndex := ruleNumber s, stateNumber := i, stateType := kindType s.kind }

theorem reads_state {i : Nat} {s : SState} (hf : ∀ v ∈ stateWords s, Fits v) :
    ReadsAs (readState i) (stateWords s) (state0 i s) := by
  intro rest
  obtain ⟨kind, rule, ng, edges⟩ := s
  have hr : ∃ r : Int, ruleWord rule = r ∧ Fits r ∧
      asUsize (if r = 0xFFFF then -1 else r) = rule.getD (2 ^ 64 - 1) := by
    refine ⟨_, rfl, hf _ (by simp [stateWords]), ?_⟩
    have hfit : Fits (ruleWord rule) := hf _ (by simp [stateWords])
    cases rule with
    | none => rfl
    | some r =>
      simp only [Fits, ruleWord] at hfit
      have hn : ruleWord (some r) ≠ 0xFFFF := by simp only [ruleWord]; omega
      rw [if_neg hn]
      simp only [Option.getD_some]
      exact asUsize_nat (by omega)
  obtain ⟨r, h1, h2, h3⟩ := hr
  have hc : Fits kind.code := hf _ (by simp [stateWords])
  have hc1 : kind.code ≠ -1 := by cases kind <;> simp [SKind.code]
  have e : stateWords ⟨kind, rule, ng, edges⟩ = [kind.code] ++ ([r] ++ kind.aux) := by
    simp only [stateWords, h1, List.cons_append, List.nil_append]
  have haux : ∀ v ∈ kind.aux, Fits v := fun v hv => hf v (by rw [e]; simp [hv])
  rw [e]
  simp only [readState, List.map_append, List.append_assoc]
  rw [reads_next hc]
  simp only [Option.bind_some]
  rw [if_neg hc1, reads_next h2]
  simp only [Option.bind_some]
  cases kind with
  | blockStart x | plusBlockStart x | starBlockStart x | loopEnd x =>
    have := reads_ref (haux x (by simp [SKind.aux])) rest
    simp only [stateFactory, SKind.code, SKind.aux, readAux, List.map_cons, List.map_nil, List.cons_append, List.nil_append] at this ⊢
    simp [this, state0, kindType, ruleNumber, h3]
  | _ =>
    simp [stateFactory, SKind.code, SKind.aux, readAux, state0, kindType, ruleNumber, h3]

/-! ## Rules -/

theorem reads_rule {g : ATNType} {r : Nat × Int}
    (hf : ∀ v ∈ (if g = .lexer then [(r.1 : Int), r.2] else [(r.1 : Int)]), Fits v) :
    ReadsAs (readRule (g = .lexer)) (if g = .lexer then [(r.1 : Int), r.2] else [(r.1 : Int)])
      (r.1, if g = .lexer then some r.2 else none) := by
  intro rest
  by_cases hg : g = .lexer
  · simp only [hg, if_true] at hf ⊢
    have e : [(r.1 : Int), r.2] = [(r.1 : Int)] ++ [r.2] := rfl
    rw [e]
    simp only [readRule, List.map_append, List.append_assoc]
    rw [reads_ref (hf _ (by simp))]
    simp only [Option.bind_some]
    rw [reads_next (hf _ (by simp))]
    simp
  · simp only [hg, if_false] at hf ⊢
    simp only [readRule]
    rw [reads_ref (hf _ (by simp))]
    simp

end Antlr.Deserial
