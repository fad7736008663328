import Verif.ConfigSet.Lemmas
import Verif.PredictionContext.Props

/-!
# Properties of configuration sets (C33)
-/

namespace Antlr.ConfigSetProps
open Antlr StackSpec StackProps ConfigSet

/-- State, alternative and predicate of a configuration. -/
def ident (c : Config) : Nat × Int × SC := (c.state, c.alt, c.sem)

/-- What a set holds after the configurations `added` were added, in that order, to a new set; stacks
are read in mode `local`. -/
structure Collected (loc : Bool) (added : List Config) (s : ConfigSet) : Prop where
  /-- one configuration per (state, alternative, predicate), in order of first addition -/
  idents : s.configs.map ident = firsts (added.map ident)
  /-- its stacks are those of the added ones of the same identity -/
  stacks : ∀ c ∈ s.configs, ∀ st,
    Den loc c.ctx st ↔ ∃ a ∈ added, ident a = ident c ∧ Den loc a.ctx st
  wf : ∀ c ∈ s.configs, WF c.ctx
  suppressed : ∀ c ∈ s.configs,
    c.suppressed = true ↔ ∃ a ∈ added, ident a = ident c ∧ a.suppressed = true
  /-- its outer context depth is the largest added -/
  reaches : ∀ c ∈ s.configs, (∃ a ∈ added, ident a = ident c ∧ c.reaches = a.reaches) ∧
    ∀ a ∈ added, ident a = ident c → a.reaches ≤ c.reaches
  hasSem : s.hasSem = true ↔ ∃ a ∈ added, a.sem ≠ SC.NONE
  dips : s.dips = true ↔ ∃ a ∈ added, 0 < a.reaches

theorem firsts_map_inj {α β} [DecidableEq α] [DecidableEq β] (g : α → β) (hg : ∀ a b, g a = g b → a = b)
    (l : List α) : firsts (l.map g) = (firsts l).map g := by
  induction l using List.reverseRecOn with
  | nil => rfl
  | append_singleton l y ih =>
    simp only [List.map_append, List.map_cons, List.map_nil]
    rw [firsts_snoc, firsts_snoc, ih]
    by_cases h : y ∈ firsts l
    · rw [if_pos h, if_pos (List.mem_map_of_mem h)]
    · rw [if_neg h, if_neg]
      · simp
      · rw [List.mem_map]
        rintro ⟨a, h1, h2⟩
        rw [hg _ _ h2] at h1; exact h h1

theorem map_inj {α β} (g : α → β) (hg : ∀ a b, g a = g b → a = b) (l m : List α)
    (h : l.map g = m.map g) : l = m := by
  induction l generalizing m with
  | nil => cases m <;> simp at h ⊢
  | cons x l ih =>
    cases m with
    | nil => simp at h
    | cons y m =>
      simp only [List.map_cons, List.cons.injEq] at h
      rw [hg _ _ h.1, ih m h.2]

theorem collected_of_inv {f d : Bool} {added : List Config} {s : ConfigSet}
    (h : Inv false f d added s) : Collected d added s := by
  have hk : ∀ a b, s.key a = s.key b ↔ ident a = ident b := by
    intro a b
    simp [key, h.ord, ident]
  constructor
  · have h1 := h.keys
    have h2 : ∀ l : List Config, l.map s.key = (l.map ident).map (fun x => Key.part x.1 x.2.1 x.2.2) := by
      intro l; simp [key, h.ord, ident]
    rw [h2, h2, firsts_map_inj] at h1
    · refine map_inj (fun x : Nat × Int × SC => Key.part x.1 x.2.1 x.2.2) ?_ _ _ h1
      rintro ⟨a, b, c⟩ ⟨a', b', c'⟩ h; simp at h; simp [h]
    · rintro ⟨a, b, c⟩ ⟨a', b', c'⟩ h; simp at h; simp [h]
  · intro c hc st; simpa only [hk] using h.den c hc st
  · exact h.wf
  · intro c hc; simpa only [hk] using h.supp c hc
  · intro c hc; simpa only [hk] using h.reach c hc
  · exact h.hasSem
  · exact h.dips

/-- C33. Whatever configurations with well-formed contexts are added to a new parser set, and
whatever earlier merges of the same mode the merge cache has seen: no panic, and the set collects
exactly what was added. -/
theorem C33_collects (fullCtx : Bool) (added : List Config) (hwf : ∀ c ∈ added, WF c.ctx)
    (cache : Option PC.Cache) (hcache : ∀ c, cache = some c → Reachable (!fullCtx) c) :
    ∃ s cache', addAll (newBase fullCtx) added cache = some (s, cache') ∧
      Collected (!fullCtx) added s := by
  have hok : CacheOk (!fullCtx) cache := by
    intro cc h; exact reachable_ok (hcache cc h) cc rfl
  obtain ⟨s, mc, h1, h2, _⟩ := addAll_inv (o := false) (f := fullCtx) (d := !fullCtx) id added
    (newBase_inv _ _) hwf hok
  exact ⟨s, mc, h1, collected_of_inv (by simpa using h2)⟩

/-- C33 with the cache as `adaptive_predict` really uses it, shared by both modes: the same, except
that in full-context mode stacks are only exact in the local-context reading. -/
theorem C33_collects_shared_cache_partial (fullCtx : Bool) (added : List Config)
    (hwf : ∀ c ∈ added, WF c.ctx) (cache : PC.Cache) (hcache : MixedReachable cache) :
    ∃ s cache', addAll (newBase fullCtx) added (some cache) = some (s, cache') ∧
      Collected true added s := by
  have hok : CacheOk true (some cache) := mixed_ok hcache
  obtain ⟨s, mc, h1, h2, _⟩ := addAll_inv (o := false) (f := fullCtx) (d := true) (fun _ => rfl) added
    (newBase_inv _ _) hwf hok
  exact ⟨s, mc, h1, collected_of_inv (by simpa using h2)⟩

/-- Three configurations, two of the same identity. -/
def exampleConfigs : List Config :=
  [{ state := 1, alt := 1, ctx := ctx1 }, { state := 1, alt := 2, ctx := ctx1, reaches := 2 },
   { state := 1, alt := 1, ctx := ctx21, suppressed := true }]

example : (∀ c ∈ exampleConfigs, WF c.ctx) ∧
    (addAll (newBase true) exampleConfigs none).map (fun r => r.1.configs) =
      some [{ state := 1, alt := 1, ctx := .array [(some PC.EMPTY, 1), (some ctx1, 2)], suppressed := true },
        { state := 1, alt := 2, ctx := ctx1, reaches := 2 }] := by
  refine ⟨?_, by decide +kernel⟩
  intro c hc
  simp only [exampleConfigs, List.mem_cons, List.not_mem_nil, or_false] at hc
  rcases hc with rfl | rfl | rfl
  · exact wf_ctx1
  · exact wf_ctx1
  · exact wf_ctx21

/-- At most one configuration per identity, and nothing added is lost (both follow from
`Collected.idents`). -/
theorem C33_no_duplicates_nothing_lost {loc : Bool} {added : List Config} {s : ConfigSet}
    (h : Collected loc added s) :
    (s.configs.map ident).Nodup ∧
    ∀ a ∈ added, ∃ c ∈ s.configs, ident c = ident a ∧ ∀ st, Den loc a.ctx st → Den loc c.ctx st := by
  refine ⟨by rw [h.idents]; exact (firsts_spec _).1, ?_⟩
  intro a ha
  have : ident a ∈ s.configs.map ident := by
    rw [h.idents, (firsts_spec _).2]
    exact List.mem_map_of_mem ha
  rw [List.mem_map] at this
  obtain ⟨c, hc, hi⟩ := this
  exact ⟨c, hc, hi, fun st hst => (h.stacks c hc st).mpr ⟨a, ha, hi.symm, hst⟩⟩

/-- Lexer sets: configurations are kept apart unless they are equal in everything but the outer
context depth, and stay in the order of first addition (the order decides between lexer rules). -/
theorem C33_ordered (added : List Config) (hwf : ∀ c ∈ added, WF c.ctx) :
    ∃ s, addAll newOrdered added none = some (s, none) ∧
      s.configs.map (fun c => { c with reaches := 0 }) =
        firsts (added.map fun c => { c with reaches := 0 }) := by
  obtain ⟨s, mc, h1, h2, h3, _⟩ := addAll_inv (o := true) (f := true) (d := false) (by simp) added
    (newOrdered_inv _) hwf (mc := none) (by intro cc h; simp at h)
  have hmc : mc = none := addAll_none_cache _ _ _ _ h1
  subst hmc
  refine ⟨s, h1, ?_⟩
  have h := h2.keys
  have hk : ∀ l : List Config, l.map s.key = (l.map (fun c => { c with reaches := 0 })).map Key.full := by
    intro l; simp [key, h2.ord]
  rw [hk, hk, firsts_map_inj] at h
  · simp only [List.nil_append] at h
    exact map_inj Key.full (fun a b h => by simpa using h) _ _ h
  · intro a b h; simpa using h

example : (addAll newOrdered exampleConfigs none).map (fun r => r.1.configs) = some exampleConfigs := by
  decide +kernel

/-- Adding to a frozen set panics. -/
theorem C33_frozen (s : ConfigSet) (h : s.readOnly = true) (c : Config) (mc : Option PC.Cache) :
    s.addCached c mc = none := by
  simp [addCached, h]

example : ({ newBase true with readOnly := true } : ConfigSet).readOnly = true := rfl

/-- What the comparison of configurations looks at: everything but the outer-context depth. -/
def compared (c : Config) : Config := { c with reaches := 0 }

/-- Two sets compare equal exactly if they have the same configurations in the same order, up to the
outer-context depth, and agree in mode, unique alternative, conflicting alternatives and both flags. -/
theorem C37_equal_sets (a b : ConfigSet) :
    a.same b = true ↔ a.configs.map compared = b.configs.map compared ∧ a.fullCtx = b.fullCtx ∧
      a.uniqueAlt = b.uniqueAlt ∧ a.conflictingAlts = b.conflictingAlts ∧ a.hasSem = b.hasSem ∧
      a.dips = b.dips := by
  have key : ∀ l m : List Config, (l.length == m.length && (l.zip m).all fun p => p.1.same p.2) = true ↔
      l.map compared = m.map compared := by
    intro l
    induction l with
    | nil => intro m; cases m <;> simp
    | cons x l ih =>
      intro m
      cases m with
      | nil => simp
      | cons y m =>
        have hc : x.same y = true ↔ compared x = compared y := by
          obtain ⟨x1, x2, x3, x4, x5, x6, x7⟩ := x
          obtain ⟨y1, y2, y3, y4, y5, y6, y7⟩ := y
          simp only [Config.same, compared, Bool.and_eq_true, beq_iff_eq, Config.mk.injEq]
          tauto
        have := ih m
        simp only [Bool.and_eq_true, beq_iff_eq] at this
        simp only [List.length_cons, List.zip_cons_cons, List.all_cons, List.map_cons, List.cons.injEq,
          Bool.and_eq_true, beq_iff_eq, Nat.add_right_cancel_iff, hc, ← this]
        tauto
  have := key a.configs b.configs
  simp only [Bool.and_eq_true] at this
  simp only [ConfigSet.same, Bool.and_eq_true, beq_iff_eq, ← this]
  tauto

example : (newBase true).same (newBase false) = false := by decide

end Antlr.ConfigSetProps
