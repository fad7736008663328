import Verif.DFA.SerializerLemmas
import Verif.Lexer.CacheProps

/-! # Helper lemmas: the DFAs of a lexer can be printed -/

namespace Antlr.LexPrint
open Antlr Lexer PrintSpec PrintProps LexCacheProps

variable {atn : ATN} {hash : List Config → Nat} {D : Type} [InputData D]

/-- The shape of the states of a lexer DFA. -/
structure Neat (d : DFA) : Prop where
  pos : 1 ≤ d.states.length
  map : ∀ p ∈ d.statesMap, ∀ i ∈ p.2, 1 ≤ i ∧ i < d.states.length
  zero : ∀ s, d.states[0]? = some s → s.edges = []
  state : ∀ i s, 1 ≤ i → d.states[i]? = some s → s.stateNumber = i ∧ s.predicates = [] ∧ s.edges.length ≤ 128 ∧
    ∀ x ∈ s.edges, x = 0 ∨ x = ERROR_DFA_STATE_REF ∨ x < d.states.length
  start : ∀ s, d.s0 = some s → 1 ≤ s

theorem lookup_mem {k : Nat} {l : List Nat} : ∀ {m : List (Nat × List Nat)}, m.lookup k = some l → (k, l) ∈ m := by
  intro m
  induction m with
  | nil => intro h; cases h
  | cons p m ih =>
    intro h
    obtain ⟨a, b⟩ := p
    rw [List.lookup_cons] at h
    split at h
    · rename_i e
      cases h
      rw [beq_iff_eq] at e
      subst e
      exact List.mem_cons_self ..
    · exact List.mem_cons_of_mem _ (ih h)

theorem mkState_shape {n : Nat} {cs : ConfigSet} {s : DFAState} (h : mkState atn n cs = some s) :
    s.stateNumber = n ∧ s.predicates = [] ∧ s.edges = [] := by
  unfold mkState at h
  obtain ⟨fs, -, h⟩ := Option.bind_eq_some_iff.1 h
  split at h
  · cases h; exact ⟨rfl, rfl, rfl⟩
  · obtain ⟨tt, -, rfl⟩ := Option.map_eq_some_iff.1 h
    exact ⟨rfl, rfl, rfl⟩

theorem addState_neat {d : DFA} {cs : ConfigSet} {r : DFA × Nat} (hd : Neat d) (h : addState atn hash d cs = some r) :
    Neat r.1 ∧ 1 ≤ r.2 ∧ r.2 < r.1.states.length ∧ d.states.length ≤ r.1.states.length := by
  unfold addState at h
  split at h
  · cases h
  · obtain ⟨s, h1, h⟩ := Option.bind_eq_some_iff.1 h
    split at h
    · rename_i l hl
      obtain ⟨i, hi, rfl⟩ := Option.map_eq_some_iff.1 h
      have := hd.map _ (lookup_mem hl) i (List.mem_of_mem_head? hi)
      exact ⟨hd, this.1, this.2, Nat.le_refl _⟩
    · cases h
      obtain ⟨e1, e2, e3⟩ := mkState_shape h1
      have hs := hd.pos
      refine ⟨⟨by simp, ?_, ?_, ?_, hd.start⟩, hs, by simp, by simp⟩
      · intro p hp i hi
        simp only [List.length_append, List.length_singleton]
        rcases List.mem_append.1 hp with hp | hp
        · have := hd.map p hp i hi; omega
        · rw [List.mem_singleton] at hp
          subst hp
          rw [List.mem_singleton] at hi
          omega
      · intro x hx
        simp only at hx
        rw [List.getElem?_append_left (by omega)] at hx
        exact hd.zero x hx
      · intro i x hi hx
        simp only [List.length_append, List.length_singleton] at hx ⊢
        rcases Nat.lt_or_ge i d.states.length with hlt | hge
        · rw [List.getElem?_append_left hlt] at hx
          obtain ⟨a, b, c, e⟩ := hd.state i x hi hx
          refine ⟨a, b, c, fun y hy => ?_⟩
          have := e y hy
          omega
        · rw [List.getElem?_append_right hge] at hx
          have hx' := List.mem_of_getElem? hx
          rw [List.mem_singleton] at hx'
          subst hx'
          have : i - d.states.length < 1 := by
            have := (List.getElem?_eq_some_iff.1 hx).1
            simpa using this
          exact ⟨by omega, e2, by simp [e3], by simp [e3]⟩

theorem addEdge_neat {d d' : DFA} {s x : Nat} {t : Int} (hd : Neat d) (hs : 1 ≤ s)
    (hx : x = ERROR_DFA_STATE_REF ∨ x < d.states.length) (h : addEdge d s t x = some d') :
    Neat d' ∧ d'.states.length = d.states.length := by
  simp only [LexCache.addEdge_eq, Option.map_eq_some_iff] at h
  obtain ⟨st, h1, rfl⟩ := h
  refine ⟨⟨by simpa using hd.pos, by simpa using hd.map, ?_, ?_, hd.start⟩, by simp⟩
  · intro y hy
    simp only at hy
    rw [List.getElem?_set_ne (by omega)] at hy
    exact hd.zero y hy
  · intro i y hi hy
    simp only [List.length_set] at hy ⊢
    by_cases e : s = i
    · subst e
      rw [List.getElem?_set_self (List.getElem?_eq_some_iff.1 h1).1] at hy
      cases hy
      obtain ⟨a, b, c, e⟩ := hd.state s st hi h1
      unfold LexCache.edgePut
      split
      · exact ⟨a, b, c, e⟩
      · have grow : ∀ y ∈ (if st.edges.length < 128 then growTo st.edges 128 else st.edges),
            y = 0 ∨ y = ERROR_DFA_STATE_REF ∨ y < d.states.length := by
          intro y hy
          split at hy
          · rcases List.mem_append.1 hy with hy | hy
            · exact e y hy
            · exact Or.inl (List.eq_of_mem_replicate hy)
          · exact e y hy
        refine ⟨a, b, ?_, fun y hy => ?_⟩
        · simp only [List.length_set]
          split
          · simp only [growTo, List.length_append, List.length_replicate]; omega
          · exact c
        · rcases List.mem_or_eq_of_mem_set hy with hy | rfl
          · exact grow y hy
          · exact Or.inr hx
    · rw [List.getElem?_set_ne e] at hy
      exact hd.state i y hi hy

/-- A state to go on from. -/
def Next (r : DFA × Nat) : Prop := Neat r.1 ∧ (r.2 = ERROR_DFA_STATE_REF ∨ r.2 < r.1.states.length) ∧ 1 ≤ r.2

theorem computeTarget_neat {pred : Int → Int → Option Bool} {fc : Nat} {d : DFA} {s : Nat} {t off : Int} {r : DFA × Nat}
    (hd : Neat d) (hs : 1 ≤ s) (h : computeTarget atn hash pred fc d s t off = some r) : Next r := by
  simp only [computeTarget, Option.bind_eq_some_iff] at h
  obtain ⟨st, h1, reach, h2, h⟩ := h
  split at h
  · split at h
    · cases h; exact ⟨hd, Or.inl rfl, by simp [ERROR_DFA_STATE_REF]⟩
    · simp only [Option.map_eq_some_iff] at h
      obtain ⟨d', h, rfl⟩ := h
      exact ⟨(addEdge_neat hd hs (Or.inl rfl) h).1, Or.inl rfl, by simp [ERROR_DFA_STATE_REF]⟩
  · simp only [Option.bind_eq_some_iff] at h
    obtain ⟨x, hx, h⟩ := h
    obtain ⟨g1, g2, g3, -⟩ := addState_neat hd hx
    split at h
    · cases h; exact ⟨g1, Or.inr g3, g2⟩
    · simp only [Option.map_eq_some_iff] at h
      obtain ⟨d', h, rfl⟩ := h
      obtain ⟨k1, k2⟩ := addEdge_neat g1 hs (Or.inr g3) h
      exact ⟨k1, Or.inr (by simpa [k2] using g3), g2⟩

theorem target_neat {sp : Int → Int → Cursor D → Bool} {fc : Nat} {start : Int} {c : Cursor D} {d : DFA} {s : Nat} {t : Int}
    {r : DFA × Nat} (hd : Neat d) (hs : 1 ≤ s) (h : target atn hash sp fc start c d s t = some r) : Next r := by
  unfold target at h
  obtain ⟨et, h1, h⟩ := Option.bind_eq_some_iff.1 h
  split at h
  · rename_i x
    cases h
    unfold existingTarget at h1
    obtain ⟨st, e1, e2⟩ := Option.map_eq_some_iff.1 h1
    obtain ⟨y, e3, e4⟩ := Option.bind_eq_some_iff.1 e2
    unfold readEdge at e4
    split at e4
    · cases e4
    · cases e4
      have := (hd.state s st hs e1).2.2.2 _ (List.mem_of_getElem? e3)
      exact ⟨hd, by simp only; omega, by simp only; omega⟩
  · exact computeTarget_neat hd hs h

theorem execLoop_neat {sp : Int → Int → Cursor D → Bool} {fc : Nat} {start : Int} (fuel : Nat) :
    ∀ (c : Cursor D) (d : DFA) (s : Nat) (t : Int) (prev : Option Accept) (x : Stop D), Neat d → 1 ≤ s →
      execLoop atn hash sp fc start fuel c d s t prev = some x → Neat x.dfa := by
  induction fuel with
  | zero => intro c d s t prev x _ _ h; cases h
  | succ fuel ih =>
    intro c d s t prev x hd hs h
    simp only [execLoop] at h
    obtain ⟨et, h1, h⟩ := Option.bind_eq_some_iff.1 h
    obtain ⟨r, h2, h⟩ := Option.bind_eq_some_iff.1 h
    have ht : target atn hash sp fc start c d s t = some r := by
      unfold target
      rw [h1]
      exact h2
    obtain ⟨hr, -, hr2⟩ := target_neat hd hs ht
    split at h
    · cases h; exact hr
    · obtain ⟨c', -, h⟩ := Option.bind_eq_some_iff.1 h
      obtain ⟨cap, hc, h⟩ := Option.bind_eq_some_iff.1 h
      split at h
      · cases h; exact hr
      · obtain ⟨symbol, -, h⟩ := Option.bind_eq_some_iff.1 h
        exact ih _ _ _ _ _ _ hr hr2 h

variable {env : Env D}

theorem execAtn_neat {fc fe : Nat} {start : Int} {L : Lex D} {d : DFA} {s : Nat} {r : MatchRes × Lex D × DFA} (hd : Neat d)
    (hs : 1 ≤ s) (h : execAtn env fc fe start L d s = some r) : Neat r.2.2 := by
  unfold execAtn at h
  obtain ⟨cap, h1, h⟩ := Option.bind_eq_some_iff.1 h
  obtain ⟨symbol, -, h⟩ := Option.bind_eq_some_iff.1 h
  obtain ⟨x, h2, h⟩ := Option.bind_eq_some_iff.1 h
  obtain ⟨q, h3, rfl⟩ := Option.map_eq_some_iff.1 h
  exact execLoop_neat _ _ _ _ _ _ _ hd hs h2

theorem neat_start {d : DFA} {s : Nat} (hd : Neat d) (hs : 1 ≤ s) : Neat { d with s0 := some s } :=
  ⟨hd.pos, hd.map, hd.zero, hd.state, fun _ h => by cases h; exact hs⟩

theorem matchAtn_neat {fc fe : Nat} {L : Lex D} {d : DFA} {r : MatchRes × Lex D × DFA} (hd : Neat d)
    (h : matchAtn env fc fe L d = some r) : Neat r.2.2 := by
  unfold matchAtn at h
  split at h
  · cases h; exact hd
  · obtain ⟨st, -, h⟩ := Option.bind_eq_some_iff.1 h
    obtain ⟨s0, h0, h⟩ := Option.bind_eq_some_iff.1 h
    obtain ⟨q, h1, h⟩ := Option.bind_eq_some_iff.1 h
    obtain ⟨g1, g2, -⟩ := addState_neat hd h1
    refine execAtn_neat ?_ g2 h
    split
    · exact g1
    · exact neat_start g1 g2

theorem neat_set {dfas : List DFA} {m : Nat} {d : DFA} (h : ∀ d ∈ dfas, Neat d) (hd : Neat d) :
    ∀ x ∈ dfas.set m d, Neat x := by
  intro x hx
  rcases List.mem_or_eq_of_mem_set hx with hx | rfl
  · exact h x hx
  · exact hd

theorem matchToken_neat {fc fe : Nat} {L : Lex D} {dfas : List DFA} {r : MatchRes × Lex D × List DFA} (hd : ∀ d ∈ dfas, Neat d)
    (h : matchToken env fc fe L dfas = some r) : ∀ d ∈ r.2.2, Neat d := by
  unfold matchToken at h
  split at h
  · cases h; exact hd
  · rename_i d hm
    obtain ⟨q, h1, rfl⟩ := Option.map_eq_some_iff.1 h
    have hd0 := hd d (List.mem_of_getElem? hm)
    refine neat_set hd ?_
    split at h1
    · exact matchAtn_neat hd0 h1
    · rename_i s0 e
      exact execAtn_neat hd0 (hd0.start _ e) h1

theorem mid_neat {sp : Int → Int → Cursor D → Bool} {fc : Nat} {start : Int} {c : Cursor D} {d x : DFA} {s : Nat} {t : Int}
    (h : Mid atn hash sp fc start c d s t x) : Neat d → 1 ≤ s → Neat x := by
  induction h with
  | here => exact fun h _ => h
  | half h1 h2 _ h3 => exact fun hd _ => (addState_neat hd h3).1
  | after h => exact fun hd hs => (target_neat hd hs h).1
  | later h _ _ _ _ ih => exact fun hd hs => ih (target_neat hd hs h).1 (target_neat hd hs h).2.2

theorem started_neat {fc : Nat} {L : Lex D} {d : DFA} {r : DFA × Nat × Bool} (hd : Neat d) (h : started env fc L d = some r) :
    Neat r.1 ∧ 1 ≤ r.2.1 := by
  unfold started at h
  obtain ⟨ss, -, h⟩ := Option.bind_eq_some_iff.1 h
  obtain ⟨st, -, h⟩ := Option.bind_eq_some_iff.1 h
  obtain ⟨s0, h0, h⟩ := Option.bind_eq_some_iff.1 h
  obtain ⟨q, h1, rfl⟩ := Option.map_eq_some_iff.1 h
  exact ⟨(addState_neat hd h1).1, (addState_neat hd h1).2.1⟩

theorem interrupted_neat {fc : Nat} {L : Lex D} {d x : DFA} (hd : Neat d) (h : Interrupted env fc L d x) : Neat x := by
  cases h with
  | before => exact hd
  | added _ h => exact (started_neat hd h).1
  | start _ h _ => exact neat_start (started_neat hd h).1 (started_neat hd h).2
  | warm h0 _ h => exact mid_neat h hd (hd.start _ h0)
  | cold _ h _ h' =>
    obtain ⟨g1, g2⟩ := started_neat hd h
    refine mid_neat h' ?_ g2
    split
    · exact g1
    · exact neat_start g1 g2

/-- However the DFAs came about. -/
theorem reached_neat {fc : Nat} {dfas : List DFA} (h : Reached atn hash fc dfas) : ∀ d ∈ dfas, Neat d := by
  induction h with
  | new h =>
    intro d hd
    obtain ⟨s, n, h1, h2⟩ := h d hd
    unfold DFA.new at h1
    obtain ⟨st, -, rfl⟩ := Option.map_eq_some_iff.1 h1
    split at h2
    · cases h2
    · rename_i hp
      rw [if_neg hp]
      refine ⟨by simp, by simp, ?_, ?_, by simp⟩
      · intro s hs
        simp only [List.getElem?_cons_zero, Option.some.injEq] at hs
        subst hs; rfl
      · intro i s hi hs
        rw [List.getElem?_eq_none (by simp; omega)] at hs
        cases hs
  | used _ h1 _ _ _ h ih => exact matchToken_neat ih h
  | cut _ h1 _ _ hm h _ ih => exact neat_set ih (interrupted_neat (ih _ (List.mem_of_getElem? hm)) h)

/-! ## Printing -/

/-- The label of an arrow of a lexer. -/
def quoted (c : Nat) : List Char := ['\'', Char.ofNat c, '\'']

theorem charOf_small {c : Nat} (h : c < 128) : charOf c = some (Char.ofNat c) := by
  unfold charOf
  rw [Nat.mod_eq_of_lt (by omega), if_pos (Or.inl (by omega))]

theorem toNat_small {c : Nat} (h : c < 128) : (Char.ofNat c).toNat = c := by
  have hv : c.isValidChar := Or.inl (by omega)
  unfold Char.ofNat
  rw [dif_pos hv]
  rfl

theorem quoted_readable : Readable quoted (· < 128) := by
  intro a b x y ha hb h
  simp only [quoted, List.cons_append, List.nil_append, List.cons.injEq, true_and] at h
  refine ⟨?_, h.2⟩
  have := congrArg Char.toNat h.1
  rwa [toNat_small ha, toNat_small hb] at this

theorem neat_prints {d : DFA} (hd : Neat d) {i c j : Nat} (h : Arrow d i c j) :
    Prints d i ∧ c < 128 ∧ Prints d j := by
  obtain ⟨s, h1, h2, h3, h4⟩ := h
  have hi : 1 ≤ i := by
    rcases Nat.eq_zero_or_pos i with rfl | h
    · rw [hd.zero s h1] at h2; simp at h2
    · exact h
  obtain ⟨a, b, c', e⟩ := hd.state i s hi h1
  have hj := e j (List.mem_of_getElem? h2)
  have hj' : j < d.states.length := by omega
  obtain ⟨t, ht⟩ : ∃ t, d.states[j]? = some t := ⟨_, List.getElem?_eq_getElem hj'⟩
  obtain ⟨a', b', -, -⟩ := hd.state j t (by omega) ht
  have := (List.getElem?_eq_some_iff.1 h2).1
  exact ⟨⟨s, h1, a, hi, fun _ => b⟩, by omega, ⟨t, ht, a', by omega, fun _ => b'⟩⟩

end Antlr.LexPrint
