import Verif.Lexer.Interrupt
import Verif.Lexer.CacheMatch

/-! # An interrupted match leaves a DFA that is right -/

namespace Antlr.LexCache
open Antlr Lexer ConfigSet LexSpec

variable {q : Option (List LexerAction) → Option (List LexerAction)} {D : Type} [InputData D]

/-! ## The DFA only grows -/

theorem addState_len {atn : ATN} {hash : List Config → Nat} {d : DFA} {cs : ConfigSet} {r : DFA × Nat}
    (h : addState atn hash d cs = some r) : d.states.length ≤ r.1.states.length := by
  unfold addState at h
  split at h
  · cases h
  · simp only [Option.bind_eq_some_iff] at h
    obtain ⟨s, -, h⟩ := h
    split at h
    · simp only [Option.map_eq_some_iff] at h
      obtain ⟨_, -, rfl⟩ := h
      exact Nat.le_refl _
    · cases h; simp

theorem addEdge_len {d d' : DFA} {s x : Nat} {t : Int} (h : addEdge d s t x = some d') :
    d'.states.length = d.states.length := by
  simp only [LexCache.addEdge_eq, Option.map_eq_some_iff] at h
  obtain ⟨_, -, rfl⟩ := h
  simp

theorem computeTarget_len {atn : ATN} {hash : List Config → Nat} {pred : Int → Int → Option Bool} {fc : Nat} {d : DFA}
    {s : Nat} {t off : Int} {r : DFA × Nat} (h : computeTarget atn hash pred fc d s t off = some r) :
    d.states.length ≤ r.1.states.length := by
  simp only [computeTarget, Option.bind_eq_some_iff] at h
  obtain ⟨st, -, reach, -, h⟩ := h
  split at h
  · split at h
    · cases h; exact Nat.le_refl _
    · simp only [Option.map_eq_some_iff] at h
      obtain ⟨d', h, rfl⟩ := h
      exact Nat.le_of_eq (addEdge_len h).symm
  · simp only [Option.bind_eq_some_iff] at h
    obtain ⟨x, hx, h⟩ := h
    split at h
    · cases h; exact addState_len hx
    · simp only [Option.map_eq_some_iff] at h
      obtain ⟨d', h, rfl⟩ := h
      exact Nat.le_trans (addState_len hx) (Nat.le_of_eq (addEdge_len h).symm)

theorem target_len {atn : ATN} {hash : List Config → Nat} {sp : Int → Int → Cursor D → Bool} {fc : Nat} {start : Int}
    {c : Cursor D} {d : DFA} {s : Nat} {t : Int} {r : DFA × Nat} (h : target atn hash sp fc start c d s t = some r) :
    d.states.length ≤ r.1.states.length := by
  simp only [target, Option.bind_eq_some_iff] at h
  obtain ⟨et, -, h⟩ := h
  cases et with
  | some x => cases h; exact Nat.le_refl _
  | none => exact computeTarget_len h

theorem mid_len {atn : ATN} {hash : List Config → Nat} {sp : Int → Int → Cursor D → Bool} {fc : Nat} {start : Int}
    {c : Cursor D} {d x : DFA} {s : Nat} {t : Int} (h : Mid atn hash sp fc start c d s t x) :
    d.states.length ≤ x.states.length := by
  induction h with
  | here => exact Nat.le_refl _
  | half _ _ _ h => exact addState_len h
  | after h => exact target_len h
  | later h _ _ _ _ ih => exact Nat.le_trans (target_len h) ih

/-! ## What it says stays right -/

section
variable {atn : ATN} {hash : List Config → Nat} {fc : Nat} {trs : List Trans} (hq : Blur q)
  (hh : ∀ l l', hash l = hash l' → abs q l = abs q l')
include hq hh

theorem added_inv {d : DFA} (h : DInv q atn hash fc trs d) {cs : ConfigSet} (hg : Good cs.configs) (hs : cs.hasSem = false)
    (hr : d.states.length < ERROR_DFA_STATE_REF) {r : DFA × Nat} (ha : addState atn hash d cs = some r) :
    DInv q atn hash fc trs r.1 ∧ 1 ≤ r.2 ∧ ∃ s, r.1.states[r.2]? = some s ∧
      abs q s.configs.configs = abs q cs.configs := by
  have := addState_spec hq hh h hg hs hr
  split at this
  · rw [this] at ha; cases ha
  · obtain ⟨d', i, s, g1, g2, -, -, g5, g6, g7, -⟩ := this
    rw [g1] at ha
    cases ha
    exact ⟨g2, g5, s, g6, g7⟩

theorem target_inv {sp : Int → Int → Cursor D → Bool} {start : Int} {c : Cursor D} {d : DFA} {i : Nat} {s : DFAState}
    {t : Int} {r : DFA × Nat} (h : DInv q atn hash fc trs d) (hi : 1 ≤ i) (hs : d.states[i]? = some s) (ht : Sym t)
    (hr : d.states.length < ERROR_DFA_STATE_REF) (ha : target atn hash sp fc start c d i t = some r) :
    DInv q atn hash fc trs r.1 ∧ (r.2 ≠ ERROR_DFA_STATE_REF → 1 ≤ r.2 ∧ ∃ s', r.1.states[r.2]? = some s') := by
  simp only [target, existingTarget, hs, Option.map_some, Option.bind_some] at ha
  cases he : (s.edges[asUsize t]?).bind readEdge with
  | some x =>
    rw [he] at ha
    cases ha
    obtain ⟨ys, -, e2⟩ := h.edge i s t x hi hs ht he
    refine ⟨h, fun hx => ?_⟩
    rcases e2 with ⟨rfl, -⟩ | ⟨-, e3, -, sx, e5, -⟩
    · exact absurd rfl hx
    · exact ⟨e3, sx, e5⟩
  | none =>
    rw [he] at ha
    dsimp only at ha
    have := computeTarget_spec hq hh h hi hs (t := t) (off := c.input.index - start)
      (pred := fun r p => predValue sp r p true c) hr
    split at this
    · rw [this] at ha; cases ha
    · split at this
      · obtain ⟨d', g1, g2, -⟩ := this
        rw [g1] at ha
        cases ha
        exact ⟨g2, fun hx => absurd rfl hx⟩
      · split at this
        · rw [this] at ha; cases ha
        · obtain ⟨d', j, s', g1, g2, -, -, g5, -, g7, -⟩ := this
          rw [g1] at ha
          cases ha
          exact ⟨g2, fun _ => ⟨g5, s', g7⟩⟩

theorem mid_inv {sp : Int → Int → Cursor D → Bool} {start : Int} {c : Cursor D} {d x : DFA} {i : Nat} {s : DFAState}
    {t : Int} (h : DInv q atn hash fc trs d) (hi : 1 ≤ i) (hs : d.states[i]? = some s) (hsa : Sane c.input.data)
    (ht : Sym t) (hm : Mid atn hash sp fc start c d i t x) (hr : x.states.length < ERROR_DFA_STATE_REF) :
    DInv q atn hash fc trs x := by
  induction hm generalizing s with
  | here => exact h
  | half h1 h2 h3 h4 =>
    rename_i c d i t st reach r
    have hok := h.state i st hi h1
    have e := reachSet_eq (atn := atn) (pred := fun r p => predValue sp r p true c) (fuel := fc) (t := t)
      (off := c.input.index - start) st.configs.configs 0 newOrdered hok.good.plain collect_new
    cases hl : reachList atn (fun r p => predValue sp r p true c) fc t (c.input.index - start) st.configs.configs 0 with
    | none => rw [hl] at e; simp only at e; rw [h2] at e; cases e
    | some y =>
      obtain ⟨ys, sem⟩ := y
      rw [hl] at e
      obtain ⟨cs, e1, -, k1, -⟩ := e
      rw [h2] at e1
      cases e1
      have hk : reach.configs = firsts ys := by rw [k1]; rfl
      have hgood := (reachList_mem _ hok.good hl).1
      exact (added_inv hq hh h (cs := { reach with hasSem := false }) (by simp only [hk]; exact good_firsts hgood) rfl
        (Nat.lt_of_le_of_lt (addState_len h4) hr) h4).1
  | after h1 => exact (target_inv hq hh h hi hs ht (Nat.lt_of_le_of_lt (target_len h1) hr) h1).1
  | later h1 h2 h3 h4 h5 ih =>
    rename_i c d i t r c' t' x
    have hlen := mid_len h5
    obtain ⟨g1, g2⟩ := target_inv hq hh h hi hs ht
      (Nat.lt_of_le_of_lt (Nat.le_trans (target_len h1) hlen) hr) h1
    obtain ⟨g3, s', g4⟩ := g2 h2
    have hdat : c'.input.data = c.input.data := by
      split at h3
      · exact consume_data h3
      · injection h3 with h3; rw [h3]
    have hsa' : Sane c'.input.data := by rw [hdat]; exact hsa
    exact ih g1 g3 g4 hsa' (sane_la hsa' h4) hr

end

theorem started_len {env : Env D} {fc : Nat} {L : Lex D} {d : DFA} {r : DFA × Nat × Bool} (h : started env fc L d = some r) :
    d.states.length ≤ r.1.states.length := by
  simp only [started, Option.bind_eq_some_iff, Option.map_eq_some_iff] at h
  obtain ⟨_, -, _, -, _, -, x, hx, rfl⟩ := h
  exact addState_len hx

/-- A match that is interrupted leaves the DFA of its mode as matches may leave it. -/
theorem interrupted_warm {env : Env D} {fc : Nat} (hq : Blur q)
    (hh : ∀ l l', env.hash l = env.hash l' → abs q l = abs q l') {L : Lex D} {d x : DFA}
    (hw : Warm q env.atn env.hash fc L.mode d) (hsa : Sane L.cur.input.data) (h : Interrupted env fc L d x)
    (hr : x.states.length < ERROR_DFA_STATE_REF) : Warm q env.atn env.hash fc L.mode x := by
  have start : ∀ {r : DFA × Nat × Bool}, started env fc L d = some r → r.1.states.length < ERROR_DFA_STATE_REF →
      ∃ st s, (env.atn.modeToStartState[L.mode]?).bind (fun ss => env.atn.states[ss]?) = some st ∧
      DInv q env.atn env.hash fc st.transitions r.1 ∧ 1 ≤ r.2.1 ∧ r.1.states[r.2.1]? = some s ∧
      (r.2.2 = false → DInv q env.atn env.hash fc st.transitions { r.1 with s0 := some r.2.1 }) := by
    intro r hs hr
    have hlen := started_len hs
    simp only [started, Option.bind_eq_some_iff, Option.map_eq_some_iff] at hs
    obtain ⟨ss, h1, st, h2, cs, h3, y, h4, rfl⟩ := hs
    have hb : (env.atn.modeToStartState[L.mode]?).bind (fun ss => env.atn.states[ss]?) = some st := by simp [h1, h2]
    simp only [Warm, hb] at hw
    have hset := startSet_eq (atn := env.atn) (pred := fun r p =>
      predValue (fun r p c => env.sempred r p { L with cur := c }) r p false L.cur) (fuel := fc)
      st.transitions 0 newOrdered collect_new
    cases hsl : startList env.atn (fun r p =>
        predValue (fun r p c => env.sempred r p { L with cur := c }) r p false L.cur) fc st.transitions 0 with
    | none => rw [hsl] at hset; simp only at hset; rw [h3] at hset; cases hset
    | some z =>
      obtain ⟨ys, sem⟩ := z
      rw [hsl] at hset
      obtain ⟨cs', e1, -, k1, s1⟩ := hset
      rw [h3] at e1
      cases e1
      have hk : cs.configs = firsts ys := by rw [k1]; rfl
      have hsem : cs.hasSem = sem := by rw [s1]; simp [newOrdered]
      obtain ⟨g1, g2, s, g3, g4⟩ := added_inv hq hh hw (cs := { cs with hasSem := false })
        (by simp only [hk]; exact good_firsts (startList_mem _ hsl).1) rfl (Nat.lt_of_le_of_lt hlen hr) h4
      refine ⟨st, s, hb, g1, g2, g3, fun hf => ?_⟩
      dsimp only at hf
      rw [hsem] at hf
      subst hf
      exact dinv_s0 g1 g2 g3 (fun pred => startList_false hsl) (by rw [g4]; simp only [hk]; exact abs_firsts ..)
  cases h with
  | before => exact hw
  | added _ h1 =>
    obtain ⟨st, s, e, g, -⟩ := start h1 hr
    simp only [Warm, e]; exact g
  | start _ h1 h2 =>
    obtain ⟨st, s, e, -, -, -, g⟩ := start h1 hr
    simp only [Warm, e]; exact g h2
  | @warm s0 symbol _ h1 h2 h3 =>
    cases hb : (env.atn.modeToStartState[L.mode]?).bind (fun ss => env.atn.states[ss]?) with
    | none =>
      simp only [Warm, hb] at hw
      rw [h1] at hw; cases hw
    | some st =>
      simp only [Warm, hb] at hw ⊢
      obtain ⟨i1, s, -, i2, -⟩ := hw.start s0 h1
      exact mid_inv hq hh hw i1 i2 hsa (sane_la hsa h2) h3 hr
  | @cold r symbol _ _ h1 h2 h3 =>
    have hlen := mid_len h3
    have hr' : r.1.states.length < ERROR_DFA_STATE_REF := by
      refine Nat.lt_of_le_of_lt ?_ hr
      split at hlen <;> exact hlen
    obtain ⟨st, s, e, g1, g2, g3, g4⟩ := start h1 hr'
    simp only [Warm, e]
    cases hsem : r.2.2 with
    | true =>
      rw [hsem] at h3
      exact mid_inv hq hh g1 g2 g3 hsa (sane_la hsa h2) h3 hr
    | false =>
      rw [hsem] at h3
      exact mid_inv hq hh (g4 hsem) g2 g3 hsa (sane_la hsa h2) h3 hr

end Antlr.LexCache
