import Verif.Prelude
import Verif.Parser.Spec

/-! # Helper lemmas for the parser properties -/

namespace Antlr.ParserLemmas
open Antlr ParserSpec

set_option linter.unusedSectionVars false

variable {I : Type} [TokStream I] {T : Nat → Tok} {V : I → Nat → Prop}

theorem prevTok_getD (T : Nat → Tok) (n : Nat) :
    (if n = 0 then none else some (T (n - 1))).getD createInvalid = prevTok T n := by
  unfold prevTok; split <;> rfl

/-! ## Reading trees -/

mutual
theorem reads_frame {h h' : List Ctx} {S S' : Nat → Prop} (hS : ∀ i, S i → S' i)
    (hh : ∀ i, S i → h'[i]? = h[i]?) : ∀ (par : Option Nat) (i : Nat) (n : Node),
    Reads h S par i n → Reads h' S' par i n
  | _, _, .leaf _ _, hr => by simp [Reads] at hr
  | par, i, .rule idx label inv start stop kids, hr => by
    rw [Reads] at hr ⊢
    obtain ⟨a, c, b, r1, r2, r3, r4, r5, r6, r7⟩ := hr
    exact ⟨hS i a, c, by rw [hh i a]; exact b, r1, r2, r3, r4, r5, r6,
      readsKids_frame hS hh i c.children kids r7⟩
theorem readsKid_frame {h h' : List Ctx} {S S' : Nat → Prop} (hS : ∀ i, S i → S' i)
    (hh : ∀ i, S i → h'[i]? = h[i]?) : ∀ (par : Nat) (c : Child) (n : Node),
    ReadsKid h S par c n → ReadsKid h' S' par c n
  | _, .leaf _ _, .leaf _ _, hr => by simpa [ReadsKid] using hr
  | _, .leaf _ _, .rule .., hr => by simp [ReadsKid] at hr
  | par, .ctx i, .leaf t e, hr => by simp [ReadsKid, Reads] at hr
  | par, .ctx i, .rule idx label inv start stop kids, hr => by
    rw [ReadsKid] at hr ⊢
    exact reads_frame hS hh (some par) i _ hr
theorem readsKids_frame {h h' : List Ctx} {S S' : Nat → Prop} (hS : ∀ i, S i → S' i)
    (hh : ∀ i, S i → h'[i]? = h[i]?) : ∀ (par : Nat) (cs : List Child) (ns : List Node),
    ReadsKids h S par cs ns → ReadsKids h' S' par cs ns
  | _, [], [], _ => by simp [ReadsKids]
  | _, [], _ :: _, hr => by simp [ReadsKids] at hr
  | _, _ :: _, [], hr => by simp [ReadsKids] at hr
  | par, c :: cs, n :: ns, hr => by
    rw [ReadsKids] at hr ⊢
    exact ⟨readsKid_frame hS hh par c n hr.1, readsKids_frame hS hh par cs ns hr.2⟩
end

theorem readsKids_append {h : List Ctx} {S : Nat → Prop} {par : Nat} {a b : List Child}
    {x y : List Node} (h1 : ReadsKids h S par a x) (h2 : ReadsKids h S par b y) :
    ReadsKids h S par (a ++ b) (x ++ y) := by
  induction a generalizing x with
  | nil => cases x <;> simp_all [ReadsKids]
  | cons c cs ih =>
    cases x with
    | nil => simp [ReadsKids] at h1
    | cons n ns =>
      rw [ReadsKids] at h1
      simp only [List.cons_append]
      rw [ReadsKids]
      exact ⟨h1.1, ih h1.2⟩

/-! ## Running -/

/-- The parser `p` is at `s` with current context `c`. -/
structure At (V : I → Nat → Prop) (p : P I) (s : St) (c : Nat) : Prop where
  view : V p.input s.pos
  meof : p.matchedEof = s.eof
  state : p.state = s.state
  ctx : p.ctx = some c
  mem : c < p.heap.length

/-- The state after a step: everything else is as before. -/
def res (p : P I) (i : I) (h : List Ctx) (s : St) (evs : List PEvent) : P I :=
  { p with input := i, heap := h, matchedEof := s.eof, state := s.state,
           log := p.log ++ evs.flatMap (dispatch p.listeners) }

/-- A step in context `c` added the children `nodes` to it, changed no other old context, and leads
to `s'`. -/
def Step (V : I → Nat → Prop) (p : P I) (c : Nat) (r : Option (P I)) (nodes : List Node) (s' : St)
    (evs : List PEvent) : Prop :=
  ∃ i' h' new stop' c0, r = some (res p i' h' s' evs) ∧ V i' s'.pos ∧ p.heap.length ≤ h'.length ∧
    (∀ i, i ≠ c → i < p.heap.length → h'[i]? = p.heap[i]?) ∧ p.heap[c]? = some c0 ∧
    h'[c]? = some { c0 with children := c0.children ++ new, stop := stop' } ∧
    (p.buildTrees = true →
      ReadsKids h' (fun i => p.heap.length ≤ i ∧ i < h'.length) c new nodes)

/-- Like `Step`, for steps that allocate nothing and add only leaves. -/
def PStep (V : I → Nat → Prop) (p : P I) (c : Nat) (r : Option (P I)) (nodes : List Node) (s' : St)
    (evs : List PEvent) : Prop :=
  ∃ i' h' new stop' c0, r = some (res p i' h' s' evs) ∧ V i' s'.pos ∧ p.heap.length = h'.length ∧
    (∀ i, i ≠ c → h'[i]? = p.heap[i]?) ∧ p.heap[c]? = some c0 ∧
    h'[c]? = some { c0 with children := c0.children ++ new, stop := stop' } ∧
    (p.buildTrees = true → ∀ h S par, ReadsKids h S par new nodes)

theorem PStep.step {p : P I} {c : Nat} {r : Option (P I)} {nodes : List Node} {s' : St}
    {evs : List PEvent} (h : PStep V p c r nodes s' evs) : Step V p c r nodes s' evs := by
  obtain ⟨i', h', new, stop', c0, h1, h2, h3, h4, h5, h6, h7⟩ := h
  exact ⟨i', h', new, stop', c0, h1, h2, by omega, fun i a _ => h4 i a, h5, h6,
    fun hb => h7 hb _ _ _⟩

theorem res_res (p : P I) (i i' : I) (h h' : List Ctx) (s s' : St) (e e' : List PEvent) :
    res (res p i h s e) i' h' s' e' = res p i' h' s' (e ++ e') := by
  simp [res, List.flatMap_append]

theorem at_res {p : P I} {s s' : St} {c : Nat} {i' : I} {h' : List Ctx} {evs : List PEvent}
    (ha : At V p s c) (hv : V i' s'.pos) (hl : p.heap.length ≤ h'.length) :
    At V (res p i' h' s' evs) s' c :=
  ⟨hv, rfl, rfl, ha.ctx, by have := ha.mem; simp only [res]; omega⟩

theorem PStep.nil {p : P I} {s : St} {c : Nat} (ha : At V p s c) :
    PStep V p c (some p) [] s [] := by
  have hm := ha.mem
  refine ⟨p.input, p.heap, [], (p.heap[c]).stop, p.heap[c], ?_, ha.view, rfl, fun _ _ => rfl, by simp [hm],
    by simp [hm], fun _ _ _ _ => by simp [ReadsKids]⟩
  simp [res, ← ha.meof, ← ha.state]

theorem PStep.bind {p : P I} {s s1 s2 : St} {c : Nat} {r : Option (P I)} {f : P I → Option (P I)}
    {n1 n2 : List Node} {e1 e2 : List PEvent} (ha : At V p s c) (h1 : PStep V p c r n1 s1 e1)
    (h2 : ∀ p1, At V p1 s1 c → PStep V p1 c (f p1) n2 s2 e2) :
    PStep V p c (r.bind f) (n1 ++ n2) s2 (e1 ++ e2) := by
  obtain ⟨i', h', new, stop', c0, rfl, a2, a3, a4, a5, a6, a7⟩ := h1
  obtain ⟨i2, h2', new2, stop2, c1, b1, b2, b3, b4, b5, b6, b7⟩ := h2 _ (at_res ha a2 (Nat.le_of_eq a3))
  rw [Option.bind_some, b1, res_res]
  simp only [res] at b3 b4 b5 b7
  rw [a6] at b5
  simp only [Option.some.injEq] at b5
  subst b5
  refine ⟨i2, h2', new ++ new2, stop2, c0, rfl, b2, by omega,
    fun i hi => by rw [b4 i hi, a4 i hi], a5, by simpa using b6, ?_⟩
  intro hb h S par
  exact readsKids_append (a7 hb h S par) (b7 hb h S par)

theorem Step.bind {p : P I} {s s1 s2 : St} {c : Nat} {r : Option (P I)} {f : P I → Option (P I)}
    {n1 n2 : List Node} {e1 e2 : List PEvent} (ha : At V p s c) (h1 : Step V p c r n1 s1 e1)
    (h2 : ∀ p1, At V p1 s1 c → Step V p1 c (f p1) n2 s2 e2) :
    Step V p c (r.bind f) (n1 ++ n2) s2 (e1 ++ e2) := by
  have hm := ha.mem
  obtain ⟨i', h', new, stop', c0, rfl, a2, a3, a4, a5, a6, a7⟩ := h1
  obtain ⟨i2, h2', new2, stop2, c1, b1, b2, b3, b4, b5, b6, b7⟩ := h2 _ (at_res ha a2 a3)
  rw [Option.bind_some, b1, res_res]
  simp only [res] at b3 b4 b5 b7
  rw [a6] at b5
  simp only [Option.some.injEq] at b5
  subst b5
  refine ⟨i2, h2', new ++ new2, stop2, c0, rfl, b2, by omega, ?_, a5, by simpa using b6, ?_⟩
  · intro i hi hi2
    rw [b4 i hi (by omega), a4 i hi hi2]
  · intro hb
    refine readsKids_append (readsKids_frame ?_ ?_ _ _ _ (a7 hb))
      (readsKids_frame ?_ ?_ _ _ _ (b7 hb))
    · rintro i ⟨x, y⟩; exact ⟨x, by omega⟩
    · rintro i ⟨x, y⟩; exact b4 i (by omega) y
    · rintro i ⟨x, y⟩; exact ⟨by omega, y⟩
    · intros; rfl

/-! ## Primitive steps -/

theorem get_set {h : List Ctx} {c : Nat} (f : Ctx) (i : Nat) (hi : i ≠ c) :
    (h.set c f)[i]? = h[i]? := by
  rw [List.getElem?_set_ne (Ne.symm hi)]

theorem consume_ok (hv : IsView T V) {p : P I} {s : St} {c : Nat} (ha : At V p s c) (r : Bool) :
    PStep V p c (p.consume r) [.leaf (T s.pos) r] (advance T s) [.leaf (T s.pos) r] := by
  have hcur : p.getCurrentToken = some (T s.pos) := hv.current _ _ ha.view
  have hm := ha.mem
  have key : ∀ (i' : I) (s' : St), V i' s'.pos → s'.eof = s.eof → s'.state = s.state →
      PStep V p c
        (if p.buildTrees ∨ p.listeners ≠ [] then
          p.ctx.bind fun c => (P.addChild { p with input := i' } c (.leaf (T s.pos) r)).map fun p =>
            { p with log := p.log ++ p.listeners.map fun l => (l.who, .leaf (T s.pos) r) }
         else some { p with input := i' }) [.leaf (T s.pos) r] s' [.leaf (T s.pos) r] := by
    intro i' s' hv' he hs
    by_cases hb : p.buildTrees ∨ p.listeners ≠ []
    · rw [if_pos hb, ha.ctx, Option.bind_some]
      simp only [P.addChild, P.modify, List.getElem?_eq_getElem hm, Option.map_some]
      refine ⟨i', p.heap.set c { p.heap[c] with children := p.heap[c].children ++ [.leaf (T s.pos) r] },
        [.leaf (T s.pos) r], p.heap[c].stop, p.heap[c], ?_, hv', by simp,
        fun i hi => get_set _ i hi, by simp [hm], by simp [hm], ?_⟩
      · simp [res, he, hs, ha.meof, ha.state, dispatch, ← ha.ctx]
      · intro _ h S par
        simp [ReadsKids, ReadsKid]
    · rw [if_neg hb]
      simp only [not_or, ne_eq, not_not, Bool.not_eq_true] at hb
      refine ⟨i', p.heap, [], p.heap[c].stop, p.heap[c], ?_, hv', rfl, fun i hi => rfl,
        by simp [hm], by simp [hm], ?_⟩
      · simp [res, he, hs, ha.meof, ha.state, dispatch, hb.2]
      · simp [hb.1]
  unfold P.consume
  rw [hcur, Option.bind_some]
  by_cases he : (T s.pos).ttype = TOKEN_EOF
  · rw [if_neg (by simpa using he), Option.bind_some]
    have := key p.input (advance T s) (by simpa [advance, he] using ha.view) (by simp [advance, he])
      (by simp [advance, he])
    exact this
  · obtain ⟨i', hc, hv'⟩ := hv.consume _ _ ha.view he
    rw [if_pos he, hc, Option.map_some, Option.bind_some]
    exact key i' (advance T s) (by simpa [advance, he] using hv') (by simp [advance, he])
      (by simp [advance, he])

theorem prim_ok (hv : IsView T V) {p : P I} {s : St} {c : Nat} (ha : At V p s c) (x : Prim) :
    PStep V p c (x.run p) (primDen T x s).1 (primDen T x s).2 (primEv T x s) := by
  have hm := ha.mem
  cases x with
  | matchTok =>
    have hcur : p.getCurrentToken = some (T s.pos) := hv.current _ _ ha.view
    simp only [Prim.run, P.matchCurrent, hcur, Option.bind_some, primDen, primEv]
    by_cases he : (T s.pos).ttype = TOKEN_EOF
    · simp only [he, if_true]
      have ha' : At V { p with matchedEof := true } { s with eof := true } c :=
        ⟨ha.view, rfl, ha.state, ha.ctx, hm⟩
      have := consume_ok hv ha' false
      exact this
    · simp only [he, if_false]
      exact consume_ok hv ha false
  | consume r => exact consume_ok hv ha r
  | conjure t =>
    simp only [Prim.run, P.addConjured, primDen, primEv]
    by_cases hb : p.buildTrees ∧ t.index = -1
    · rw [if_pos hb, if_pos hb.2, ha.ctx, Option.bind_some]
      simp only [P.addChild, P.modify, List.getElem?_eq_getElem hm, Option.map_some]
      refine ⟨p.input, p.heap.set c { p.heap[c] with children := p.heap[c].children ++ [.leaf t true] },
        [.leaf t true], p.heap[c].stop, p.heap[c], ?_, ha.view,
        by simp, fun i hi => get_set _ i hi, by simp [hm], by simp [hm], ?_⟩
      · simp [res, ha.meof, ha.state]
      · intro _ h S par
        simp [ReadsKids, ReadsKid]
    · rw [if_neg hb]
      obtain ⟨i', h', new, stop', c0, h1, h2, h3, h4, h5, h6, h7⟩ := PStep.nil (V := V) ha
      refine ⟨i', h', new, stop', c0, h1, h2, h3, h4, h5, h6, ?_⟩
      intro hb'
      have : ¬ t.index = -1 := fun h => hb ⟨hb', h⟩
      rw [if_neg this]
      exact h7 hb'
  | setState n =>
    simp only [Prim.run, primDen, primEv]
    refine ⟨p.input, p.heap, [], p.heap[c].stop, p.heap[c], ?_, ha.view, rfl, fun i hi => rfl,
        by simp [hm], by simp [hm], fun _ _ _ _ => by simp [ReadsKids]⟩
    simp [res, ha.meof]
  | markStop =>
    obtain ⟨i', hl, hv'⟩ := hv.lt_prev _ _ ha.view
    simp only [Prim.run, primDen, primEv, P.lt, hl, Option.map_some, Option.bind_some, ha.ctx,
      P.setStop, P.modify, List.getElem?_eq_getElem hm]
    refine ⟨i', p.heap.set c { p.heap[c] with stop := prevTok T s.pos }, [], prevTok T s.pos, p.heap[c], ?_, hv', by simp, fun i hi => get_set _ i hi,
      by simp [hm], by simp [hm], fun _ _ _ _ => by simp [ReadsKids]⟩
    simp [res, ha.meof, ha.state, ← ha.ctx, prevTok_getD]

theorem prims_ok (hv : IsView T V) (xs : List Prim) {p : P I} {s : St} {c : Nat} (ha : At V p s c) :
    PStep V p c (runPrims xs p) (primsDen T xs s).1 (primsDen T xs s).2 (primsEv T xs s) := by
  induction xs generalizing p s with
  | nil => exact PStep.nil ha
  | cons x xs ih =>
    simp only [runPrims, primsDen, primsEv]
    exact PStep.bind ha (prim_ok hv ha x) fun p1 ha1 => ih ha1

end Antlr.ParserLemmas
