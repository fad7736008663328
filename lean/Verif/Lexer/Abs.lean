import Verif.Lexer.Lists

/-!
# Steps of the lexer simulator up to executors

`er q` replaces the executor `e` of a configuration by `q e`; `abs q` does this to a list and drops
repeated entries.  For a suitable `q` the next list depends, up to `abs q`, only on `abs q` of the
present one (`reach_abs`).
-/

namespace Antlr.LexCache
open Antlr Lexer ConfigSet

set_option linter.unusedSectionVars false

/-- The view of executors: it must not see offsets, and must be stable under appending an action. -/
structure Blur (q : Option (List LexerAction) → Option (List LexerAction)) : Prop where
  idem : ∀ e, q (q e) = q e
  fix : ∀ o e, q (e.map (fixOffset o)) = q e
  app : ∀ e e' a, q e = q e' → q (some (newCopyAppend e a)) = q (some (newCopyAppend e' a))

section
variable {q : Option (List LexerAction) → Option (List LexerAction)}

/-- Replace the executor. -/
def er (q : Option (List LexerAction) → Option (List LexerAction)) (c : Config) : Config :=
  { c with kind := match c.kind with
      | .lexer e p => .lexer (q e) p
      | .base => .base }

/-- Replace the executor of an event. -/
def Ev.er (q : Option (List LexerAction) → Option (List LexerAction)) : Ev → Ev
  | .stop c => .stop (LexCache.er q c)
  | .node c => .node (LexCache.er q c)

theorem er_iff {c c' : Config} : er q c = er q c' ↔
    c.state = c'.state ∧ c.alt = c'.alt ∧ c.ctx = c'.ctx ∧ c.sem = c'.sem ∧ c.reaches = c'.reaches ∧
    c.suppressed = c'.suppressed ∧
    ((c.kind = .base ∧ c'.kind = .base) ∨
      ∃ e e' p, c.kind = .lexer e p ∧ c'.kind = .lexer e' p ∧ q e = q e') := by
  cases c with
  | mk s a x sem r sup k =>
  cases c' with
  | mk s' a' x' sem' r' sup' k' =>
  cases k <;> cases k' <;> simp only [er, Config.mk.injEq, and_true, reduceCtorEq, false_and, and_false,
    exists_false, or_false, false_or, and_self, ConfigType.lexer.injEq]
  constructor
  · rintro ⟨rfl, rfl, rfl, rfl, rfl, rfl, h, rfl⟩
    exact ⟨rfl, rfl, rfl, rfl, rfl, rfl, _, _, _, ⟨rfl, rfl⟩, ⟨rfl, rfl⟩, h⟩
  · rintro ⟨rfl, rfl, rfl, rfl, rfl, rfl, e, e', p, ⟨rfl, rfl⟩, ⟨rfl, rfl⟩, h⟩
    exact ⟨rfl, rfl, rfl, rfl, rfl, rfl, h, rfl⟩

theorem er_passed {c c' : Config} (h : er q c = er q c') : passedOf c = passedOf c' := by
  obtain ⟨-, -, -, -, -, -, h⟩ := er_iff.mp h
  rcases h with ⟨h1, h2⟩ | ⟨e, e', p, h1, h2, -⟩ <;> simp [passedOf, h1, h2]

theorem er_exec {c c' : Config} (hq : Blur q) (h : er q c = er q c') : q (execOf c) = q (execOf c') := by
  obtain ⟨-, -, -, -, -, -, h⟩ := er_iff.mp h
  rcases h with ⟨h1, h2⟩ | ⟨e, e', p, h1, h2, h3⟩ <;> simp [execOf, h1, h2]
  exact h3

theorem er_cloned {c c' : Config} (h : er q c = er q c') (t : Nat) (tst : ATNState) :
    er q (cloned c t tst) = er q (cloned c' t tst) := by
  have hp := er_passed h
  have := er_iff.mp h
  rw [er_iff]
  obtain ⟨h1, h2, h3, h4, h5, h6, h7⟩ := this
  refine ⟨rfl, h2, h3, h4, h5, h6, ?_⟩
  rcases h7 with ⟨h8, h9⟩ | ⟨e, e', p, h8, h9, h10⟩
  · left; simp [cloned, h8, h9]
  · right; exact ⟨e, e', checkNonGreedy c tst, by simp [cloned, h8],
      by simp [cloned, h9, checkNonGreedy, hp], h10⟩

theorem er_clonedCtx {c c' : Config} (h : er q c = er q c') (t : Nat) (tst : ATNState) (x : PC) :
    er q (clonedCtx c t tst x) = er q (clonedCtx c' t tst x) := by
  have := er_iff.mp (er_cloned h t tst)
  rw [er_iff]
  obtain ⟨h1, h2, h3, h4, h5, h6, h7⟩ := this
  exact ⟨h1, h2, rfl, h4, h5, h6, h7⟩

theorem er_clonedExec {c c' : Config} (h : er q c = er q c') (t : Nat) (tst : ATNState)
    {e e' : Option (List LexerAction)} (he : q e = q e') :
    er q (clonedExec c t tst e) = er q (clonedExec c' t tst e') := by
  have := er_iff.mp (er_cloned h t tst)
  rw [er_iff]
  obtain ⟨h1, h2, h3, h4, h5, h6, h7⟩ := this
  refine ⟨h1, h2, h3, h4, h5, h6, ?_⟩
  rcases h7 with ⟨h8, h9⟩ | ⟨x, x', p, h8, h9, h10⟩
  · left; simp [clonedExec, h8, h9]
  · right; exact ⟨e, e', p, by simp [clonedExec, h8], by simp [clonedExec, h9], he⟩

/-- `epsTarget` respects `er q`. -/
theorem epsTarget_er (hq : Blur q) {atn : ATN} {pred : Int → Int → Option Bool} {eof : Bool}
    {c c' : Config} (h : er q c = er q c') (tr : Trans) :
    (epsTarget atn pred eof c tr).map (fun r => (r.1, r.2.map (er q))) =
      (epsTarget atn pred eof c' tr).map (fun r => (r.1, r.2.map (er q))) := by
  have hc : c.ctx = c'.ctx := (er_iff.mp h).2.2.1
  simp only [epsTarget]
  cases atn.states[tr.target]? with
  | none => rfl
  | some tst =>
    have key : ∀ (o : Option Bool) (t : Nat) (x : Bool),
        (o.map fun m => (x, if m then some (cloned c t tst) else none)).map
            (fun r : Bool × Option Config => (r.1, r.2.map (er q))) =
          (o.map fun m => (x, if m then some (cloned c' t tst) else none)).map
            (fun r : Bool × Option Config => (r.1, r.2.map (er q))) := by
      intro o t x
      cases o with
      | none => rfl
      | some m => cases m <;> simp [er_cloned h]
    cases tr with
    | epsilon => simp [er_cloned h]
    | rule => simp [hc, er_clonedCtx h]
    | predicate t d r p => exact key _ _ _
    | action t d r a p =>
      simp only [Option.bind_some, hc]
      split
      · rcases (er_iff.mp h).2.2.2.2.2.2 with ⟨h1, h2⟩ | ⟨e, e', pp, h1, h2, h3⟩
        · simp [h1, h2]
        · simp only [h1, h2]
          cases (if 0 ≤ a then atn.lexerActions[a.toNat]? else none) with
          | none => rfl
          | some act => simp [er_clonedExec h _ _ (hq.app e e' act h3)]
      · simp [er_cloned h]
    | range t x y => simp only [Option.bind_some]; split; exact key _ _ _; rfl
    | set t x => simp only [Option.bind_some]; split; exact key _ _ _; rfl
    | atom t x => simp only [Option.bind_some]; split; exact key _ _ _; rfl
    | notSet => rfl
    | wildcard => rfl
    | precedence => rfl

/-- Apply a function to every item of a result. -/
def mapFst {α β γ : Type} (g : α → β) (o : Option (List α × γ)) : Option (List β × γ) :=
  o.map fun r => (r.1.map g, r.2)

theorem mapFst_eq {α β γ : Type} {g : α → β} {o o' : Option (List α × γ)} (h : mapFst g o = mapFst g o') :
    (o = none ∧ o' = none) ∨ ∃ a a' b, o = some (a, b) ∧ o' = some (a', b) ∧ a.map g = a'.map g := by
  cases o with
  | none => cases o' with
    | none => exact .inl ⟨rfl, rfl⟩
    | some r => simp [mapFst] at h
  | some r =>
    cases o' with
    | none => simp [mapFst] at h
    | some r' =>
      simp only [mapFst, Option.map_some, Option.some.injEq, Prod.mk.injEq] at h
      obtain ⟨a, b⟩ := r; obtain ⟨a', b'⟩ := r'
      obtain ⟨h1, h2⟩ := h
      simp only at h1 h2
      subst h2
      exact .inr ⟨a, a', b, rfl, rfl, h1⟩

theorem collect_er {α ε β : Type} {g : ε → β} {f f' : α → Option (List ε × Bool)} {l : List α}
    (h : ∀ a ∈ l, mapFst g (f a) = mapFst g (f' a)) : mapFst g (collect f l) = mapFst g (collect f' l) := by
  induction l with
  | nil => rfl
  | cons a as ih =>
    simp only [collect]
    have h2 := ih (fun x hx => h x (by simp [hx]))
    rcases mapFst_eq (h a (by simp)) with ⟨e1, e2⟩ | ⟨x, x', b, e1, e2, e3⟩
    · simp [e1, e2]
    · rcases mapFst_eq h2 with ⟨k1, k2⟩ | ⟨y, y', b', k1, k2, k3⟩
      · simp [e1, e2, k1, k2]
      · simp [e1, e2, k1, k2, mapFst, e3, k3]

theorem map_prepend {α β : Type} {g : α → β} {a a' : List α} {o o' : Option (List α × Bool)}
    (ha : a.map g = a'.map g) (h : mapFst g o = mapFst g o') :
    mapFst g (o.map fun r => (a ++ r.1, r.2)) = mapFst g (o'.map fun r => (a' ++ r.1, r.2)) := by
  rcases mapFst_eq h with ⟨k1, k2⟩ | ⟨y, y', b', k1, k2, k3⟩
  · simp [k1, k2]
  · simp [k1, k2, mapFst, ha, k3]

/-- The traversal respects `er q`. -/
theorem trace_er (hq : Blur q) {atn : ATN} {pred : Int → Int → Option Bool} {eof : Bool} (fuel : Nat) :
    ∀ {c c' : Config}, er q c = er q c' →
      mapFst (Ev.er q) (trace atn pred eof fuel c) = mapFst (Ev.er q) (trace atn pred eof fuel c') := by
  induction fuel with
  | zero => intros; rfl
  | succ fuel ih =>
    intro c c' h
    obtain ⟨hs, -, hc, -⟩ := er_iff.mp h
    simp only [trace, hs, hc]
    cases hst : atn.states[c'.state]? with
    | none => rfl
    | some st =>
      simp only [Option.bind_some]
      split
      · split
        · simp [mapFst, Ev.er, h]
        · apply map_prepend
          · split
            · simp [Ev.er, er_clonedCtx h]
            · rfl
          · split
            · rfl
            · apply collect_er
              intro e _
              cases e.1 with
              | none => rfl
              | some parent =>
                cases hr : atn.stateAt e.2 with
                | none => rfl
                | some rst => exact ih (er_clonedCtx h _ _ _)
      · apply map_prepend
        · split
          · rfl
          · simp [Ev.er, h]
        · apply collect_er
          intro tr _
          have h1 := epsTarget_er hq (atn := atn) (pred := pred) (eof := eof) h tr
          cases h2 : epsTarget atn pred eof c tr with
          | none =>
            cases h3 : epsTarget atn pred eof c' tr with
            | none => rfl
            | some r => rw [h2, h3] at h1; simp at h1
          | some r =>
            cases h3 : epsTarget atn pred eof c' tr with
            | none => rw [h2, h3] at h1; simp at h1
            | some r' =>
              rw [h2, h3] at h1
              obtain ⟨b, o⟩ := r; obtain ⟨b', o'⟩ := r'
              simp only [Option.map_some, Option.some.injEq, Prod.mk.injEq] at h1
              obtain ⟨rfl, h1⟩ := h1
              simp only [Option.bind_some]
              cases o with
              | none => cases o' with
                | none => rfl
                | some x => simp at h1
              | some x => cases o' with
                | none => simp at h1
                | some x' =>
                  simp only [Option.map_some, Option.some.injEq] at h1
                  rcases mapFst_eq (ih h1) with ⟨k1, k2⟩ | ⟨y, y', b', k1, k2, k3⟩
                  · simp [k1, k2]
                  · simp [k1, k2, mapFst, k3]

theorem emitted_er {evs evs' : List Ev} (h : evs.map (Ev.er q) = evs'.map (Ev.er q)) (flag : Bool) :
    (emitted flag evs).1.map (er q) = (emitted flag evs').1.map (er q) ∧
      (emitted flag evs).2 = (emitted flag evs').2 := by
  induction evs generalizing evs' flag with
  | nil => cases evs' with
    | nil => exact ⟨rfl, rfl⟩
    | cons => simp at h
  | cons e evs ih =>
    cases evs' with
    | nil => simp at h
    | cons e' evs' =>
      simp only [List.map_cons, List.cons.injEq] at h
      obtain ⟨h1, h2⟩ := h
      cases e with
      | stop c => cases e' with
        | stop c' =>
          simp only [Ev.er, Ev.stop.injEq] at h1
          simp [emitted, h1, ih h2]
        | node c' => simp [Ev.er] at h1
      | node c => cases e' with
        | stop c' => simp [Ev.er] at h1
        | node c' =>
          simp only [Ev.er, Ev.node.injEq] at h1
          simp only [emitted, er_passed h1, List.map_append]
          refine ⟨?_, (ih h2 flag).2⟩
          rw [(ih h2 flag).1]
          congr 1
          split <;> simp [h1]

theorem contrib_er (hq : Blur q) {atn : ATN} {pred : Int → Int → Option Bool} {fuel : Nat} {t : Int}
    {off off' : Int} {c c' : Config} (h : er q c = er q c') (flag : Bool) (trs : List Trans) :
    mapFst (er q) (contrib atn pred fuel t off c flag trs) =
      mapFst (er q) (contrib atn pred fuel t off' c' flag trs) := by
  induction trs with
  | nil => rfl
  | cons tr trs ih =>
    simp only [contrib]
    cases tr.getReachableTarget t with
    | none => rfl
    | some m =>
      cases m with
      | none => exact ih
      | some target =>
        dsimp only [Option.bind_some]
        cases atn.states[target]? with
        | none => rfl
        | some tst =>
          simp only [Option.bind_some]
          have he : q ((execOf c).map (fixOffset off)) = q ((execOf c').map (fixOffset off')) := by
            rw [hq.fix, hq.fix, er_exec hq h]
          rcases mapFst_eq (trace_er hq (atn := atn) (pred := pred) (eof := decide (t = EOF)) fuel
            (er_clonedExec h target tst he)) with ⟨k1, k2⟩ | ⟨y, y', b', k1, k2, k3⟩
          · simp [k1, k2]
          · obtain ⟨e1, e2⟩ := emitted_er k3 flag
            simp only [k1, k2, Option.bind_some, e2]
            split
            · simp [mapFst, e1]
            · rcases mapFst_eq ih with ⟨j1, j2⟩ | ⟨z, z', b2, j1, j2, j3⟩
              · simp [j1, j2]
              · simp [j1, j2, mapFst, e1, j3]

theorem reachList_er (hq : Blur q) {atn : ATN} {pred : Int → Int → Option Bool} {fuel : Nat} {t : Int}
    {off off' : Int} (l l' : List Config) : l.map (er q) = l'.map (er q) → ∀ (skip : Int),
    mapFst (er q) (reachList atn pred fuel t off l skip) =
      mapFst (er q) (reachList atn pred fuel t off' l' skip) := by
  induction l generalizing l' with
  | nil => intro h skip; cases l' with
    | nil => rfl
    | cons => simp at h
  | cons c rest ih =>
    intro h skip
    cases l' with
    | nil => simp at h
    | cons c' rest' =>
      simp only [List.map_cons, List.cons.injEq] at h
      obtain ⟨h1, h2⟩ := h
      obtain ⟨hs, ha, -⟩ := er_iff.mp h1
      simp only [reachList, er_passed h1, hs, ha]
      split
      · exact ih rest' h2 skip
      · cases hst : atn.states[c'.state]? with
        | none => rfl
        | some st =>
          simp only [Option.bind_some]
          rcases mapFst_eq (contrib_er hq (atn := atn) (pred := pred) (fuel := fuel) (t := t)
            (off := off) (off' := off') h1 (decide (c'.alt = skip)) st.transitions) with
            ⟨k1, k2⟩ | ⟨y, y', b', k1, k2, k3⟩
          · simp [k1, k2]
          · simp only [k1, k2, Option.bind_some]
            rcases mapFst_eq (ih rest' h2 (if b'.2 then c'.alt else skip)) with
              ⟨j1, j2⟩ | ⟨z, z', b2, j1, j2, j3⟩
            · simp [j1, j2]
            · simp [j1, j2, mapFst, k3, j3]

/-! ## Dropping repeated configurations -/

theorem er_er (hq : Blur q) (c : Config) : er q (er q c) = er q c := by
  cases c with
  | mk s a x sem r sup k => cases k <;> simp [er, hq.idem]

/-- The items of `l` not seen before. -/
def fresh {α} [DecidableEq α] : List α → List α → List α
  | _, [] => []
  | seen, x :: l => if x ∈ seen then fresh seen l else x :: fresh (seen ++ [x]) l

theorem foldl_insertNew {α} [DecidableEq α] (l : List α) : ∀ seen, l.foldl insertNew seen = seen ++ fresh seen l := by
  induction l with
  | nil => simp [fresh]
  | cons x l ih =>
    intro seen
    simp only [List.foldl_cons, ih, insertNew, fresh]
    split <;> simp

theorem firsts_eq_fresh {α} [DecidableEq α] (l : List α) : firsts l = fresh [] l := by
  have := firsts_append [] l
  simpa [foldl_insertNew, firsts] using this

theorem foldl_insertNew_mem {α} [DecidableEq α] {l O : List α} (h : ∀ x ∈ l, x ∈ O) : l.foldl insertNew O = O := by
  induction l with
  | nil => rfl
  | cons x l ih =>
    simp only [List.foldl_cons, insertNew, if_pos (h x (by simp))]
    exact ih fun y hy => h y (by simp [hy])

theorem mem_foldl_insertNew {α} [DecidableEq α] (l : List α) : ∀ (O : List α) (x : α), x ∈ l.foldl insertNew O ↔ x ∈ O ∨ x ∈ l := by
  induction l with
  | nil => simp
  | cons y l ih =>
    intro O x
    simp only [List.foldl_cons, ih, insertNew, List.mem_cons]
    split
    · constructor
      · rintro (h | h) <;> simp [h]
      · rintro (h | rfl | h) <;> simp_all
    · simp only [List.mem_append, List.mem_singleton, or_assoc]

theorem fresh_sublist {α} [DecidableEq α] (l : List α) : ∀ seen, (fresh seen l).Sublist l := by
  induction l with
  | nil => intro; simp [fresh]
  | cons x l ih =>
    intro seen
    simp only [fresh]
    split
    · exact (ih seen).cons x
    · exact (ih _).cons₂ x

theorem firsts_sublist {α} [DecidableEq α] (l : List α) : (firsts l).Sublist l := by
  rw [firsts_eq_fresh]; exact fresh_sublist l []

theorem mem_firsts {α} [DecidableEq α] (l : List α) (x : α) : x ∈ firsts l ↔ x ∈ l := by
  have := mem_foldl_insertNew l [] x
  rw [← show firsts l = l.foldl insertNew [] from rfl] at this
  simpa using this

theorem firsts_map_firsts {α β} [DecidableEq α] [DecidableEq β] (f : α → β) (l : List α) :
    firsts ((firsts l).map f) = firsts (l.map f) := by
  have key : ∀ (l : List α) (seen : List α) (O : List β), (∀ x ∈ seen, f x ∈ O) →
      ((fresh seen l).map f).foldl insertNew O = (l.map f).foldl insertNew O := by
    intro l
    induction l with
    | nil => intros; rfl
    | cons x l ih =>
      intro seen O h
      simp only [fresh]
      split
      · rename_i hx
        simp only [List.map_cons, List.foldl_cons, insertNew, if_pos (h x hx)]
        exact ih seen O h
      · simp only [List.map_cons, List.foldl_cons]
        apply ih
        intro y hy
        simp only [List.mem_append, List.mem_singleton] at hy
        have hm := mem_foldl_insertNew [f x] O (f y)
        simp only [List.foldl_cons, List.foldl_nil, List.mem_singleton] at hm
        rcases hy with hy | rfl
        · exact hm.mpr (.inl (h y hy))
        · exact hm.mpr (.inr rfl)
  rw [firsts_eq_fresh l]
  exact key l [] [] (by simp)

theorem emitted_true_subset (evs : List Ev) :
    (emitted true evs).2 = true ∧ ∀ (flag : Bool), ∀ y ∈ (emitted true evs).1, y ∈ (emitted flag evs).1 := by
  induction evs with
  | nil => simp [emitted]
  | cons e evs ih =>
    cases e with
    | stop c => simp [emitted, ih]
    | node c =>
      refine ⟨by simp [emitted, ih.1], ?_⟩
      intro flag y hy
      simp only [emitted, List.mem_append] at hy ⊢
      rcases hy with hy | hy
      · left
        cases hp : passedOf c with
        | true => simp [hp] at hy
        | false => simpa [hp] using hy
      · exact .inr (ih.2 flag y hy)

/-- After the end of a token rule the same configuration contributes less. -/
theorem contrib_true {atn : ATN} {pred : Int → Int → Option Bool} {fuel : Nat} {t off : Int} {c : Config}
    {flag : Bool} {trs : List Trans} {ys : List Config} {sem brk : Bool}
    (h : contrib atn pred fuel t off c flag trs = some (ys, sem, brk)) :
    ∃ ys' sem' brk', contrib atn pred fuel t off c true trs = some (ys', sem', brk') ∧
      (∀ y ∈ ys', y ∈ ys) ∧ (sem' = true → sem = true) := by
  induction trs generalizing ys sem brk with
  | nil => simp [contrib] at h; exact ⟨[], false, false, rfl, by simp, by simp⟩
  | cons tr trs ih =>
    simp only [contrib] at h ⊢
    obtain ⟨m, hm, h⟩ := Option.bind_eq_some_iff.mp h
    rw [hm]
    cases m with
    | none => exact ih h
    | some target =>
      dsimp only [Option.bind_some] at h ⊢
      obtain ⟨tst, h1, h⟩ := Option.bind_eq_some_iff.mp h
      obtain ⟨r, h2, h⟩ := Option.bind_eq_some_iff.mp h
      rw [h1]
      simp only [Option.bind_some]
      rw [h2]
      simp only [Option.bind_some, (emitted_true_subset r.1).1, if_true]
      refine ⟨_, _, _, rfl, ?_, ?_⟩
      · intro y hy
        have := (emitted_true_subset r.1).2 flag y hy
        split at h
        · injection h with h; injection h with h _; subst h; exact this
        · simp only [Option.map_eq_some_iff] at h
          obtain ⟨z, _, h⟩ := h
          injection h with h _; subst h; exact List.mem_append_left _ this
      · intro hs
        split at h
        · injection h with h; injection h with _ h; injection h with h _; rw [← h]; exact hs
        · simp only [Option.map_eq_some_iff] at h
          obtain ⟨z, _, h⟩ := h
          injection h with _ h; injection h with h _; rw [← h, hs]; rfl

/-- What was already processed adds nothing when processed again. -/
def Done (q : Option (List LexerAction) → Option (List LexerAction)) (atn : ATN)
    (pred : Int → Int → Option Bool) (fuel : Nat) (t off : Int) (O : List Config) (S : Bool) (k : Int)
    (x : Config) : Prop :=
  (x.alt = k ∧ passedOf x = true) ∨
    ∃ st ys sem brk, atn.states[x.state]? = some st ∧
      contrib atn pred fuel t off x (decide (x.alt = k)) st.transitions = some (ys, sem, brk) ∧
      (∀ y ∈ ys, er q y ∈ O) ∧ (sem = true → S = true) ∧ (brk = true → k = x.alt)

/-- The outcome of `reachList` after some configurations. -/
def outcome (q : Option (List LexerAction) → Option (List LexerAction)) (O : List Config) (S : Bool)
    (r : Option (List Config × Bool)) : Option (List Config × Bool) :=
  r.map fun r => ((r.1.map (er q)).foldl insertNew O, S || r.2)

theorem outcome_map {O : List Config} {S : Bool} {r : Option (List Config × Bool)} {ys : List Config}
    {sem : Bool} :
    outcome q O S (r.map fun z => (ys ++ z.1, sem || z.2)) =
      outcome q ((ys.map (er q)).foldl insertNew O) (S || sem) r := by
  cases r <;> simp [outcome, Bool.or_assoc]

theorem reach_fresh {atn : ATN} {pred : Int → Int → Option Bool} {fuel : Nat} {t off : Int}
    (l : List Config) : ∀ (seen O : List Config) (S : Bool) (k : Int),
    (∀ x ∈ seen, ∀ c ∈ l, x.alt ≤ c.alt) → l.Pairwise (fun a b => a.alt ≤ b.alt) →
    (∀ x ∈ seen, (∃ c ∈ l, c.alt = x.alt) → Done q atn pred fuel t off O S k x) →
    outcome q O S (reachList atn pred fuel t off l k) =
      outcome q O S (reachList atn pred fuel t off (fresh seen l) k) := by
  induction l with
  | nil => intros; rfl
  | cons x l ih =>
    intro seen O S k hle hs hd
    have hs2 := (List.pairwise_cons.mp hs).2
    have hs1 := (List.pairwise_cons.mp hs).1
    have hle2 : ∀ z ∈ seen, ∀ c ∈ l, z.alt ≤ c.alt := fun z hz c hc => hle z hz c (by simp [hc])
    have hd2 : ∀ z ∈ seen, (∃ c ∈ l, c.alt = z.alt) → Done q atn pred fuel t off O S k z :=
      fun z hz ⟨c, hc, e⟩ => hd z hz ⟨c, by simp [hc], e⟩
    simp only [fresh]
    by_cases hx : x ∈ seen
    · simp only [hx, if_true]
      have hdx := hd x hx ⟨x, by simp, rfl⟩
      rw [← ih seen O S k hle2 hs2 hd2]
      simp only [reachList]
      rcases hdx with ⟨h1, h2⟩ | ⟨st, ys, sem, brk, h1, h2, h3, h4, h5⟩
      · simp [h1, h2]
      · by_cases hsk : (decide (x.alt = k) && passedOf x) = true
        · simp [hsk]
        · simp only [hsk, Bool.false_eq_true, if_false, h1, Option.bind_some, h2]
          have hk : (if brk then x.alt else k) = k := by
            cases brk with
            | false => rfl
            | true => simp [h5 rfl]
          have hO : (ys.map (er q)).foldl insertNew O = O := foldl_insertNew_mem (by simpa using h3)
          have hS : (S || sem) = S := by
            cases sem with
            | false => simp
            | true => simp [h4 rfl]
          rw [hk, outcome_map, hO, hS]
    · simp only [hx, if_false]
      have hle' : ∀ z ∈ seen ++ [x], ∀ c ∈ l, z.alt ≤ c.alt := by
        intro z hz c hc
        simp only [List.mem_append, List.mem_singleton] at hz
        rcases hz with hz | rfl
        · exact hle2 z hz c hc
        · exact hs1 c hc
      simp only [reachList]
      by_cases hsk : (decide (x.alt = k) && passedOf x) = true
      · simp only [hsk, if_true]
        apply ih (seen ++ [x]) O S k hle' hs2
        intro z hz hc
        simp only [List.mem_append, List.mem_singleton] at hz
        rcases hz with hz | rfl
        · exact hd2 z hz hc
        · left; simpa using hsk
      · simp only [hsk, Bool.false_eq_true, if_false]
        cases hst : atn.states[x.state]? with
        | none => rfl
        | some st =>
          simp only [Option.bind_some]
          cases hc : contrib atn pred fuel t off x (decide (x.alt = k)) st.transitions with
          | none => rfl
          | some r =>
            obtain ⟨ys, sem, brk⟩ := r
            simp only [Option.bind_some]
            rw [outcome_map, outcome_map]
            apply ih (seen ++ [x]) _ _ _ hle' hs2
            have hmem : ∀ {z : Config}, z ∈ O → z ∈ (ys.map (er q)).foldl insertNew O :=
              fun h => (mem_foldl_insertNew _ _ _).mpr (.inl h)
            intro z hz hal
            simp only [List.mem_append, List.mem_singleton] at hz
            have hold : Done q atn pred fuel t off ((ys.map (er q)).foldl insertNew O) (S || sem) k z ∨
                (brk = true ∧ z = x) := by
              rcases hz with hz | rfl
              · left
                rcases hd2 z hz hal with h | ⟨st', ys', sem', brk', g1, g2, g3, g4, g5⟩
                · exact .inl h
                · exact .inr ⟨st', ys', sem', brk', g1, g2, fun y hy => hmem (g3 y hy),
                    fun h => by simp [g4 h], g5⟩
              · cases brk with
                | true => exact .inr ⟨rfl, rfl⟩
                | false =>
                  left; right
                  exact ⟨st, ys, sem, false, hst, hc,
                    fun y hy => (mem_foldl_insertNew _ _ _).mpr (.inr (List.mem_map_of_mem hy)),
                    fun h => by simp [h], by simp⟩
            cases brk with
            | false =>
              rcases hold with h | ⟨h, _⟩
              · exact h
              · simp at h
            | true =>
              have hza : z.alt = x.alt := by
                rcases hz with hz | rfl
                · obtain ⟨c, hc1, hc2⟩ := hal
                  have a1 := hle z hz x (by simp)
                  have a2 := hs1 c hc1
                  omega
                · rfl
              simp only [if_true]
              have fin : ∀ {st' ys' sem' brk' flag}, atn.states[z.state]? = some st' →
                  contrib atn pred fuel t off z flag st'.transitions = some (ys', sem', brk') →
                  (∀ y ∈ ys', er q y ∈ (ys.map (er q)).foldl insertNew O) →
                  (sem' = true → (S || sem) = true) →
                  Done q atn pred fuel t off ((ys.map (er q)).foldl insertNew O) (S || sem) x.alt z := by
                intro st' ys' sem' brk' flag g1 g2 g3 g4
                right
                obtain ⟨ys2, sem2, brk2, f1, f2, f3⟩ := contrib_true g2
                exact ⟨st', ys2, sem2, brk2, g1, by rw [hza]; simpa using f1,
                  fun y hy => g3 y (f2 y hy), fun h => g4 (f3 h), fun _ => hza.symm⟩
              rcases hold with (⟨_, h⟩ | ⟨st', ys', sem', brk', g1, g2, g3, g4, g5⟩) | ⟨_, rfl⟩
              · exact .inl ⟨hza, h⟩
              · exact fin g1 g2 g3 g4
              · exact fin hst hc
                  (fun y hy => (mem_foldl_insertNew _ _ _).mpr (.inr (List.mem_map_of_mem hy)))
                  (fun h => by simp [h])

/-- A list up to executors and repetitions. -/
def abs (q : Option (List LexerAction) → Option (List LexerAction)) (l : List Config) : List Config :=
  firsts (l.map (er q))

theorem abs_firsts (l : List Config) : abs q (firsts l) = abs q l := firsts_map_firsts _ _

theorem abs_congr {l l' : List Config} (h : l.map (er q) = l'.map (er q)) : abs q l = abs q l' := by
  rw [abs, h, abs]

theorem outcome_nil (r : Option (List Config × Bool)) :
    outcome q [] false r = r.map fun r => (abs q r.1, r.2) := by
  cases r <;> simp [outcome, abs, firsts, insertNew]; rfl

/-- One step depends, up to `abs q`, only on `abs q` of the list. -/
theorem reach_abs (hq : Blur q) {atn : ATN} {pred : Int → Int → Option Bool} {fuel : Nat} {t : Int}
    {off : Int} {l : List Config} (hs : l.Pairwise fun a b => a.alt ≤ b.alt) :
    (reachList atn pred fuel t off l 0).map (fun r => (abs q r.1, r.2)) =
      (reachList atn pred fuel t 0 (abs q l) 0).map (fun r => (abs q r.1, r.2)) := by
  have h1 : (reachList atn pred fuel t off l 0).map (fun r => (abs q r.1, r.2)) =
      (reachList atn pred fuel t 0 (l.map (er q)) 0).map (fun r => (abs q r.1, r.2)) := by
    have := reachList_er hq (atn := atn) (pred := pred) (fuel := fuel) (t := t) (off := off) (off' := 0) l
      (l.map (er q)) (by simp [er_er hq]) 0
    rcases mapFst_eq this with ⟨k1, k2⟩ | ⟨y, y', b', k1, k2, k3⟩
    · simp [k1, k2]
    · simp [k1, k2, abs_congr k3]
  rw [h1, ← outcome_nil, ← outcome_nil, abs, firsts_eq_fresh]
  apply reach_fresh
  · simp
  · rw [List.pairwise_map]; exact hs
  · simp

end

end Antlr.LexCache
