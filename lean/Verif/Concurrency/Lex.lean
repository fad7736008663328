import Verif.Concurrency.Bind

/-! # `matchProg` does what `matchToken` does -/

namespace Antlr.Conc
open Antlr

variable {I C : Type} [TokStream I] [InputData C] {level : Nat → Nat} {o : Nat} {side : Lexer.Lex C → P I C Unit}

section
variable (hside : ∀ L, Aside level (level o) (side L)) {env : Lexer.Env C} {fc : Nat} {start : Int} {L : Lexer.Lex C}
  {Q : Option (Answer I C) → DFA → Prop}
include hside

theorem lexTarget_visit {pred : Int → Int → Option Bool} {c : Lexer.Cursor C} {d : DFA} {s : Nat} {t off : Int}
    (h0 : Q none d)
    (h1 : ∀ st reach r, d.states[s]? = some st →
      Lexer.reachSet env.atn pred fc t off st.configs.configs 0 ConfigSet.newOrdered = some reach →
      reach.configs.isEmpty = false → Lexer.addState env.atn env.hash d { reach with hasSem := false } = some r → Q none r.1)
    (h2 : ∀ r, Lexer.computeTarget env.atn env.hash pred fc d s t off = some r → Q none r.1) :
    Visit o Q (fun x d' => Lexer.computeTarget env.atn env.hash pred fc d s t off = some (d', x)) d
      (lexTargetProg side o env fc L pred c s t off) := by
  refine ⟨h0, ?_⟩
  rw [if_pos rfl]
  refine Visit.lift _ h0 fun st hst => ?_
  refine (hside _).seen h0 ?_
  refine Visit.lift _ h0 fun reach hr => ?_
  refine ⟨h0, h0, ?_⟩
  rw [if_pos rfl]
  by_cases he : reach.configs.isEmpty = true
  · simp only [if_pos he]
    by_cases hs : reach.hasSem = true
    · simp only [if_pos hs]
      exact ⟨h0, h0, by simp only [Lexer.computeTarget, hst, hr, Option.bind_some, if_pos he, if_pos hs, Option.map_some]⟩
    · simp only [if_neg hs]
      refine Visit.lift _ h0 fun d' hd' => ?_
      have e : Lexer.computeTarget env.atn env.hash pred fc d s t off = some (d', ERROR_DFA_STATE_REF) := by
        simp only [Lexer.computeTarget, hst, hr, Option.bind_some, if_pos he, if_neg hs, hd', Option.map_some]
      refine ⟨h0, ?_⟩
      rw [if_pos rfl]
      exact ⟨h2 _ e, h2 _ e, e⟩
  · simp only [if_neg he]
    refine Visit.lift _ h0 fun r hadd => ?_
    have h3 := h1 st reach r hst hr (by simpa using he) hadd
    refine ⟨h0, ?_⟩
    rw [if_pos rfl]
    refine ⟨h3, ?_⟩
    rw [if_pos rfl]
    by_cases hs : reach.hasSem = true
    · simp only [if_pos hs]
      exact ⟨h3, h3, by
        simp only [Lexer.computeTarget, hst, hr, Option.bind_some, if_neg he, hadd, if_pos hs, Option.map_some]⟩
    · simp only [if_neg hs]
      refine Visit.lift _ h3 fun d' hd' => ?_
      have e : Lexer.computeTarget env.atn env.hash pred fc d s t off = some (d', r.2) := by
        simp only [Lexer.computeTarget, hst, hr, Option.bind_some, if_neg he, hadd, if_neg hs, hd', Option.map_some]
      refine ⟨h3, ?_⟩
      rw [if_pos rfl]
      exact ⟨h2 _ e, h2 _ e, e⟩

theorem lexLoop_visit {sp : Int → Int → Lexer.Cursor C → Bool} : ∀ {fuel : Nat} {c : Lexer.Cursor C} {d : DFA} {s : Nat}
    {symbol : Int} {prev : Option Lexer.Accept},
    (∀ x, Lexer.Mid env.atn env.hash sp fc start c d s symbol x → Q none x) →
    Visit o Q (fun a d' => Lexer.execLoop env.atn env.hash sp fc start fuel c d s symbol prev =
      some ⟨a.1, d', a.2.1, a.2.2⟩) d (lexLoopProg side o env fc start L sp fuel c s symbol prev)
  | 0, c, d, s, symbol, prev, hQ => hQ _ (.here ..)
  | fuel + 1, c, d, s, symbol, prev, hQ => by
    have h0 := hQ _ (.here ..)
    refine ⟨h0, ?_⟩
    rw [if_pos rfl]
    refine Visit.lift _ h0 fun et het => ?_
    refine Visit.bind (A' := fun x d' => Lexer.target env.atn env.hash sp fc start c d s symbol = some (d', x)) ?_ ?_
    · cases et with
      | some x => exact ⟨h0, by simp [Lexer.target, het]⟩
      | none =>
        have e : Lexer.target env.atn env.hash sp fc start c d s symbol = Lexer.computeTarget env.atn env.hash
            (fun r p => Lexer.predValue sp r p true c) fc d s symbol (c.input.index - start) := by
          simp [Lexer.target, het]
        rw [e]
        exact lexTarget_visit hside h0 (fun st reach r a b c' e' => hQ _ (.half a b c' e'))
          fun r hr => hQ _ (.after (e.trans hr))
    · intro x d' hd' hx
      have e : ∀ {β : Type} (g : DFA × Nat → Option β), ((Lexer.existingTarget d s symbol).bind fun et =>
          (match et with
           | some x => some (d, x)
           | none => Lexer.computeTarget env.atn env.hash (fun r p => Lexer.predValue sp r p true c) fc d s symbol
              (c.input.index - start)).bind g) = g (d', x) := by
        intro β g
        simp only [Lexer.target, het, Option.bind_some] at hx
        simp only [het, Option.bind_some]
        cases et with
        | some y => simp only [Option.some.injEq] at hx ⊢; rw [← hx]; rfl
        | none => dsimp only at hx ⊢; rw [hx]; rfl
      have hstep : Lexer.execLoop env.atn env.hash sp fc start (fuel + 1) c d s symbol prev =
          if x = ERROR_DFA_STATE_REF then some ⟨c, d', prev, symbol⟩
          else (if symbol ≠ EOF then c.consume else some c).bind fun c =>
            (Lexer.capture d' c x prev).bind fun cap =>
              if cap.1 && decide (symbol = EOF) then some ⟨c, d', cap.2, symbol⟩
              else (c.input.la 1).bind fun symbol =>
                Lexer.execLoop env.atn env.hash sp fc start fuel c d' x symbol cap.2 := by
        rw [Lexer.execLoop]; exact e _
      rw [hstep]
      by_cases hE : x = ERROR_DFA_STATE_REF
      · simp only [if_pos hE]; exact ⟨hd', rfl⟩
      · simp only [if_neg hE]
        refine Visit.lift _ hd' fun c' hc' => ?_
        simp only [hc', Option.bind_some]
        refine ⟨hd', ?_⟩
        rw [if_pos rfl]
        refine Visit.lift _ hd' fun cap hcap => ?_
        simp only [hcap, Option.bind_some]
        by_cases hA : (cap.1 && decide (symbol = EOF)) = true
        · simp only [if_pos hA]; exact ⟨hd', rfl⟩
        · simp only [if_neg hA]
          refine Visit.lift _ hd' fun symbol' hs' => ?_
          simp only [hs', Option.bind_some]
          exact lexLoop_visit fun y hy => hQ y (.later hx hE hc' hs' hy)

theorem lexExec_visit {fe : Nat} {d : DFA} {s0 : Nat} (h0 : Q none d)
    (hQ : ∀ symbol x, L.cur.input.la 1 = some symbol →
      Lexer.Mid env.atn env.hash (fun r p c => env.sempred r p { L with cur := c }) fc start L.cur d s0 symbol x → Q none x) :
    Visit o Q (fun a d' => Lexer.execAtn env fc fe start L d s0 = some (a.1, a.2, d')) d
      (lexExecProg side o env fc start L fe s0) := by
  refine ⟨h0, ?_⟩
  rw [if_pos rfl]
  refine Visit.lift _ h0 fun cap hcap => ?_
  refine Visit.lift _ h0 fun symbol hsym => ?_
  refine (lexLoop_visit hside fun x hx => hQ symbol x hsym hx).bind ?_
  rintro ⟨c, prev, symbol'⟩ d' hd' hl
  dsimp only at hl
  refine (hside _).seen hd' ⟨hd', ?_⟩
  rw [if_pos rfl]
  refine Visit.lift _ hd' fun r hr => ⟨hd', ?_⟩
  simp only [Lexer.execAtn, hcap, hsym, hl, hr, Option.bind_some, Option.map_some]

end

/-- A match, as a visit of the DFA of the mode. -/
theorem match_visit (hside : ∀ L, Aside level (level o) (side L)) (env : Lexer.Env C) (fc fe : Nat) (L : Lexer.Lex C) (d : DFA)
    {α : Type} {A : α → DFA → Prop} {f : Lexer.MatchRes × Lexer.Lex C → P I C α} {k : P I C α}
    (hk : (matchProg side o env fc fe L).bind f = .acquire o (.lex env fc fe L) k) :
    Visit o (Does (I := I) (.lex env fc fe L) d) A d k := by
  simp only [matchProg, Prog.bind, Prog.acquire.injEq, true_and] at hk
  subst hk
  have hQ : ∀ x, Lexer.Interrupted env fc L d x → Does (I := I) (C := C) (.lex env fc fe L) d none x := fun x hx => hx
  have h0 := hQ _ .before
  have done : ∀ (r : Lexer.MatchRes × Lexer.Lex C) (d' : DFA), Does (I := I) (C := C) (.lex env fc fe L) d none d' →
      (match d.s0 with
        | none => Lexer.matchAtn env fc fe L d
        | some s0 => Lexer.execAtn env fc fe L.cur.input.index L d s0) = some (r.1, r.2, d') →
      Visit o (Does (I := I) (.lex env fc fe L) d) (fun (_ : Lexer.MatchRes × Lexer.Lex C) _ => False) d'
        (Prog.release (T := Task I C) o (.lex r.1 r.2) <| .ret (r.1, r.2)) := by
    intro r d' hd' he
    refine ⟨hd', ?_⟩
    rw [if_pos rfl]
    intro dfas hm
    simp only [Lexer.matchToken, hm]
    exact Option.map_eq_some_iff.2 ⟨_, he, rfl⟩
  refine ⟨h0, ?_⟩
  rw [if_pos rfl]
  refine Visit.bind (A' := fun _ _ => False) ?_ fun _ _ _ h => h.elim
  refine Visit.bind (A' := fun r d' => (match d.s0 with
        | none => Lexer.matchAtn env fc fe L d
        | some s0 => Lexer.execAtn env fc fe L.cur.input.index L d s0) = some (r.1, r.2, d')) ?_
    fun r d' hd' he => done r d' hd' he
  cases hs0 : d.s0 with
  | some s0 => exact lexExec_visit hside h0 fun symbol x hs hx => hQ x (.warm hs0 hs hx)
  | none =>
    dsimp only
    cases hss : env.atn.modeToStartState[L.mode]? with
    | none => exact ⟨h0, by simp only [Lexer.matchAtn, hss]⟩
    | some ss =>
      dsimp only
      refine Visit.lift _ h0 fun st hst => ?_
      refine (hside L).seen h0 ?_
      refine Visit.lift _ h0 fun s hs => ?_
      refine ⟨h0, h0, ?_⟩
      rw [if_pos rfl]
      refine Visit.lift _ h0 fun r hr => ?_
      have hst' : Lexer.started env fc L d = some (r.1, r.2, s.hasSem) := by
        simp only [Lexer.started, hss, hst, hs, hr, Option.bind_some, Option.map_some]
      have h1 := hQ _ (.added hs0 hst')
      refine ⟨h0, ?_⟩
      rw [if_pos rfl]
      have hm : ∀ x, Lexer.matchAtn env fc fe L d = x ↔ Lexer.execAtn env fc fe L.cur.input.index L
          (if s.hasSem then r.1 else { r.1 with s0 := some r.2 }) r.2 = x := by
        intro x; simp only [Lexer.matchAtn, hss, hst, hs, hr, Option.bind_some]
      refine Visit.bind (A' := fun _ d' => d' = if s.hasSem then r.1 else { r.1 with s0 := some r.2 }) ?_ ?_
      · by_cases hsem : s.hasSem = true
        · simp only [if_pos hsem]; exact ⟨h1, rfl⟩
        · simp only [if_neg hsem]
          refine ⟨h1, ?_⟩
          rw [if_pos rfl]
          refine ⟨h1, ?_⟩
          rw [if_pos rfl]
          exact ⟨hQ _ (.start hs0 hst' (by simpa using hsem)), rfl⟩
      · rintro - d' hd' rfl
        refine ⟨hd', ?_⟩
        simp only [hm]
        exact lexExec_visit hside hd' fun symbol x hs hx => hQ x (.cold hs0 hst' hs hx)

end Antlr.Conc
