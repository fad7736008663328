import Verif.Concurrency.Tasks
import Verif.Prediction.Sizes
import Verif.Prediction.InterruptLemmas
import Verif.Lexer.InterruptLemmas

/-! # Visits never remove states from a DFA -/

namespace Antlr.Conc
open Antlr Prediction

theorem interrupted_size {I : Type} [TokStream I] {P : Params I} {cf : Nat} {d x : DFA} {inp : I}
    (h : Prediction.Interrupted P cf d inp x) : d.states.length ≤ x.states.length := by
  cases h with
  | before => exact Nat.le_refl _
  | added => exact addState_size ..
  | closure => simp
  | filtered =>
    refine Nat.le_trans ?_ (addState_size ..)
    simp
  | started h => exact startState_size h
  | mid h1 _ h2 => exact Nat.le_trans (startState_size h1) (Prediction.mid_len h2)

section
variable {C : Type} [InputData C]

theorem lexLoop_size {atn : ATN} {hash : List Config → Nat} {sp : Int → Int → Lexer.Cursor C → Bool} {fc : Nat} {start : Int} :
    ∀ {n : Nat} {c : Lexer.Cursor C} {d : DFA} {s : Nat} {t : Int} {prev : Option Lexer.Accept} {x : Lexer.Stop C},
      Lexer.execLoop atn hash sp fc start n c d s t prev = some x → d.states.length ≤ x.dfa.states.length
  | 0, _, _, _, _, _, _, h => by simp [Lexer.execLoop] at h
  | n + 1, c, d, s, t, prev, x, h => by
    rw [Lexer.execLoop] at h
    obtain ⟨et, h1, h⟩ := Option.bind_eq_some_iff.1 h
    obtain ⟨r, h2, h⟩ := Option.bind_eq_some_iff.1 h
    have : d.states.length ≤ r.1.states.length := by
      cases et with
      | some y => cases h2; exact Nat.le_refl _
      | none => exact LexCache.computeTarget_len h2
    split at h
    · cases h; exact this
    · obtain ⟨c', -, h⟩ := Option.bind_eq_some_iff.1 h
      obtain ⟨cap, -, h⟩ := Option.bind_eq_some_iff.1 h
      split at h
      · cases h; exact this
      · obtain ⟨t', -, h⟩ := Option.bind_eq_some_iff.1 h
        exact Nat.le_trans this (lexLoop_size h)

theorem lexExec_size {env : Lexer.Env C} {fc fe : Nat} {start : Int} {L : Lexer.Lex C} {d : DFA} {s : Nat}
    {r : Lexer.MatchRes × Lexer.Lex C × DFA} (h : Lexer.execAtn env fc fe start L d s = some r) :
    d.states.length ≤ r.2.2.states.length := by
  rw [Lexer.execAtn] at h
  obtain ⟨cap, -, h⟩ := Option.bind_eq_some_iff.1 h
  obtain ⟨t, -, h⟩ := Option.bind_eq_some_iff.1 h
  obtain ⟨x, h1, h⟩ := Option.bind_eq_some_iff.1 h
  obtain ⟨y, -, rfl⟩ := Option.map_eq_some_iff.1 h
  exact lexLoop_size h1

/-- A match leaves at least as many states as it found. -/
theorem match_size {env : Lexer.Env C} {fc fe : Nat} {L L' : Lexer.Lex C} {d d' : DFA} {r : Lexer.MatchRes}
    (h : ∀ dfas : List DFA, dfas[L.mode]? = some d → Lexer.matchToken env fc fe L dfas = some (r, L', dfas.set L.mode d')) :
    d.states.length ≤ d'.states.length := by
  have hd : (List.replicate (L.mode + 1) d)[L.mode]? = some d := by simp
  have := h _ hd
  simp only [Lexer.matchToken, hd, Option.map_eq_some_iff, Prod.mk.injEq] at this
  obtain ⟨⟨r', L'', d''⟩, h1, -, -, h2⟩ := this
  have e : d'' = d' := by
    have := congrArg (fun l => l[L.mode]?) h2
    simpa using this
  subst e
  cases hs : d.s0 with
  | some s => rw [hs] at h1; exact lexExec_size h1
  | none =>
    rw [hs] at h1
    dsimp only at h1
    rw [Lexer.matchAtn] at h1
    split at h1
    · cases h1; exact Nat.le_refl _
    · obtain ⟨st, -, h1⟩ := Option.bind_eq_some_iff.1 h1
      obtain ⟨s0, -, h1⟩ := Option.bind_eq_some_iff.1 h1
      obtain ⟨x, hx, h1⟩ := Option.bind_eq_some_iff.1 h1
      refine Nat.le_trans (LexCache.addState_len hx) (Nat.le_trans ?_ (lexExec_size h1))
      split <;> exact Nat.le_refl _

theorem lexInterrupted_size {env : Lexer.Env C} {fc : Nat} {L : Lexer.Lex C} {d x : DFA} (h : Lexer.Interrupted env fc L d x) :
    d.states.length ≤ x.states.length := by
  cases h with
  | before => exact Nat.le_refl _
  | added _ h => exact LexCache.started_len h
  | start _ h => exact LexCache.started_len h
  | warm _ _ h => exact LexCache.mid_len h
  | cold _ h1 _ h2 =>
    refine Nat.le_trans (LexCache.started_len h1) (Nat.le_trans ?_ (LexCache.mid_len h2))
    split <;> exact Nat.le_refl _

end

theorem does_size {I C : Type} [TokStream I] [InputData C] {t : Task I C} {d d' : DFA} {r : Option (Answer I C)}
    (h : Does t d r d') : d.states.length ≤ d'.states.length := by
  cases t with
  | predict P cf n inp =>
    cases r with
    | none => exact interrupted_size h
    | some a =>
      cases a with
      | predict out inp' reports => exact adaptivePredict_size (r := ⟨out, d', inp', reports⟩) h
      | lex => exact h.elim
  | lex env fc fe L =>
    cases r with
    | none => exact lexInterrupted_size h
    | some a =>
      cases a with
      | predict => exact h.elim
      | lex r L' => exact match_size h

end Antlr.Conc
