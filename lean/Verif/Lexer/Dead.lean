import Mathlib.Data.List.Dedup
import Verif.Lexer.LazyProps

/-!
# Rules that cannot match a text

A check that the ways of a token rule end within a given beginning of the text.
-/

namespace Antlr.LexLazy
open Antlr Lexer LexSpec LexPaths LexOrder IntervalSpec

set_option linter.unusedSectionVars false

def readsB : Trans → Int → Bool
  | .atom _ l, x => decide (x = l)
  | .range _ a b, x => decide (a ≤ x ∧ x ≤ b)
  | .set _ s, x => decide (Mem s.intervals x)
  | .notSet _ s, x => decide (0 ≤ x ∧ x ≤ 0x10FFFF ∧ ¬ Mem s.intervals x)
  | .wildcard _, x => decide (0 < x ∧ x < 0x10FFFF)
  | _, _ => false

theorem readsB_iff {tr : Trans} {c : Int} : readsB tr c = true ↔ ReadsSym tr c := by
  cases tr <;> simp [readsB, ReadsSym]

/-- States one step without reading away from `S`. -/
def nexts (atn : ATN) (S : List Nat) : List Nat :=
  S.flatMap fun s => ((atn.states[s]?).toList.flatMap (·.transitions)).filterMap fun tr => match tr with
    | .epsilon t _ | .predicate t _ _ _ | .action t _ _ _ _ => some t
    | _ => none

def grow (atn : ATN) : Nat → List Nat → List Nat
  | 0, S => S
  | f + 1, S => let T := (S ++ nexts atn S).dedup; if T.length = S.length then S else grow atn f T

/-- The set is closed under steps without reading, and no rule is called from it. -/
def closeB (atn : ATN) (S : List Nat) : Bool :=
  S.all fun s => match atn.states[s]? with
    | none => true
    | some st => decide (st.stateType = .ruleStop) || st.transitions.all fun tr => match tr with
      | .epsilon t _ | .predicate t _ _ _ | .action t _ _ _ _ => S.contains t
      | .rule _ _ _ _ => false
      | _ => true

def targets (atn : ATN) (S : List Nat) (c : Int) : List Nat :=
  S.flatMap fun s => ((atn.states[s]?).toList.flatMap (·.transitions)).filterMap fun tr =>
    if readsB tr c then some tr.target else none

/-- Where the word leads. -/
def after (atn : ATN) (s : Nat) (word : List Int) : List Nat :=
  word.foldl (fun S c => grow atn 50 (targets atn S c)) (grow atn 50 [s])

/-- No way of the rule that begins in `s` has read the word. -/
def deadB (atn : ATN) (s : Nat) (word : List Int) : Bool :=
  ((List.range (word.length + 1)).all fun j => closeB atn (after atn s (word.take j))) && (after atn s word).isEmpty

theorem grow_sub {atn : ATN} {x : Nat} (f : Nat) : ∀ {S : List Nat}, x ∈ S → x ∈ grow atn f S := by
  induction f with
  | zero => exact id
  | succ f ih =>
    intro S h
    simp only [grow]
    split
    · exact h
    · exact ih (List.mem_dedup.2 (List.mem_append_left _ h))

theorem close_choices {atn : ATN} {holds : Int → Int → Prop} {past : Prop} (hp : ¬ past) {S : List Nat} (hc : closeB atn S = true)
    {w u : Way} (h : Relation.ReflTransGen (Choice atn holds past) w u) (h1 : w.thread.stack = []) (h2 : w.thread.state ∈ S) :
    u.thread.stack = [] ∧ u.thread.state ∈ S := by
  induction h with
  | refl => exact ⟨h1, h2⟩
  | tail _ hx ih =>
    obtain ⟨g1, g2⟩ := ih
    simp only [closeB, List.all_eq_true] at hc
    have hs := hc _ g2
    cases hx with
    | @edge y st tr i e1 e2 e3 e4 =>
      rw [e1] at hs
      simp only [Bool.or_eq_true, decide_eq_true_eq, e2, false_or, List.all_eq_true] at hs
      have ht := hs tr (List.mem_of_getElem? e3)
      simp only [Way.move]
      cases tr <;> simp only [Free] at e4
      case rule => simp at ht
      case action =>
        rw [if_pos g1] at e4
        obtain ⟨act, -, -, rfl⟩ := e4
        exact ⟨g1, by simpa using ht⟩
      case epsilon => subst e4; exact ⟨g1, by simpa using ht⟩
      case predicate => obtain ⟨-, rfl⟩ := e4; exact ⟨g1, by simpa using ht⟩
      all_goals exact absurd e4.1 hp
    | ret e1 e2 e3 => rw [g1] at e3; cases e3

variable {D : Type} [InputData D] {cs : List Int} {ix : Nat → Int} {env : Env D} {L : Lex D} {n : Nat} {st : ATNState}

theorem takes_rule {atn : ATN} {holds : Int → Int → Prop} {past : Prop} {t : Int} {w u : Way} (h : Takes atn holds past t w u) :
    u.rule = w.rule := by
  obtain ⟨st, tr, -, -, -, h⟩ := h
  exact (choices_same h).1

/-- A rule for which the check succeeds matches less than the word. -/
theorem dead {i : Nat} {tr : Trans} {word : List Int} (hn : n ≤ cs.length) (hi : st.transitions[i]? = some tr)
    (hd : deadB env.atn tr.target word = true) (ht : Stands cs n word) {k : Nat} {w : Way} (h : Reached env L cs ix n st k w)
    (hr : w.rule = ((i + 1 : Nat) : Int)) : k < word.length := by
  simp only [deadB, Bool.and_eq_true, List.all_eq_true, List.mem_range, List.isEmpty_iff] at hd
  obtain ⟨hc, he⟩ := hd
  have hfit := word_fits ht hn
  have key : ∀ j, j ≤ word.length → ∀ u, Reached env L cs ix n st j u → u.rule = ((i + 1 : Nat) : Int) →
      u.thread.stack = [] ∧ u.thread.state ∈ after env.atn tr.target (word.take j) := by
    intro j
    induction j with
    | zero =>
      rintro - u ⟨i', tr', h1, h2⟩ hu
      obtain rfl : i' = i := by
        have := (choices_same h2).1
        simp only [first] at this
        omega
      rw [hi] at h1; injection h1 with h1; subst h1
      exact close_choices (by omega) (hc 0 (by omega)) h2 rfl (grow_sub _ (by simp [first]))
    | succ j ih =>
      rintro hj u ⟨v, h1, -, h3, h4⟩ hu
      obtain ⟨g1, g2⟩ := ih (by omega) v h1 ((takes_rule h4).symm.trans hu)
      obtain ⟨sv, tr', e1, e2, e3, e4⟩ := h4
      have hsym : cs[n + j]? = word[j]? := by
        obtain ⟨rest, hrest⟩ := ht
        rw [← List.getElem?_drop, ← hrest, List.getElem?_append_left (by omega)]
      have hwj : word[j]? = some word[j] := List.getElem?_eq_getElem (by omega)
      rw [hsym, hwj, Option.getD_some] at e3
      refine close_choices (by omega) (hc (j + 1) (by omega)) e4 g1 ?_
      have e : word.take (j + 1) = word.take j ++ [word[j]] := by rw [List.take_add_one, hwj]; rfl
      rw [e, after, List.foldl_append]
      simp only [List.foldl_cons, List.foldl_nil, Way.eat]
      refine grow_sub _ ?_
      simp only [targets, List.mem_flatMap, List.mem_filterMap]
      refine ⟨v.thread.state, g2, tr', ⟨sv, by simp [e1], e2⟩, ?_⟩
      rw [if_pos (readsB_iff.2 e3)]
  have back : ∀ j m, ∀ u, Reached env L cs ix n st (m + j) u → ∃ v, Reached env L cs ix n st m v ∧ v.rule = u.rule := by
    intro j m
    induction j with
    | zero => intro u hu; exact ⟨u, hu, rfl⟩
    | succ j ih =>
      rintro u ⟨v, h1, -, -, h4⟩
      obtain ⟨x, x1, x2⟩ := ih v h1
      exact ⟨x, x1, x2.trans (takes_rule h4).symm⟩
  by_contra hlt
  obtain ⟨v, v1, v2⟩ := back (k - word.length) word.length w (by rwa [show word.length + (k - word.length) = k by omega])
  have := (key word.length (Nat.le_refl _) v v1 (v2.trans hr)).2
  rw [List.take_length, he] at this
  cases this

end Antlr.LexLazy
