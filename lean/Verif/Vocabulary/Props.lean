import Verif.Prelude
import Verif.Vocabulary.Model

/-!
# Vocabulary: property C57

Rust vectors hold at most `isize::MAX` elements; this is the only assumption on table sizes.
-/

namespace Antlr.VocabularyProps
open Antlr Vocabulary

/-- No table exceeds the size limit of a Rust vector. -/
def Fits (v : Vocabulary) : Prop :=
  v.literalNames.length < 2 ^ 63 ∧ v.symbolicNames.length < 2 ^ 63 ∧ v.displayNames.length < 2 ^ 63

/-- The entry of a name table for a token type. -/
def Entry (l : List (Option String)) (t : Int) (s : String) : Prop :=
  ∃ i : Nat, t = i ∧ l[i]? = some (some s)

theorem asUsize_nat (i : Nat) (h : i < 2 ^ 63) : asUsize i = i := by
  simp only [asUsize]; omega

theorem asUsize_neg (t : Int) (h1 : t < 0) (h2 : -2 ^ 63 ≤ t) : 2 ^ 63 ≤ asUsize t := by
  simp only [asUsize]; omega

/-- Looking up a token type (an `isize`) in a table. -/
theorem lookup_iff (l : List (Option String)) (hl : l.length < 2 ^ 63) (t : Int)
    (h1 : -2 ^ 63 ≤ t) (h2 : t < 2 ^ 63) (s : String) :
    (l[asUsize t]?).bind id = some s ↔ Entry l t s := by
  by_cases hn : t < 0
  · have := asUsize_neg t hn h1
    rw [List.getElem?_eq_none (by omega)]
    simp only [Option.bind_none, reduceCtorEq, false_iff]
    rintro ⟨i, rfl, _⟩
    omega
  · obtain ⟨i, rfl⟩ : ∃ i : Nat, t = i := ⟨t.toNat, by omega⟩
    rw [asUsize_nat i (by omega)]
    constructor
    · intro h
      refine ⟨i, rfl, ?_⟩
      cases hx : l[i]? with
      | none => simp [hx] at h
      | some o => simp [hx] at h; rw [h]
    · rintro ⟨j, hj, hs⟩
      obtain rfl : i = j := by omega
      simp [hs]

/-- **C57** The literal name is the table entry; absent for anything outside the table, including
negative types. -/
theorem C57_literal (v : Vocabulary) (hv : Fits v) (t : Int) (h1 : -2 ^ 63 ≤ t) (h2 : t < 2 ^ 63)
    (s : String) : v.getLiteralName t = some s ↔ Entry v.literalNames t s :=
  lookup_iff _ hv.1 t h1 h2 s

/-- **C57** The symbolic name: `EOF` for the type -1, else the table entry. -/
theorem C57_symbolic (v : Vocabulary) (hv : Fits v) (t : Int) (h1 : -2 ^ 63 ≤ t) (h2 : t < 2 ^ 63)
    (s : String) :
    v.getSymbolicName t = some s ↔ (t = -1 ∧ s = "EOF") ∨ Entry v.symbolicNames t s := by
  simp only [getSymbolicName]
  split
  · rename_i h
    subst h
    simp only [Option.some.injEq, true_and]
    constructor
    · intro h; exact .inl h.symm
    · rintro (h | ⟨i, hi, _⟩)
      · exact h.symm
      · omega
  · rename_i h
    rw [lookup_iff _ hv.2.1 t h1 h2 s]
    simp [h]

/-- **C57** `get_display_name`: the explicit name, else the literal name, else the symbolic name,
else the decimal number. -/
theorem C57_display (v : Vocabulary) (hv : Fits v) (t : Int) (h1 : -2 ^ 63 ≤ t) (h2 : t < 2 ^ 63) :
    (∀ s, Entry v.displayNames t s → v.getDisplayName t = s) ∧
    ((¬ ∃ s, Entry v.displayNames t s) →
      (∀ s, Entry v.literalNames t s → v.getDisplayName t = s) ∧
      ((¬ ∃ s, Entry v.literalNames t s) →
        (t = -1 → v.getDisplayName t = "EOF") ∧
        (∀ s, Entry v.symbolicNames t s → v.getDisplayName t = s) ∧
        (t ≠ -1 → (¬ ∃ s, Entry v.symbolicNames t s) → v.getDisplayName t = toString t))) := by
  have hd : ∀ s, (v.displayNames[asUsize t]?).bind id = some s ↔ Entry v.displayNames t s :=
    lookup_iff _ hv.2.2 t h1 h2
  have hl := C57_literal v hv t h1 h2
  have hs := C57_symbolic v hv t h1 h2
  have none_of : ∀ {o : Option String} {P : String → Prop}, (∀ s, o = some s ↔ P s) →
      (¬ ∃ s, P s) → o = none := by
    intro o P h hn
    cases o with
    | none => rfl
    | some s => exact absurd ⟨s, (h s).mp rfl⟩ hn
  refine ⟨?_, ?_⟩
  · intro s h; simp [getDisplayName, (hd s).mpr h]
  · intro hnd
    have e1 := none_of hd hnd
    refine ⟨?_, ?_⟩
    · intro s h; simp [getDisplayName, e1, (hl s).mpr h]
    · intro hnl
      have e2 := none_of hl hnl
      refine ⟨?_, ?_, ?_⟩
      · intro h; simp [getDisplayName, e1, e2, (hs "EOF").mpr (.inl ⟨h, rfl⟩)]
      · intro s h; simp [getDisplayName, e1, e2, (hs s).mpr (.inr h)]
      · intro hne hns
        have e3 := none_of hs (by
          rintro ⟨s, ⟨h, _⟩ | h⟩
          · exact hne h
          · exact hns ⟨s, h⟩)
        simp [getDisplayName, e1, e2, e3]

/-- **C57** EOF is called `EOF` in every vocabulary. -/
theorem C57_eof (v : Vocabulary) (hv : Fits v) : v.getDisplayName (-1) = "EOF" := by
  have no : ∀ l : List (Option String), ¬ ∃ s, Entry l (-1) s := by
    rintro l ⟨s, i, hi, _⟩; omega
  exact (((C57_display v hv (-1) (by omega) (by omega)).2 (no _)).2 (no _)).1 rfl

/-- **C57** The largest token type is the last index of the longest table. -/
theorem C57_max (l s d : List (Option String)) :
    ((new l s (some d)).maxTokenType + 1 = (max l.length (max s.length d.length) : Nat)) := by
  simp [new]

/-- **C57** A vocabulary made from token names shows every given name, treats quoted names as
literals and upper-case names as symbolic, and other names as neither. -/
theorem C57_from_token_names (isUpper : Char → Bool) (hq : isUpper '\'' = false)
    (names : List (Option String)) (hn : names.length < 2 ^ 63) (i : Nat) (s : String)
    (hi : names[i]? = some (some s)) :
    let v := fromTokenNames isUpper names
    v.getDisplayName i = s ∧
    v.maxTokenType = (names.length : Int) - 1 ∧
    (v.getLiteralName i = if s.toList.head? = some '\'' then some s else none) ∧
    (v.getSymbolicName i =
      if (∃ c, s.toList.head? = some c ∧ isUpper c = true) then some s else none) := by
  intro v
  have hlt : i < names.length := by
    rcases Nat.lt_or_ge i names.length with h | h
    · exact h
    · rw [List.getElem?_eq_none h] at hi; simp at hi
  have hu : asUsize (i : Int) = i := asUsize_nat i (by omega)
  refine ⟨?_, ?_, ?_, ?_⟩
  · simp [v, fromTokenNames, new, getDisplayName, hu, hi]
  · simp [v, fromTokenNames, new]
  · simp only [v, fromTokenNames, new, getLiteralName, hu, List.getElem?_map, hi, Option.map_some,
      Option.bind_some, id, classify]
    cases hs : s.toList with
    | nil => simp
    | cons c cs =>
      simp only [List.head?_cons, Option.some.injEq]
      split
      · rfl
      · split <;> rfl
  · have : ((i : Nat) : Int) ≠ -1 := by omega
    simp only [v, fromTokenNames, new, getSymbolicName, this, ↓reduceIte, hu, List.getElem?_map, hi,
      Option.map_some, Option.bind_some, id, classify]
    cases hs : s.toList with
    | nil => simp
    | cons c cs =>
      simp only [List.head?_cons, Option.some.injEq, exists_eq_left']
      by_cases hc : c = '\''
      · subst hc; simp [hq]
      · simp only [hc, ↓reduceIte]
        split <;> rfl

example : let v := fromTokenNames Char.isUpper [none, some "'+'", some "ID", some "other"]
    v.getLiteralName 1 = some "'+'" ∧ v.getSymbolicName 1 = none ∧ v.getSymbolicName 2 = some "ID" ∧
    v.getDisplayName 3 = "other" ∧ v.getDisplayName 0 = "0" ∧ v.getDisplayName (-1) = "EOF" ∧
    v.getDisplayName 17 = "17" ∧ v.getLiteralName (-5) = none := by decide +kernel

end Antlr.VocabularyProps
