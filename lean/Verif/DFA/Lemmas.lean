import Verif.Prelude
import Verif.DFA.Model
import Mathlib.Data.List.Induction

namespace Antlr

/-- The part of a configuration its comparison looks at. -/
def Config.norm (c : Config) : Config := { c with reaches := 0 }

theorem Config.same_iff (a b : Config) : a.same b = true ↔ a.norm = b.norm := by
  cases a; cases b
  simp only [Config.same, Config.norm, Bool.and_eq_true, beq_iff_eq, Config.mk.injEq]
  tauto

theorem zip_all_same (a b : List Config) (h : a.length = b.length) :
    (a.zip b).all (fun p => p.1.same p.2) = true ↔ a.map Config.norm = b.map Config.norm := by
  induction a generalizing b with
  | nil => cases b <;> simp at h ⊢
  | cons x a ih =>
    cases b with
    | nil => simp at h
    | cons y b =>
      simp only [List.length_cons, Nat.add_right_cancel_iff] at h
      simp only [List.zip_cons_cons, List.all_cons, Bool.and_eq_true, Config.same_iff,
        List.map_cons, List.cons.injEq, ih b h]

/-- The part of a configuration set its comparison looks at. -/
def ConfigSet.norm (s : ConfigSet) : List Config × Bool × Int × List Nat × Bool × Bool :=
  (s.configs.map Config.norm, s.fullCtx, s.uniqueAlt, s.conflictingAlts, s.hasSem, s.dips)

theorem ConfigSet.same_iff (a b : ConfigSet) : a.same b = true ↔ a.norm = b.norm := by
  simp only [ConfigSet.same, ConfigSet.norm, Bool.and_eq_true, beq_iff_eq, Prod.mk.injEq]
  constructor
  · rintro ⟨⟨⟨⟨⟨⟨h0, h1⟩, h2⟩, h3⟩, h4⟩, h5⟩, h6⟩
    exact ⟨(zip_all_same _ _ h0).1 h1, h2, h3, h4, h5, h6⟩
  · rintro ⟨h1, h2, h3, h4, h5, h6⟩
    have h0 : a.configs.length = b.configs.length := by
      have := congrArg List.length h1; simpa using this
    exact ⟨⟨⟨⟨⟨⟨h0, (zip_all_same _ _ h0).2 h1⟩, h2⟩, h3⟩, h4⟩, h5⟩, h6⟩

theorem lookup_mapPush (m : List (Nat × List Nat)) (key n k : Nat) :
    ((mapPush m key n).lookup k).getD [] =
      if k = key then (m.lookup k).getD [] ++ [n] else (m.lookup k).getD [] := by
  induction m with
  | nil =>
    simp only [mapPush, List.lookup]
    by_cases h : k = key
    · simp [h]
    · have : (k == key) = false := by simpa using h
      simp [h, this]
  | cons p m ih =>
    obtain ⟨a, l⟩ := p
    simp only [mapPush]
    by_cases ha : a = key
    · subst ha
      by_cases hk : k = a
      · simp [List.lookup, hk]
      · have : (k == a) = false := by simpa using hk
        simp [List.lookup, hk, this]
    · rw [if_neg ha]
      by_cases hk : k = a
      · subst hk; simp [List.lookup, ha]
      · simp only [List.lookup]
        have : (k == a) = false := by simpa using hk
        rw [this]; exact ih

theorem growTo_get (e : List Nat) (n k : Nat) :
    ((growTo e n)[k]?).bind readEdge = (e[k]?).bind readEdge := by
  unfold growTo
  by_cases h : k < e.length
  · rw [List.getElem?_append_left h]
  · rw [List.getElem?_append_right (by omega), List.getElem?_eq_none (l := e) (by omega)]
    rw [List.getElem?_replicate]
    split <;> simp [readEdge]

theorem growTo_length (e : List Nat) (n : Nat) (h : e.length ≤ n) : (growTo e n).length = n := by
  simp [growTo]; omega

theorem asUsize_small (x : Int) (h0 : 0 ≤ x) (h1 : x < 2 ^ 64) : asUsize x = x.toNat := by
  unfold asUsize; rw [Int.emod_eq_of_lt h0 h1]

end Antlr
