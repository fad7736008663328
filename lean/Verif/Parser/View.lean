import Verif.Prelude
import Verif.TokenStream.CommonProps
import Verif.Parser.Spec

/-!
# A `CommonTokenStream` shows the parser the tokens of its channel

`visPos` enumerates the positions of the source visible on a channel; `view_cts` says that a
`CommonTokenStream` over a source whose first token is visible is a view of exactly these tokens.
(If the first token is off channel the stream does start with it, see `C16_false`.)
-/

namespace Antlr.ParserView
open Antlr TokenSpec CommonProps ParserSpec

/-- The `n`-th visible position of a source (staying at EOF for ever). -/
def visPos (src : Source) (c : Int) (n : Nat) : Nat := stepVis src c n (nextVis src c 0)

/-- The tokens a parser on channel `c` should see. -/
def seen (src : Source) (c : Int) (n : Nat) : Tok := tok src (visPos src c n)

theorem stepVis_succ (src : Source) (c : Int) (k i : Nat) :
    stepVis src c (k + 1) i =
      if stepVis src c k i < eofIdx src then nextVis src c (stepVis src c k i + 1)
      else stepVis src c k i := by
  induction k generalizing i with
  | zero => rfl
  | succ k ih => rw [stepVis, ih]; simp only [stepVis]; repeat' split
                 all_goals simp_all

theorem stepVis_add (src : Source) (c : Int) (k m i : Nat) :
    stepVis src c (m + k) i = stepVis src c k (stepVis src c m i) := by
  induction k with
  | zero => simp [stepVis]
  | succ k ih => rw [← Nat.add_assoc, stepVis_succ, ih, ← stepVis_succ]

theorem visPos_le (src : Source) (c : Int) (n : Nat) : visPos src c n ≤ eofIdx src :=
  (stepVis_le src c n _ (nextVis_spec src c 0).2.1).2

theorem visPos_visible (src : Source) (c : Int) (n : Nat) : Visible src c (visPos src c n) :=
  stepVis_visible src c n _ (nextVis_spec src c 0).2.1 (.inr (nextVis_spec src c 0).1)

theorem visPos_succ (src : Source) (c : Int) (n : Nat) :
    visPos src c (n + 1) =
      if visPos src c n < eofIdx src then nextVis src c (visPos src c n + 1) else visPos src c n :=
  stepVis_succ src c n _

theorem visPos_lt (src : Source) (c : Int) (n : Nat) (h : visPos src c n < eofIdx src) :
    visPos src c n < visPos src c (n + 1) := by
  rw [visPos_succ, if_pos h]
  have := (nextVis_spec src c (visPos src c n + 1)).2.2.1 (by omega)
  omega

/-- `visPos` misses no visible position. -/
theorem visPos_complete (src : Source) (c : Int) (j : Nat) (h : Visible src c j) :
    ∃ n, visPos src c n = j := by
  have key : ∀ m n, visPos src c n ≤ j → j - visPos src c n ≤ m → ∃ n, visPos src c n = j := by
    intro m
    induction m with
    | zero => intro n h1 h2; exact ⟨n, by omega⟩
    | succ m ih =>
      intro n h1 h2
      by_cases he : visPos src c n = j
      · exact ⟨n, he⟩
      have hj : j ≤ eofIdx src := by rcases h with h | h <;> omega
      have hlt : visPos src c n < eofIdx src := by omega
      have hinc := visPos_lt src c n hlt
      refine ih (n + 1) ?_ (by omega)
      rw [visPos_succ, if_pos hlt]
      by_contra hcon
      exact (nextVis_spec src c (visPos src c n + 1)).2.2.2 j (by omega) (by omega) h
  refine key j 0 ?_ (by omega)
  show nextVis src c 0 ≤ j
  by_contra hcon
  exact (nextVis_spec src c 0).2.2.2 j (by omega) (by omega) h

/-- The stream stands at the `n`-th visible token. -/
def CtsAt (src : Source) (c : Int) (s : CTS) (n : Nat) : Prop :=
  (∃ len, s = cst src c len (visPos src c n) ∧ COK src len (visPos src c n)) ∧
    (n = 0 ∨ visPos src c (n - 1) < eofIdx src)

theorem view_cts (src : Source) (c : Int) (hfirst : Visible src c 0) :
    IsView (I := CTS) (seen src c) (CtsAt src c) where
  current := by
    rintro s n ⟨⟨len, rfl, hok⟩, hn⟩
    have := cgetAt src c len (visPos src c n) (visPos src c n) hok.1
    show (cst src c len (visPos src c n)).base.get (CTS.index (cst src c len (visPos src c n))) = _
    have e : TS.bufferStart (cst src c len (visPos src c n)).base = 0 := by
      simp [TS.bufferStart, cst, st]
    have e2 : CTS.index (cst src c len (visPos src c n)) = (visPos src c n : Int) := by
      simp [CTS.index, cst, st]
    rw [TS.get, e, e2]
    simpa [seen] using this
  lt_one := by
    rintro s n ⟨⟨len, rfl, hok⟩, hn⟩
    obtain ⟨len', _, h2, h3⟩ := lt_cst src c len (visPos src c n) 1 (Nat.le_refl _) hok
    exact ⟨_, h3, ⟨len', rfl, h2⟩, hn⟩
  lt_prev := by
    rintro s n ⟨⟨len, rfl, hok⟩, hn⟩
    refine ⟨cst src c len (visPos src c n), ?_, ⟨len, rfl, hok⟩, hn⟩
    have := lt_neg_cst src c len (visPos src c n) 1 (Nat.le_refl _) hok
    show CTS.lt _ (-1) = _
    have e : (-((1 : Nat) : Int)) = -1 := rfl
    rw [e] at this
    rw [this]
    by_cases h0 : n = 0
    · subst h0
      have : visPos src c 0 = 0 := by
        have := nextVis_unique (i := 0) hfirst (Nat.le_refl 0) (by intro k _ hk; omega)
        simp [visPos, stepVis, this]
      rw [if_pos (by omega), if_pos rfl]
    · obtain ⟨m, rfl⟩ : ∃ m, n = m + 1 := ⟨n - 1, by omega⟩
      have hm : visPos src c m < eofIdx src := by
        rcases hn with h | h
        · omega
        · simpa using h
      have hlt := visPos_lt src c m hm
      have hle := visPos_le src c (m + 1)
      rw [if_neg (by omega), if_neg h0]
      have hon : OnChannel src c (visPos src c m) := by
        rcases visPos_visible src c m with h | h
        · omega
        · exact h
      have hnone : ∀ k, visPos src c m < k → k < visPos src c (m + 1) → ¬ OnChannel src c k := by
        intro k h1 h2 h3
        rw [visPos_succ, if_pos hm] at h2
        exact (nextVis_spec src c (visPos src c m + 1)).2.2.2 k (by omega) h2 (.inr h3)
      have hb : (behind src c (visPos src c (m + 1)))[0]? = some (visPos src c m) := by
        cases hbb : behind src c (visPos src c (m + 1)) with
        | nil =>
          have : visPos src c m ∈ behind src c (visPos src c (m + 1)) := by
            simp [behind, hlt, hon]
          rw [hbb] at this; simp at this
        | cons q rest =>
          obtain ⟨a1, a2, a3, _⟩ := behind_cons src c _ q rest hbb
          simp only [List.getElem?_cons_zero, Option.some.injEq]
          rcases Nat.lt_trichotomy q (visPos src c m) with h | h | h
          · exact absurd hon (a3 _ h hlt)
          · exact h
          · exact absurd a2 (hnone q h a1)
      rw [lbSpec_behind src c 0 _ hle _ hb]
      simp [seen]
  la := by
    rintro s n k ⟨⟨len, rfl, hok⟩, hn⟩ hk
    obtain ⟨len', _, h2, h3⟩ := lt_cst src c len (visPos src c n) k hk hok
    refine ⟨_, ?_, ⟨len', rfl, h2⟩, hn⟩
    show CTS.la _ _ = _
    rw [CTS.la, h3]
    have : visPos src c (n + k - 1) = stepVis src c (k - 1) (visPos src c n) := by
      rw [visPos, visPos, ← stepVis_add]
      congr 1; omega
    simp [seen, this]
  consume := by
    rintro s n ⟨⟨len, rfl, hok⟩, hn⟩ he
    have hlt : visPos src c n < eofIdx src := by
      by_contra hcon
      exact he ((tok_eof_iff src _).2 (by omega))
    have := consume_cst src c len (visPos src c n) hok
    rw [if_pos hlt] at this
    refine ⟨_, this, ⟨max len (nextVis src c (visPos src c n + 1) + 1), ?_, ?_⟩,
      .inr (by simpa using hlt)⟩
    · rw [visPos_succ, if_pos hlt]
    · rw [visPos_succ, if_pos hlt]
      have := (nextVis_spec src c (visPos src c n + 1)).2.1
      unfold COK at *
      omega
  eof_stays := by
    intro n h
    rw [seen, tok_eof_iff] at h
    rw [seen, seen, visPos_succ, if_neg (by omega)]

/-- A fresh stream stands at the first token. -/
theorem cts_start (src : Source) (c : Int) (hfirst : Visible src c 0) :
    CtsAt src c (CTS.withChannel src c) 0 := by
  have : visPos src c 0 = 0 := by
    have := nextVis_unique (i := 0) hfirst (Nat.le_refl 0) (by intro k _ hk; omega)
    simp [visPos, stepVis, this]
  refine ⟨⟨1, ?_, ?_⟩, .inl rfl⟩
  · rw [this]; exact withChannel_cst src c
  · rw [this]; unfold COK; omega

end Antlr.ParserView
