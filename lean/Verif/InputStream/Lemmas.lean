import Verif.Prelude
import Verif.InputStream.Model

/-! Helper lemmas on UTF-8 offsets. -/

namespace Antlr

theorem utf8Size_pos (c : Char) : 0 < c.utf8Size := by
  simp only [Char.utf8Size]; split <;> (try split) <;> (try split) <;> omega

theorem bytes_append (l m : List Char) : bytes (l ++ m) = bytes l + bytes m := by
  induction l <;> simp_all [bytes]; omega

theorem fromByte_append (pre post : List Char) : fromByte (pre ++ post) (bytes pre) = some post := by
  induction pre with
  | nil => simp [bytes, fromByte]
  | cons c pre ih =>
    have := utf8Size_pos c
    obtain ⟨n, hn⟩ : ∃ n, bytes (c :: pre) = n + 1 := ⟨bytes (c :: pre) - 1, by simp [bytes]; omega⟩
    rw [hn, List.cons_append, fromByte]
    simp only [bytes] at hn
    rw [if_pos (by omega)]
    have : n + 1 - c.utf8Size = bytes pre := by omega
    rw [this, ih]

/-- Boundaries are exactly the prefix byte sums. -/
theorem fromByte_some (cs : List Char) (i : Nat) (post : List Char)
    (h : fromByte cs i = some post) : ∃ pre, cs = pre ++ post ∧ i = bytes pre := by
  induction cs generalizing i with
  | nil =>
    match i with
    | 0 => simp [fromByte] at h; exact ⟨[], by simp [h], rfl⟩
    | i + 1 => simp [fromByte] at h
  | cons c cs ih =>
    match i with
    | 0 => simp [fromByte] at h; exact ⟨[], by simp [h], rfl⟩
    | i + 1 =>
      simp only [fromByte] at h
      split at h
      · obtain ⟨pre, h1, h2⟩ := ih _ h
        refine ⟨c :: pre, by simp [h1], ?_⟩
        simp only [bytes]; omega
      · simp at h

theorem isCharBoundary_iff (d : Str) (i : Nat) :
    d.isCharBoundary i = true ↔ ∃ pre post, d.chars = pre ++ post ∧ i = bytes pre := by
  simp only [Str.isCharBoundary, Option.isSome_iff_exists]
  constructor
  · rintro ⟨post, h⟩
    obtain ⟨pre, h1, h2⟩ := fromByte_some _ _ _ h
    exact ⟨pre, post, h1, h2⟩
  · rintro ⟨pre, post, h1, rfl⟩
    exact ⟨post, by rw [h1]; exact fromByte_append _ _⟩

/-- Inside a character there is no boundary. -/
theorem not_boundary_inside (pre post : List Char) (c : Char) (k : Nat) (hk : 0 < k)
    (hk' : k < c.utf8Size) : (Str.mk (pre ++ c :: post)).isCharBoundary (bytes pre + k) = false := by
  rw [← Bool.not_eq_true, isCharBoundary_iff]
  rintro ⟨p, q, h1, h2⟩
  simp only at h1
  rw [List.append_eq_append_iff] at h1
  rcases h1 with ⟨a, rfl, h3⟩ | ⟨a, rfl, h3⟩
  · rw [bytes_append] at h2
    match a with
    | [] => simp [bytes] at h2; omega
    | x :: a =>
      simp only [List.cons_append, List.cons.injEq] at h3
      obtain ⟨rfl, -⟩ := h3
      simp only [bytes] at h2
      omega
  · rw [bytes_append] at h2; omega

theorem boundary_at (pre post : List Char) :
    (Str.mk (pre ++ post)).isCharBoundary (bytes pre) = true := by
  rw [isCharBoundary_iff]; exact ⟨pre, post, rfl, rfl⟩

/-- Moving forward inside a character up to its end. -/
theorem offsetLoop_fwd_char (pre post : List Char) (c : Char) (k n : Nat) (hn : 0 < n)
    (hk : k < c.utf8Size) :
    (Str.mk (pre ++ c :: post)).offsetLoop (bytes pre + k : Nat) n 1 (.inl rfl) =
      if n = 1 then some ((bytes (pre ++ [c]) : Nat) : Int)
      else (Str.mk (pre ++ c :: post)).offsetLoop (bytes (pre ++ [c]) : Nat) (n - 1 : Nat) 1
        (.inl rfl) := by
  induction hm : c.utf8Size - k using Nat.strongRecOn generalizing k with
  | _ m ih =>
    rw [Str.offsetLoop]
    have hlen : bytes (pre ++ c :: post) = bytes pre + c.utf8Size + bytes post := by
      rw [bytes_append]; simp [bytes]; omega
    have hb : bytes (pre ++ [c]) = bytes pre + c.utf8Size := by rw [bytes_append]; simp [bytes]
    rw [dif_neg (by simp only [hlen]; omega)]
    have e : ((bytes pre + k : Nat) + 1 : Int).toNat = bytes pre + (k + 1) := by omega
    rw [e]
    by_cases hlast : k + 1 = c.utf8Size
    · have hbd : (Str.mk (pre ++ c :: post)).isCharBoundary (bytes pre + (k + 1)) = true := by
        have := boundary_at (pre ++ [c]) post
        rw [hb, ← hlast] at this
        simpa using this
      rw [if_pos hbd]
      by_cases h1 : n = 1
      · subst h1; simp [hb]; omega
      · rw [if_pos (by omega), if_neg h1, hb]
        have e1 : ((bytes pre + k : Nat) + 1 : Int) = ((bytes pre + c.utf8Size : Nat) : Int) := by
          omega
        have e2 : ((n : Int) - 1) = ((n - 1 : Nat) : Int) := by omega
        rw [e1, e2]
    · have hbd := not_boundary_inside pre post c (k + 1) (by omega) (by omega)
      rw [hbd]
      simp only [Bool.false_eq_true, ↓reduceIte]
      rw [if_pos (by omega)]
      have e1 : ((bytes pre + k : Nat) + 1 : Int) = ((bytes pre + (k + 1) : Nat) : Int) := by omega
      rw [e1]
      exact ih (c.utf8Size - (k + 1)) (by omega) (k + 1) (by omega) rfl

/-- Moving forward `n` characters from a boundary. -/
theorem offsetLoop_fwd (pre post : List Char) (n : Nat) (hn : 0 < n) :
    (Str.mk (pre ++ post)).offsetLoop (bytes pre : Nat) n 1 (.inl rfl) =
      if n ≤ post.length then some ((bytes (pre ++ post.take n) : Nat) : Int) else none := by
  induction post generalizing pre n with
  | nil =>
    rw [Str.offsetLoop]
    rw [dif_pos (by simp only [List.append_nil]; omega), if_neg (by simp; omega)]
  | cons c post ih =>
    have h := offsetLoop_fwd_char pre post c 0 n hn (utf8Size_pos c)
    simp only [Nat.add_zero] at h
    rw [h]
    by_cases h1 : n = 1
    · subst h1; simp
    · rw [if_neg h1]
      have := ih (pre ++ [c]) (n - 1) (by omega)
      simp only [List.append_assoc, List.singleton_append] at this
      rw [this]
      have : n = (n - 1) + 1 := by omega
      by_cases h2 : n ≤ (c :: post).length
      · rw [if_pos h2, if_pos (by simp at h2; omega)]
        conv => rhs; rw [this, List.take_succ_cons]
      · rw [if_neg h2, if_neg (by simp at h2; omega)]

/-- Moving backward inside a character down to its start. -/
theorem offsetLoop_bwd_char (pre post : List Char) (c : Char) (k n : Nat) (hn : 0 < n) (hk0 : 0 < k)
    (hk : k ≤ c.utf8Size) :
    (Str.mk (pre ++ c :: post)).offsetLoop (bytes pre + k : Nat) (-(n : Int)) (-1) (.inr rfl) =
      if n = 1 then some ((bytes pre : Nat) : Int)
      else (Str.mk (pre ++ c :: post)).offsetLoop (bytes pre : Nat) (-((n - 1 : Nat) : Int)) (-1)
        (.inr rfl) := by
  induction k with
  | zero => omega
  | succ k ih =>
    rw [Str.offsetLoop]
    have hlen : bytes (pre ++ c :: post) = bytes pre + c.utf8Size + bytes post := by
      rw [bytes_append]; simp [bytes]; omega
    rw [dif_neg (by simp only [hlen]; omega)]
    have e : ((bytes pre + (k + 1) : Nat) + (-1) : Int).toNat = bytes pre + k := by omega
    have e1 : ((bytes pre + (k + 1) : Nat) + (-1) : Int) = ((bytes pre + k : Nat) : Int) := by omega
    rw [e, e1]
    by_cases hz : k = 0
    · subst hz
      have hbd := boundary_at pre (c :: post)
      simp only [Nat.add_zero, hbd, ↓reduceIte]
      by_cases h1 : n = 1
      · subst h1; simp
      · rw [if_pos (by omega), if_neg h1]
        have e2 : (-(n : Int)) - (-1) = -((n - 1 : Nat) : Int) := by omega
        rw [e2]
    · have hbd := not_boundary_inside pre post c k (by omega) (by omega)
      rw [hbd]
      simp only [Bool.false_eq_true, ↓reduceIte]
      rw [if_pos (by omega)]
      exact ih (by omega) (by omega)

/-- Moving backward `n` characters from a boundary. -/
theorem offsetLoop_bwd (pre post : List Char) (n : Nat) (hn : 0 < n) :
    (Str.mk (pre ++ post)).offsetLoop (bytes pre : Nat) (-(n : Int)) (-1) (.inr rfl) =
      if n ≤ pre.length then some ((bytes (pre.take (pre.length - n)) : Nat) : Int) else none := by
  induction hm : pre.length generalizing pre post n with
  | zero =>
    have : pre = [] := List.length_eq_zero_iff.mp hm
    subst this
    rw [Str.offsetLoop]
    rw [dif_pos (by simp only [bytes]; omega), if_neg (by omega)]
  | succ m ih =>
    obtain ⟨pre', c, rfl⟩ : ∃ pre' c, pre = pre' ++ [c] :=
      ⟨pre.dropLast, pre.getLast (by intro h; simp [h] at hm),
        (List.dropLast_concat_getLast _).symm⟩
    have hm' : pre'.length = m := by simpa using hm
    have h := offsetLoop_bwd_char pre' post c c.utf8Size n hn (utf8Size_pos c) (Nat.le_refl _)
    have hb : bytes (pre' ++ [c]) = bytes pre' + c.utf8Size := by rw [bytes_append]; simp [bytes]
    simp only [List.append_assoc, List.singleton_append, hb]
    rw [h]
    by_cases h1 : n = 1
    · subst h1
      rw [if_pos rfl, if_pos (by omega)]
      simp [← hm']
    · rw [if_neg h1, ih pre' (c :: post) (n - 1) (by omega) hm']
      by_cases h2 : n ≤ m + 1
      · rw [if_pos h2, if_pos (by omega)]
        have : m + 1 - n = m - (n - 1) := by omega
        rw [this, List.take_append_of_le_length (by omega)]
      · rw [if_neg h2, if_neg (by omega)]

theorem takeBytes_append (pre post : List Char) : takeBytes (pre ++ post) (bytes pre) = pre := by
  induction pre with
  | nil => simp [bytes, takeBytes]
  | cons c pre ih =>
    have := utf8Size_pos c
    obtain ⟨n, hn⟩ : ∃ n, bytes (c :: pre) = n + 1 := ⟨bytes (c :: pre) - 1, by simp [bytes]; omega⟩
    rw [hn, List.cons_append, takeBytes]
    simp only [bytes] at hn
    have : n + 1 - c.utf8Size = bytes pre := by omega
    rw [this, ih]

theorem bytes_pos_of_ne_nil {l : List Char} (h : l ≠ []) : 0 < bytes l := by
  match l with
  | c :: l => simp only [bytes]; have := utf8Size_pos c; omega

theorem str_item_at (pre post : List Char) :
    (Str.mk (pre ++ post)).item (bytes pre : Nat) = post.head?.map fun c => (c.toNat : Int) := by
  simp only [Str.item]
  rw [if_neg (by omega)]
  simp [fromByte_append]

end Antlr
