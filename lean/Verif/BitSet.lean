/-!
# Bit sets

`bit_set::BitSet` as the strictly increasing list of its members (the order `iter()` yields them).
-/

namespace Antlr

/-- `BitSet::insert` -/
def bitInsert (n : Nat) : List Nat → List Nat
  | [] => [n]
  | m :: l => if n < m then n :: m :: l else if n = m then m :: l else m :: bitInsert n l

/-- Strictly increasing. -/
abbrev BitSorted (l : List Nat) : Prop := l.Pairwise (· < ·)

theorem mem_bitInsert (n x : Nat) (l : List Nat) : x ∈ bitInsert n l ↔ x = n ∨ x ∈ l := by
  induction l with
  | nil => simp [bitInsert]
  | cons m l ih =>
    simp only [bitInsert]
    split
    · simp
    · split
      · rename_i h; subst h; simp
      · simp only [List.mem_cons, ih]
        constructor
        · rintro (h | h | h) <;> simp [h]
        · rintro (h | h | h) <;> simp [h]

theorem bitInsert_sorted (n : Nat) (l : List Nat) (h : BitSorted l) : BitSorted (bitInsert n l) := by
  induction l with
  | nil => simp [bitInsert]
  | cons m l ih =>
    have h' := List.pairwise_cons.mp h
    simp only [bitInsert]
    split
    · rename_i hlt
      refine List.pairwise_cons.mpr ⟨?_, h⟩
      intro x hx
      rcases List.mem_cons.mp hx with rfl | hx
      · exact hlt
      · have := h'.1 x hx; omega
    · split
      · exact h
      · refine List.pairwise_cons.mpr ⟨?_, ih h'.2⟩
        intro x hx
        rcases (mem_bitInsert n x l).mp hx with rfl | hx
        · omega
        · exact h'.1 x hx

/-- `acc.extend(it)` -/
def bitUnion (a b : List Nat) : List Nat := b.foldl (fun acc x => bitInsert x acc) a

theorem mem_bitUnion (a b : List Nat) (x : Nat) : x ∈ bitUnion a b ↔ x ∈ a ∨ x ∈ b := by
  induction b generalizing a with
  | nil => simp [bitUnion]
  | cons y b ih =>
    have := ih (bitInsert y a)
    simp only [bitUnion, List.foldl_cons] at this ⊢
    rw [this, mem_bitInsert]
    simp only [List.mem_cons]
    constructor
    · rintro ((h | h) | h) <;> simp [h]
    · rintro (h | h | h) <;> simp [h]

theorem bitUnion_sorted (a b : List Nat) (h : BitSorted a) : BitSorted (bitUnion a b) := by
  induction b generalizing a with
  | nil => exact h
  | cons y b ih =>
    have := ih (bitInsert y a) (bitInsert_sorted y a h)
    simpa only [bitUnion, List.foldl_cons] using this

theorem bitSorted_ext (l m : List Nat) (hl : BitSorted l) (hm : BitSorted m)
    (h : ∀ x, x ∈ l ↔ x ∈ m) : l = m := by
  induction l generalizing m with
  | nil =>
    cases m with
    | nil => rfl
    | cons y m => have := (h y).mpr (by simp); simp at this
  | cons x l ih =>
    cases m with
    | nil => have := (h x).mp (by simp); simp at this
    | cons y m =>
      have hl' := List.pairwise_cons.mp hl
      have hm' := List.pairwise_cons.mp hm
      have hxy : x = y := by
        rcases List.mem_cons.mp ((h x).mp (by simp)) with h1 | h1
        · exact h1
        · rcases List.mem_cons.mp ((h y).mpr (by simp)) with h2 | h2
          · exact h2.symm
          · have := hl'.1 _ h2; have := hm'.1 _ h1; omega
      subst hxy
      congr 1
      apply ih m hl'.2 hm'.2
      intro z
      have hz := h z
      simp only [List.mem_cons] at hz
      constructor
      · intro h'
        rcases hz.mp (.inr h') with rfl | h''
        · have := hl'.1 _ h'; omega
        · exact h''
      · intro h'
        rcases hz.mpr (.inr h') with rfl | h''
        · have := hm'.1 _ h'; omega
        · exact h''

end Antlr
