import Verif.Concurrency.Spec
import Mathlib.Data.List.Basic

/-! # Locks and the guards of threads -/

namespace Antlr.Conc

variable {D T R α β : Type}

theorem upd_same {γ : Type} (f : Nat → γ) (o : Nat) (x : γ) : upd f o x o = x := by simp [upd]
theorem upd_other {γ : Type} (f : Nat → γ) {o o' : Nat} (x : γ) (h : o' ≠ o) : upd f o x o' = f o' := by simp [upd, h]

/-- The lock `l` as the guards `m` of the threads leave it. -/
structure LockOk (l : Lock) (m : Nat → Mode) : Prop where
  up : ∀ i, l.up = some i ↔ (m i).owns = true
  writer : l.writer = true ↔ ∃ i, (m i).excludes = true
  readers : ∀ i, i ∈ l.readers ↔ (m i).reads = true
  nodup : l.readers.Nodup
  alone : ∀ i j, m i = .wr → (m j).reads = false

theorem Mode.owns_of_excludes {m : Mode} (h : m.excludes = true) : m.owns = true := by cases m <;> simp_all [excludes, owns]

namespace LockOk

variable {l : Lock} {m : Nat → Mode} (h : LockOk l m)
include h

theorem owner {i j : Nat} (hi : (m i).owns = true) (hj : (m j).owns = true) : i = j := by
  have h1 := (h.up i).2 hi
  have h2 := (h.up j).2 hj
  rw [h1] at h2
  exact Option.some.inj h2

theorem noOwner (hu : l.up = none) (i : Nat) : (m i).owns = false := by
  by_contra hc
  have := (h.up i).2 (by simpa using hc)
  rw [hu] at this
  cases this

theorem noWriter (hw : l.writer = false) (i : Nat) : (m i).excludes = false := by
  by_contra hc
  have := h.writer.2 ⟨i, by simpa using hc⟩
  rw [hw] at this
  cases this

theorem acquire {i : Nat} (hu : l.up = none) (hi : m i = .free) : LockOk { l with up := some i } (upd m i .up) where
  up j := by
    by_cases hj : j = i
    · subst hj; simp [upd_same, Mode.owns]
    · rw [upd_other _ _ hj, h.noOwner hu]
      simp [Ne.symm hj]
  writer := by
    rw [show ({ l with up := some i } : Lock).writer = l.writer from rfl, h.writer]
    constructor
    · rintro ⟨j, hj⟩
      have := Mode.owns_of_excludes hj
      rw [h.noOwner hu] at this
      cases this
    · rintro ⟨j, hj⟩
      by_cases e : j = i
      · subst e; simp [upd_same, Mode.excludes] at hj
      · rw [upd_other _ _ e] at hj
        exact ⟨j, hj⟩
  readers j := by
    by_cases hj : j = i
    · subst hj
      simp only [upd_same, Mode.reads, h.readers, hi]
    · rw [upd_other _ _ hj]
      exact h.readers j
  nodup := h.nodup
  alone j k hj := by
    have hj' : m j = .wr := by
      by_cases e : j = i
      · subst e; rw [upd_same] at hj; cases hj
      · rwa [upd_other _ _ e] at hj
    have := h.noOwner hu j
    rw [hj'] at this
    cases this

theorem release {i : Nat} (hi : m i = .up) : LockOk { l with up := none } (upd m i .free) where
  up j := by
    by_cases hj : j = i
    · subst hj; simp [upd_same, Mode.owns]
    · rw [upd_other _ _ hj]
      constructor
      · intro e; cases e
      · intro e
        exact absurd (h.owner e (by rw [hi]; rfl)) hj
  writer := by
    rw [show ({ l with up := none } : Lock).writer = l.writer from rfl, h.writer]
    constructor
    · rintro ⟨j, hj⟩
      have := h.owner (Mode.owns_of_excludes hj) (by rw [hi]; rfl : (m i).owns = true)
      subst this
      rw [hi] at hj; cases hj
    · rintro ⟨j, hj⟩
      by_cases e : j = i
      · subst e; simp [upd_same, Mode.excludes] at hj
      · rw [upd_other _ _ e] at hj
        exact ⟨j, hj⟩
  readers j := by
    by_cases hj : j = i
    · subst hj
      simp only [upd_same, Mode.reads, h.readers, hi]
    · rw [upd_other _ _ hj]
      exact h.readers j
  nodup := h.nodup
  alone j k hj := by
    have hj' : m j = .wr := by
      by_cases e : j = i
      · subst e; rw [upd_same] at hj; cases hj
      · rwa [upd_other _ _ e] at hj
    have := h.owner (by rw [hj']; rfl : (m j).owns = true) (by rw [hi]; rfl : (m i).owns = true)
    subst this
    rw [hi] at hj'; cases hj'

/-- A further read guard. -/
theorem read {i : Nat} {x : Mode} (hw : l.writer = false) (hr : (m i).reads = false) (hx : x.reads = true)
    (ho : x.owns = (m i).owns) (he : x.excludes = false) :
    LockOk { l with readers := i :: l.readers } (upd m i x) where
  up j := by
    by_cases hj : j = i
    · subst hj
      rw [upd_same, ho]
      exact h.up j
    · rw [upd_other _ _ hj]
      exact h.up j
  writer := by
    rw [show ({ l with readers := i :: l.readers } : Lock).writer = l.writer from rfl, hw]
    constructor
    · intro e; cases e
    · rintro ⟨j, hj⟩
      by_cases e : j = i
      · subst e; rw [upd_same, he] at hj; cases hj
      · rw [upd_other _ _ e, h.noWriter hw] at hj
        cases hj
  readers j := by
    by_cases hj : j = i
    · subst hj
      simp [upd_same, hx]
    · rw [upd_other _ _ hj, ← h.readers]
      simp [hj]
  nodup := by
    refine List.nodup_cons.2 ⟨fun hm => ?_, h.nodup⟩
    rw [h.readers, hr] at hm
    cases hm
  alone j k hj := by
    have hj' : m j = .wr := by
      by_cases e : j = i
      · subst e; rw [upd_same] at hj; subst hj; cases hx
      · rwa [upd_other _ _ e] at hj
    have := h.noWriter hw j
    rw [hj'] at this
    cases this

theorem unread {i : Nat} {x : Mode} (hr : (m i).reads = true) (hx : x.reads = false) (ho : x.owns = (m i).owns)
    (he : x.excludes = false) : LockOk { l with readers := l.readers.erase i } (upd m i x) where
  up j := by
    by_cases hj : j = i
    · subst hj
      rw [upd_same, ho]
      exact h.up j
    · rw [upd_other _ _ hj]
      exact h.up j
  writer := by
    rw [show ({ l with readers := l.readers.erase i } : Lock).writer = l.writer from rfl, h.writer]
    constructor
    · rintro ⟨j, hj⟩
      by_cases e : j = i
      · subst e
        cases hm : m j <;> rw [hm] at hj hr <;> simp [Mode.excludes, Mode.reads] at hj hr
      · exact ⟨j, by rwa [upd_other _ _ e]⟩
    · rintro ⟨j, hj⟩
      by_cases e : j = i
      · subst e; rw [upd_same, he] at hj; cases hj
      · rw [upd_other _ _ e] at hj
        exact ⟨j, hj⟩
  readers j := by
    by_cases hj : j = i
    · subst hj
      simp [upd_same, hx, h.nodup.mem_erase_iff]
    · rw [upd_other _ _ hj, ← h.readers]
      simp [h.nodup.mem_erase_iff, hj]
  nodup := h.nodup.erase i
  alone j k hj := by
    have hj' : m j = .wr ∧ j ≠ i := by
      by_cases e : j = i
      · subst e; rw [upd_same] at hj; subst hj; cases he
      · rw [upd_other _ _ e] at hj
        exact ⟨hj, e⟩
    have := h.alone j i hj'.1
    rw [hr] at this
    cases this

theorem upgrade {i : Nat} (hi : m i = .up) : LockOk { l with writer := true } (upd m i .pending) where
  up j := by
    by_cases hj : j = i
    · subst hj
      rw [upd_same]
      have := h.up j
      rw [hi] at this
      exact this
    · rw [upd_other _ _ hj]
      exact h.up j
  writer := ⟨fun _ => ⟨i, by simp [upd_same, Mode.excludes]⟩, fun _ => rfl⟩
  readers j := by
    by_cases hj : j = i
    · subst hj
      simp only [upd_same, Mode.reads, h.readers, hi]
    · rw [upd_other _ _ hj]
      exact h.readers j
  nodup := h.nodup
  alone j k hj := by
    have hj' : m j = .wr ∧ j ≠ i := by
      by_cases e : j = i
      · subst e; rw [upd_same] at hj; cases hj
      · rw [upd_other _ _ e] at hj
        exact ⟨hj, e⟩
    exact absurd (h.owner (by rw [hj'.1]; rfl : (m j).owns = true) (by rw [hi]; rfl : (m i).owns = true)) hj'.2

theorem await {i : Nat} (hi : m i = .pending) (hr : l.readers = []) : LockOk l (upd m i .wr) where
  up j := by
    by_cases hj : j = i
    · subst hj
      rw [upd_same]
      have := h.up j
      rw [hi] at this
      exact this
    · rw [upd_other _ _ hj]
      exact h.up j
  writer := by
    rw [h.writer]
    exact ⟨fun _ => ⟨i, by simp [upd_same, Mode.excludes]⟩, fun _ => ⟨i, by rw [hi]; rfl⟩⟩
  readers j := by
    by_cases hj : j = i
    · subst hj
      simp only [upd_same, Mode.reads, h.readers, hi]
    · rw [upd_other _ _ hj]
      exact h.readers j
  nodup := h.nodup
  alone j k hj := by
    by_cases hk : k = i
    · subst hk; simp [upd_same, Mode.reads]
    · rw [upd_other _ _ hk]
      by_contra hc
      have := (h.readers k).2 (by simpa using hc)
      rw [hr] at this
      cases this

theorem downgrade {i : Nat} (hi : m i = .wr) : LockOk { l with writer := false } (upd m i .up) where
  up j := by
    by_cases hj : j = i
    · subst hj
      rw [upd_same]
      have := h.up j
      rw [hi] at this
      exact this
    · rw [upd_other _ _ hj]
      exact h.up j
  writer := by
    constructor
    · intro e; cases e
    · rintro ⟨j, hj⟩
      by_cases e : j = i
      · subst e; simp [upd_same, Mode.excludes] at hj
      · rw [upd_other _ _ e] at hj
        exact absurd (h.owner (Mode.owns_of_excludes hj) (by rw [hi]; rfl : (m i).owns = true)) e
  readers j := by
    by_cases hj : j = i
    · subst hj
      simp only [upd_same, Mode.reads, h.readers, hi]
    · rw [upd_other _ _ hj]
      exact h.readers j
  nodup := h.nodup
  alone j k hj := by
    have hj' : m j = .wr ∧ j ≠ i := by
      by_cases e : j = i
      · subst e; rw [upd_same] at hj; cases hj
      · rw [upd_other _ _ e] at hj
        exact ⟨hj, e⟩
    exact absurd (h.owner (by rw [hj'.1]; rfl : (m j).owns = true) (by rw [hi]; rfl : (m i).owns = true)) hj'.2

theorem without (i : Nat) : LockOk (l.without i) (upd m i .free) := by
  unfold Lock.without
  split
  · rename_i hu
    have ho := (h.up i).1 hu
    have other : ∀ j, j ≠ i → (m j).owns = false := by
      intro j hj
      by_contra hc
      exact hj (h.owner (by simpa using hc) ho)
    refine ⟨?_, ?_, ?_, h.nodup.filter _, ?_⟩
    · intro j
      by_cases hj : j = i
      · subst hj; simp [upd_same, Mode.owns]
      · simp [upd_other _ _ hj, other j hj]
    · constructor
      · intro e; cases e
      · rintro ⟨j, hj⟩
        by_cases e : j = i
        · subst e; simp [upd_same, Mode.excludes] at hj
        · rw [upd_other _ _ e] at hj
          have := Mode.owns_of_excludes hj
          rw [other j e] at this
          cases this
    · intro j
      by_cases hj : j = i
      · subst hj; simp [upd_same, Mode.reads]
      · rw [upd_other _ _ hj, ← h.readers]
        simp [hj]
    · intro j k hj
      by_cases e : j = i
      · subst e; rw [upd_same] at hj; cases hj
      · rw [upd_other _ _ e] at hj
        have := other j e
        rw [hj] at this
        cases this
  · rename_i hu
    have ho : (m i).owns = false := by
      by_contra hc
      exact hu ((h.up i).2 (by simpa using hc))
    refine ⟨?_, ?_, ?_, h.nodup.filter _, ?_⟩
    · intro j
      by_cases hj : j = i
      · subst hj; simp [upd_same, Mode.owns, hu]
      · rw [upd_other _ _ hj]; exact h.up j
    · show l.writer = true ↔ _
      rw [h.writer]
      constructor
      · rintro ⟨j, hj⟩
        by_cases e : j = i
        · subst e
          have := Mode.owns_of_excludes hj
          rw [ho] at this
          cases this
        · exact ⟨j, by rwa [upd_other _ _ e]⟩
      · rintro ⟨j, hj⟩
        by_cases e : j = i
        · subst e; simp [upd_same, Mode.excludes] at hj
        · exact ⟨j, by rwa [upd_other _ _ e] at hj⟩
    · intro j
      by_cases hj : j = i
      · subst hj; simp [upd_same, Mode.reads]
      · rw [upd_other _ _ hj, ← h.readers]
        simp [hj]
    · intro j k hj
      by_cases e : j = i
      · subst e; rw [upd_same] at hj; cases hj
      · rw [upd_other _ _ e] at hj
        by_cases hk : k = i
        · subst hk; simp [upd_same, Mode.reads]
        · rw [upd_other _ _ hk]; exact h.alone j k hj

end LockOk
end Antlr.Conc
