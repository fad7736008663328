import Verif.Concurrency.Invariant
import Mathlib.Data.List.Dedup

/-! # Executions end -/

namespace Antlr.Conc

variable {D T R : Type}

/-- What a thread has left to do after a step, or after a panic. -/
inductive Below : Prog D T R Unit → Prog D T R Unit → Prop
  | panic {p} : p ≠ .ret () → Below (.ret ()) p
  | acquire {o t k} : Below k (.acquire o t k)
  | look {o k} (d : D) : Below (k d) (.look o k)
  | read {o k} : Below k (.read o k)
  | unread {o k} : Below k (.unread o k)
  | upgrade {o k} : Below (.await o k) (.upgrade o k)
  | await {o k} : Below k (.await o k)
  | store {o d k} : Below k (.store o d k)
  | downgrade {o k} : Below k (.downgrade o k)
  | release {o r k} : Below k (.release o r k)

theorem below_acc (p : Prog D T R Unit) : Acc Below p := by
  have ret : Acc Below (.ret () : Prog D T R Unit) := ⟨_, fun q h => by cases h with | panic h => exact absurd rfl h⟩
  induction p with
  | ret a => exact ret
  | panic => exact ⟨_, fun q h => by cases h with | panic => exact ret⟩
  | acquire o t k ih => exact ⟨_, fun q h => by cases h with | panic => exact ret | acquire => exact ih⟩
  | look o k ih => exact ⟨_, fun q h => by cases h with | panic => exact ret | look d => exact ih d⟩
  | read o k ih => exact ⟨_, fun q h => by cases h with | panic => exact ret | read => exact ih⟩
  | unread o k ih => exact ⟨_, fun q h => by cases h with | panic => exact ret | unread => exact ih⟩
  | upgrade o k ih =>
    refine ⟨_, fun q h => ?_⟩
    cases h with
    | panic => exact ret
    | upgrade => exact ⟨_, fun q h => by cases h with | panic => exact ret | await => exact ih⟩
  | await o k ih => exact ⟨_, fun q h => by cases h with | panic => exact ret | await => exact ih⟩
  | store o d k ih => exact ⟨_, fun q h => by cases h with | panic => exact ret | store => exact ih⟩
  | downgrade o k ih => exact ⟨_, fun q h => by cases h with | panic => exact ret | downgrade => exact ih⟩
  | release o r k ih => exact ⟨_, fun q h => by cases h with | panic => exact ret | release => exact ih⟩

/-- One thread of the list moved. -/
inductive OneBelow {γ : Type} (R : γ → γ → Prop) : List γ → List γ → Prop
  | head {x y l} : R x y → OneBelow R (x :: l) (y :: l)
  | tail {x l l'} : OneBelow R l l' → OneBelow R (x :: l) (x :: l')

theorem oneBelow_acc {γ : Type} {R : γ → γ → Prop} (hR : ∀ x, Acc R x) : ∀ l : List γ, Acc (OneBelow R) l
  | [] => ⟨_, fun _ h => by cases h⟩
  | x :: l => by
    have hl := oneBelow_acc hR l
    have hx := hR x
    induction hx generalizing l with
    | intro x _ ihx =>
      induction hl with
      | intro l hl' ihl =>
        refine ⟨_, fun q h => ?_⟩
        cases h with
        | head h => exact ihx _ h l ⟨_, hl'⟩
        | tail h => exact ihl _ h

theorem oneBelow_set {γ : Type} {R : γ → γ → Prop} {k p : γ} (h : R k p) : ∀ {l : List γ} {i : Nat}, l[i]? = some p →
    OneBelow R (l.set i k) l
  | [], _, hi => by simp at hi
  | x :: l, 0, hi => by
    simp only [List.getElem?_cons_zero, Option.some.injEq] at hi
    subst hi
    exact .head h
  | x :: l, i + 1, hi => .tail (oneBelow_set h (by simpa using hi))

/-- A step, or the panic of a thread that has not finished. -/
def Moves (s s' : State D T R) : Prop := ∃ i, Step i s s' ∨ (Crash i s s' ∧ ¬ Finished s i)

theorem moves_below {s s' : State D T R} (h : Moves s s') : OneBelow Below s'.threads s.threads := by
  obtain ⟨i, h | ⟨h, hf⟩⟩ := h
  · cases h with
    | acquire h _ => exact oneBelow_set .acquire h
    | look h => exact oneBelow_set (.look _) h
    | read h _ => exact oneBelow_set .read h
    | unread h => exact oneBelow_set .unread h
    | upgrade h => exact oneBelow_set .upgrade h
    | await h _ => exact oneBelow_set .await h
    | store h => exact oneBelow_set .store h
    | downgrade h => exact oneBelow_set .downgrade h
    | release h _ => exact oneBelow_set .release h
  · cases h with
    | mk os h _ _ => exact oneBelow_set (.panic (by rintro rfl; exact hf (.inr h))) h

/-- There is no infinite execution. -/
theorem moves_wf : WellFounded fun s' s : State D T R => Moves s s' :=
  Subrelation.wf (fun {_ _} h => moves_below h) (InvImage.wf (fun s : State D T R => s.threads) ⟨oneBelow_acc below_acc⟩)

/-! ## Finitely many locks are held at any time -/

theorem few {objs : Nat → D} {threads : List (Prog D T R Unit)} {s : State D T R} (r : Runs (begin objs threads) s) :
    ∃ l : List Nat, ∀ o, (s.locks o).up ≠ none → o ∈ l := by
  have keep : ∀ {s : State D T R} {o : Nat} {x : Lock} {l : List Nat}, (∀ o, (s.locks o).up ≠ none → o ∈ l) →
      ∀ o', (upd s.locks o x o').up ≠ none → o' ∈ o :: l := by
    intro s o x l h o' ho'
    by_cases e : o' = o
    · simp [e]
    · rw [upd_other _ _ e] at ho'
      simp [h o' ho']
  induction r with
  | refl => exact ⟨[], fun o h => absurd rfl h⟩
  | step _ st ih =>
    obtain ⟨l, hl⟩ := ih
    cases st with
    | @acquire o _ _ _ _ => exact ⟨o :: l, keep hl⟩
    | look => exact ⟨l, hl⟩
    | @read o _ _ _ => exact ⟨o :: l, keep hl⟩
    | @unread o _ _ => exact ⟨o :: l, keep hl⟩
    | @upgrade o _ _ => exact ⟨o :: l, keep hl⟩
    | await => exact ⟨l, hl⟩
    | store => exact ⟨l, hl⟩
    | @downgrade o _ _ => exact ⟨o :: l, keep hl⟩
    | @release o _ _ _ _ _ => exact ⟨o :: l, keep hl⟩
  | crash _ st ih =>
    obtain ⟨l, hl⟩ := ih
    cases st with
    | mk os _ _ _ =>
      refine ⟨l, fun o ho => hl o ?_⟩
      intro e
      apply ho
      show ((_ : Lock).without _).up = none
      unfold Lock.without
      split
      · rfl
      · exact e

/-- A thread can panic. -/
theorem can_crash {s : State D T R} {l : List Nat} (hl : ∀ o, (s.locks o).up ≠ none → o ∈ l) {i : Nat} {p : Prog D T R Unit}
    (hp : s.threads[i]? = some p) : ∃ s', Crash i s s' := by
  let f : Nat → Option (Nat × T) := fun o => if (s.locks o).up = some i then (s.tasks o).map fun t => (o, t) else none
  have hf : ∀ o x, f o = some x ↔ x.1 = o ∧ (s.locks o).up = some i ∧ s.tasks o = some x.2 := by
    rintro o ⟨o', t⟩
    by_cases h : (s.locks o).up = some i
    · simp only [f, if_pos h, Option.map_eq_some_iff, Prod.mk.injEq, h, true_and]
      constructor
      · rintro ⟨a, h1, h2, h3⟩; subst h2; subst h3; exact ⟨rfl, h1⟩
      · rintro ⟨h1, h2⟩; exact ⟨t, h2, h1.symm, rfl⟩
    · simp [f, h]
  refine ⟨_, .mk (l.dedup.filterMap f) hp ?_ ?_⟩
  · have hn : l.dedup.Nodup := List.nodup_dedup l
    generalize l.dedup = m at hn
    induction m with
    | nil => simp
    | cons a m ih =>
      obtain ⟨h1, h2⟩ := List.nodup_cons.1 hn
      cases hfa : f a with
      | none => rw [List.filterMap_cons_none hfa]; exact ih h2
      | some x =>
        rw [List.filterMap_cons_some hfa, List.map_cons, List.nodup_cons]
        refine ⟨?_, ih h2⟩
        rw [((hf a x).1 hfa).1]
        simp only [List.mem_map, List.mem_filterMap]
        rintro ⟨y, ⟨b, hb, hfb⟩, hy⟩
        have := ((hf b y).1 hfb).1
        rw [hy] at this
        subst this
        exact h1 hb
  · intro o t
    simp only [List.mem_filterMap, hf]
    constructor
    · rintro ⟨a, -, h1, h2, h3⟩
      subst h1
      exact ⟨h2, h3⟩
    · rintro ⟨h1, h2⟩
      exact ⟨o, List.mem_dedup.2 (hl o (by simp [h1])), rfl, h1, h2⟩

/-- As long as a thread has something left to do some thread can go on. -/
theorem progress {level : Nat → Nat} {objs : Nat → D} {threads : List (Prog D T R Unit)}
    (hs : ∀ p ∈ threads, SafeThread level p) {s : State D T R} (r : Runs (begin objs threads) s) {i : Nat}
    (hi : ¬ Finished s i) : ∃ j s', Step j s s' ∨ (s.threads[j]? = some .panic ∧ Crash j s s') := by
  obtain ⟨h, F⟩ := fits hs r
  obtain ⟨j, ⟨s', hj⟩ | hj⟩ := F.progress hi
  · exact ⟨j, s', .inl hj⟩
  · obtain ⟨l, hl⟩ := few r
    obtain ⟨s', hc⟩ := can_crash hl hj
    exact ⟨j, s', .inr ⟨hj, hc⟩⟩

end Antlr.Conc
