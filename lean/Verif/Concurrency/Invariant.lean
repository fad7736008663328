import Verif.Concurrency.Locks

/-! # What holds in every state of an execution -/

namespace Antlr.Conc

variable {D T R α β : Type}

/-- The guards `h` of the threads fit to programs and locks. -/
structure Fits (level : Nat → Nat) (s : State D T R) (h : Nat → Nat → Mode) : Prop where
  safe : ∀ i p, s.threads[i]? = some p → Safe level (fun h _ => ∀ o, h o = .free) (h i) p
  noThread : ∀ i, s.threads[i]? = none → ∀ o, h i o = .free
  lock : ∀ o, LockOk (s.locks o) fun i => h i o
  task : ∀ o, (s.locks o).up = none ↔ s.tasks o = none

/-- The guards after a change of one. -/
def guard (h : Nat → Nat → Mode) (i o : Nat) (x : Mode) : Nat → Nat → Mode := upd h i (upd (h i) o x)

theorem guard_at (h : Nat → Nat → Mode) (i o : Nat) (x : Mode) : (fun j => guard h i o x j o) = upd (fun j => h j o) i x := by
  funext j
  by_cases hj : j = i
  · subst hj; simp [guard, upd_same]
  · simp [guard, upd_other _ _ hj]

theorem guard_other (h : Nat → Nat → Mode) (i : Nat) {o o' : Nat} (x : Mode) (ho : o' ≠ o) :
    (fun j => guard h i o x j o') = fun j => h j o' := by
  funext j
  by_cases hj : j = i
  · subst hj; simp [guard, upd_same, upd_other _ _ ho]
  · simp [guard, upd_other _ _ hj]

theorem set_get {γ : Type} {l : List γ} {i j : Nat} {k p q : γ} (hi : l[i]? = some q) (h : (l.set i k)[j]? = some p) :
    (j = i ∧ p = k) ∨ (j ≠ i ∧ l[j]? = some p) := by
  rw [List.getElem?_set] at h
  by_cases e : i = j
  · subst e
    left
    have := (List.getElem?_eq_some_iff.1 hi).1
    simp [this] at h
    exact ⟨rfl, h.symm⟩
  · right
    simp [e] at h
    exact ⟨fun x => e x.symm, h⟩

theorem set_none {γ : Type} {l : List γ} {i j : Nat} {k : γ} : (l.set i k)[j]? = none ↔ l[j]? = none := by simp

theorem set_self {γ : Type} {l : List γ} {i : Nat} {k q : γ} (hi : l[i]? = some q) : (l.set i k)[i]? = some k := by
  have := (List.getElem?_eq_some_iff.1 hi).1
  simp [this]

/-- A step of thread `i` that changes its guard of `o`. -/
theorem Fits.move {level : Nat → Nat} {s s' : State D T R} {h : Nat → Nat → Mode} (F : Fits level s h) {i o : Nat}
    {p k : Prog D T R Unit} {x : Mode} {l : Lock} (hi : s.threads[i]? = some p)
    (e1 : s'.threads = s.threads.set i k) (e2 : s'.locks = upd s.locks o l)
    (hk : Safe level (fun h _ => ∀ o, h o = .free) (upd (h i) o x) k) (hl : LockOk l (upd (fun j => h j o) i x))
    (ht : ∀ o', (s'.locks o').up = none ↔ s'.tasks o' = none) : Fits level s' (guard h i o x) where
  safe j q hj := by
    rw [e1] at hj
    rcases set_get hi hj with ⟨rfl, rfl⟩ | ⟨hne, hq⟩
    · rw [guard, upd_same]; exact hk
    · rw [guard, upd_other _ _ hne]; exact F.safe j q hq
  noThread j hj o' := by
    rw [e1, set_none] at hj
    have hne : j ≠ i := by rintro rfl; rw [hi] at hj; cases hj
    rw [guard, upd_other _ _ hne]
    exact F.noThread j hj o'
  lock o' := by
    rw [e2]
    by_cases e : o' = o
    · subst e; rw [guard_at, upd_same]; exact hl
    · rw [guard_other _ _ _ e, upd_other _ _ e]; exact F.lock o'
  task := ht

theorem upd_id {γ : Type} (f : Nat → γ) (o : Nat) : upd f o (f o) = f := by
  funext x
  by_cases e : x = o
  · subst e; simp [upd_same]
  · simp [upd_other _ _ e]

theorem guard_id (h : Nat → Nat → Mode) (i o : Nat) : guard h i o (h i o) = h := by
  rw [guard, upd_id, upd_id]

variable {level : Nat → Nat} {s s' : State D T R} {h : Nat → Nat → Mode}

theorem task_same (F : Fits level s h) {o : Nat} {l : Lock} (hl : l.up = (s.locks o).up) (o' : Nat) :
    (upd s.locks o l o').up = none ↔ s.tasks o' = none := by
  by_cases e : o' = o
  · subst e; rw [upd_same, hl]; exact F.task o'
  · rw [upd_other _ _ e]; exact F.task o'

theorem Fits.owner (F : Fits level s h) {i o : Nat} (hi : (h i o).owns = true) : (s.locks o).up = some i :=
  ((F.lock o).up i).2 hi

theorem Fits.step (F : Fits level s h) {i : Nat} (st : Step i s s') : ∃ h', Fits level s' h' := by
  cases st with
  | @acquire o t k hi hu =>
    obtain ⟨h1, h2, h3⟩ := F.safe i _ hi
    refine ⟨_, F.move (x := .up) hi rfl rfl h3 ((F.lock o).acquire hu h1) fun o' => ?_⟩
    show (upd s.locks o _ o').up = none ↔ upd s.tasks o _ o' = none
    by_cases e : o' = o
    · subst e; simp [upd_same]
    · rw [upd_other _ _ e, upd_other _ _ e]; exact F.task o'
  | @look o k hi =>
    obtain ⟨h1, h2⟩ := F.safe i _ hi
    refine ⟨_, F.move (o := o) (x := h i o) (l := s.locks o) hi rfl (upd_id _ _).symm ?_ ?_ F.task⟩
    · rw [upd_id]; exact h2 _
    · rw [upd_id (fun j => h j o) i]; exact F.lock o
  | @read o k hi hw =>
    rcases F.safe i _ hi with ⟨h1, h2⟩ | ⟨h1, h2, h3⟩
    · exact ⟨_, F.move hi rfl rfl h2 ((F.lock o).read hw (by rw [h1]; rfl) rfl (by rw [h1]; rfl) rfl)
        (task_same F rfl)⟩
    · exact ⟨_, F.move hi rfl rfl h3 ((F.lock o).read hw (by rw [h1]; rfl) rfl (by rw [h1]; rfl) rfl)
        (task_same F rfl)⟩
  | @unread o k hi =>
    rcases F.safe i _ hi with ⟨h1, h2⟩ | ⟨h1, h2⟩
    · exact ⟨_, F.move hi rfl rfl h2 ((F.lock o).unread (by rw [h1]; rfl) rfl (by rw [h1]; rfl) rfl)
        (task_same F rfl)⟩
    · exact ⟨_, F.move hi rfl rfl h2 ((F.lock o).unread (by rw [h1]; rfl) rfl (by rw [h1]; rfl) rfl)
        (task_same F rfl)⟩
  | @upgrade o k hi =>
    obtain ⟨h1, h2, h3⟩ := F.safe i _ hi
    refine ⟨_, F.move (x := .pending) hi rfl rfl ⟨upd_same _ _ _, ?_, ?_⟩ ((F.lock o).upgrade h1) (task_same F rfl)⟩
    · intro x e hx
      rw [upd_other _ _ e] at hx; exact h2 x e hx
    · have : upd (upd (h i) o .pending) o .wr = upd (h i) o .wr := by
        funext x
        by_cases e : x = o
        · subst e; simp [upd_same]
        · simp [upd_other _ _ e]
      rw [this]
      exact h3
  | @await o k hi hr =>
    obtain ⟨h1, h2, h3⟩ := F.safe i _ hi
    exact ⟨_, F.move (l := s.locks o) hi rfl (upd_id _ _).symm h3 ((F.lock o).await h1 hr) F.task⟩
  | @store o d k hi =>
    obtain ⟨h1, h2⟩ := F.safe i _ hi
    refine ⟨_, F.move (o := o) (x := h i o) (l := s.locks o) hi rfl (upd_id _ _).symm ?_ ?_ F.task⟩
    · rw [upd_id]; exact h2
    · rw [upd_id (fun j => h j o) i]; exact F.lock o
  | @downgrade o k hi =>
    obtain ⟨h1, h2⟩ := F.safe i _ hi
    exact ⟨_, F.move hi rfl rfl h2 ((F.lock o).downgrade h1) (task_same F rfl)⟩
  | @release o r k t hi ht =>
    obtain ⟨h1, h2⟩ := F.safe i _ hi
    refine ⟨_, F.move hi rfl rfl h2 ((F.lock o).release h1) fun o' => ?_⟩
    show (upd s.locks o _ o').up = none ↔ upd s.tasks o _ o' = none
    by_cases e : o' = o
    · subst e; simp [upd_same]
    · rw [upd_other _ _ e, upd_other _ _ e]; exact F.task o'

theorem Fits.crash (F : Fits level s h) {i : Nat} (st : Crash i s s') : Fits level s' (upd h i bare) := by
  cases st with
  | @mk p os hi hn ho =>
    refine ⟨?_, ?_, ?_, ?_⟩
    · intro j q hj
      rcases set_get hi hj with ⟨rfl, rfl⟩ | ⟨hne, hq⟩
      · rw [upd_same]
        intro o; rfl
      · rw [upd_other _ _ hne]; exact F.safe j q hq
    · intro j hj o
      rw [set_none] at hj
      have hne : j ≠ i := by rintro rfl; rw [hi] at hj; cases hj
      rw [upd_other _ _ hne]
      exact F.noThread j hj o
    · intro o
      have e : (fun j => upd h i bare j o) = upd (fun j => h j o) i .free := by
        funext j
        by_cases e : j = i
        · subst e; simp [upd_same, bare]
        · simp [upd_other _ _ e]
      rw [e]
      exact (F.lock o).without i
    · intro o
      show ((s.locks o).without i).up = none ↔ (if (s.locks o).up = some i then none else s.tasks o) = none
      unfold Lock.without
      by_cases e : (s.locks o).up = some i
      · simp [e]
      · simp only [e, if_false]
        exact F.task o

theorem Fits.begin (objs : Nat → D) {threads : List (Prog D T R Unit)} (hs : ∀ p ∈ threads, SafeThread level p) :
    Fits level (begin objs threads) fun _ => bare where
  safe i p hi := hs p (List.mem_of_getElem? hi)
  noThread _ _ _ := rfl
  lock o := ⟨fun i => by simp [Conc.begin, bare, Mode.owns], by simp [Conc.begin, bare, Mode.excludes],
    fun i => by simp [Conc.begin, bare, Mode.reads], by simp [Conc.begin], fun i j e => by cases e⟩
  task o := ⟨fun _ => rfl, fun _ => rfl⟩

theorem fits {objs : Nat → D} {threads : List (Prog D T R Unit)} (hs : ∀ p ∈ threads, SafeThread level p)
    {s : State D T R} (r : Runs (begin objs threads) s) : ∃ h, Fits level s h := by
  induction r with
  | refl => exact ⟨_, Fits.begin objs hs⟩
  | step _ st ih =>
    obtain ⟨h, F⟩ := ih
    exact F.step st
  | crash _ st ih =>
    obtain ⟨h, F⟩ := ih
    exact ⟨_, F.crash st⟩

/-! ## No deadlock -/

/-- Thread `i` can go on, or is about to panic. -/
def CanMove (s : State D T R) (i : Nat) : Prop := (∃ s', Step i s s') ∨ s.threads[i]? = some .panic

/-- A thread with a guard of `o` can go on, or waits for a lock of a lower level, or for the readers of `o`. -/
theorem Fits.waits (F : Fits level s h) {i o : Nat} (ho : h i o ≠ .free) :
    CanMove s i ∨ (∃ j o', level o' < level o ∧ h j o' ≠ .free) ∨ (h i o = .pending ∧ ∃ j, (h j o).reads = true) := by
  cases hq : s.threads[i]? with
  | none => exact absurd (F.noThread i hq o) ho
  | some p =>
    have hs := F.safe i p hq
    cases p with
    | ret a => exact absurd (hs o) ho
    | panic => exact .inl (.inr hq)
    | acquire o' t k =>
      cases hu : (s.locks o').up with
      | none => exact .inl (.inl ⟨_, .acquire hq hu⟩)
      | some j =>
        refine .inr (.inl ⟨j, o', hs.2.1 o ho, fun hf => ?_⟩)
        have := ((F.lock o').up j).1 hu
        simp [hf, Mode.owns] at this
    | look o' k => exact .inl (.inl ⟨_, .look hq⟩)
    | unread o' k => exact .inl (.inl ⟨_, .unread hq⟩)
    | upgrade o' k => exact .inl (.inl ⟨_, .upgrade hq⟩)
    | store o' d k => exact .inl (.inl ⟨_, .store hq⟩)
    | downgrade o' k => exact .inl (.inl ⟨_, .downgrade hq⟩)
    | release o' r k =>
      cases ht : s.tasks o' with
      | some t => exact .inl (.inl ⟨_, .release hq ht⟩)
      | none =>
        have := F.owner (i := i) (o := o') (by rw [hs.1]; rfl)
        rw [(F.task o').2 ht] at this
        cases this
    | read o' k =>
      cases hw : (s.locks o').writer with
      | false => exact .inl (.inl ⟨_, .read hq hw⟩)
      | true =>
        obtain ⟨j, hj⟩ := (F.lock o').writer.1 hw
        rcases hs with ⟨h1, _⟩ | ⟨_, h2, _⟩
        · have := (F.lock o').owner (Mode.owns_of_excludes hj) (by rw [h1]; rfl : (h i o').owns = true)
          subst this
          rw [h1] at hj; cases hj
        · refine .inr (.inl ⟨j, o', h2 o ho, fun hf => ?_⟩)
          simp [hf, Mode.excludes] at hj
    | await o' k =>
      cases hr : (s.locks o').readers with
      | nil => exact .inl (.inl ⟨_, .await hq hr⟩)
      | cons j l =>
        have hj : (h j o').reads = true := ((F.lock o').readers j).1 (by rw [hr]; simp)
        by_cases e : o = o'
        · subst e; exact .inr (.inr ⟨hs.1, j, hj⟩)
        · exact .inr (.inl ⟨i, o', hs.2.1 o e ho, by rw [hs.1]; simp⟩)

/-- If a guard is held, some thread can go on. -/
theorem Fits.progress_at (F : Fits level s h) : ∀ n i o, level o = n → h i o ≠ .free → ∃ j, CanMove s j := by
  intro n
  induction n using Nat.strongRecOn with
  | _ n ih =>
    intro i o hn ho
    rcases F.waits ho with hc | ⟨j, o', hl, hj⟩ | ⟨_, j, hj⟩
    · exact ⟨i, hc⟩
    · exact ih _ (hn ▸ hl) j o' rfl hj
    · have hjf : h j o ≠ .free := by intro e; simp [e, Mode.reads] at hj
      rcases F.waits hjf with hc | ⟨j', o', hl, hj'⟩ | ⟨hp, _⟩
      · exact ⟨j, hc⟩
      · exact ih _ (hn ▸ hl) j' o' rfl hj'
      · simp [hp, Mode.reads] at hj

/-- As long as a thread is not finished, some thread can go on. -/
theorem Fits.progress (F : Fits level s h) {i : Nat} (hi : ¬ Finished s i) : ∃ j, CanMove s j := by
  by_cases hg : ∃ o, h i o ≠ .free
  · obtain ⟨o, ho⟩ := hg
    exact F.progress_at _ i o rfl ho
  · have hg' : ∀ o, h i o = .free := by simpa using hg
    cases hq : s.threads[i]? with
    | none => exact absurd (.inl hq) hi
    | some p =>
      have hs := F.safe i p hq
      cases p with
      | ret a => exact absurd (.inr hq) hi
      | panic => exact ⟨i, .inr hq⟩
      | acquire o' t k =>
        cases hu : (s.locks o').up with
        | none => exact ⟨i, .inl ⟨_, .acquire hq hu⟩⟩
        | some j =>
          refine F.progress_at _ j o' rfl fun hf => ?_
          have := ((F.lock o').up j).1 hu
          simp [hf, Mode.owns] at this
      | read o' k =>
        cases hw : (s.locks o').writer with
        | false => exact ⟨i, .inl ⟨_, .read hq hw⟩⟩
        | true =>
          obtain ⟨j, hj⟩ := (F.lock o').writer.1 hw
          refine F.progress_at _ j o' rfl fun hf => ?_
          simp [hf, Mode.excludes] at hj
      | look o' k => exact ⟨i, .inl ⟨_, .look hq⟩⟩
      | unread o' k => exact ⟨i, .inl ⟨_, .unread hq⟩⟩
      | upgrade o' k => exact ⟨i, .inl ⟨_, .upgrade hq⟩⟩
      | store o' d k => exact ⟨i, .inl ⟨_, .store hq⟩⟩
      | downgrade o' k => exact ⟨i, .inl ⟨_, .downgrade hq⟩⟩
      | release o' r k =>
        have := hs.1
        rw [hg'] at this
        cases this
      | await o' k =>
        have := hs.1
        rw [hg'] at this
        cases this

/-! ## One visit after the other -/

/-- The log of an object, and who visits it. -/
structure Told (Does : Nat → T → D → Option R → D → Prop) (objs : Nat → D) (s : State D T R) : Prop where
  faithful : ∀ (i : Nat) (p : Prog D T R Unit), s.threads[i]? = some p → Faithful Does p
  past : ∀ o, ∃ d, History (Does o) (objs o) (logOf o s.log) d ∧ (s.tasks o = none → s.objs o = d) ∧
    ∀ (t : T) (i : Nat) (p : Prog D T R Unit), s.tasks o = some t → (s.locks o).up = some i → s.threads[i]? = some p →
      Visit o (Does o t d) (fun _ _ => False) (s.objs o) p

theorem logOf_append (o : Nat) (l l' : List (Event T R)) : logOf o (l ++ l') = logOf o l ++ logOf o l' := by
  simp [logOf]

theorem logOf_one (o : Nat) (e : Event T R) : logOf o [e] = if e.obj = o then [(e.task, e.result)] else [] := by
  by_cases h : e.obj = o
  · simp [logOf, h]
  · simp [logOf, h]

variable {Does : Nat → T → D → Option R → D → Prop} {objs : Nat → D}

/-- A step of thread `i` that leaves the log and tasks alone. -/
theorem Told.quiet (H : Told Does objs s) {i : Nat} {p k : Prog D T R Unit} (hi : s.threads[i]? = some p)
    (e1 : s'.threads = s.threads.set i k) (e2 : ∀ o, (s'.locks o).up = (s.locks o).up) (e3 : s'.tasks = s.tasks)
    (e4 : s'.log = s.log) (e5 : s'.objs = s.objs) (hf : Faithful Does k)
    (hv : ∀ o Q, (s.locks o).up = some i → Visit o Q (fun _ _ => False) (s.objs o) p →
      Visit o Q (fun _ _ => False) (s.objs o) k) : Told Does objs s' where
  faithful j q hj := by
    rw [e1] at hj
    rcases set_get hi hj with ⟨rfl, rfl⟩ | ⟨hne, hq⟩
    · exact hf
    · exact H.faithful j q hq
  past o := by
    obtain ⟨d, h1, h2, h3⟩ := H.past o
    refine ⟨d, by rw [e4]; exact h1, by rw [e3, e5]; exact h2, fun t j q ht hu hq => ?_⟩
    rw [e3] at ht
    rw [e2] at hu
    rw [e1] at hq
    rw [e5]
    rcases set_get hi hq with ⟨rfl, rfl⟩ | ⟨hne, hq'⟩
    · exact hv o _ hu (h3 t j p ht hu hi)
    · exact h3 t j q ht hu hq'

theorem upd_up {o : Nat} {l : Lock} (hl : l.up = (s.locks o).up) (o' : Nat) : (upd s.locks o l o').up = (s.locks o').up := by
  by_cases e : o' = o
  · subst e; rw [upd_same, hl]
  · rw [upd_other _ _ e]

theorem Told.step (H : Told Does objs s) (F : Fits level s h) {i : Nat} (st : Step i s s') : Told Does objs s' := by
  cases st with
  | @acquire o t k hi hu =>
    have hf := H.faithful i _ hi
    have htask := (F.task o).1 hu
    refine ⟨fun j q hj => ?_, fun o' => ?_⟩
    · rcases set_get hi hj with ⟨rfl, rfl⟩ | ⟨hne, hq⟩
      · exact hf.2
      · exact H.faithful j q hq
    · obtain ⟨d, h1, h2, h3⟩ := H.past o'
      refine ⟨d, h1, ?_, ?_⟩
      · intro ht
        by_cases e : o' = o
        · subst e; simp [upd_same] at ht
        · exact h2 (by simpa [upd_other _ _ e] using ht)
      · intro t' j q ht hu' hq
        by_cases e : o' = o
        · subst e
          have e1 : t = t' := by simpa [upd_same] using ht
          have e2 : i = j := by simpa [upd_same, State.go, State.setLock] using hu'
          subst e1; subst e2
          rcases set_get hi hq with ⟨_, rfl⟩ | ⟨hne, _⟩
          · have := h2 htask
            show Visit o' _ _ (s.objs o') q
            rw [this]
            exact hf.1 d
          · exact absurd rfl hne
        · have ht' : s.tasks o' = some t' := by simpa [upd_other _ _ e] using ht
          have hu'' : (s.locks o').up = some j := by simpa [upd_other _ _ e, State.go, State.setLock] using hu'
          rcases set_get hi hq with ⟨rfl, rfl⟩ | ⟨hne, hq'⟩
          · exact (h3 t' j _ ht' hu'' hi).2
          · exact h3 t' j q ht' hu'' hq'
  | @look o k hi =>
    refine H.quiet hi rfl (fun _ => rfl) rfl rfl rfl (H.faithful i _ hi _) fun o' Q _ hv => ?_
    have := hv.2
    split at this
    · rename_i e; subst e; exact this
    · exact this _
  | @read o k hi hw =>
    have hf := H.faithful i _ hi
    exact H.quiet hi rfl (upd_up rfl) rfl rfl rfl hf fun o' Q _ hv => hv.2
  | @unread o k hi =>
    have hf := H.faithful i _ hi
    exact H.quiet hi rfl (upd_up rfl) rfl rfl rfl hf fun o' Q _ hv => hv.2
  | @upgrade o k hi =>
    have hf := H.faithful i _ hi
    exact H.quiet hi rfl (upd_up rfl) rfl rfl rfl (k := .await o k) hf fun o' Q _ hv => hv
  | @await o k hi hr =>
    have hf := H.faithful i _ hi
    exact H.quiet hi rfl (fun _ => rfl) rfl rfl rfl hf fun o' Q _ hv => hv.2
  | @downgrade o k hi =>
    have hf := H.faithful i _ hi
    exact H.quiet hi rfl (upd_up rfl) rfl rfl rfl hf fun o' Q _ hv => hv.2
  | @store o d k hi =>
    have hf := H.faithful i _ hi
    have hm := (F.safe i _ hi).1
    have hown := F.owner (i := i) (o := o) (by rw [hm]; rfl)
    refine ⟨fun j q hj => ?_, fun o' => ?_⟩
    · rcases set_get hi hj with ⟨rfl, rfl⟩ | ⟨hne, hq⟩
      · exact hf
      · exact H.faithful j q hq
    · obtain ⟨d', h1, h2, h3⟩ := H.past o'
      refine ⟨d', h1, ?_, ?_⟩
      · intro ht
        show upd s.objs o d o' = d'
        by_cases e : o' = o
        · subst e
          rw [(F.task o').2 ht] at hown
          cases hown
        · rw [upd_other _ _ e]; exact h2 ht
      · intro t j q ht hu hq
        show Visit o' _ _ (upd s.objs o d o') q
        rcases set_get hi hq with ⟨rfl, rfl⟩ | ⟨hne, hq'⟩
        · have := (h3 t j _ ht hu hi).2
          by_cases e : o' = o
          · subst e
            simpa [upd_same] using this
          · rw [upd_other _ _ e]
            simpa [Ne.symm e] using this
        · have e : o' ≠ o := by
            rintro rfl
            rw [show (s.locks o').up = some j from hu] at hown
            exact hne (Option.some.inj hown)
          rw [upd_other _ _ e]
          exact h3 t j q ht hu hq'
  | @release o r k t hi ht =>
    have hf := H.faithful i _ hi
    have hm := (F.safe i _ hi).1
    have hown := F.owner (i := i) (o := o) (by rw [hm]; rfl)
    refine ⟨fun j q hj => ?_, fun o' => ?_⟩
    · rcases set_get hi hj with ⟨rfl, rfl⟩ | ⟨hne, hq⟩
      · exact hf
      · exact H.faithful j q hq
    · obtain ⟨d, h1, h2, h3⟩ := H.past o'
      show ∃ d', History (Does o') (objs o') (logOf o' (s.log ++ [⟨i, o, t, some r⟩])) d' ∧ _
      rw [logOf_append, logOf_one]
      by_cases e : o' = o
      · subst e
        have := (h3 t i _ ht hown hi).2
        rw [if_pos rfl] at this
        refine ⟨s.objs o', ?_, fun _ => rfl, ?_⟩
        · rw [if_pos rfl]
          exact .snoc h1 this
        · intro t' j q ht' _ _
          simp [upd_same] at ht'
      · rw [if_neg (Ne.symm e), List.append_nil]
        refine ⟨d, h1, ?_, ?_⟩
        · intro ht'
          exact h2 (by simpa [upd_other _ _ e] using ht')
        · intro t' j q ht' hu hq
          have ht'' : s.tasks o' = some t' := by simpa [upd_other _ _ e] using ht'
          have hu'' : (s.locks o').up = some j := by simpa [upd_other _ _ e, State.go, State.setLock] using hu
          rcases set_get hi hq with ⟨rfl, rfl⟩ | ⟨hne, hq'⟩
          · have := (h3 t' j _ ht'' hu'' hi).2
            rw [if_neg (Ne.symm e)] at this
            exact this
          · exact h3 t' j q ht'' hu'' hq'

/-- At every point of a visit the thread can panic. -/
theorem Visit.aborted {o : Nat} {Q : Option R → D → Prop} {A : α → D → Prop} {d : D} {p : Prog D T R α}
    (h : Visit o Q A d p) : Q none d := by
  cases p <;> first | exact h | exact h.1

theorem logOf_crash {i : Nat} {os : List (Nat × T)} (hn : (os.map (·.1)).Nodup) (o : Nat) :
    (∃ t, (o, t) ∈ os ∧ logOf (R := R) o (os.map fun x => ⟨i, x.1, x.2, none⟩) = [(t, none)]) ∨
    ((∀ t, (o, t) ∉ os) ∧ logOf (R := R) o (os.map fun x => ⟨i, x.1, x.2, none⟩) = []) := by
  induction os with
  | nil => right; simp [logOf]
  | cons x l ih =>
    obtain ⟨hx, hl⟩ := List.nodup_cons.1 hn
    have e : logOf (R := R) o ((x :: l).map fun x => ⟨i, x.1, x.2, none⟩) =
        (if x.1 = o then [(x.2, none)] else []) ++ logOf (R := R) o (l.map fun x => ⟨i, x.1, x.2, none⟩) := by
      rw [← logOf_one o (⟨i, x.1, x.2, none⟩ : Event T R), ← logOf_append]; rfl
    rw [e]
    by_cases hxo : x.1 = o
    · left
      rcases ih hl with ⟨t, ht, _⟩ | ⟨_, h2⟩
      · exact absurd (List.mem_map.2 ⟨(o, t), ht, hxo.symm⟩) hx
      · refine ⟨x.2, ?_, ?_⟩
        · rw [← hxo]; exact List.mem_cons_self ..
        · rw [if_pos hxo, h2]; rfl
    · rw [if_neg hxo, List.nil_append]
      rcases ih hl with ⟨t, ht, h2⟩ | ⟨h1, h2⟩
      · exact .inl ⟨t, List.mem_cons_of_mem _ ht, h2⟩
      · refine .inr ⟨fun t ht => ?_, h2⟩
        rcases List.mem_cons.1 ht with e' | ht
        · exact hxo (by rw [← e'])
        · exact h1 t ht

theorem Told.crash (H : Told Does objs s) (F : Fits level s h) {i : Nat} (st : Crash i s s') : Told Does objs s' := by
  cases st with
  | @mk p os hi hn ho =>
    refine ⟨fun j q hj => ?_, fun o => ?_⟩
    · rcases set_get hi hj with ⟨rfl, rfl⟩ | ⟨hne, hq⟩
      · trivial
      · exact H.faithful j q hq
    · obtain ⟨d, h1, h2, h3⟩ := H.past o
      show ∃ d', History (Does o) (objs o) (logOf o (s.log ++ os.map fun x => ⟨i, x.1, x.2, none⟩)) d' ∧
        ((if (s.locks o).up = some i then none else s.tasks o) = none → s.objs o = d') ∧
        ∀ (t : T) (j : Nat) (q : Prog D T R Unit), (if (s.locks o).up = some i then none else s.tasks o) = some t → ((s.locks o).without i).up = some j →
          (s.threads.set i (.ret ()))[j]? = some q → Visit o (Does o t d') (fun _ _ => False) (s.objs o) q
      rw [logOf_append]
      rcases logOf_crash (R := R) (i := i) hn o with ⟨t, ht, e⟩ | ⟨ht, e⟩
      · rw [e]
        obtain ⟨hu, htask⟩ := (ho o t).1 ht
        refine ⟨s.objs o, .snoc h1 (h3 t i p htask hu hi).aborted, fun _ => rfl, ?_⟩
        intro t' j q ht' _ _
        rw [if_pos hu] at ht'
        cases ht'
      · rw [e, List.append_nil]
        have hu : (s.locks o).up ≠ some i := by
          intro hu
          cases htask : s.tasks o with
          | none => rw [(F.task o).2 htask] at hu; cases hu
          | some t => exact ht t ((ho o t).2 ⟨hu, htask⟩)
        refine ⟨d, h1, ?_, ?_⟩
        · rw [if_neg hu]; exact h2
        · intro t' j q ht' hu' hq
          rw [if_neg hu] at ht'
          unfold Lock.without at hu'
          rw [if_neg hu] at hu'
          rcases set_get hi hq with ⟨rfl, rfl⟩ | ⟨hne, hq'⟩
          · exact absurd hu' hu
          · exact h3 t' j q ht' hu' hq'

theorem Told.begin (Does : Nat → T → D → Option R → D → Prop) (objs : Nat → D) {threads : List (Prog D T R Unit)}
    (hf : ∀ p ∈ threads, Faithful Does p) : Told Does objs (begin objs threads) where
  faithful i p hi := hf p (List.mem_of_getElem? hi)
  past o := ⟨objs o, .nil, fun _ => rfl, fun t i p ht => by cases ht⟩

theorem told {objs : Nat → D} {threads : List (Prog D T R Unit)} (hs : ∀ p ∈ threads, SafeThread level p)
    (hf : ∀ p ∈ threads, Faithful Does p) {s : State D T R} (r : Runs (begin objs threads) s) : Told Does objs s := by
  induction r with
  | refl => exact Told.begin Does objs hf
  | step r st ih =>
    obtain ⟨h, F⟩ := fits hs r
    exact ih.step F st
  | crash r st ih =>
    obtain ⟨h, F⟩ := fits hs r
    exact ih.crash F st

end Antlr.Conc
