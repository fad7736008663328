import Verif.Concurrency.Proper
import Verif.Concurrency.Halt

/-! # Executions as histories of visits -/

namespace Antlr.Conc
open Antlr Prediction

/-- The DFAs are used for certain tasks only, also by what runs in the middle of other tasks. -/
def Session.Only {I C : Type} (task : Nat → Task I C → Prop) : Session I C → Prop
  | .stop => True
  | .predict side o P cf n inp k => task o (.predict P cf n inp) ∧ (∀ i, (side i).Only task) ∧ ∀ a, (k a).Only task
  | .lex side o env fc fe L k => task o (.lex env fc fe L) ∧ (∀ L, (side L).Only task) ∧ ∀ a, (k a).Only task
  | .dump _ k => ∀ d, (k d).Only task

theorem Session.Only.uses {I C : Type} [TokStream I] [InputData C] {task : Nat → Task I C → Prop} :
    ∀ {s : Session I C}, s.Only task → Uses (fun _ => True) task s.prog
  | .stop, _ => trivial
  | .predict _ _ _ _ _ _ _, h => (predict_uses (fun i => (h.2.1 i).uses) trivial h.1).bind fun a => (h.2.2 a).uses
  | .lex _ _ _ _ _ _ _, h => (match_uses (fun i => (h.2.1 i).uses) trivial h.1).bind fun a => (h.2.2 a).uses
  | .dump _ _, h => ⟨trivial, trivial, fun d => ⟨trivial, (h d).uses⟩⟩

section
variable {D T R : Type}

/-- Everything is for the tasks `task`. -/
structure Tasked (task : Nat → T → Prop) (s : State D T R) : Prop where
  threads : ∀ (i : Nat) (p : Prog D T R Unit), s.threads[i]? = some p → Uses (fun _ => True) task p
  tasks : ∀ (o : Nat) (t : T), s.tasks o = some t → task o t
  log : ∀ e ∈ s.log, task e.obj e.task

theorem tasked_set {task : Nat → T → Prop} {l : List (Prog D T R Unit)} {i : Nat} {q k : Prog D T R Unit}
    (h : ∀ (i : Nat) (p : Prog D T R Unit), l[i]? = some p → Uses (fun _ => True) task p) (hi : l[i]? = some q)
    (hk : Uses (fun _ => True) task k) :
    ∀ (j : Nat) (p : Prog D T R Unit), (l.set i k)[j]? = some p → Uses (fun _ => True) task p := by
  intro j p hp
  rcases set_get hi hp with ⟨-, rfl⟩ | ⟨-, hp⟩
  · exact hk
  · exact h j p hp

theorem tasked {task : Nat → T → Prop} {objs : Nat → D} {threads : List (Prog D T R Unit)}
    (ht : ∀ p ∈ threads, Uses (fun _ => True) task p) {s : State D T R} (r : Runs (begin objs threads) s) : Tasked task s := by
  induction r with
  | refl =>
    refine ⟨fun i p h => ht p (List.mem_of_getElem? h), fun o t h => ?_, fun e h => ?_⟩
    · cases h
    · cases h
  | step _ st ih =>
    cases st with
    | acquire h _ =>
      have hu := ih.threads _ _ h
      refine ⟨tasked_set ih.threads h hu.2.2, fun o t e => ?_, ih.log⟩
      rename_i o' t' k _
      by_cases eo : o = o'
      · subst eo
        have : some t' = some t := by rw [← e]; exact (upd_same ..).symm
        cases this
        exact hu.2.1
      · have e' : upd _ o' (some t') o = some t := e
        rw [upd_other _ _ eo] at e'
        exact ih.tasks o t e'
    | look h => exact ⟨tasked_set ih.threads h ((ih.threads _ _ h).2 _), ih.tasks, ih.log⟩
    | read h _ => exact ⟨tasked_set ih.threads h (ih.threads _ _ h).2, ih.tasks, ih.log⟩
    | unread h => exact ⟨tasked_set ih.threads h (ih.threads _ _ h).2, ih.tasks, ih.log⟩
    | upgrade h =>
      have hu := ih.threads _ _ h
      exact ⟨tasked_set ih.threads h hu, ih.tasks, ih.log⟩
    | await h _ => exact ⟨tasked_set ih.threads h (ih.threads _ _ h).2, ih.tasks, ih.log⟩
    | store h => exact ⟨tasked_set ih.threads h (ih.threads _ _ h).2, ih.tasks, ih.log⟩
    | downgrade h => exact ⟨tasked_set ih.threads h (ih.threads _ _ h).2, ih.tasks, ih.log⟩
    | @release o' _ _ _ h ht =>
      refine ⟨tasked_set ih.threads h (ih.threads _ _ h).2, fun o t e => ?_, fun e he => ?_⟩
      · by_cases eo : o = o'
        · subst eo
          have : none = some t := by rw [← e]; exact (upd_same ..).symm
          cases this
        · have e' : upd _ o' none o = some t := e
          rw [upd_other _ _ eo] at e'
          exact ih.tasks o t e'
      · rcases List.mem_append.1 he with he | he
        · exact ih.log e he
        · obtain rfl := List.mem_singleton.1 he
          exact ih.tasks _ _ ht
  | crash _ st ih =>
    cases st with
    | mk os h _ hos =>
      refine ⟨tasked_set ih.threads h trivial, fun o t e => ?_, fun e he => ?_⟩
      · simp only at e
        split at e
        · cases e
        · exact ih.tasks o t e
      · rcases List.mem_append.1 he with he | he
        · exact ih.log e he
        · obtain ⟨x, hx, rfl⟩ := List.mem_map.1 he
          exact ih.tasks _ _ ((hos _ _).1 hx).2

theorem mem_logOf {o : Nat} {log : List (Event T R)} {t : T} {r : Option R} :
    (t, r) ∈ logOf o log ↔ ∃ e ∈ log, e.obj = o ∧ e.task = t ∧ e.result = r := by
  simp only [logOf, List.mem_map, List.mem_filter, beq_iff_eq, Prod.mk.injEq]
  constructor
  · rintro ⟨e, ⟨h1, h2⟩, h3, h4⟩; exact ⟨e, h1, h2, h3, h4⟩
  · rintro ⟨e, h1, h2, h3, h4⟩; exact ⟨e, ⟨h1, h2⟩, h3, h4⟩

/-- What holds of an object at the beginning and after every visit, as long as `Ok` holds, holds before every visit. -/
theorem History.inv {Does : T → D → Option R → D → Prop} {Ok Inv : D → Prop} {task : T → Prop}
    (back : ∀ {t d r d'}, task t → Does t d r d' → Ok d' → Ok d)
    (keep : ∀ {t d r d'}, task t → Does t d r d' → Inv d → Ok d' → Inv d') {d0 d : D} {l : List (T × Option R)}
    (h : History Does d0 l d) (hl : ∀ x ∈ l, task x.1) (h0 : Inv d0) (hd : Ok d) :
    Inv d ∧ ∀ x ∈ l, ∃ d1 d2, Inv d1 ∧ Ok d1 ∧ Ok d2 ∧ Does x.1 d1 x.2 d2 := by
  induction h with
  | nil => exact ⟨h0, fun x hx => nomatch hx⟩
  | @snoc l d' t r d'' _ h2 ih =>
    have ht : task t := hl (t, r) (by simp)
    have hd' := back ht h2 hd
    obtain ⟨i1, i2⟩ := ih (fun x hx => hl x (by simp [hx])) hd'
    refine ⟨keep ht h2 i1 hd, fun x hx => ?_⟩
    rcases List.mem_append.1 hx with hx | hx
    · exact i2 x hx
    · obtain rfl := List.mem_singleton.1 hx
      exact ⟨d', d'', i1, hd', hd, h2⟩

/-- An object at any time: it is what the visits in the log made of it, and one more visit that goes on. -/
theorem now {level : Nat → Nat} {Does : Nat → T → D → Option R → D → Prop} {objs : Nat → D} {threads : List (Prog D T R Unit)}
    (hs : ∀ p ∈ threads, SafeThread level p) (hf : ∀ p ∈ threads, Faithful Does p) {s : State D T R}
    (r : Runs (begin objs threads) s) (o : Nat) : ∃ d, History (Does o) (objs o) (logOf o s.log) d ∧
      (s.objs o = d ∨ ∃ t, s.tasks o = some t ∧ Does o t d none (s.objs o)) := by
  obtain ⟨h, F⟩ := fits hs r
  obtain ⟨d, h1, h2, h3⟩ := (told hs hf r).past o
  refine ⟨d, h1, ?_⟩
  cases ht : s.tasks o with
  | none => exact .inl (h2 ht)
  | some t =>
    cases hu : (s.locks o).up with
    | none => rw [(F.task o).1 hu] at ht; cases ht
    | some i =>
      cases hi : s.threads[i]? with
      | none =>
        have := ((F.lock o).up i).1 hu
        rw [F.noThread i hi o] at this
        cases this
      | some p => exact .inr ⟨t, rfl, (h3 t i p ht hu hi).aborted⟩

/-- The same with one invariant. -/
theorem always {level : Nat → Nat} {Does : Nat → T → D → Option R → D → Prop} {objs : Nat → D}
    {threads : List (Prog D T R Unit)} {task : Nat → T → Prop} (hs : ∀ p ∈ threads, SafeThread level p)
    (hf : ∀ p ∈ threads, Faithful Does p) (ht : ∀ p ∈ threads, Uses (fun _ => True) task p) {s : State D T R}
    (r : Runs (begin objs threads) s) (o : Nat) {Ok Inv : D → Prop}
    (back : ∀ {t d r d'}, task o t → Does o t d r d' → Ok d' → Ok d)
    (keep : ∀ {t d r d'}, task o t → Does o t d r d' → Inv d → Ok d' → Inv d') (h0 : Inv (objs o)) (hd : Ok (s.objs o)) :
    Inv (s.objs o) ∧ ∀ e ∈ s.log, e.obj = o → ∃ d1 d2, Inv d1 ∧ Ok d1 ∧ Ok d2 ∧ Does o e.task d1 e.result d2 := by
  have K := tasked ht r
  obtain ⟨d, hh, hn⟩ := now hs hf r o
  have okd : Ok d := by
    rcases hn with e | ⟨t, h1, h2⟩
    · rw [← e]; exact hd
    · exact back (K.tasks o t h1) h2 hd
  obtain ⟨i1, i2⟩ := hh.inv (task := task o) (Ok := Ok) (Inv := Inv) (fun a b c => back a b c) (fun a b c e => keep a b c e) (by
    rintro ⟨t, r⟩ hx
    obtain ⟨e, he, eo, et, -⟩ := mem_logOf.1 hx
    rw [← eo, ← et]
    exact K.log e he) h0 okd
  refine ⟨?_, fun e he eo => i2 (e.task, e.result) (mem_logOf.2 ⟨e, he, eo, rfl, rfl⟩)⟩
  rcases hn with e | ⟨t, h1, h2⟩
  · rw [e]; exact i1
  · exact keep (K.tasks o t h1) h2 i1 hd

end

end Antlr.Conc
