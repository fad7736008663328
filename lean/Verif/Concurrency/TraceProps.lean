import Verif.Concurrency.Trace
import Verif.Concurrency.Example

/-! # C74: threads get the answers of the log -/

namespace Antlr.Conc
open Antlr Prediction PredictionProps

variable {I C : Type} [TokStream I] [InputData C]

/-- **C74** Each thread gets the answers that are logged.  The tasks it ended, in the order of the log and with the answers
logged, are a beginning of what its session does if it is given those answers: whatever the schedule, and if the thread
panics, up to then. -/
theorem C74_thread {level : Nat → Nat} {b : Nat} {objs : Nat → DFA} {sessions : List (Session I C)}
    {s : State DFA (Task I C) (Answer I C)} (E : Execution level b objs sessions s) {i : Nat} {x : Session I C}
    (hx : sessions[i]? = some x) : x.Part (toldBy i s.log) := by
  have hr : ∃ p, s.threads[i]? = some p := by
    have hlen : s.threads.length = sessions.length := by
      have runs := E.runs
      clear E
      induction runs with
      | refl => simp [begin]
      | step _ st ih => cases st <;> simpa [State.go, State.setLock] using ih
      | crash _ st ih => cases st; simpa using ih
    have := (List.getElem?_eq_some_iff.1 hx).1
    exact ⟨_, List.getElem?_eq_getElem (by omega)⟩
  obtain ⟨p, hp⟩ := hr
  have := outs (Q := fun i l => ∀ x, sessions[i]? = some x → x.Part l) (fun p hp => (E.aside p hp).safe) (by
    intro j p hp
    rw [List.getElem?_map, Option.map_eq_some_iff] at hp
    obtain ⟨y, hy, rfl⟩ := hp
    refine (y.says [] _).mono ?_ (fun _ _ _ _ => trivial)
    rintro l ⟨z, hz, rfl⟩ x hx
    rw [hy] at hx
    cases hx
    exact hz) E.runs i p hp
  exact this.now x hx

/-! ### The two parsers of `Example.lean` -/

/-- The second parser asks for the second prediction only if the answer to the first that is in the log is 1. -/
example (s : State DFA (Task CTS Str) (Answer CTS Str)) (E : Execution id 1 exObjs exSessions s) (x y : Said CTS Str)
    (h : toldBy 1 s.log = [x, y]) : x.2.1 = .predict exEndParams 20 20 (exEndInput 1) ∧
      ∃ inp reports, x.2.2 = .predict (.alt 1) inp reports := by
  have := C74_thread E (i := 1) (x := exSessions[1]) rfl
  rw [h] at this
  obtain ⟨a, b, ha, hb, e⟩ | ⟨a, out, inp, reports, rest, ha, hr, e⟩ := this
  all_goals
    have hm : ∀ a : List (Said CTS Str), Many (fun x => ∃ _ : CTS, Session.Trace (.stop : Session CTS Str) x) a → a = [] := by
      intro a ha
      induction ha with
      | nil => rfl
      | cons h _ ih => obtain ⟨_, rfl⟩ := h; simpa using ih
    cases hm a ha
  · obtain rfl | ⟨_, rfl⟩ := hb <;> cases e
  · cases e
    refine ⟨rfl, inp, reports, ?_⟩
    dsimp only at hr
    split at hr
    · subst_vars
      rfl
    · cases hr

set_option synthInstance.maxSize 2000 in
/-- It does so if the threads take turns. -/
example : (toldBy 1 (schedule (begin exObjs (exSessions.map Session.prog)) exTurns).log).length = 2 := by decide +kernel

end Antlr.Conc
