import Verif.Concurrency.Props

/-! # Executions that were run -/

namespace Antlr.Conc
open Antlr Prediction

section
variable {D T R : Type}

/-- A step of thread `i`, if it can take one. -/
def step (i : Nat) (s : State D T R) : Option (State D T R) :=
  match s.threads[i]? with
  | some (.acquire o t k) => match (s.locks o).up with
    | none => some { (s.setLock o { s.locks o with up := some i }).go i k with tasks := upd s.tasks o (some t) }
    | some _ => none
  | some (.look o k) => some (s.go i (k (s.objs o)))
  | some (.read o k) => match (s.locks o).writer with
    | false => some ((s.setLock o { s.locks o with readers := i :: (s.locks o).readers }).go i k)
    | true => none
  | some (.unread o k) => some ((s.setLock o { s.locks o with readers := (s.locks o).readers.erase i }).go i k)
  | some (.upgrade o k) => some ((s.setLock o { s.locks o with writer := true }).go i (.await o k))
  | some (.await o k) => match (s.locks o).readers with
    | [] => some (s.go i k)
    | _ :: _ => none
  | some (.store o d k) => some { s.go i k with objs := upd s.objs o d }
  | some (.downgrade o k) => some ((s.setLock o { s.locks o with writer := false }).go i k)
  | some (.release o r k) => match s.tasks o with
    | some t => some { (s.setLock o { s.locks o with up := none }).go i k with
        tasks := upd s.tasks o none, log := s.log ++ [⟨i, o, t, some r⟩] }
    | none => none
  | _ => none

theorem step_sound {i : Nat} {s s' : State D T R} (h : step i s = some s') : Step i s s' := by
  unfold step at h
  split at h
  · split at h
    · cases h; exact .acquire ‹_› ‹_›
    · cases h
  · cases h; exact .look ‹_›
  · split at h
    · cases h; exact .read ‹_› ‹_›
    · cases h
  · cases h; exact .unread ‹_›
  · cases h; exact .upgrade ‹_›
  · split at h
    · cases h; exact .await ‹_› ‹_›
    · cases h
  · cases h; exact .store ‹_›
  · cases h; exact .downgrade ‹_›
  · split at h
    · cases h; exact .release ‹_› ‹_›
    · cases h
  · cases h

/-- A schedule: the threads named take a step if they can. -/
def schedule (s : State D T R) : List Nat → State D T R
  | [] => s
  | i :: l => schedule ((step i s).getD s) l

theorem schedule_sound {s0 s : State D T R} (h : Runs s0 s) (l : List Nat) : Runs s0 (schedule s l) := by
  induction l generalizing s with
  | nil => exact h
  | cons i l ih =>
    refine ih ?_
    cases e : step i s with
    | none => exact h
    | some s' => exact .step h (step_sound e)

end

/-! ### Two parsers for `s : ('a' | 'a' | 'b') EOF ;` -/

open PredictionProps

/-- One parser reads `b` and predicts, the other predicts twice: on `a`, then, if the answer was 1, on `b`. -/
def exSessions : List (Session CTS Str) :=
  [.predict (fun _ => .stop) 0 exEndParams 20 20 (exEndInput 2) fun _ => .stop,
   .predict (fun _ => .stop) 0 exEndParams 20 20 (exEndInput 1) fun a =>
    match a.1 with
    | .alt 1 => .predict (fun _ => .stop) 0 exEndParams 20 20 (exEndInput 2) fun _ => .stop
    | _ => .stop]

def exObjs : Nat → DFA := fun _ => exEndDfa

theorem exSessions_execution (l : List Nat) :
    Execution id 1 exObjs exSessions (schedule (begin exObjs (exSessions.map Session.prog)) l) := by
  refine ⟨?_, schedule_sound .refl l⟩
  intro x hx
  simp only [exSessions, List.mem_cons, List.not_mem_nil, or_false] at hx
  rcases hx with rfl | rfl
  · exact ⟨by decide, fun _ => trivial, fun _ => trivial⟩
  · refine ⟨by decide, fun _ => trivial, fun a => ?_⟩
    dsimp only
    split
    · exact ⟨by decide, fun _ => trivial, fun _ => trivial⟩
    · exact trivial

/-- All tasks ask for the decision. -/
theorem exSessions_only : ∀ x ∈ exSessions, x.Only fun o' t => o' = 0 → AsksFor exEnd exEndDec t := by
  have asks : ∀ k : Nat, k ≤ 2 → AsksFor exEnd exEndDec (.predict exEndParams 20 20 (exEndInput k) : Task CTS Str) :=
    fun k hk => ⟨_, _, _, _, rfl, rfl, _, _, _, exEnd_asked hk⟩
  intro x hx
  simp only [exSessions, List.mem_cons, List.not_mem_nil, or_false] at hx
  rcases hx with rfl | rfl
  · exact ⟨fun _ => asks 2 (by decide), fun _ => trivial, fun _ => trivial⟩
  · refine ⟨fun _ => asks 1 (by decide), fun _ => trivial, fun a => ?_⟩
    dsimp only
    split
    · exact ⟨fun _ => asks 2 (by decide), fun _ => trivial, fun _ => trivial⟩
    · exact trivial

/-- The answers in the log: thread, and alternative. -/
def answers {I C : Type} (log : List (Event (Task I C) (Answer I C))) : List (Nat × Option Int) :=
  log.map fun e => (e.thread, match e.result with | some (.predict (.alt k) _ _) => some k | _ => none)

/-- The threads take turns, the second one first: it gets the lock; the first waits until its first prediction ends; the
last prediction of the second thread then uses states the first added. -/
def exTurns : List Nat := (List.replicate 80 [1, 0]).flatten

set_option synthInstance.maxSize 2000 in
theorem exTurns_log : answers (schedule (begin exObjs (exSessions.map Session.prog)) exTurns).log =
      [(1, some 1), (0, some 3), (1, some 3)] ∧
    ((schedule (begin exObjs (exSessions.map Session.prog)) exTurns).objs 0).states.length = 4 := by decide +kernel

/-- The DFA is what the three predictions make of it. -/
example : History Does exEndDfa (logOf 0 (schedule (begin exObjs (exSessions.map Session.prog)) exTurns).log)
    ((schedule (begin exObjs (exSessions.map Session.prog)) exTurns).objs 0) :=
  C74_rest (exSessions_execution exTurns) 0 (by decide +kernel)

/-- Each of the three answers is right: under every schedule, also if threads panic. -/
example (s : State DFA (Task CTS Str) (Answer CTS Str)) (E : Execution id 1 exObjs exSessions s)
    (hsz : (s.objs 0).states.length ≤ ERROR_DFA_STATE_REF) (e : Event (Task CTS Str) (Answer CTS Str)) (he : e ∈ s.log)
    (heo : e.obj = 0) (k : Nat) (hk : k ≤ 2) (het : e.task = .predict exEndParams 20 20 (exEndInput k)) (out : Outcome)
    (inp' : CTS) (reports : List Prediction.Report) (her : e.result = some (.predict out inp' reports))
    (hf : ¬ ∃ a b l, Report.fullContext a b l ∈ reports) :
    PredictionSpec.LocalRight exEnd exEndDec (typesAhead (exSource [k]) 0 (exEndInput k)) exEndParams.mode out :=
  C76_local_partial E (q := 2) (m := 0) (by decide +kernel) exEnd_plain exEnd_decides exSessions_only hsz he heo rfl het
    (exEnd_asked hk) her hf

/-- Thread 1 panics in the middle of its first prediction, after it changed the DFA; this is logged. -/
example : ∃ s, Execution id 1 exObjs exSessions s ∧ (∃ e ∈ s.log, e.thread = 1 ∧ e.result = none) ∧
    (s.objs 0).states.length = 2 ∧ ¬ Finished s 0 ∧ (s.locks 0).up = none := by
  have E := exSessions_execution (List.replicate 12 1)
  have h : ((schedule (begin exObjs (exSessions.map Session.prog)) (List.replicate 12 1)).locks 0).up = some 1 ∧
      ((schedule (begin exObjs (exSessions.map Session.prog)) (List.replicate 12 1)).tasks 0).isSome = true ∧
      ((schedule (begin exObjs (exSessions.map Session.prog)) (List.replicate 12 1)).objs 0).states.length = 2 ∧
      ((schedule (begin exObjs (exSessions.map Session.prog)) (List.replicate 12 1)).threads.map
        fun p => match p with | .ret () => true | _ => false) = [false, false] := by decide +kernel
  generalize schedule (begin exObjs (exSessions.map Session.prog)) (List.replicate 12 1) = s at E h
  obtain ⟨h1, h2, h3, h4⟩ := h
  obtain ⟨t, ht⟩ := Option.isSome_iff_exists.1 h2
  obtain ⟨l, hl⟩ := few E.runs
  have ht1 : ∃ p, s.threads[1]? = some p := by
    have := congrArg (fun l => l[1]?) h4
    simp only [List.getElem?_map, List.getElem?_cons_succ, List.getElem?_cons_zero, Option.map_eq_some_iff] at this
    exact ⟨_, this.choose_spec.1⟩
  have ht0 : ∃ p, s.threads[0]? = some p ∧ p ≠ .ret () := by
    have := congrArg (fun l => l[0]?) h4
    simp only [List.getElem?_map, List.getElem?_cons_zero, Option.map_eq_some_iff] at this
    obtain ⟨p, hp, hq⟩ := this
    exact ⟨p, hp, by rintro rfl; cases hq⟩
  obtain ⟨p, hp⟩ := ht1
  obtain ⟨q, hq, hqr⟩ := ht0
  obtain ⟨s', hc⟩ := can_crash hl hp
  refine ⟨s', ⟨E.ordered, .crash E.runs hc⟩, ?_⟩
  cases hc with
  | mk os _ _ hos =>
    refine ⟨⟨⟨1, 0, t, none⟩, ?_, rfl, rfl⟩, h3, ?_, ?_⟩
    · exact List.mem_append_right _ (List.mem_map.2 ⟨(0, t), (hos 0 t).2 ⟨h1, ht⟩, rfl⟩)
    · rintro (h | h) <;> simp only [List.getElem?_set_ne (show (1 : Nat) ≠ 0 by decide), hq] at h
      · cases h
      · exact hqr (Option.some.inj h)
    · simp [Lock.without, h1]

/-! ### Two lexers -/

open Lexer LexExample LexCacheProps in
/-- One lexer matches a blank, another the beginning of the example text. -/
def lexSessions : List (Session CTS Str) :=
  [.lex (fun _ => .stop) 0 exFull 20 20 (Lex.new (InputStream.new (Str.mk [' ']))) fun _ => .stop,
   .lex (fun _ => .stop) 0 exFull 20 20 (Lex.new (InputStream.new (Str.mk exText))) fun _ => .stop]

open Lexer LexExample LexCacheProps in
def lexObjs : Nat → DFA := fun _ => (DFA.new exATN 0 0).getD exEndDfa

theorem lexSessions_execution (l : List Nat) :
    Execution id 1 lexObjs lexSessions (schedule (begin lexObjs (lexSessions.map Session.prog)) l) := by
  refine ⟨?_, schedule_sound .refl l⟩
  intro x hx
  simp only [lexSessions, List.mem_cons, List.not_mem_nil, or_false] at hx
  rcases hx with rfl | rfl <;> exact ⟨by decide, fun _ => trivial, fun _ => trivial⟩

def found {I C : Type} (log : List (Event (Task I C) (Answer I C))) : List (Nat × Option Lexer.MatchRes) :=
  log.map fun e => (e.thread, match e.result with | some (.lex r _) => some r | _ => none)

set_option synthInstance.maxSize 2000 in
/-- They take turns. -/
example : found (schedule (begin lexObjs (lexSessions.map Session.prog)) exTurns).log =
    [(1, some (.ok 1)), (0, some (.ok 2))] := by decide +kernel

open Lexer LexExample LexCacheProps in
/-- What they find is what they find alone: under every schedule, also if one of them panics. -/
example (s : State DFA (Task CTS Str) (Answer CTS Str)) (E : Execution id 1 lexObjs lexSessions s)
    (hsz : (s.objs 0).states.length + 21 ≤ ERROR_DFA_STATE_REF) (e : Event (Task CTS Str) (Answer CTS Str)) (he : e ∈ s.log)
    (heo : e.obj = 0) (L L' : Lex Str) (het : e.task = .lex exFull 20 20 L) (r : MatchRes)
    (her : e.result = some (.lex r L')) :
    (matchToken exFull 20 20 L [lexObjs 0]).map (fun x => (x.1, x.2.1.cur)) = some (r, L'.cur) := by
  have hn : (DFA.new exATN 0 0).map (fun d => (d.isPrecedence, d.states.length)) = some (false, 1) := by decide
  obtain ⟨d, hd, hp⟩ := Option.map_eq_some_iff.1 hn
  have hp1 := congrArg Prod.fst hp
  have hp2 := congrArg Prod.snd hp
  dsimp only at hp1 hp2
  have e0 : lexObjs 0 = d := by simp [lexObjs, hd]
  refine C76_tokens_partial E (env := exFull) (mode := 0) (fe := 20) ?_ rfl ?_ ?_ ?_ hsz he heo
    ⟨fun _ _ L => LexProps.Untouched.refl L, fun L => LexProps.Untouched.refl L, fun _ => rfl⟩ het her
  · intro x hx
    obtain rfl := List.mem_singleton.1 hx
    rw [e0]
    exact ⟨0, 0, hd, hp1⟩
  · intro x hx
    simp only [lexSessions, List.mem_cons, List.not_mem_nil, or_false] at hx
    rcases hx with rfl | rfl <;>
      exact ⟨fun _ => ⟨_, _, _, rfl, rfl, rfl, by decide, rfl, sane_str _⟩, fun _ => trivial, fun _ => trivial⟩
  · intro l l' h
    rw [Encode.configs_inj h]
  · intro x hx
    obtain rfl := List.mem_singleton.1 hx
    rw [e0, hp2]
    simp [ERROR_DFA_STATE_REF]

end Antlr.Conc
