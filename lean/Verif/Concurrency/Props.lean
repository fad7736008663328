import Verif.Concurrency.Serial
import Verif.Concurrency.Grow
import Verif.Prediction.AnswerProps
import Verif.Prediction.RangeProps
import Verif.Lexer.CacheProps

/-!
# C74, C75, C76: threads that share DFAs

Threads are sessions: predictions, matches of tokens, looks at DFAs, in an order that can depend on the answers.
Executions interleave them in any way, step by step, and threads panic anywhere.
-/

namespace Antlr.Conc
open Antlr Prediction

variable {I C : Type} [TokStream I] [InputData C]

/-- An execution of threads that take locks in order. -/
structure Execution (level : Nat → Nat) (b : Nat) (objs : Nat → DFA) (sessions : List (Session I C))
    (s : State DFA (Task I C) (Answer I C)) : Prop where
  ordered : ∀ x ∈ sessions, x.Ordered level b
  runs : Runs (begin objs (sessions.map Session.prog)) s

section
variable {level : Nat → Nat} {b : Nat} {objs : Nat → DFA} {sessions : List (Session I C)}
  {s : State DFA (Task I C) (Answer I C)}

theorem Execution.aside (E : Execution level b objs sessions s) : ∀ p ∈ sessions.map Session.prog, Aside level b p := by
  intro p hp
  obtain ⟨x, hx, rfl⟩ := List.mem_map.1 hp
  exact Session.aside x (E.ordered x hx)

/-- An invariant of the DFA `o` while there is room in it. -/
theorem Execution.always (E : Execution level b objs sessions s) {o : Nat} {T : Task I C → Prop}
    (ht : ∀ x ∈ sessions, x.Only fun o' t => o' = o → T t) {m : Nat} {Inv : DFA → Prop}
    (keep : ∀ {t d r d'}, T t → Does t d r d' → Inv d → d'.states.length ≤ m → Inv d') (h0 : Inv (objs o))
    (hd : (s.objs o).states.length ≤ m) :
    Inv (s.objs o) ∧ ∀ e ∈ s.log, e.obj = o → T e.task ∧ ∃ d1 d2, Inv d1 ∧ d1.states.length ≤ m ∧ d2.states.length ≤ m ∧
      Does e.task d1 e.result d2 := by
  have hu : ∀ p ∈ sessions.map Session.prog, Uses (fun _ => True) (fun o' t => o' = o → T t) p := by
    intro p hp
    obtain ⟨x, hx, rfl⟩ := List.mem_map.1 hp
    exact (ht x hx).uses
  obtain ⟨h1, h2⟩ := Conc.always (Does := fun _ => Does) (Ok := fun d => d.states.length ≤ m) (Inv := Inv)
    (fun p hp => (E.aside p hp).safe) (fun p hp => (E.aside p hp).faithful) hu E.runs o
    (fun _ h hl => Nat.le_trans (does_size h) hl) (fun htk h hi hl => keep (htk rfl) h hi hl) h0 hd
  exact ⟨h1, fun e he eo => ⟨(tasked hu E.runs).log e he eo, h2 e he eo⟩⟩

/-! ### C74 -/

/-- **C74** Whatever the threads do at the same time, each DFA is at any moment what predictions and matches make of it
that come one after the other, each having the DFA for itself and getting the answer that is logged — or
being interrupted by a panic; and then perhaps the beginning of one more. -/
theorem C74_serial (E : Execution level b objs sessions s) (o : Nat) :
    ∃ d, History Does (objs o) (logOf o s.log) d ∧
      (s.objs o = d ∨ ∃ t, s.tasks o = some t ∧ Does t d none (s.objs o)) :=
  now (fun p hp => (E.aside p hp).safe) (fun p hp => (E.aside p hp).faithful) E.runs o

/-- **C74** When no thread holds the lock, the DFA is what the tasks in the log made of it. -/
theorem C74_rest (E : Execution level b objs sessions s) (o : Nat) (h : (s.locks o).up = none) :
    History Does (objs o) (logOf o s.log) (s.objs o) := by
  obtain ⟨_, F⟩ := fits (fun p hp => (E.aside p hp).safe) E.runs
  obtain ⟨d, h1, rfl | ⟨t, h2, -⟩⟩ := C74_serial E o
  · exact h1
  · rw [(F.task o).1 h] at h2; cases h2

/-! ### C75 -/

/-- **C75** No deadlock: as long as a thread has something left to do some thread can take a step, or stands
where it panics. -/
theorem C75_progress (E : Execution level b objs sessions s) {i : Nat} (hi : ¬ Finished s i) :
    ∃ j s', Step j s s' ∨ (s.threads[j]? = some .panic ∧ Crash j s s') :=
  progress (fun p hp => (E.aside p hp).safe) E.runs hi

/-- **C75** No livelock: there is no infinite execution (of loops that are bounded, as they are in the model). -/
theorem C75_finite : ¬ ∃ f : Nat → State DFA (Task I C) (Answer I C), ∀ n, Moves (f n) (f (n + 1)) := by
  rintro ⟨f, hf⟩
  have key : ∀ s, ∀ n, f n ≠ s := by
    intro s
    refine moves_wf.induction (C := fun s => ∀ n, f n ≠ s) s ?_
    intro x ih n e
    subst e
    exact ih _ (hf n) (n + 1) rfl
  exact key _ 0 rfl

/-- **C75** From every state of an execution, a state in which all threads have finished can be reached. -/
theorem C75_ends (E : Execution level b objs sessions s) :
    ∃ s', Runs s s' ∧ Execution level b objs sessions s' ∧ ∀ i, Finished s' i := by
  have trans : ∀ {s1 s2 s3 : State DFA (Task I C) (Answer I C)}, Runs s1 s2 → Runs s2 s3 → Runs s1 s3 := by
    intro s1 s2 s3 h1 h2
    induction h2 with
    | refl => exact h1
    | step _ h ih => exact .step ih h
    | crash _ h ih => exact .crash ih h
  suffices ∀ s : State DFA (Task I C) (Answer I C), Execution level b objs sessions s →
      ∃ s', Runs s s' ∧ ∀ i, Finished s' i by
    obtain ⟨s', h1, h2⟩ := this s E
    exact ⟨s', h1, ⟨E.ordered, trans E.runs h1⟩, h2⟩
  intro s
  refine moves_wf.induction (C := fun s => Execution level b objs sessions s → ∃ s', Runs s s' ∧ ∀ i, Finished s' i) s ?_
  intro s ih E
  by_cases hf : ∀ i, Finished s i
  · exact ⟨s, .refl, hf⟩
  · obtain ⟨i, hi⟩ := not_forall.1 hf
    obtain ⟨j, s1, h1 | ⟨hp, h1⟩⟩ := C75_progress E hi
    · obtain ⟨s2, h2, h3⟩ := ih s1 ⟨j, .inl h1⟩ ⟨E.ordered, .step E.runs h1⟩
      exact ⟨s2, trans (.step .refl h1) h2, h3⟩
    · have hn : ¬ Finished s j := by rintro (h | h) <;> rw [hp] at h <;> cases h
      obtain ⟨s2, h2, h3⟩ := ih s1 ⟨j, .inr ⟨h1, hn⟩⟩ ⟨E.ordered, .crash E.runs h1⟩
      exact ⟨s2, trans (.crash .refl h1) h2, h3⟩

/-- A thread that takes a lock it has waits forever. -/
theorem blocked {D T R : Type} {p : Prog D T R Unit} {t t' : T} {k1 k2 : D → Prog D T R Unit} (objs : Nat → D)
    (hp : p = .acquire 0 t (.look 0 k1)) (h1 : k1 (objs 0) = .look 0 k2) (h2 : ∃ k3, k2 (objs 0) = .acquire 0 t' k3) :
    ∃ s, Runs (begin objs [p]) s ∧ ¬ Finished s 0 ∧ s.threads[0]? ≠ some .panic ∧ ∀ j s', ¬ Step j s s' := by
  subst hp
  have r1 : Runs (begin objs [.acquire 0 t (.look 0 k1)]) _ := .step .refl (Step.acquire (i := 0) rfl rfl)
  have r2 := Runs.step r1 (Step.look (i := 0) rfl)
  have r3 := Runs.step r2 (Step.look (i := 0) (k := k2) (congrArg some h1))
  obtain ⟨k3, h2⟩ := h2
  obtain ⟨s, r3, et, el⟩ : ∃ s, Runs (begin objs [.acquire 0 t (.look 0 k1)]) s ∧ s.threads = [.acquire 0 t' k3] ∧
      (s.locks 0).up = some 0 := ⟨_, r3, congrArg (fun x => [x]) h2, rfl⟩
  refine ⟨s, r3, ?_, ?_, ?_⟩
  · rintro (h | h) <;> rw [et] at h <;> cases h
  · rw [et]; intro h; cases h
  · intro j s' h
    have only : ∀ q, s.threads[j]? = some q → q = .acquire 0 t' k3 := by
      intro q hq
      rw [et] at hq
      cases j with
      | zero => cases hq; rfl
      | succ j => cases hq
    cases h with
    | acquire h hu =>
      cases only _ h
      rw [el] at hu
      cases hu
    | look h => cases only _ h
    | read h _ => cases only _ h
    | unread h => cases only _ h
    | upgrade h => cases only _ h
    | await h _ => cases only _ h
    | store h => cases only _ h
    | downgrade h => cases only _ h
    | release h _ => cases only _ h

/-- **C75** The order of locks is needed.  A parser whose predicate, listener or token source starts a prediction of the
same decision (a second parser for the same grammar is enough: the DFAs are shared) waits for itself, forever. -/
theorem C75_false_nested (P : Params I) (cf n : Nat) (inp : I) (objs : Nat → DFA)
    (h0 : (objs 0).isPrecedence = false ∧ (objs 0).s0 = none) :
    ∃ s, Runs (begin objs [(Session.predict (C := C) (fun _ => .predict (fun _ => .stop) 0 P cf n inp fun _ => .stop)
        0 P cf n inp fun _ => .stop).prog]) s ∧ ¬ Finished s 0 ∧ s.threads[0]? ≠ some .panic ∧ ∀ j s', ¬ Step j s s' := by
  refine blocked (t := .predict P cf n inp) (t' := .predict P cf n inp) objs rfl rfl ?_
  dsimp only
  rw [h0.1, h0.2]
  exact ⟨_, rfl⟩

/-! ### C76 -/

/-- **C76** Predictions of all threads name alternatives of the decision, whatever the schedule and whichever of them
panic; and what the DFA remembers at any time, also in the middle of a prediction, is about alternatives
of the decision (`C73_cached`). -/
theorem C76_range (E : Execution level b objs sessions s) {o : Nat} {atn : ATN} {q : Nat} {m : Int}
    (h0 : DFA.new atn q m = some (objs o))
    (ht : ∀ x ∈ sessions, x.Only fun o' t => o' = o → ∃ P cf n inp, t = .predict P cf n inp ∧ P.atn = atn)
    {st : ATNState} (hst : atn.states[q]? = some st) (hn : st.transitions.length < 2 ^ 64) :
    PredictionProps.Predicted atn q (s.objs o) ∧
    ∀ e ∈ s.log, e.obj = o → ∀ k inp reports, e.result = some (.predict (.alt k) inp reports) →
      1 ≤ k ∧ k ≤ st.transitions.length := by
  obtain ⟨h1, h2⟩ := E.always (Inv := PredictionProps.Predicted atn q) ht (by
      rintro t d r d' ⟨P, cf, n, inp, rfl, hP⟩ hd hi -
      cases r with
      | none => exact .cut hi hP hd
      | some a =>
        cases a with
        | predict out inp' reports => exact .after hi hP hd
        | lex => exact hd.elim) (.new h0) (Nat.le_refl _)
  refine ⟨h1, fun e he eo k inp reports hr => ?_⟩
  obtain ⟨⟨P, cf, n, inp', het, hP⟩, d1, d2, i1, -, -, hd⟩ := h2 e he eo
  rw [het, hr] at hd
  exact PredictionProps.C73_range hst hn i1 P hP cf n inp' _ hd k rfl

/-- **C76** (partial like C26: the hash must not collide, and nothing is said about actions) The token a match of any
thread finds, and its end, are those that a match alone with unused DFAs finds: whatever the schedule, whatever
the other threads match, and whichever of them panic. -/
theorem C76_tokens_partial (E : Execution level b objs sessions s) {o : Nat} {env : Lexer.Env C} {fc fe mode : Nat}
    {fresh : List DFA} (hf : ∀ d ∈ fresh, ∃ s n, DFA.new env.atn s n = some d ∧ d.isPrecedence = false)
    (h0 : fresh[mode]? = some (objs o))
    (ht : ∀ x ∈ sessions, x.Only fun o' t => o' = o → ∃ env' fe' L, t = .lex env' fc fe' L ∧ env'.atn = env.atn ∧
      env'.hash = env.hash ∧ fe' ≤ fe ∧ L.mode = mode ∧ LexCache.Sane L.cur.input.data)
    (hh : LexCacheProps.TellsApart env.hash) (hr : LexCache.Room (fe + 1) fresh)
    (hsz : (s.objs o).states.length + (fe + 1) ≤ ERROR_DFA_STATE_REF)
    {e : Event (Task I C) (Answer I C)} (he : e ∈ s.log) (heo : e.obj = o) {env' : Lexer.Env C} (htame : LexSpec.Tame env')
    {fe' : Nat} {L : Lexer.Lex C} (het : e.task = .lex env' fc fe' L) {r : Lexer.MatchRes} {L' : Lexer.Lex C}
    (her : e.result = some (.lex r L')) :
    (Lexer.matchToken env' fc fe' L fresh).map (fun x => (x.1, x.2.1.cur)) = some (r, L'.cur) := by
  have hlt := (List.getElem?_eq_some_iff.1 h0).1
  have room : ∀ {d : DFA} {n : Nat}, d.states.length + (fe + 1) ≤ ERROR_DFA_STATE_REF → n ≤ fe →
      LexCache.Room (n + 1) (fresh.set mode d) := by
    intro d n hd hn x hx
    rcases List.mem_or_eq_of_mem_set hx with hx | rfl
    · have := hr x hx; omega
    · omega
  obtain ⟨h1, h2⟩ := E.always (m := ERROR_DFA_STATE_REF - (fe + 1))
    (Inv := fun d => LexCacheProps.Reached env.atn env.hash fc (fresh.set mode d) ∧ d.states.length + (fe + 1) ≤ ERROR_DFA_STATE_REF)
    ht (by
      rintro t d r d' ⟨env', fe', L, rfl, h1, h2, h3, rfl, h5⟩ hd ⟨hi, hl⟩ hm
      have hm' : d'.states.length + (fe + 1) ≤ ERROR_DFA_STATE_REF := by omega
      have hget : (fresh.set L.mode d)[L.mode]? = some d := List.getElem?_set_self hlt
      refine ⟨?_, hm'⟩
      cases r with
      | none =>
        have := LexCacheProps.Reached.cut hi h1 h2 h5 hget hd (by omega)
        rwa [List.set_set] at this
      | some a =>
        cases a with
        | predict => exact hd.elim
        | lex r L' =>
          have := hd _ hget
          rw [List.set_set] at this
          exact .used hi h1 h2 h5 (room hl h3) this) (by
      have e : fresh.set mode (objs o) = fresh := by
        obtain ⟨h, h0⟩ := List.getElem?_eq_some_iff.1 h0
        rw [← h0]
        exact List.set_getElem_self h
      exact ⟨by rw [e]; exact .new hf, hr _ (List.mem_of_getElem? h0)⟩) (by omega)
  obtain ⟨⟨env'', fe'', L'', e1, e2, e3, e4, rfl, e6⟩, d1, d2, ⟨i1, i2⟩, -, -, hd⟩ := h2 e he heo
  rw [het] at e1
  cases e1
  rw [het, her] at hd
  have hget : (fresh.set L.mode d1)[L.mode]? = some d1 := List.getElem?_set_self hlt
  have := LexCacheProps.C26_type_and_end_partial htame (fc := fc) (fe := fe') (by rw [e3]; exact hh)
    (d := fresh) (d' := fresh.set L.mode d1) (by rw [e2, e3]; exact .new hf) (by rw [e2, e3]; exact i1) (by simp)
    (fun x hx => by have := hr x hx; omega) (room i2 e4) e6
  rw [this, hd _ hget]
  rfl

end

/-! C40 for threads -/

section
variable {level : Nat → Nat} {b : Nat} {objs : Nat → DFA} {sessions : List (Session CTS C)}
  {s : State DFA (Task CTS C) (Answer CTS C)}
open PredictionProps PredictionSpec TokenSpec

/-- The tasks of a decision: predictions by parsers for the grammar, in any rule and place. -/
def AsksFor (atn : ATN) (dec : ATNState) (t : Task CTS C) : Prop :=
  ∃ P cf n inp, t = .predict P cf n inp ∧ P.atn = atn ∧ ∃ src c σ, Asked src c dec P inp σ

/-- **C76** Every answer of a prediction, in any thread, is one that a parser alone can get after some predictions; so what
C40 says about answers holds for it (`C40_local_partial` below, and likewise `C40_full_partial`). -/
theorem C76_alone (E : Execution level b objs sessions s) {o : Nat} {atn : ATN} {q : Nat} {m : Int}
    (h0 : DFA.new atn q m = some (objs o)) {dec : ATNState}
    (ht : ∀ x ∈ sessions, x.Only fun o' t => o' = o → AsksFor atn dec t)
    (hsz : (s.objs o).states.length ≤ ERROR_DFA_STATE_REF) {e : Event (Task CTS C) (Answer CTS C)} (he : e ∈ s.log)
    (heo : e.obj = o) {P : Params CTS} {cf n : Nat} {inp : CTS} (het : e.task = .predict P cf n inp)
    {out : Outcome} {inp' : CTS} {reports : List Prediction.Report} (her : e.result = some (.predict out inp' reports)) :
    ∃ d d', Cached atn q dec d ∧ adaptivePredict P cf n d inp = some ⟨out, d', inp', reports⟩ ∧
      d'.states.length ≤ ERROR_DFA_STATE_REF := by
  obtain ⟨-, h2⟩ := E.always (m := ERROR_DFA_STATE_REF) (Inv := Cached atn q dec) ht (by
      rintro t d r d' ⟨P, cf, n, inp, rfl, hP, src, c, σ, hq⟩ hd ⟨d0, k, hk, hi⟩ hm
      refine ⟨d0, k, hk, ?_⟩
      cases r with
      | none => exact .cut hi hP hq hd hm
      | some a =>
        cases a with
        | predict out inp' reports => exact Later.step hi hP hq hd hm
        | lex => exact hd.elim) ⟨_, m, h0, .refl⟩ hsz
  obtain ⟨-, d1, d2, i1, -, i3, hd⟩ := h2 e he heo
  rw [het, her] at hd
  exact ⟨d1, d2, i1, hd, i3⟩

/-- **C76** (partial like C40) A prediction of any thread that ends without a look at the context is right about the
decision in all contexts in which its rule can be called, whatever the schedule and whichever threads panic. -/
theorem C76_local_partial (E : Execution level b objs sessions s) {o : Nat} {atn : ATN} {q : Nat} {m : Int}
    (h0 : DFA.new atn q m = some (objs o)) {dec : ATNState} (ha : Plain atn) (hdec : Decides atn q dec)
    (ht : ∀ x ∈ sessions, x.Only fun o' t => o' = o → AsksFor atn dec t)
    (hsz : (s.objs o).states.length ≤ ERROR_DFA_STATE_REF) {e : Event (Task CTS C) (Answer CTS C)} (he : e ∈ s.log)
    (heo : e.obj = o) {P : Params CTS} (hP : P.atn = atn) {cf n : Nat} {inp : CTS} (het : e.task = .predict P cf n inp)
    {src : Source} {c : Int} {σ : List Nat} (hq : Asked src c dec P inp σ)
    {out : Outcome} {inp' : CTS} {reports : List Prediction.Report} (her : e.result = some (.predict out inp' reports))
    (hf : ¬ ∃ a b l, Report.fullContext a b l ∈ reports) : LocalRight atn dec (typesAhead src c inp) P.mode out := by
  obtain ⟨d, d', h1, h2, h3⟩ := C76_alone E h0 ht hsz he heo het her
  exact C40_local_partial ha hdec h1 hP hq h2 h3 hf

end

end Antlr.Conc
