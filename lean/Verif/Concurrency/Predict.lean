import Verif.Concurrency.Bind

/-! # `predictProg` does what `adaptivePredict` does, and uses locks properly -/

namespace Antlr.Conc
open Antlr Prediction

variable {I C : Type} [TokStream I] [InputData C] {level : Nat → Nat} {o : Nat} {side : I → P I C Unit}

/-! ## The DFA in the results of the last steps -/

theorem failing_dfa {L : Local I} {d : DFA} {p : DFAState} {inp : I} {r : Res I} (h : failing L d p inp = some r) :
    r.dfa = d := by
  simp only [failing, Option.bind_eq_some_iff, Option.map_eq_some_iff] at h
  obtain ⟨_, _, _, _, k, _, rfl⟩ := h
  split <;> rfl

theorem accepting_dfa {L : Local I} {d : DFA} {D : DFAState} {inp : I} {r : Res I} (h : accepting L d D inp = some r) :
    r.dfa = d := by
  unfold accepting at h
  split at h
  · simp only [Option.some.injEq] at h; subst h; rfl
  · simp only [Option.bind_eq_some_iff] at h
    obtain ⟨i, _, h⟩ := h
    split at h
    · simp only [Option.map_eq_some_iff] at h
      obtain ⟨_, _, rfl⟩ := h; rfl
    · simp only [Option.some.injEq] at h; subst h; rfl
    · simp only [Option.some.injEq] at h; subst h; rfl

theorem fullLoop_dfa {L : Local I} {cf : Nat} {d : DFA} : ∀ {n s t mc inp} {r : Res I},
    fullLoop L cf d n s t mc inp = some r → r.dfa = d
  | 0, _, _, _, _, _, h => by simp [fullLoop] at h
  | n + 1, s, t, mc, inp, r, h => by
    simp only [fullLoop, Option.bind_eq_some_iff] at h
    obtain ⟨⟨reach, mc', i'⟩, _, h⟩ := h
    cases reach with
    | none =>
      simp only [Option.bind_eq_some_iff] at h
      obtain ⟨_, _, _, _, h⟩ := h
      split at h
      · simp only [Option.some.injEq] at h; subst h; rfl
      · simp only [Option.map_eq_some_iff] at h
        obtain ⟨_, _, rfl⟩ := h; rfl
    | some reach =>
      dsimp only at h
      split at h
      · simp only [Option.some.injEq] at h; subst h; rfl
      · simp only [Option.bind_eq_some_iff] at h
        obtain ⟨dec, _, h⟩ := h
        cases dec with
        | some ke => simp only [Option.some.injEq] at h; subst h; rfl
        | none =>
          dsimp only at h
          split at h
          · simp only [Option.bind_eq_some_iff] at h
            obtain ⟨_, _, _, _, h⟩ := h
            exact fullLoop_dfa h
          · exact fullLoop_dfa h

theorem needFull_dfa {L : Local I} {cf n : Nat} {d : DFA} {D : DFAState} {mc : PC.Cache} {inp : I} {r : Res I}
    (h : needFull L cf n d D mc inp = some r) : r.dfa = d := by
  simp only [needFull, Option.bind_eq_some_iff] at h
  obtain ⟨⟨alts, i1⟩, _, h⟩ := h
  dsimp only at h
  split at h
  · simp only [Option.map_eq_some_iff] at h
    obtain ⟨_, _, rfl⟩ := h; rfl
  · simp only [Option.bind_eq_some_iff, Option.map_eq_some_iff] at h
    obtain ⟨_, _, ⟨s0, mc', i2⟩, _, x, hx, rfl⟩ := h
    simp only [execFull, Option.bind_eq_some_iff] at hx
    obtain ⟨_, _, _, _, hx⟩ := hx
    exact fullLoop_dfa (r := x) hx

/-! ## Visits -/

section
variable (hside : ∀ i, Aside level (level o) (side i)) {L : Local I} {cf : Nat} {Q : Option (Answer I C) → DFA → Prop}
include hside

theorem target_visit {d : DFA} {prev : Nat} {t : Int} {mc : PC.Cache} {inp : I} (h0 : Q none d)
    (h1 : ∀ p reach mc' inp' D, d.states[prev]? = some p →
      computeReach L cf p.configs t false mc inp = some (some reach, mc', inp') →
      targetState L.toParams d.decision reach = some D → Q none (DFA.addState L.hash d D).1)
    (h2 : ∀ D d' mc' inp', computeTarget L cf d prev t mc inp = some (D, d', mc', inp') → Q none d') :
    Visit o Q (fun a d' => computeTarget L cf d prev t mc inp = some (a.1, d', a.2.1, a.2.2)) d
      (targetProg side o L cf prev t mc inp) := by
  refine ⟨h0, h0, ?_⟩
  rw [if_pos rfl]
  refine Visit.lift _ h0 fun p hp => ?_
  refine (hside inp).seen h0 ?_
  refine Visit.lift _ h0 ?_
  rintro ⟨reach, mc', inp'⟩ hr
  refine ⟨h0, h0, h0, ?_⟩
  rw [if_pos rfl]
  cases reach with
  | none =>
    refine Visit.lift _ h0 fun d' hd' => ?_
    have e : computeTarget L cf d prev t mc inp = some (ERROR_DFA_STATE_REF, d', mc', inp') := by
      simp [computeTarget, hp, hr, hd']
    refine ⟨h0, ?_⟩
    rw [if_pos rfl]
    exact ⟨h2 _ _ _ _ e, h2 _ _ _ _ e, e⟩
  | some reach =>
    refine Visit.lift _ h0 fun D hD => ?_
    have h3 := h1 p reach mc' inp' D hp hr hD
    refine ⟨h0, ?_⟩
    rw [if_pos rfl]
    refine ⟨h3, ?_⟩
    rw [if_pos rfl]
    refine Visit.lift _ h3 fun d' hd' => ?_
    have e : computeTarget L cf d prev t mc inp = some ((DFA.addState L.hash d D).2, d', mc', inp') := by
      simp [computeTarget, hp, hr, hD, hd']
    refine ⟨h3, ?_⟩
    rw [if_pos rfl]
    exact ⟨h2 _ _ _ _ e, h2 _ _ _ _ e, e⟩

theorem next_visit {d : DFA} {prev : Nat} {t : Int} {mc : PC.Cache} {inp : I}
    (hQ : ∀ x, Prediction.Mid L cf d prev t mc inp x → Q none x) :
    Visit o Q (fun a d' => nextState L cf d prev t mc inp = some (a.1, d', a.2.1, a.2.2)) d
      (nextProg side o L cf prev t mc inp) := by
  have h0 := hQ _ (.here ..)
  refine ⟨h0, ?_⟩
  rw [if_pos rfl]
  refine Visit.lift _ h0 fun e he => ?_
  cases e with
  | some D => exact ⟨h0, by simp [nextState, he]⟩
  | none =>
    have e : nextState L cf d prev t mc inp = computeTarget L cf d prev t mc inp := by simp [nextState, he]
    rw [e]
    exact target_visit hside h0 (fun p reach mc' inp' D a b c => hQ _ (.half a b c))
      fun D d' mc' inp' h => hQ _ (.after (e.trans h))

theorem end_visit {d : DFA} {inp : I} {f : DFA → Option (Res I)} (hd : Q none d) (hf : ∀ r, f d = some r → r.dfa = d) :
    Visit o Q (fun a d' => f d = some ⟨a.1, d', a.2.1, a.2.2⟩) d (endProg side o inp f) := by
  refine (hside inp).seen hd ⟨hd, ?_⟩
  rw [if_pos rfl]
  refine Visit.lift _ hd fun r hr => ⟨hd, ?_⟩
  rw [hr]
  have := hf r hr
  cases r; simp_all

theorem loop_visit : ∀ {n : Nat} {d : DFA} {prev : Nat} {t : Int} {mc : PC.Cache} {inp : I},
    (∀ x, Prediction.Mid L cf d prev t mc inp x → Q none x) →
    Visit o Q (fun a d' => execLoop L cf n d prev t mc inp = some ⟨a.1, d', a.2.1, a.2.2⟩) d
      (loopProg side o L cf n prev t mc inp)
  | 0, d, prev, t, mc, inp, hQ => hQ _ (.here ..)
  | n + 1, d, prev, t, mc, inp, hQ => by
    refine (next_visit hside hQ).bind ?_
    rintro ⟨D, mc', inp'⟩ d' hd' hn
    dsimp only at hn
    refine ⟨hd', ?_⟩
    rw [if_pos rfl]
    simp only [execLoop, hn, Option.bind_some]
    by_cases hD : D = ERROR_DFA_STATE_REF
    · simp only [if_pos hD]
      refine Visit.lift _ hd' fun p hp => ?_
      simp only [hp, Option.bind_some]
      exact end_visit (f := fun d => failing L d p inp') hside hd' fun r hr => failing_dfa hr
    · simp only [if_neg hD]
      refine Visit.lift _ hd' fun Ds hDs => ?_
      simp only [hDs, Option.bind_some]
      by_cases hfull : Ds.requiresFullCtx = true ∧ L.mode ≠ .SLL
      · simp only [if_pos hfull]
        exact end_visit (f := fun d => needFull L cf n d Ds mc' inp') hside hd' fun r hr => needFull_dfa hr
      · simp only [if_neg hfull]
        by_cases hacc : Ds.isAccept = true
        · simp only [if_pos hacc]
          exact end_visit (f := fun d => accepting L d Ds inp') hside hd' fun r hr => accepting_dfa hr
        · simp only [if_neg hacc]
          by_cases ht : t ≠ TOKEN_EOF
          · simp only [if_pos ht]
            refine (hside inp').seen hd' ?_
            refine Visit.lift _ hd' ?_
            rintro ⟨t', i'⟩ hi
            have e : ((TokStream.consume inp').bind fun inp => (TokStream.la inp 1).bind fun r =>
                execLoop L cf n d' D r.1 mc' r.2) = execLoop L cf n d' D t' mc' i' := by
              rw [← Option.bind_assoc, hi]; rfl
            rw [e]
            exact loop_visit fun x hx =>
              hQ x (.later hn hD hDs hfull (by simpa using hacc) (by rw [if_pos ht]; exact hi) hx)
          · simp only [if_neg ht]
            exact loop_visit fun x hx =>
              hQ x (.later hn hD hDs hfull (by simpa using hacc) (by rw [if_neg ht]) hx)

end

theorem start_visit (hside : ∀ i, Aside level (level o) (side i)) {P : Params I} {cf : Nat} {d : DFA} {inp : I}
    {Q : Option (Answer I C) → DFA → Prop} (hQ : ∀ x, Prediction.Interrupted P cf d inp x → Q none x) :
    Visit o Q (fun a d' => startState (localOf P d inp) cf d (TokStream.mark inp).2 = some (a.1, d', a.2.1, a.2.2)) d
      (startProg side o (localOf P d inp) cf (TokStream.mark inp).2) := by
  have h0 := hQ _ .before
  refine ⟨h0, ?_⟩
  rw [if_pos rfl]
  refine Visit.lift _ h0 fun s0 hs0 => ?_
  cases s0 with
  | some s0 => exact ⟨h0, by simp [startState, hs0]⟩
  | none =>
    refine (hside _).seen h0 ?_
    refine Visit.lift _ h0 ?_
    rintro ⟨cs, mc, i⟩ hcs
    refine ⟨h0, h0, ?_⟩
    rw [if_pos rfl]
    dsimp only
    by_cases hp : d.isPrecedence = true
    · simp only [if_pos hp]
      refine Visit.lift _ h0 fun s0 hd0 => ?_
      refine Visit.lift _ h0 ?_
      rintro ⟨cs', mc'⟩ hf
      refine Visit.lift _ h0 fun s hs => ?_
      have h1 := hQ _ (.closure hcs hp hd0 hs)
      have h2 := hQ _ (.filtered hcs hp hd0 hs hf)
      refine ⟨h0, ?_⟩
      rw [if_pos rfl]
      refine ⟨h1, ?_⟩
      rw [if_pos rfl]
      refine ⟨h1, ?_⟩
      rw [if_pos rfl]
      refine ⟨h2, ?_⟩
      rw [if_pos rfl]
      refine Visit.lift _ h2 fun d' hd' => ?_
      have e : startState (localOf P d inp) cf d (TokStream.mark inp).2 = some ((DFA.addState P.hash
          { d with states := d.states.set s0 { s with configs := cs } } (DFAState.new 0 cs')).2, d', mc', i) := by
        rw [startState, hs0]
        simp only [Option.bind_some, hcs]
        rw [if_pos hp]
        simp only [Option.bind_eq_some_iff]
        exact ⟨s0, hd0, (cs', mc'), hf, s, hs, Option.map_eq_some_iff.2 ⟨d', hd', rfl⟩⟩
      have h3 := hQ _ (.started e)
      refine ⟨h2, ?_⟩
      rw [if_pos rfl]
      exact ⟨h3, h3, e⟩
    · simp only [if_neg hp]
      have hp' : d.isPrecedence = false := by simpa using hp
      have h1 := hQ _ (.added hp' hcs)
      have e : startState (localOf P d inp) cf d (TokStream.mark inp).2 = some ((DFA.addState P.hash d
          (DFAState.new 0 cs)).2, { (DFA.addState P.hash d (DFAState.new 0 cs)).1 with
            s0 := some (DFA.addState P.hash d (DFAState.new 0 cs)).2 }, mc, i) := by
        rw [startState, hs0]
        simp only [Option.bind_some, hcs, hp']
        rfl
      have h3 := hQ _ (.started e)
      refine ⟨h0, ?_⟩
      rw [if_pos rfl]
      refine ⟨h1, ?_⟩
      rw [if_pos rfl]
      refine ⟨h1, ?_⟩
      rw [if_pos rfl]
      exact ⟨h3, h3, e⟩

/-- A prediction, as a visit of the DFA of its decision. -/
theorem predict_visit (hside : ∀ i, Aside level (level o) (side i)) (P : Params I) (cf n : Nat) (inp : I) (d : DFA)
    {α : Type} {A : α → DFA → Prop} {f : Outcome × I × List Prediction.Report → Conc.P I C α} {k : Conc.P I C α}
    (hk : (predictProg side o P cf n inp).bind f = .acquire o (.predict P cf n inp) k) :
    Visit o (Does (C := C) (.predict P cf n inp) d) A d k := by
  simp only [predictProg, Prog.bind, Prog.acquire.injEq, true_and] at hk
  subst hk
  have hQ : ∀ x, Prediction.Interrupted P cf d inp x → Does (I := I) (C := C) (.predict P cf n inp) d none x :=
    fun x hx => hx
  have h0 := hQ _ .before
  refine ⟨h0, ?_⟩
  rw [if_pos rfl]
  refine Visit.bind (A' := fun _ _ => False) ?_ fun _ _ _ h => h.elim
  refine (start_visit hside hQ).bind ?_
  rintro ⟨s0, mc, i⟩ d' hd' hs
  dsimp only at hs
  refine (hside i).seen hd' ?_
  refine Visit.lift _ hd' ?_
  rintro ⟨t, i'⟩ hla
  refine (loop_visit hside fun x hx => hQ x (.mid hs hla hx)).bind ?_
  rintro ⟨out, i2, reports⟩ d2 hd2 hl
  dsimp only at hl
  have hx : execAtn (localOf P d inp) cf n d' s0 mc i = some ⟨out, d2, i2, reports⟩ := by
    simp only [execAtn, hla, Option.bind_some]; exact hl
  cases out with
  | alt a =>
    refine Visit.lift _ hd2 fun j hj => ⟨hd2, ?_⟩
    rw [if_pos rfl]
    show adaptivePredict P cf n d inp = _
    simp only [adaptivePredict, hs, hx, Option.bind_some]
    simp only [Option.bind_eq_some_iff] at hj
    obtain ⟨j', hj1, hj2⟩ := hj
    simp only [Option.bind_eq_some_iff, Option.map_eq_some_iff]
    exact ⟨j', hj1, j, hj2, rfl⟩
  | noAlt a b =>
    refine ⟨hd2, ?_⟩
    rw [if_pos rfl]
    show adaptivePredict P cf n d inp = _
    simp only [adaptivePredict, hs, hx, Option.bind_some]

end Antlr.Conc
