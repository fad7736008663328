import Verif.Prediction.Model

/-! Helper lemmas: what prediction does to the token stream. -/

namespace Antlr
namespace Prediction
set_option linter.unusedSectionVars false
variable {I : Type} [TokStream I]

/-- The stream can be rewound to `start` from every state in `ok`, and back; looking ahead does not
move it. -/
structure Rewinds (start : Int) (ok : I → Prop) : Prop where
  la : ∀ {i k r}, ok i → TokStream.la i k = some r →
    ok r.2 ∧ TokStream.index r.2 = TokStream.index i
  lt : ∀ {i k r}, ok i → TokStream.lt i k = some r →
    ok r.2 ∧ TokStream.index r.2 = TokStream.index i
  consume : ∀ {i i'}, ok i → TokStream.consume i = some i' → ok i'
  toStart : ∀ {i i'}, ok i → TokStream.seek i start = some i' → ok i' ∧ TokStream.index i' = start
  back : ∀ {i i' i'' : I}, ok i → TokStream.seek i start = some i' →
    TokStream.seek i' (TokStream.index i) = some i'' →
    ok i'' ∧ TokStream.index i'' = TokStream.index i

/-- `i'` is a state in `ok` at the same position as `i`. -/
def Same (ok : I → Prop) (i i' : I) : Prop := ok i' ∧ TokStream.index i' = TokStream.index i

variable {start : Int} {ok : I → Prop}

theorem Same.rfl {i : I} (h : ok i) : Same ok i i := ⟨h, Eq.refl _⟩

theorem Same.trans {i j k : I} (h1 : Same ok i j) (h2 : Same ok j k) : Same ok i k :=
  ⟨h2.1, h2.2.trans h1.2⟩

theorem add_inp {w w' : Work I} {c : Config} (h : w.add c = some w') : w'.inp = w.inp := by
  unfold Work.add at h
  obtain ⟨r, _, h⟩ := Option.bind_eq_some_iff.1 h
  obtain ⟨m, _, h⟩ := Option.map_eq_some_iff.1 h
  rw [← h]

theorem add_busy {w w' : Work I} {c : Config} (h : w.add c = some w') : w'.busy = w.busy := by
  unfold Work.add at h
  obtain ⟨r, _, h⟩ := Option.bind_eq_some_iff.1 h
  obtain ⟨m, _, h⟩ := Option.map_eq_some_iff.1 h
  rw [← h]

theorem predTransition_same {L : Local I} (R : Rewinds L.startIndex ok) {full : Bool} {c : Config}
    {t : Nat} {p : SC} {test : Bool} {i : I} {r : Option Config × I} (hok : ok i)
    (h : predTransition L full c t p test i = some r) : Same ok i r.2 := by
  unfold predTransition at h
  obtain ⟨c', _, h⟩ := Option.bind_eq_some_iff.1 h
  split at h
  · split at h
    · obtain ⟨i1, h1, h⟩ := Option.bind_eq_some_iff.1 h
      obtain ⟨i2, h2, h⟩ := Option.map_eq_some_iff.1 h
      rw [← h]
      exact R.back hok h1 h2
    · simp only [Option.some.injEq] at h; rw [← h]; exact Same.rfl hok
  · simp only [Option.some.injEq] at h; rw [← h]; exact Same.rfl hok

theorem epsilonTarget_same {L : Local I} (R : Rewinds L.startIndex ok) {full eof : Bool} {c : Config}
    {tr : Trans} {b1 b2 : Bool} {i : I} {r : Option Config × I} (hok : ok i)
    (h : epsilonTarget L full eof c tr b1 b2 i = some r) : Same ok i r.2 := by
  have m : ∀ (t : Nat) (f : Config → Config),
      ((cloned L.atn c t).map fun c' => (some (f c'), i)) = some r → Same ok i r.2 := by
    intro t f h
    obtain ⟨c', _, h⟩ := Option.map_eq_some_iff.1 h
    rw [← h]; exact Same.rfl hok
  have n : (some (none, i) : Option (Option Config × I)) = some r → Same ok i r.2 := by
    intro h; simp only [Option.some.injEq] at h; rw [← h]; exact Same.rfl hok
  unfold epsilonTarget at h
  split at h
  · exact m _ id h
  · exact m _ _ h
  · exact predTransition_same R hok h
  · exact m _ id h
  · exact predTransition_same R hok h
  all_goals first
    | exact n h
    | (split at h
       · obtain ⟨b, _, h⟩ := Option.bind_eq_some_iff.1 h
         split at h
         · exact m _ id h
         · exact n h
       · exact n h)

/-- A recursive call leaves the stream where it is. -/
def RecSame (ok : I → Prop) (rec : Rec I) : Prop :=
  ∀ {c b dp w w'}, ok w.inp → rec c b dp w = some w' → Same ok w.inp w'.inp

theorem workStep_same {L : Local I} (R : Rewinds L.startIndex ok) {full eof : Bool} {rec : Rec I}
    (hrec : RecSame ok rec) {c : Config} {b : Bool} {dp : Int} {st : ATNState} {tr : Trans} {i : Nat}
    {w w' : Work I} (hok : ok w.inp) (h : workStep L full eof rec c b dp st tr i w = some w') :
    Same ok w.inp w'.inp := by
  unfold workStep at h
  obtain ⟨drop, _, h⟩ := Option.bind_eq_some_iff.1 h
  split at h
  · simp only [Option.some.injEq] at h; rw [← h]; exact Same.rfl hok
  · obtain ⟨r, hr, h⟩ := Option.bind_eq_some_iff.1 h
    have h1 := epsilonTarget_same R hok hr
    split at h
    · simp only [Option.some.injEq] at h; rw [← h]; exact h1
    · split at h
      · split at h
        · simp at h
        · obtain ⟨c'', _, h⟩ := Option.bind_eq_some_iff.1 h
          split at h
          · simp only [Option.some.injEq] at h; rw [← h]; exact h1
          · exact h1.trans (hrec (by exact h1.1) h)
      · split at h
        · simp only [Option.some.injEq] at h; rw [← h]; exact h1
        · exact h1.trans (hrec (by exact h1.1) h)

theorem workLoop_same {L : Local I} (R : Rewinds L.startIndex ok) {full eof : Bool} {rec : Rec I}
    (hrec : RecSame ok rec) {c : Config} {b : Bool} {dp : Int} {st : ATNState}
    (trs : List (Trans × Nat)) {w w' : Work I} (hok : ok w.inp)
    (h : workLoop L full eof rec c b dp st trs w = some w') : Same ok w.inp w'.inp := by
  induction trs generalizing w with
  | nil => simp only [workLoop, Option.some.injEq] at h; rw [← h]; exact Same.rfl hok
  | cons e trs ih =>
    obtain ⟨tr, i⟩ := e
    rw [workLoop] at h
    obtain ⟨w1, h1, h⟩ := Option.bind_eq_some_iff.1 h
    have s1 := workStep_same R hrec hok h1
    exact s1.trans (ih s1.1 h)

theorem closureWork_same {L : Local I} (R : Rewinds L.startIndex ok) {full eof : Bool} {rec : Rec I}
    (hrec : RecSame ok rec) {c : Config} {b : Bool} {dp : Int} {w w' : Work I} (hok : ok w.inp)
    (h : closureWork L full eof rec c b dp w = some w') : Same ok w.inp w'.inp := by
  unfold closureWork at h
  obtain ⟨st, _, h⟩ := Option.bind_eq_some_iff.1 h
  obtain ⟨w1, h1, h⟩ := Option.bind_eq_some_iff.1 h
  have e : w1.inp = w.inp := by
    split at h1
    · simp only [Option.some.injEq] at h1; rw [h1]
    · exact add_inp h1
  rw [← e] at hok ⊢
  exact workLoop_same R hrec _ hok h

theorem popLoop_same {rec : Rec I} (hrec : RecSame ok rec) {c : Config} {b : Bool} {dp : Int}
    (es : List (Option PC × Int)) {w w' : Work I} (hok : ok w.inp)
    (h : popLoop rec c b dp es w = some w') : Same ok w.inp w'.inp := by
  induction es generalizing w with
  | nil => simp only [popLoop, Option.some.injEq] at h; rw [← h]; exact Same.rfl hok
  | cons e es ih =>
    obtain ⟨p, r⟩ := e
    rw [popLoop] at h
    split at h
    · split at h
      · simp only [Option.some.injEq] at h; rw [← h]; exact Same.rfl hok
      · simp at h
    · obtain ⟨q, _, h⟩ := Option.bind_eq_some_iff.1 h
      obtain ⟨w1, h1, h⟩ := Option.bind_eq_some_iff.1 h
      have s1 := hrec hok h1
      exact s1.trans (ih s1.1 h)

theorem closureCheck_same {L : Local I} (R : Rewinds L.startIndex ok) (full eof : Bool) (n : Nat) :
    RecSame ok (closureCheck L full eof n) := by
  induction n with
  | zero => intro c b dp w w' _ h; simp [closureCheck] at h
  | succ n ih =>
    intro c b dp w w' hok h
    rw [closureCheck] at h
    obtain ⟨st, _, h⟩ := Option.bind_eq_some_iff.1 h
    split at h
    · split at h
      · obtain ⟨w1, h1, h⟩ := Option.bind_eq_some_iff.1 h
        have s1 : Same ok w.inp w1.inp := by
          split at h1
          · split at h1
            · rw [add_inp h1]; exact Same.rfl hok
            · exact closureWork_same R ih hok h1
          · simp only [Option.some.injEq] at h1; rw [← h1]; exact Same.rfl hok
        exact s1.trans (popLoop_same ih _ s1.1 h)
      · split at h
        · rw [add_inp h]; exact Same.rfl hok
        · exact closureWork_same R ih hok h
    · exact closureWork_same R ih hok h

theorem closure_same {L : Local I} (R : Rewinds L.startIndex ok) {fuel : Nat} {full eof : Bool}
    {c : Config} {b : Bool} {w w' : Work I} (hok : ok w.inp)
    (h : closure L fuel full eof c b w = some w') : Same ok w.inp w'.inp := by
  unfold closure at h
  obtain ⟨w1, h1, h⟩ := Option.bind_eq_some_iff.1 h
  split at h
  · simp at h
  · simp only [Option.some.injEq] at h
    rw [← h]
    exact closureCheck_same R full eof fuel hok h1

theorem closeAll_same {L : Local I} (R : Rewinds L.startIndex ok) {fuel : Nat} {full eof : Bool}
    (cs : List Config) {w w' : Work I} (hok : ok w.inp)
    (h : closeAll L fuel full eof cs w = some w') : Same ok w.inp w'.inp := by
  induction cs generalizing w with
  | nil => simp only [closeAll, Option.some.injEq] at h; rw [← h]; exact Same.rfl hok
  | cons c cs ih =>
    rw [closeAll] at h
    obtain ⟨w1, h1, h⟩ := Option.bind_eq_some_iff.1 h
    have s1 := closure_same R hok h1
    exact s1.trans (ih s1.1 h)

theorem computeReach_same {L : Local I} (R : Rewinds L.startIndex ok) {fuel : Nat} {cs : ConfigSet}
    {t : Int} {full : Bool} {mc : PC.Cache} {i : I} {r : Option ConfigSet × PC.Cache × I}
    (hok : ok i) (h : computeReach L fuel cs t full mc i = some r) : Same ok i r.2.2 := by
  unfold computeReach at h
  obtain ⟨⟨im, mc1, sk⟩, _, h⟩ := Option.bind_eq_some_iff.1 h
  obtain ⟨⟨re, mc2, i2⟩, h2, h⟩ := Option.bind_eq_some_iff.1 h
  obtain ⟨⟨re3, mc3⟩, _, h⟩ := Option.bind_eq_some_iff.1 h
  obtain ⟨⟨re4, mc4⟩, _, h⟩ := Option.map_eq_some_iff.1 h
  rw [← h]
  dsimp only at h2 ⊢
  split at h2
  · simp only [Option.some.injEq, Prod.mk.injEq] at h2
    rw [← h2.2.2]; exact Same.rfl hok
  · obtain ⟨w, h3, h4⟩ := Option.map_eq_some_iff.1 h2
    simp only [Prod.mk.injEq] at h4
    rw [← h4.2.2]
    exact closeAll_same (w := ⟨_, _, _, i⟩) R _ hok h3

theorem startLoop_same {L : Local I} (R : Rewinds L.startIndex ok) {fuel : Nat} {ctx : PC}
    {full : Bool} (trs : List Trans) (k : Nat) {w w' : Work I} (hok : ok w.inp)
    (h : startLoop L fuel ctx full trs k w = some w') : Same ok w.inp w'.inp := by
  induction trs generalizing w k with
  | nil => simp only [startLoop, Option.some.injEq] at h; rw [← h]; exact Same.rfl hok
  | cons tr trs ih =>
    rw [startLoop] at h
    obtain ⟨c, _, h⟩ := Option.bind_eq_some_iff.1 h
    obtain ⟨w1, h1, h⟩ := Option.bind_eq_some_iff.1 h
    have s1 := closure_same (w := { w with busy := [] }) R hok h1
    exact Same.trans s1 (ih _ s1.1 h)

theorem computeStart_same {L : Local I} (R : Rewinds L.startIndex ok) {fuel : Nat} {ctx : PC}
    {full : Bool} {mc : PC.Cache} {i : I} {r : ConfigSet × PC.Cache × I} (hok : ok i)
    (h : computeStart L fuel ctx full mc i = some r) : Same ok i r.2.2 := by
  unfold computeStart at h
  obtain ⟨st, _, h⟩ := Option.bind_eq_some_iff.1 h
  obtain ⟨w, h1, h⟩ := Option.map_eq_some_iff.1 h
  rw [← h]
  exact startLoop_same (w := ⟨_, _, _, i⟩) R _ _ hok h1

theorem computeTarget_same {L : Local I} (R : Rewinds L.startIndex ok) {fuel : Nat} {d : DFA}
    {prev : Nat} {t : Int} {mc : PC.Cache} {i : I} {r : Nat × DFA × PC.Cache × I} (hok : ok i)
    (h : computeTarget L fuel d prev t mc i = some r) : Same ok i r.2.2.2 := by
  unfold computeTarget at h
  obtain ⟨p, _, h⟩ := Option.bind_eq_some_iff.1 h
  obtain ⟨⟨re, mc1, i1⟩, h1, h⟩ := Option.bind_eq_some_iff.1 h
  have s1 := computeReach_same R hok h1
  dsimp only at h
  split at h
  · obtain ⟨d', _, h⟩ := Option.map_eq_some_iff.1 h
    rw [← h]; exact s1
  · obtain ⟨D, _, h⟩ := Option.bind_eq_some_iff.1 h
    obtain ⟨d', _, h⟩ := Option.map_eq_some_iff.1 h
    rw [← h]; exact s1

theorem nextState_same {L : Local I} (R : Rewinds L.startIndex ok) {fuel : Nat} {d : DFA}
    {prev : Nat} {t : Int} {mc : PC.Cache} {i : I} {r : Nat × DFA × PC.Cache × I} (hok : ok i)
    (h : nextState L fuel d prev t mc i = some r) : Same ok i r.2.2.2 := by
  unfold nextState at h
  obtain ⟨e, _, h⟩ := Option.bind_eq_some_iff.1 h
  split at h
  · simp only [Option.some.injEq] at h; rw [← h]; exact Same.rfl hok
  · exact computeTarget_same R hok h

theorem startState_same {L : Local I} (R : Rewinds L.startIndex ok) {fuel : Nat} {d : DFA} {i : I}
    {r : Nat × DFA × PC.Cache × I} (hok : ok i) (h : startState L fuel d i = some r) :
    Same ok i r.2.2.2 := by
  unfold startState at h
  obtain ⟨e, _, h⟩ := Option.bind_eq_some_iff.1 h
  split at h
  · simp only [Option.some.injEq] at h; rw [← h]; exact Same.rfl hok
  · obtain ⟨⟨cs, mc1, i1⟩, h1, h⟩ := Option.bind_eq_some_iff.1 h
    have s1 := computeStart_same R hok h1
    dsimp only at h
    split at h
    · obtain ⟨s0, _, h⟩ := Option.bind_eq_some_iff.1 h
      obtain ⟨⟨cs', mc2⟩, _, h⟩ := Option.bind_eq_some_iff.1 h
      obtain ⟨s, _, h⟩ := Option.bind_eq_some_iff.1 h
      obtain ⟨d', _, h⟩ := Option.map_eq_some_iff.1 h
      rw [← h]; exact s1
    · simp only [Option.some.injEq] at h; rw [← h]; exact s1

/-- What the exec functions guarantee: an error is returned at the start position. -/
def Ends (start : Int) (ok : I → Prop) (r : Res I) : Prop :=
  ok r.inp ∧ ∀ s o, r.out = .noAlt s o → TokStream.index r.inp = start

theorem ends_alt {r : Res I} {k : Int} (h : ok r.inp) (e : r.out = .alt k) : Ends start ok r :=
  ⟨h, fun s o h' => by rw [e] at h'; cases h'⟩

theorem noViableAlt_same {L : Local I} (R : Rewinds L.startIndex ok) {i : I} {r : Outcome × I}
    (hok : ok i) (h : noViableAlt L i = some r) : Same ok i r.2 := by
  unfold noViableAlt at h
  obtain ⟨s, _, h⟩ := Option.bind_eq_some_iff.1 h
  obtain ⟨x, h1, h⟩ := Option.bind_eq_some_iff.1 h
  obtain ⟨o, _, h⟩ := Option.map_eq_some_iff.1 h
  rw [← h]
  exact R.lt hok h1

theorem fullLoop_ends {L : Local I} (R : Rewinds L.startIndex ok) {cf : Nat} {d : DFA} (n : Nat)
    {prev : ConfigSet} {t : Int} {mc : PC.Cache} {i : I} {r : Res I} (hok : ok i)
    (h : fullLoop L cf d n prev t mc i = some r) : Ends L.startIndex ok r := by
  induction n generalizing prev t mc i with
  | zero => simp [fullLoop] at h
  | succ n ih =>
    rw [fullLoop] at h
    obtain ⟨⟨re, mc1, i1⟩, h1, h⟩ := Option.bind_eq_some_iff.1 h
    have s1 := computeReach_same R hok h1
    dsimp only at h s1
    split at h
    · obtain ⟨i2, h2, h⟩ := Option.bind_eq_some_iff.1 h
      have s2 := R.toStart s1.1 h2
      obtain ⟨k, _, h⟩ := Option.bind_eq_some_iff.1 h
      split at h
      · simp only [Option.some.injEq] at h
        rw [← h]; exact ends_alt (k := k) s2.1 (Eq.refl _)
      · obtain ⟨x, h3, h⟩ := Option.map_eq_some_iff.1 h
        have s3 := noViableAlt_same R s2.1 h3
        rw [← h]
        exact ⟨s3.1, fun _ _ _ => s3.2.trans s2.2⟩
    · split at h
      · simp only [Option.some.injEq] at h
        rw [← h]; exact ends_alt s1.1 (Eq.refl _)
      · obtain ⟨dec, _, h⟩ := Option.bind_eq_some_iff.1 h
        split at h
        · simp only [Option.some.injEq] at h
          rw [← h]; exact ends_alt s1.1 (Eq.refl _)
        · split at h
          · obtain ⟨i2, h2, h⟩ := Option.bind_eq_some_iff.1 h
            obtain ⟨x, h3, h⟩ := Option.bind_eq_some_iff.1 h
            exact ih (R.la (R.consume s1.1 h2) h3).1 h
          · exact ih s1.1 h

theorem needFull_ends {L : Local I} (R : Rewinds L.startIndex ok) {cf n : Nat} {d : DFA}
    {D : DFAState} {mc : PC.Cache} {i : I} {r : Res I} (hok : ok i)
    (h : needFull L cf n d D mc i = some r) : Ends L.startIndex ok r := by
  unfold needFull at h
  obtain ⟨⟨alts, i1⟩, h1, h⟩ := Option.bind_eq_some_iff.1 h
  have k1 : ok i1 := by
    unfold conflictPreds at h1
    split at h1
    · simp only [Option.some.injEq, Prod.mk.injEq] at h1; rw [← h1.2]; exact hok
    · obtain ⟨i2, h2, h1⟩ := Option.bind_eq_some_iff.1 h1
      have k2 : ok i2 := by
        split at h2
        · exact (R.toStart hok h2).1
        · simp only [Option.some.injEq] at h2; rw [← h2]; exact hok
      split at h1
      · simp only [Option.some.injEq, Prod.mk.injEq] at h1; rw [← h1.2]; exact k2
      · obtain ⟨i3, h3, h1⟩ := Option.map_eq_some_iff.1 h1
        simp only [Prod.mk.injEq] at h1
        rw [← h1.2]
        split at h3
        · rename_i hne
          rw [if_pos hne] at h2
          exact (R.back hok h2 h3).1
        · simp only [Option.some.injEq] at h3; rw [← h3]; exact k2
  dsimp only at h
  split at h
  · obtain ⟨k, _, h⟩ := Option.map_eq_some_iff.1 h
    rw [← h]; exact ends_alt k1 (Eq.refl _)
  · obtain ⟨ctx, _, h⟩ := Option.bind_eq_some_iff.1 h
    obtain ⟨⟨s0, mc1, i2⟩, h2, h⟩ := Option.bind_eq_some_iff.1 h
    have s2 := computeStart_same R k1 h2
    obtain ⟨r1, h3, h⟩ := Option.map_eq_some_iff.1 h
    unfold execFull at h3
    obtain ⟨i3, h4, h3⟩ := Option.bind_eq_some_iff.1 h3
    obtain ⟨x, h5, h3⟩ := Option.bind_eq_some_iff.1 h3
    have := fullLoop_ends R n (R.la (R.toStart s2.1 h4).1 h5).1 h3
    rw [← h]
    exact this

theorem accepting_ends {L : Local I} (R : Rewinds L.startIndex ok) {d : DFA} {D : DFAState} {i : I}
    {r : Res I} (hok : ok i) (h : accepting L d D i = some r) : Ends L.startIndex ok r := by
  unfold accepting at h
  split at h
  · simp only [Option.some.injEq] at h
    rw [← h]; exact ends_alt hok (Eq.refl _)
  · obtain ⟨i1, h1, h⟩ := Option.bind_eq_some_iff.1 h
    have s1 := R.toStart hok h1
    split at h
    · obtain ⟨x, h3, h⟩ := Option.map_eq_some_iff.1 h
      have s3 := noViableAlt_same R s1.1 h3
      rw [← h]
      exact ⟨s3.1, fun _ _ _ => s3.2.trans s1.2⟩
    · simp only [Option.some.injEq] at h
      rw [← h]; exact ends_alt s1.1 (Eq.refl _)
    · simp only [Option.some.injEq] at h
      rw [← h]; exact ends_alt s1.1 (Eq.refl _)

theorem failing_ends {L : Local I} (R : Rewinds L.startIndex ok) {d : DFA} {D : DFAState} {i : I}
    {r : Res I} (hok : ok i) (h : failing L d D i = some r) : Ends L.startIndex ok r := by
  unfold failing at h
  obtain ⟨x, h1, h⟩ := Option.bind_eq_some_iff.1 h
  obtain ⟨i2, h2, h⟩ := Option.bind_eq_some_iff.1 h
  have s2 := R.toStart (noViableAlt_same R hok h1).1 h2
  obtain ⟨k, _, h⟩ := Option.map_eq_some_iff.1 h
  split at h
  all_goals
    rw [← h]
    exact ⟨s2.1, fun _ _ _ => s2.2⟩

theorem execLoop_ends {L : Local I} (R : Rewinds L.startIndex ok) {cf : Nat} (n : Nat) {d : DFA}
    {prev : Nat} {t : Int} {mc : PC.Cache} {i : I} {r : Res I} (hok : ok i)
    (h : execLoop L cf n d prev t mc i = some r) : Ends L.startIndex ok r := by
  induction n generalizing d prev t mc i with
  | zero => simp [execLoop] at h
  | succ n ih =>
    rw [execLoop] at h
    obtain ⟨⟨D, d1, mc1, i1⟩, h1, h⟩ := Option.bind_eq_some_iff.1 h
    have s1 := nextState_same R hok h1
    dsimp only at h s1
    split at h
    · obtain ⟨p, _, h⟩ := Option.bind_eq_some_iff.1 h
      exact failing_ends R s1.1 h
    · obtain ⟨Ds, _, h⟩ := Option.bind_eq_some_iff.1 h
      split at h
      · exact needFull_ends R s1.1 h
      · split at h
        · exact accepting_ends R s1.1 h
        · split at h
          · obtain ⟨i2, h2, h⟩ := Option.bind_eq_some_iff.1 h
            obtain ⟨x, h3, h⟩ := Option.bind_eq_some_iff.1 h
            exact ih (R.la (R.consume s1.1 h2) h3).1 h
          · exact ih s1.1 h

/-- The whole prediction, for a stream that can be rewound to where it stands. -/
theorem adaptivePredict_inp (P : Params I) (cf n : Nat) (d : DFA) (i : I) (r : Res I)
    (R : Rewinds (TokStream.index i) ok) (hok : ok (TokStream.mark i).2)
    (h : adaptivePredict P cf n d i = some r) :
    match r.out with
    | .alt _ => ∃ j, ok j ∧ TokStream.index j = TokStream.index i ∧
        TokStream.release j (TokStream.mark i).1 = some r.inp
    | .noAlt _ _ => ok r.inp ∧ TokStream.index r.inp = TokStream.index i := by
  unfold adaptivePredict at h
  obtain ⟨⟨s0, d1, mc1, i1⟩, h1, h⟩ := Option.bind_eq_some_iff.1 h
  have s1 := startState_same (L := localOf P d i) R hok h1
  obtain ⟨x, h2, h⟩ := Option.bind_eq_some_iff.1 h
  unfold execAtn at h2
  obtain ⟨y, h3, h2⟩ := Option.bind_eq_some_iff.1 h2
  have s2 := execLoop_ends (L := localOf P d i) R n (R.la s1.1 h3).1 h2
  cases he : x.out with
  | alt k =>
    rw [he] at h
    obtain ⟨i2, h4, h⟩ := Option.bind_eq_some_iff.1 h
    obtain ⟨i3, h5, h⟩ := Option.map_eq_some_iff.1 h
    have s4 := R.toStart s2.1 h4
    rw [← h]
    simp only [he]
    exact ⟨i2, s4.1, s4.2, h5⟩
  | noAlt s o =>
    rw [he] at h
    simp only [Option.some.injEq] at h
    rw [← h]
    simp only [he]
    exact ⟨s2.1, s2.2 s o he⟩

end Prediction
end Antlr
