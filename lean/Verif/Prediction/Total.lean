import Verif.Prediction.TotalSpec
import Verif.Prediction.Reach
import Verif.Prediction.Fuel

/-!
# Helper lemmas: `closure` returns
-/

namespace Antlr.Prediction
open Antlr StackSpec ConfigSet PC PredictionSpec LL1Spec

variable {I : Type}

/-! ### Threads -/

theorem chain_le {atn : ATN} {n m : Nat} (h : m ≤ n) {p : Pos} (hc : Chain atn n p) : Chain atn m p := by
  induction m generalizing n p with
  | zero => trivial
  | succ m ih =>
    cases n with
    | zero => omega
    | succ n =>
      obtain ⟨q, h1, h2⟩ := hc
      exact ⟨q, h1, ih (by omega) h2⟩

/-- What a thread does above the part `k2` of its stack it does without it too. -/
theorem idle_split {atn : ATN} {s : Nat} {k1 k2 : List Nat} {q : Pos} (h : Idle atn (s, k1 ++ k2) q) :
    (∃ k1', q.2 = k1' ++ k2 ∧ Idle atn (s, k1) (q.1, k1')) ∨ (k1 = [] ∧ k2 = q.1 :: q.2) := by
  rcases h with h | ⟨st, tr, h1, h2, h3, h4, rfl⟩
  · generalize hk : k1 ++ k2 = k at h
    cases h with
    | free h1 h2 h3 h4 => exact .inl ⟨k1, hk.symm, .inl (.free h1 h2 h3 h4)⟩
    | @call _ _ st t f r p h1 h2 h3 => exact .inl ⟨f :: k1, by simp [← hk], .inl (.call h1 h2 h3)⟩
    | ret h1 h2 =>
      cases k1 with
      | nil => exact .inr ⟨rfl, by simpa using hk⟩
      | cons a k1 =>
        simp only [List.cons_append, List.cons.injEq] at hk
        obtain ⟨rfl, rfl⟩ := hk
        exact .inl ⟨k1, rfl, .inl (.ret h1 h2)⟩
  · exact .inl ⟨k1, rfl, .inr ⟨st, tr, h1, h2, h3, h4, rfl⟩⟩

theorem chain_split {atn : ATN} {f : Nat} {k2 : List Nat} (n : Nat) :
    ∀ {s : Nat} {k1 : List Nat}, Chain atn n (s, k1 ++ f :: k2) →
    Chain atn n (s, k1) ∨ ∃ m n', n = m + 1 + n' ∧ Chain atn m (s, k1) ∧ Chain atn n' (f, k2) := by
  induction n with
  | zero => intro s k1 _; exact .inl trivial
  | succ n ih =>
    rintro s k1 ⟨⟨qs, qk⟩, h1, h2⟩
    rcases idle_split h1 with ⟨k1', e1, e2⟩ | ⟨rfl, e⟩
    · dsimp only at e1 e2
      subst e1
      rcases ih h2 with h3 | ⟨m, n', rfl, h3, h4⟩
      · exact .inl ⟨_, e2, h3⟩
      · exact .inr ⟨m + 1, n', by omega, ⟨_, e2, h3⟩, h4⟩
    · simp only [List.cons.injEq] at e
      obtain ⟨rfl, rfl⟩ := e
      exact .inr ⟨0, n, by omega, trivial, h2⟩

theorem chain_bound {atn : ATN} {N : Nat} (hl : NoLoop atn N) (k : List Nat) :
    ∀ s : Nat, ¬ Chain atn (N * (k.length + 1)) (s, k) := by
  induction k with
  | nil => intro s h; exact hl s (by simpa using h)
  | cons f k ih =>
    intro s h
    have e : N * ((f :: k).length + 1) = N * (k.length + 1) + N := by
      simp only [List.length_cons]; exact Nat.mul_succ _ _
    rcases chain_split (f := f) (k2 := k) (k1 := []) _ h with h1 | ⟨m, n', e', h1, h2⟩
    · exact hl s (chain_le (by rw [e]; omega) h1)
    · have : m < N := by
        by_contra hm
        exact hl s (chain_le (by omega) h1)
      exact ih f (chain_le (by omega) h2)

/-! ### Configurations -/

/-- A step of `closure` that does not leave the rule into the unknown. -/
inductive Inner (atn : ATN) (eof : Bool) : Config → Config → Prop
  | edge {c c' : Config} {st : ATNState} {tr : Trans} : atn.states[c.state]? = some st → st.stateType ≠ .ruleStop →
      tr ∈ st.transitions → edgeTo eof c tr = some c' → Inner atn eof c c'
  | pop {c : Config} {st : ATNState} {p : PC} {r : Int} : atn.states[c.state]? = some st →
      st.stateType = .ruleStop → c.ctx.isEmpty = false → (some p, r) ∈ c.ctx.entries → r ≠ EMPTY_RS →
      Inner atn eof c { state := asUsize r, alt := c.alt, ctx := p, sem := c.sem, reaches := c.reaches }

theorem Inner.succ {atn : ATN} {full eof : Bool} {c c' : Config} (h : Inner atn eof c c') : Succ atn full eof c c' := by
  cases h with
  | edge h1 h2 h3 h4 =>
    have := Succ.edge (full := full) h1 (.inl h2) h3 h4
    rwa [outOf, if_neg h2] at this
  | pop h1 h2 h3 h4 h5 => exact .pop h1 h2 h3 h4 h5

/-- `n` such steps in a row. -/
def CChain (atn : ATN) (eof : Bool) : Nat → Config → Prop
  | 0, _ => True
  | n + 1, c => ∃ c', Inner atn eof c c' ∧ CChain atn eof n c'

/-- The states of the thread exist. -/
def Inside (atn : ATN) (p : Pos) : Prop := p.1 < atn.states.length ∧ ∀ f ∈ p.2, f < atn.states.length

theorem inside_goes {atn : ATN} (ha : Plain atn) (full eof : Bool) : Goes atn full eof (fun _ p => Inside atn p) where
  step := by
    intro _ p q h hs
    cases hs with
    | free h1 h2 h3 h4 => exact ⟨ha.targets _ _ h1 _ h3, h.2⟩
    | call h1 h2 h3 =>
      refine ⟨ha.targets _ _ h1 _ h3, ?_⟩
      intro f hf
      rcases List.mem_cons.1 hf with rfl | hf
      · exact ha.follow _ _ h1 _ _ _ _ h3
      · exact h.2 f hf
    | ret h1 h2 => exact ⟨h.2 _ (by simp), fun f hf => h.2 f (List.mem_cons_of_mem _ hf)⟩
  out := by
    intro _ _ s st f x h h1 h2 h3
    exact ⟨ha.targets _ _ h1 _ h3, by simp⟩
  read := by
    rintro _ _ p q h ⟨st, tr, h1, h2, h3, h4, rfl⟩
    exact ⟨ha.targets _ _ h1 _ h3, h.2⟩

/-- The configurations that occur. -/
structure Sane (atn : ATN) (full : Bool) (κ : ConfigType) (c : Config) : Prop where
  sound : SoundC full (fun _ p => Inside atn p) c
  flat : full = true → c.reaches ≤ 0
  kind : c.kind = .base ∨ c.kind = κ

theorem Sane.state {atn : ATN} {full : Bool} {κ : ConfigType} {c : Config} (h : Sane atn full κ c) : ∃ st, atn.states[c.state]? = some st := by
  obtain ⟨s, hs⟩ := wf_nonempty_stack h.sound.wf
  have := (h.sound.all s hs).1
  exact ⟨_, List.getElem?_eq_getElem this⟩

theorem edgeTo_reaches {eof : Bool} {c c' : Config} {tr : Trans} (h : edgeTo eof c tr = some c') :
    c'.reaches = c.reaches ∧ c'.alt = c.alt ∧ c'.kind = c.kind := by
  cases tr <;> simp only [edgeTo] at h <;> first
    | (simp only [Option.some.injEq] at h; subst h; exact ⟨rfl, rfl, rfl⟩)
    | (split at h
       · simp only [Option.some.injEq] at h; subst h; exact ⟨rfl, rfl, rfl⟩
       · simp at h)
    | simp at h

theorem cls_sane {atn : ATN} (ha : Plain atn) (full eof : Bool) (κ : ConfigType) : Cls atn full eof (Sane atn full κ) := by
  have hc := cls_sound ha (inside_goes ha full eof)
  refine ⟨fun c h => h.sound.fit, fun c c' h hs => ⟨hc.succ c c' h.sound hs, ?_, ?_⟩⟩
  · intro hf
    cases hs with
    | @edge c' st tr h1 h2 h3 h4 =>
      rcases h2 with h2 | ⟨h2, -⟩
      · rw [outOf, if_neg h2, (edgeTo_reaches h4).1]; exact h.flat hf
      · rw [hf] at h2; simp at h2
    | pop h1 h2 h3 h4 h5 => exact h.flat hf
  · cases hs with
    | @edge c' st tr h1 h2 h3 h4 =>
      have : c'.kind = .base ∨ c'.kind = κ := by rw [(edgeTo_reaches h4).2.2]; exact h.kind
      unfold outOf
      split <;> exact this
    | pop h1 h2 h3 h4 h5 => exact .inl rfl

theorem cchain_thread {atn : ATN} (ha : Plain atn) {full eof : Bool} {κ : ConfigType} (n : Nat) :
    ∀ {c : Config}, Sane atn full κ c → CChain atn eof n c → ∃ s, HasStack c.ctx s ∧ Chain atn n (c.state, nats s) := by
  induction n with
  | zero => intro c hs _; obtain ⟨s, h⟩ := wf_nonempty_stack hs.sound.wf; exact ⟨s, h, trivial⟩
  | succ n ih =>
    rintro c hs ⟨c', h1, h2⟩
    obtain ⟨s', e1, e2⟩ := ih ((cls_sane ha full eof κ).succ _ _ hs h1.succ) h2
    cases h1 with
    | @edge _ st tr g1 g2 g3 g4 =>
      have free : ∀ t, Free tr → tr.target = t → c' = { c with state := t } →
          ∃ s, HasStack c.ctx s ∧ Chain atn (n + 1) (c.state, nats s) := by
        rintro t hf rfl rfl
        exact ⟨s', e1, _, .inl (.free g1 g2 g3 hf), e2⟩
      have read : tr.isEpsilon = false → ∃ s, HasStack c.ctx s ∧ Chain atn (n + 1) (c.state, nats s) := by
        intro hne
        have he := edgeTo_read g4 hne
        subst he
        obtain ⟨k1, k2⟩ := eof_takes ha g1 g3 g4 hne
        subst k2
        exact ⟨s', e1, _, .inr ⟨st, tr, g1, g2, g3, k1, rfl⟩, e2⟩
      cases tr with
      | epsilon t x => simp only [edgeTo, Option.some.injEq] at g4; exact free t trivial rfl g4.symm
      | action t a b x y => simp only [edgeTo, Option.some.injEq] at g4; exact free t trivial rfl g4.symm
      | rule t f r p =>
        simp only [edgeTo, Option.some.injEq] at g4
        subst g4
        have hf := ha.follow _ _ g1 _ _ _ _ g3
        cases e1 with
        | @pushS _ _ s' hs2 =>
          rw [nats, List.map_cons, ha.usize hf] at e2
          exact ⟨s', hs2, _, .inl (.call g1 g2 g3), e2⟩
      | predicate => simp [edgeTo] at g4
      | precedence => simp [edgeTo] at g4
      | _ => exact read rfl
    | @pop st p r g1 g2 g3 g4 g5 =>
      exact ⟨r :: s', den_pop (d := false) g4 e1, _, .inl (.ret g1 g2), e2⟩

theorem stack_bound {c : PC} (h : WF c) : ∃ k, ∀ s, HasStack c s → s.length ≤ k := by
  induction h with
  | empty => exact ⟨0, fun s hs => by cases hs; simp⟩
  | single h1 h2 ih =>
    obtain ⟨k, ih⟩ := ih
    refine ⟨k + 1, fun s hs => ?_⟩
    cases hs with
    | pushS h => have := ih _ h; simp; omega
  | @array l h1 h2 h3 h4 h5 ih =>
    clear h1 h2 h3 h4 h5
    have : ∃ k, ∀ p r, (some p, r) ∈ l → ∀ s, HasStack p s → s.length ≤ k := by
      induction l with
      | nil => exact ⟨0, by simp⟩
      | cons e l ihl =>
        obtain ⟨k, hk⟩ := ihl fun p r h => ih p r (List.mem_cons_of_mem _ h)
        obtain ⟨o, r⟩ := e
        cases o with
        | none =>
          refine ⟨k, fun p r h s hs => ?_⟩
          simp only [List.mem_cons, Prod.mk.injEq, reduceCtorEq, false_and, false_or] at h
          exact hk p _ h s hs
        | some q =>
          obtain ⟨k', hk'⟩ := ih q r (by simp)
          refine ⟨max k k', fun p r h s hs => ?_⟩
          rcases List.mem_cons.1 h with h | h
          · simp only [Prod.mk.injEq, Option.some.injEq] at h
            obtain ⟨rfl, rfl⟩ := h
            have := hk' s hs; omega
          · have := hk p _ h s hs; omega
    obtain ⟨k, hk⟩ := this
    refine ⟨k + 1, fun s hs => ?_⟩
    cases hs with
    | bottomA => simp
    | pushA h h' => have := hk _ _ h _ h'; simp; omega

theorem cchain_ex {atn : ATN} (ha : Plain atn) {N : Nat} (hl : NoLoop atn N) {full eof : Bool} {κ : ConfigType} {c : Config}
    (hs : Sane atn full κ c) : ∃ k, ¬ CChain atn eof k c := by
  obtain ⟨b, hb⟩ := stack_bound hs.sound.wf
  refine ⟨N * (b + 1), fun hc => ?_⟩
  obtain ⟨s, h1, h2⟩ := cchain_thread ha _ hs hc
  refine chain_bound hl (nats s) c.state (chain_le (Nat.mul_le_mul_left _ ?_) h2)
  have := hb s h1
  simp; omega

theorem cchain_empty {atn : ATN} (ha : Plain atn) {N : Nat} (hl : NoLoop atn N) {full eof : Bool} {κ : ConfigType} {c : Config}
    (hs : Sane atn full κ c) (he : c.ctx = EMPTY) : ¬ CChain atn eof N c := by
  intro hc
  obtain ⟨s, h1, h2⟩ := cchain_thread ha _ hs hc
  rw [he] at h1
  cases h1
  exact hl _ h2

/-! ### Where an unknown caller goes on -/

/-- The configurations of alternative `a` in which `closure` may arrive after leaving the rule. -/
def outs (atn : ATN) (a : Int) (κ : ConfigType) : List Config :=
  (List.range atn.states.length).flatMap fun f =>
    [{ state := f, alt := a, ctx := EMPTY }, { state := f, alt := a, ctx := EMPTY, suppressed := true },
      { state := f, alt := a, ctx := EMPTY, kind := κ }, { state := f, alt := a, ctx := EMPTY, suppressed := true, kind := κ }]

/-- How many of them have not been seen. -/
def unseen (atn : ATN) (a : Int) (κ : ConfigType) (busy : List Config) : Nat :=
  (outs atn a κ).countP fun c => !busy.any (·.same c)

theorem countP_lt {α : Type} {p q : α → Bool} (l : List α) (h : ∀ x ∈ l, p x = true → q x = true)
    (hx : ∃ x ∈ l, q x = true ∧ p x = false) : l.countP p < l.countP q := by
  induction l with
  | nil => obtain ⟨x, hx, _⟩ := hx; simp at hx
  | cons a l ih =>
    have hle : l.countP p ≤ l.countP q := List.countP_mono_left fun x hx => h x (List.mem_cons_of_mem _ hx)
    rw [List.countP_cons, List.countP_cons]
    obtain ⟨x, hx, h1, h2⟩ := hx
    rcases List.mem_cons.1 hx with rfl | hx
    · rw [h1, h2]; simp; omega
    · have := ih (fun x hx => h x (List.mem_cons_of_mem _ hx)) ⟨x, hx, h1, h2⟩
      have ha := h a (by simp)
      by_cases hp : p a = true
      · rw [hp, ha hp]; simp; exact this
      · rw [Bool.not_eq_true] at hp
        rw [hp]; simp; omega

theorem unseen_mono {atn : ATN} {a : Int} {κ : ConfigType} {b b' : List Config} (h : ∀ x ∈ b, x ∈ b') :
    unseen atn a κ b' ≤ unseen atn a κ b := by
  refine List.countP_mono_left fun x _ hx => ?_
  simp only [Bool.not_eq_true', List.any_eq_false] at hx ⊢
  exact fun y hy => hx y (h y hy)

theorem unseen_cons {atn : ATN} {a : Int} {κ : ConfigType} {b : List Config} {c : Config} (h1 : c.state < atn.states.length)
    (h2 : c.alt = a) (h3 : c.ctx = EMPTY) (h4 : c.sem = SC.NONE) (h5 : c.kind = .base ∨ c.kind = κ)
    (h : b.any (·.same c) = false) : unseen atn a κ (c :: b) < unseen atn a κ b := by
  have hsame : ∃ x ∈ outs atn a κ, x.norm = c.norm := by
    obtain ⟨s, al, ct, se, re, su, ki⟩ := c
    dsimp only at *
    subst h2 h3 h4
    refine ⟨{ state := s, alt := al, ctx := EMPTY, suppressed := su, kind := ki }, ?_, rfl⟩
    simp only [outs, List.mem_flatMap, List.mem_range]
    refine ⟨s, h1, ?_⟩
    rcases h5 with rfl | rfl <;> cases su <;> simp
  obtain ⟨x, hx, e⟩ := hsame
  refine countP_lt _ ?_ ⟨x, hx, ?_, ?_⟩
  · intro y _ hy
    simp only [Bool.not_eq_true', List.any_eq_false] at hy ⊢
    exact fun z hz => hy z (List.mem_cons_of_mem _ hz)
  · simp only [Bool.not_eq_true', List.any_eq_false] at h ⊢
    intro z hz hc
    refine h z hz ?_
    rw [Config.same_iff] at hc ⊢
    rw [hc, e]
  · simp only [List.any_cons, Bool.not_eq_false', Bool.or_eq_true]
    exact .inl ((Config.same_iff _ _).2 e.symm)

end Antlr.Prediction
