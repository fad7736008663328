import Verif.Gen.Totals

/-!
# The steps of a generated parser return

`Sane` is what holds of a parser between the steps, errors or not.  `rank` is a number that no step makes
larger; reading makes it smaller, and so does an error that is caught at the end of a rule before EOF, because
`recover` remembers in which states it was called since something was last read.
-/

namespace Antlr.Gen
open Antlr ParserSpec ErrorSpec ErrorLemmas ErrorProps LL1Spec LL1Props IntervalSpec IntervalProps GenSpec

set_option linter.unusedSectionVars false
variable {I S : Type} [TokStream I]

/-! ## Returning -/

/-- With enough fuel the code returns, always the same. -/
def Halts {α : Type} (r : Nat → Out I S α) (Q : Except PErr α → GS I S → Prop) : Prop :=
  ∃ m0 x s', (∀ m, m0 ≤ m → r m = some (x, s')) ∧ Q x s'

section
variable {α β : Type}

theorem Halts.now {r : Nat → Out I S α} {Q : Except PErr α → GS I S → Prop} {x : Except PErr α} {s' : GS I S}
    (h : ∀ m, r m = some (x, s')) (hq : Q x s') : Halts r Q := ⟨0, x, s', fun m _ => h m, hq⟩

theorem Halts.bind {r : Nat → Out I S α} {Q : Except PErr α → GS I S → Prop} {g : Nat → Except PErr α × GS I S → Out I S β}
    {R : Except PErr β → GS I S → Prop} (h : Halts r Q) (hg : ∀ x s, Q x s → Halts (fun m => g m (x, s)) R) :
    Halts (fun m => (r m).bind (g m)) R := by
  obtain ⟨m0, x, s1, h1, hq⟩ := h
  obtain ⟨m1, y, s2, h2, hr⟩ := hg x s1 hq
  refine ⟨max m0 m1, y, s2, ?_, hr⟩
  intro m hm
  show (r m).bind (g m) = _
  rw [h1 m (by omega), Option.bind_some]
  exact h2 m (by omega)

theorem Halts.andThen {r : Nat → Out I S α} {Q : Except PErr α → GS I S → Prop} {f : Nat → α → GS I S → Out I S β}
    {R : Except PErr β → GS I S → Prop} (h : Halts r Q) (hok : ∀ a s, Q (.ok a) s → Halts (fun m => f m a s) R)
    (herr : ∀ e s, Q (.error e) s → R (.error e) s) : Halts (fun m => Gen.andThen (r m) (f m)) R := by
  refine h.bind fun x s hx => ?_
  cases x with
  | ok a => exact hok a s hx
  | error e => exact .now (fun m => rfl) (herr e s hx)

theorem Halts.mono {r : Nat → Out I S α} {Q Q' : Except PErr α → GS I S → Prop} (h : Halts r Q)
    (hq : ∀ a s, Q a s → Q' a s) : Halts r Q' := by
  obtain ⟨m0, x, s1, h1, h2⟩ := h
  exact ⟨m0, x, s1, h1, hq _ _ h2⟩

theorem Halts.succ {r b : Nat → Out I S α} {Q : Except PErr α → GS I S → Prop} (h1 : ∀ m, r (m + 1) = b m)
    (h : Halts b Q) : Halts r Q := by
  obtain ⟨m0, x, s1, h2, hq⟩ := h
  refine ⟨m0 + 1, x, s1, ?_, hq⟩
  intro m hm
  obtain ⟨m, rfl⟩ : ∃ k, m = k + 1 := ⟨m - 1, by omega⟩
  rw [h1]
  exact h2 m (by omega)

end

/-! ## Between the steps -/

variable {C : Cfg I S} {T : Nat → Tok} {V : I → Nat → Prop} {ix : Nat → Int} {Inv : S → Prop} {N K : Nat}

/-- What is assumed of the parser's surroundings.  The input ends at token `N`; rule calls are nested at most
`K` deep. -/
structure World (C : Cfg I S) (T : Nat → Tok) (V : I → Nat → Prop) (ix : Nat → Int) (N K : Nat) : Prop where
  view : IsIndexed T V ix
  pos : ∀ m, 0 ≤ ix m
  eof : (T N).ttype = TOKEN_EOF
  wf : WFAtn C.env.atn
  labels : RealLabels C.env.atn
  next : ∀ a, a < C.env.atn.states.length → ∃ set, nextTokens C.env.atn C.env.fuel a = some set
  deep : ∀ a, a < C.env.atn.states.length → ∀ chain stack, StackProps.Calls C.env.atn chain stack → chain.length ≤ K →
    ∃ set, nextTokensInCtx C.env.atn C.env.fuel a (some chain) = some set
  text : ∀ i n, V i n → (T n).ttype ≠ TOKEN_EOF → ∃ x, C.env.rangeText i (ix n) (ix n) = some x
  names : C.rules.length ≤ C.env.ruleNames.length

/-- The number is that of a state. -/
def InAtn (C : Cfg I S) (st : Int) : Prop := ∃ a : Nat, st = a ∧ a < C.env.atn.states.length

/-- The contexts -/
abbrev ids (cs : List (Nat × Nat)) : List Nat := cs.map Prod.fst

/-- The innermost context is one of rule `r`. -/
def In (r : Nat) (cs : List (Nat × Nat)) : Prop := ∃ c l, cs = (c, r) :: l

theorem In.ne {r : Nat} {cs : List (Nat × Nat)} (h : In r cs) : cs ≠ [] := by
  obtain ⟨c, l, rfl⟩ := h; simp

theorem In.cons {r c : Nat} {cs : List (Nat × Nat)} : In r ((c, r) :: cs) := ⟨c, cs, rfl⟩

/-- The parser stands at token `n` in the contexts `cs`, each with its rule. -/
structure Sane (C : Cfg I S) (V : I → Nat → Prop) (Inv : S → Prop) (N : Nat) (s : GS I S) (n : Nat)
    (cs : List (Nat × Nat)) : Prop where
  view : V s.es.p.input n
  le : n ≤ N
  ctx : s.es.p.ctx = (ids cs).head?
  chain : ∃ outer, Chain s.es.p.heap (ids cs) outer
  rules : ∀ x ∈ cs, ∃ y, s.es.p.heap[x.1]? = some y ∧ y.rule = x.2
  sound : ∀ c ∈ ids cs, SoundAt C.env.atn C.rules.length s.es.p.heap c
  state : cs ≠ [] → InAtn C s.es.p.state
  built : ∃ vs, Built s.es.eh vs
  nt : ∀ c, s.es.eh.ntCtx = some c → C.bail = false ∧ SoundAt C.env.atn C.rules.length s.es.p.heap c ∧ InAtn C s.es.eh.ntState
  inv : Inv s.sim

/-- How many states are left in which a recovery at token `n` would not force its way. -/
def left (C : Cfg I S) (ix : Nat → Int) (eh : EH) (n : Nat) : Nat :=
  if eh.lastIndex = ix n then
    ((List.range C.env.atn.states.length).filter fun a => !eh.lastStates.any fun set => set.contains (a : Int)).length
  else C.env.atn.states.length + 1

def rank (C : Cfg I S) (T : Nat → Tok) (ix : Nat → Int) (N : Nat) (eh : EH) (n : Nat) : Nat :=
  if (T n).ttype = TOKEN_EOF then 0 else (N - n) * (C.env.atn.states.length + 2) + left C ix eh n

theorem left_le (eh : EH) (n : Nat) : left C ix eh n ≤ C.env.atn.states.length + 1 := by
  unfold left
  split
  · exact Nat.le_trans (List.length_filter_le _ _) (by simp)
  · exact Nat.le_refl _

theorem rank_eof {eh : EH} {n : Nat} (h : (T n).ttype = TOKEN_EOF) : rank C T ix N eh n = 0 := by
  unfold rank; rw [if_pos h]

theorem rank_lt (hN : (T N).ttype = TOKEN_EOF) {eh eh' : EH} {n n' : Nat} (ht : (T n).ttype ≠ TOKEN_EOF) (h : n < n') (hn : n' ≤ N) :
    rank C T ix N eh' n' < rank C T ix N eh n := by
  have h1 := left_le (C := C) (ix := ix) eh' n'
  unfold rank
  rw [if_neg ht]
  have h2 : (N - n' + 1) * (C.env.atn.states.length + 2) ≤ (N - n) * (C.env.atn.states.length + 2) :=
    Nat.mul_le_mul_right _ (by omega)
  rw [Nat.succ_mul] at h2
  split <;> omega

theorem rank_next (hN : (T N).ttype = TOKEN_EOF) {n : Nat} (hn : n ≤ N) (eh eh' : EH) :
    next T n ≤ N ∧ rank C T ix N eh' (next T n) ≤ rank C T ix N eh n ∧
      ((T n).ttype ≠ TOKEN_EOF → rank C T ix N eh' (next T n) < rank C T ix N eh n) := by
  unfold next
  by_cases h : (T n).ttype = TOKEN_EOF
  · rw [if_pos h, rank_eof h, rank_eof h]
    exact ⟨hn, Nat.le_refl _, fun h' => absurd h h'⟩
  · rw [if_neg h]
    have hlt : n < N := by
      rcases Nat.lt_or_eq_of_le hn with h' | rfl
      · exact h'
      · exact absurd hN h
    have := rank_lt (C := C) (ix := ix) hN (eh := eh) (eh' := eh') h (Nat.lt_succ_self n) hlt
    exact ⟨hlt, Nat.le_of_lt this, fun _ => this⟩

theorem rank_same {eh eh' : EH} {n : Nat} (h1 : eh'.lastIndex = eh.lastIndex) (h2 : eh'.lastStates = eh.lastStates) :
    rank C T ix N eh' n = rank C T ix N eh n := by
  unfold rank left; rw [h1, h2]

/-- As long as the rank is the same, so is the type of the next token. -/
theorem rank_type (hN : (T N).ttype = TOKEN_EOF) {eh eh' : EH} {n n' : Nat} (hn : n ≤ N) (hn' : n' ≤ N)
    (h : rank C T ix N eh' n' = rank C T ix N eh n) : (T n').ttype = (T n).ttype := by
  have l1 := left_le (C := C) (ix := ix) eh n
  have l2 := left_le (C := C) (ix := ix) eh' n'
  unfold rank at h
  have lt : ∀ m, m ≤ N → (T m).ttype ≠ TOKEN_EOF → 1 ≤ N - m := by
    intro m hm ht
    rcases Nat.lt_or_eq_of_le hm with h' | rfl
    · omega
    · exact absurd hN ht
  have pos : ∀ m, 1 ≤ m → 0 < m * (C.env.atn.states.length + 2) := fun m hm => Nat.mul_pos (by omega) (by omega)
  by_cases h1 : (T n).ttype = TOKEN_EOF
  · by_cases h2 : (T n').ttype = TOKEN_EOF
    · rw [h1, h2]
    · rw [if_pos h1, if_neg h2] at h
      have := pos _ (lt n' hn' h2)
      omega
  · by_cases h2 : (T n').ttype = TOKEN_EOF
    · rw [if_neg h1, if_pos h2] at h
      have := pos _ (lt n hn h1)
      omega
    · rw [if_neg h1, if_neg h2] at h
      have e : N - n = N - n' := by
        rcases Nat.lt_trichotomy (N - n) (N - n') with hlt | he | hlt
        · have : (N - n + 1) * (C.env.atn.states.length + 2) ≤ (N - n') * (C.env.atn.states.length + 2) :=
            Nat.mul_le_mul_right _ (by omega)
          rw [Nat.succ_mul] at this
          omega
        · exact he
        · have : (N - n' + 1) * (C.env.atn.states.length + 2) ≤ (N - n) * (C.env.atn.states.length + 2) :=
            Nat.mul_le_mul_right _ (by omega)
          rw [Nat.succ_mul] at this
          omega
      rw [show n' = n by omega]

/-- A recovery that is not forced leaves fewer states. -/
theorem left_remember {eh : EH} {vs : List Int} (hb : Built eh vs) {n a : Nat} (ha : a < C.env.atn.states.length)
    (hs : ¬ Stuck eh (ix n) a) : left C ix (remember eh (ix n) a) n < left C ix eh n := by
  have hb' := built_remember hb (ix n) a
  have hin : ∀ {eh : EH} {vs : List Int}, Built eh vs → ∀ x : Int,
      (eh.lastStates.any fun set => set.contains x) = true ↔ x ∈ vs := by
    intro eh vs h x
    rcases h with ⟨h, rfl⟩ | h
    · simp [h]
    · rw [h, Option.any_some, C01_add_one_history]
  unfold left
  have e : (remember eh (ix n) a).lastIndex = ix n := rfl
  rw [if_pos e]
  by_cases hi : eh.lastIndex = ix n
  · rw [if_pos hi]
    have hav : (a : Int) ∉ vs := fun hm => hs (built_stuck hb _ _ hi hm)
    have key : ∀ x : Nat, (!(remember eh (ix n) a).lastStates.any fun set => set.contains (x : Int)) =
        (decide (x ≠ a) && !eh.lastStates.any fun set => set.contains (x : Int)) := by
      intro x
      rw [Bool.eq_iff_iff]
      have h1 := hin hb (x : Int)
      have h2 := hin hb' (x : Int)
      rw [List.mem_append, List.mem_singleton, Int.natCast_inj] at h2
      rw [Bool.not_eq_true', ← Bool.not_eq_true, h2, Bool.and_eq_true, Bool.not_eq_true', ← Bool.not_eq_true, h1,
        decide_eq_true_eq]
      tauto
    simp only [key]
    rw [← List.filter_filter, List.length_filter_lt_length_iff_exists]
    refine ⟨a, List.mem_filter.2 ⟨List.mem_range.2 ha, ?_⟩, by simp⟩
    rw [Bool.not_eq_true', ← Bool.not_eq_true, hin hb]
    exact hav
  · rw [if_neg hi]
    exact Nat.lt_succ_of_le (Nat.le_trans (List.length_filter_le _ _) (by simp))

/-- The error can be reported. -/
def Fine (C : Cfg I S) (i : I) : PErr → Prop
  | .noAlt b st => (st.ttype = TOKEN_EOF ∨ ∃ x, C.env.rangeText i st.index b.token.index = some x) ∧
      ∃ t, TokStream.get i b.token.index = some t
  | .mismatch b => (∃ E, b.expected C.env = some E) ∧ ∃ t, TokStream.get i b.token.index = some t
  | .predicate b => ∃ t, TokStream.get i b.token.index = some t
  | .fallThrough _ => False
  | .other _ => True

/-- How a step that started with the rank `R` ends in the contexts `cs`. -/
def Outcome (C : Cfg I S) (T : Nat → Tok) (V : I → Nat → Prop) (ix : Nat → Int) (Inv : S → Prop) (N R : Nat)
    (cs : List (Nat × Nat)) {α : Type} (Q : α → GS I S → Nat → Prop) (x : Except PErr α) (s' : GS I S) : Prop :=
  match x with
  | .ok a => ∃ n', Sane C V Inv N s' n' cs ∧ rank C T ix N s'.es.eh n' ≤ R ∧ Q a s' n'
  | .error e => (C.bail = true ∧ ∃ e', e = .fallThrough e') ∨
      ∃ n', Sane C V Inv N s' n' cs ∧ rank C T ix N s'.es.eh n' ≤ R ∧ Fine C s'.es.p.input e

section
variable {s : GS I S} {n : Nat} {cs : List (Nat × Nat)}

/-- The rules of contexts stay the same. -/
theorem rules_links {h h' : List Ctx} (hl : SameLinks h h') (hr : ∀ x ∈ cs, ∃ y, h[x.1]? = some y ∧ y.rule = x.2) :
    ∀ x ∈ cs, ∃ y, h'[x.1]? = some y ∧ y.rule = x.2 := by
  intro x hx
  obtain ⟨y, h1, h2⟩ := hr x hx
  have := hl.2 x.1
  rw [h1] at this
  cases hy : h'[x.1]? with
  | none => simp [hy] at this
  | some z =>
    rw [hy] at this
    simp only [Option.map_some, Option.some.injEq, Prod.mk.injEq] at this
    exact ⟨z, rfl, by rw [this.2.2]; exact h2⟩

theorem Sane.update (h : Sane C V Inv N s n cs) {p' : P I} {eh' : EH} {n' : Nat} (hv : V p'.input n') (hle : n' ≤ N)
    (hctx : p'.ctx = s.es.p.ctx) (hl : SameLinks s.es.p.heap p'.heap) (hst : p'.state = s.es.p.state)
    (hb : ∃ vs, Built eh' vs)
    (hnt : ∀ c, eh'.ntCtx = some c → C.bail = false ∧ SoundAt C.env.atn C.rules.length s.es.p.heap c ∧ InAtn C eh'.ntState) :
    Sane C V Inv N ({ s with es := ⟨eh', p'⟩ } : GS I S) n' cs where
  view := hv
  le := hle
  ctx := by rw [← h.ctx]; exact hctx
  chain := h.chain.imp fun _ hc => hc.links hl
  rules := rules_links hl h.rules
  sound c hc := (h.sound c hc).links hl
  state hne := by show InAtn C p'.state; rw [hst]; exact h.state hne
  built := hb
  nt c hc := by
    have := hnt c hc
    exact ⟨this.1, this.2.1.links hl, this.2.2⟩
  inv := h.inv

theorem Sane.after (h : Sane C V Inv N s n cs) {c : Nat} {i : I} {n' : Nat} (hv : V i n') (hle : n' ≤ N) {eh' : EH}
    (hb : ∃ vs, Built eh' vs) (h1 : eh'.ntCtx = s.es.eh.ntCtx) (h2 : eh'.ntState = s.es.eh.ntState)
    (l : List (Tok × Bool)) (r : List (Tok × List Char)) :
    Sane C V Inv N ({ s with es := ⟨eh', ErrorSpec.after s.es.p i c l r⟩ } : GS I S) n' cs :=
  h.update hv hle rfl (after_links ..) rfl hb (by rw [h1, h2]; exact h.nt)

theorem Sane.setState (h : Sane C V Inv N s n cs) {st : Int} (hs : InAtn C st) : Sane C V Inv N (s.setState st) n cs :=
  { h with state := fun _ => hs }

theorem Sane.at {c : Nat} (h : Sane C V Inv N s n cs) (hc : (ids cs).head? = some c) :
    SoundAt C.env.atn C.rules.length s.es.p.heap c := h.sound c (List.mem_of_mem_head? hc)

theorem Sane.ready (h : Sane C V Inv N s n cs) (hne : cs ≠ []) : ∃ c, (ids cs).head? = some c ∧ Ready V s.es.p n c := by
  obtain ⟨c, cs, rfl⟩ : ∃ c l, cs = c :: l := by
    cases cs with
    | nil => exact absurd rfl hne
    | cons c l => exact ⟨c, l, rfl⟩
  obtain ⟨outer, hc⟩ := h.chain
  exact ⟨c.1, rfl, h.view, h.ctx, hc.lt c.1 (by simp)⟩

theorem Sane.expected (W : World C T V ix N K) (h : Sane C V Inv N s n cs) (hne : cs ≠ []) :
    ∃ E, s.es.p.getExpectedTokens C.env = some E := by
  obtain ⟨c, hc, hr⟩ := h.ready hne
  obtain ⟨a, h1, h2⟩ := h.state hne
  exact getExpected_total W.wf W.labels W.next (h.at hc) hr.ctx h2 h1

theorem Sane.recovery (W : World C T V ix N K) (h : Sane C V Inv N s n cs) (hne : cs ≠ []) :
    ∃ R, ES.recoverySet C.env s.es.p = some R := by
  obtain ⟨c, hc, hr⟩ := h.ready hne
  exact recoverySet_total W.wf W.labels W.next (h.at hc) hr.ctx

theorem Sane.following (W : World C T V ix N K) (h : Sane C V Inv N s n cs) (hne : cs ≠ []) (hK : cs.length ≤ K)
    (he : HasEdge C.env.atn s.es.p.state) : ∃ L, ES.afterExpected C.env s.es.p = some L := by
  obtain ⟨c, cs, rfl⟩ : ∃ c l, cs = c :: l := by
    cases cs with
    | nil => exact absurd rfl hne
    | cons c l => exact ⟨c, l, rfl⟩
  obtain ⟨outer, hc⟩ := h.chain
  exact afterExpected_total W.wf W.deep h.sound h.ctx hc (by simpa using hK) he

theorem readable (W : World C T V ix N K) {n : Nat} {i : I} (hv : V i n) :
    ∃ t, TokStream.get i (T n).toOwned.index = some t := by
  refine ⟨T n, ?_⟩
  have e : (T n).toOwned.index = ix n := W.view.tokIndex n
  rw [e, ← W.view.index _ _ hv]
  exact W.view.current _ _ hv

theorem Built.end_ (eh : EH) : ∃ vs, Built eh.end_ vs := ⟨[], .inl ⟨rfl, rfl⟩⟩

/-- The error that `mismatchNew` makes can be reported. -/
theorem mismatchNew_fine (W : World C T V ix N K) (h : Sane C V Inv N s n cs) (hne : cs ≠ []) :
    ∃ e, mismatchNew s.es.p = some e ∧ Fine C s.es.p.input e := by
  obtain ⟨c, hc, hr⟩ := h.ready hne
  obtain ⟨a, h1, h2⟩ := h.state hne
  obtain ⟨stack, k, s1, s2, s3⟩ := statesStack_total (h.at hc)
  refine ⟨.mismatch { message := [], token := (T n).toOwned, state := s.es.p.state, stack := stack },
    by simp [mismatchNew, P.recog, cur_eq W.view.toIsView hr, hr.ctx, s1], ?_, readable W h.view⟩
  obtain ⟨E, hE⟩ := expected_total W.wf W.labels W.next s3 h2
  exact ⟨E, by simp only [Recog.expected, h1, hE]⟩

theorem process_total (h : Sane C V Inv N s n cs) (hne : cs ≠ []) (e : PErr) :
    ES.processError s.es.p e = some (.fallThrough e) := by
  obtain ⟨c, hc, hr⟩ := h.ready hne
  rw [ES.processError, hr.ctx, Option.bind_some, climb_rooted _ _ (h.at hc).rooted]
  rfl

/-! ## Inline recovery -/

/-- `recover_inline` of either strategy -/
def inline (C : Cfg I S) (s : ES I) : Option (Except PErr Tok × ES I) :=
  if C.bail then ES.bailRecoverInline s else ES.recoverInline C.env s

theorem inline_halts (W : World C T V ix N K) (h : Sane C V Inv N s n cs) (hne : cs ≠ []) (hK : cs.length ≤ K)
    (he : HasEdge C.env.atn s.es.p.state) : ∃ x e', inline C s.es = some (x, e') ∧
      Outcome C T V ix Inv N (rank C T ix N s.es.eh n) cs (fun _ _ _ => C.bail = false) x { s with es := e' } := by
  obtain ⟨c, hcs, hr⟩ := h.ready hne
  unfold inline
  by_cases hb : C.bail = true
  · rw [if_pos hb]
    obtain ⟨e, h1, -⟩ := mismatchNew_fine W h hne
    refine ⟨.error (.fallThrough e), s.es, ?_, .inl ⟨hb, e, rfl⟩⟩
    rw [ES.bailRecoverInline, h1, Option.bind_some, process_total h hne]
    rfl
  rw [if_neg hb]
  obtain ⟨E, hE⟩ := h.expected W hne
  obtain ⟨L, hL⟩ := h.following W hne hK he
  have n1 := rank_next (C := C) (T := T) (ix := ix) W.eof h.le s.es.eh s.es.eh.end_
  have n2 := rank_next (C := C) (T := T) (ix := ix) W.eof n1.1 s.es.eh.end_ s.es.eh.end_
  by_cases c1 : E.contains (T (n + 1)).ttype = true
  · obtain ⟨i', h1, v1⟩ := C46_deletes W.view C.env s.es n c hr E hE c1
    refine ⟨_, _, h1, _, h.after v1 n2.1 (Built.end_ _) rfl rfl _ _, ?_, eq_false_of_ne_true hb⟩
    exact Nat.le_trans n2.2.1 n1.2.1
  rw [Bool.not_eq_true] at c1
  by_cases c2 : L.contains (T n).ttype = true
  · obtain ⟨i', t, h1, v1, -⟩ := C46_inserts W.view C.env s.es n c hr E L hE c1 hL c2
    refine ⟨_, _, h1, n, h.after (eh' := s.es.eh.begin) v1 h.le h.built rfl rfl _ _, ?_, eq_false_of_ne_true hb⟩
    exact Nat.le_of_eq (rank_same rfl rfl)
  rw [Bool.not_eq_true] at c2
  obtain ⟨stack, k, s1, s2, s3⟩ := statesStack_total (h.at hcs)
  obtain ⟨a, ha1, ha2⟩ := h.state hne
  obtain ⟨stack', k', t1, t3, b, hb1, hb2⟩ : ∃ stack' k', s.es.p.statesStack (s.es.eh.ntCtx.getD c) = some stack' ∧
      Climbs C.env.atn stack' k' ∧ InAtn C (if s.es.eh.ntCtx.isSome then s.es.eh.ntState else s.es.p.state) := by
    cases hn : s.es.eh.ntCtx with
    | none => exact ⟨stack, k, s1, s3, a, ha1, ha2⟩
    | some d =>
      obtain ⟨-, d1, d2⟩ := h.nt d hn
      obtain ⟨stack', k', s1', -, s3'⟩ := statesStack_total d1
      exact ⟨stack', k', s1', s3', d2⟩
  obtain ⟨i', h1, v1⟩ := C46_raises W.view C.env s.es n c hr E L hE c1 hL c2 stack stack' s1 t1
  refine ⟨_, _, h1, .inr ⟨n, h.after v1 h.le h.built rfl rfl _ _, Nat.le_refl _, ?_, readable W v1⟩⟩
  obtain ⟨E', hE'⟩ := expected_total W.wf W.labels W.next t3 hb2
  exact ⟨E', by simp only [Recog.expected, hb1, hE']⟩

/-! ## Matching -/

theorem SameLinks.refl (h : List Ctx) : SameLinks h h := ⟨rfl, fun _ => rfl⟩

theorem Outcome.mono {α : Type} {R R' : Nat} {Q Q' : α → GS I S → Nat → Prop} {x : Except PErr α} {s' : GS I S}
    (h : Outcome C T V ix Inv N R cs Q x s') (hR : R ≤ R')
    (hq : ∀ a s n, Sane C V Inv N s n cs → rank C T ix N s.es.eh n ≤ R → Q a s n → Q' a s n) :
    Outcome C T V ix Inv N R' cs Q' x s' := by
  cases x with
  | ok a =>
    obtain ⟨n', h1, h2, h3⟩ := h
    exact ⟨n', h1, Nat.le_trans h2 hR, hq _ _ _ h1 h2 h3⟩
  | error e =>
    rcases h with h | ⟨n', h1, h2, h3⟩
    · exact .inl h
    · exact .inr ⟨n', h1, Nat.le_trans h2 hR, h3⟩

theorem consume_sane (W : World C T V ix N K) (h : Sane C V Inv N s n cs) (hne : cs ≠ []) :
    ∃ e', s.es.consume = some e' ∧ Sane C V Inv N ({ s with es := e' } : GS I S) (next T n) cs ∧ e'.eh = s.es.eh := by
  obtain ⟨c, -, hr⟩ := h.ready hne
  obtain ⟨i', h1, v1⟩ := consume_after W.view.toIsView hr s.es.eh.mode
  refine ⟨⟨s.es.eh, after s.es.p i' c [(T n, s.es.eh.mode)] []⟩, by rw [ES.consume, h1]; rfl, ?_, rfl⟩
  exact h.after v1 (rank_next (C := C) (ix := ix) W.eof h.le s.es.eh s.es.eh).1 h.built rfl rfl _ _

/-- A token is matched: `report_match` and `consume`. -/
theorem match_sane (W : World C T V ix N K) (h : Sane C V Inv N s n cs) (hne : cs ≠ []) (eof : Bool) {α : Type} (a : α) :
    ∃ e', (if C.bail then ES.bailReportMatch (⟨s.es.eh, { s.es.p with matchedEof := eof }⟩ : ES I)
        else ES.reportMatch ⟨s.es.eh, { s.es.p with matchedEof := eof }⟩).consume = some e' ∧
      Outcome C T V ix Inv N (rank C T ix N s.es.eh n) cs
        (fun _ s' n' => (T n).ttype ≠ TOKEN_EOF → rank C T ix N s'.es.eh n' < rank C T ix N s.es.eh n)
        (.ok a) { s with es := e' } := by
  have key : ∀ eh' : EH, (∃ vs, Built eh' vs) → eh'.ntCtx = s.es.eh.ntCtx → eh'.ntState = s.es.eh.ntState →
      ∃ e', ES.consume (⟨eh', { s.es.p with matchedEof := eof }⟩ : ES I) = some e' ∧
      Outcome C T V ix Inv N (rank C T ix N s.es.eh n) cs
        (fun _ s' n' => (T n).ttype ≠ TOKEN_EOF → rank C T ix N s'.es.eh n' < rank C T ix N s.es.eh n)
        (.ok a) { s with es := e' } := by
    intro eh' hb h1 h2
    have hs := h.update (p' := { s.es.p with matchedEof := eof }) (eh' := eh') h.view h.le rfl (SameLinks.refl _) rfl hb
      (by rw [h1, h2]; exact h.nt)
    obtain ⟨e', e1, e2, e3⟩ := consume_sane W hs hne
    have hn := rank_next (C := C) (T := T) (ix := ix) W.eof h.le s.es.eh e'.eh
    exact ⟨e', e1, next T n, e2, hn.2.1, hn.2.2⟩
  by_cases hb : C.bail = true
  · rw [if_pos hb]
    exact key s.es.eh h.built rfl rfl
  · rw [if_neg hb]
    exact key s.es.eh.end_ (Built.end_ _) rfl rfl

theorem conjure_sane (h : Sane C V Inv N s n cs) (hne : cs ≠ []) (t : Tok) :
    ∃ p', s.es.p.addConjured t = some p' ∧ Sane C V Inv N ({ s with es := ⟨s.es.eh, p'⟩ } : GS I S) n cs := by
  obtain ⟨c, -, hr⟩ := h.ready hne
  by_cases ht : t.index = -1
  · refine ⟨_, addConjured_made hr.ctx hr.mem t ht, ?_⟩
    refine h.update h.view h.le rfl ?_ rfl h.built h.nt
    unfold withConjured
    by_cases hb : s.es.p.buildTrees = true
    · simp only [if_pos hb]
      refine ⟨by simp, fun j => ?_⟩
      rw [List.getElem?_modify]
      cases s.es.p.heap[j]? with
      | none => rfl
      | some x => by_cases hj : c = j <;> simp [hj]
    · simp only [if_neg hb]
      exact SameLinks.refl _
  · exact ⟨s.es.p, by simp [P.addConjured, ht], h⟩

theorem inline_conjure (W : World C T V ix N K) (h : Sane C V Inv N s n cs) (hne : cs ≠ []) (hK : cs.length ≤ K)
    (he : HasEdge C.env.atn s.es.p.state) : ∃ x e', ((inline C s.es).bind fun r => match r.1 with
        | .error e => some (.error e, r.2)
        | .ok t => (r.2.p.addConjured t).map fun p => ((.ok t : Except PErr Tok), { r.2 with p })) = some (x, e') ∧
      Outcome C T V ix Inv N (rank C T ix N s.es.eh n) cs (fun _ _ _ => C.bail = false) x { s with es := e' } := by
  obtain ⟨x, e', h1, h2⟩ := inline_halts W h hne hK he
  rw [h1, Option.bind_some]
  cases x with
  | error e => exact ⟨_, _, rfl, h2⟩
  | ok t =>
    obtain ⟨n', g1, g2, g3⟩ := h2
    obtain ⟨p', c1, c2⟩ := conjure_sane g1 hne t
    have c1' : e'.p.addConjured t = some p' := c1
    refine ⟨.ok t, ⟨e'.eh, p'⟩, by dsimp only; rw [c1']; rfl, n', c2, g2, g3⟩

theorem matchTok_halts (W : World C T V ix N K) (h : Sane C V Inv N s n cs) (hne : cs ≠ []) (hK : cs.length ≤ K)
    (he : HasEdge C.env.atn s.es.p.state) (t : Int) : ∃ x s', matchTok C t s = some (x, s') ∧
      Outcome C T V ix Inv N (rank C T ix N s.es.eh n) cs (fun _ s' n' => (C.bail = true → (T n).ttype = t) ∧
        ((T n).ttype = t ∧ (T n).ttype ≠ TOKEN_EOF → rank C T ix N s'.es.eh n' < rank C T ix N s.es.eh n)) x s' := by
  obtain ⟨c, -, hr⟩ := h.ready hne
  have hcur := cur_eq W.view.toIsView hr
  by_cases ht : (T n).ttype = t
  · obtain ⟨e', h1, h2⟩ := match_sane W h hne (if t = TOKEN_EOF then true else s.es.p.matchedEof) (T n)
    refine ⟨.ok (T n), { s with es := e' }, ?_, h2.mono (Nat.le_refl _) fun _ _ _ _ _ hq => ⟨fun _ => ht, fun hx => hq hx.2⟩⟩
    by_cases hb : C.bail = true <;> by_cases hE : t = TOKEN_EOF <;>
      simp only [hb, hE, if_true, if_false, Bool.false_eq_true] at h1 <;>
      simp only [matchTok, GS.strat, hb, if_true, if_false, Bool.false_eq_true, ES.bailMatchToken, ES.matchToken, hcur,
        Option.bind_some, ht, hE, h1, Option.map_some]
  · obtain ⟨x, e', h1, h2⟩ := inline_conjure W h hne hK he
    refine ⟨x, { s with es := e' }, ?_, h2.mono (Nat.le_refl _) fun _ _ _ _ _ hq =>
      ⟨fun hb => (by rw [hq] at hb; cases hb), fun hx => absurd hx.1 ht⟩⟩
    unfold inline at h1
    by_cases hb : C.bail = true <;> simp only [hb, if_true, if_false, Bool.false_eq_true] at h1 <;>
      simp only [matchTok, GS.strat, hb, if_true, if_false, Bool.false_eq_true, ES.bailMatchToken, ES.matchToken, hcur,
        Option.bind_some, if_neg ht]
    · exact congrArg (Option.map fun x => (x.1, ({ s with es := x.2 } : GS I S))) h1
    · exact congrArg (Option.map fun x => (x.1, ({ s with es := x.2 } : GS I S))) h1

theorem matchAny_halts (W : World C T V ix N K) (h : Sane C V Inv N s n cs) (hne : cs ≠ []) (hK : cs.length ≤ K)
    (he : HasEdge C.env.atn s.es.p.state) : ∃ x s', matchAny C s = some (x, s') ∧
      Outcome C T V ix Inv N (rank C T ix N s.es.eh n) cs (fun _ s' n' => (C.bail = true → 0 < (T n).ttype) ∧
        (0 < (T n).ttype → rank C T ix N s'.es.eh n' < rank C T ix N s.es.eh n)) x s' := by
  obtain ⟨c, -, hr⟩ := h.ready hne
  have hcur := cur_eq W.view.toIsView hr
  by_cases ht : (T n).ttype > 0
  · obtain ⟨e', h1, h2⟩ := match_sane W h hne s.es.p.matchedEof (T n)
    refine ⟨.ok (T n), { s with es := e' }, ?_, h2.mono (Nat.le_refl _) fun _ _ _ _ _ hq =>
      ⟨fun _ => ht, fun _ => hq (by simp only [TOKEN_EOF]; omega)⟩⟩
    by_cases hb : C.bail = true <;>
      simp only [hb, if_true, if_false, Bool.false_eq_true] at h1 <;>
      simp only [matchAny, GS.strat, hb, if_true, if_false, Bool.false_eq_true, bailMatchWildcard, ES.matchWildcard, hcur,
        Option.bind_some, ht, h1, Option.map_some]
  · obtain ⟨x, e', h1, h2⟩ := inline_conjure W h hne hK he
    refine ⟨x, { s with es := e' }, ?_, h2.mono (Nat.le_refl _) fun _ _ _ _ _ hq =>
      ⟨fun hb => (by rw [hq] at hb; cases hb), fun hx => absurd hx ht⟩⟩
    unfold inline at h1
    by_cases hb : C.bail = true <;> simp only [hb, if_true, if_false, Bool.false_eq_true] at h1 <;>
      simp only [matchAny, GS.strat, hb, if_true, if_false, Bool.false_eq_true, bailMatchWildcard, ES.matchWildcard, hcur,
        Option.bind_some, if_neg ht]
    · exact congrArg (Option.map fun x => (x.1, ({ s with es := x.2 } : GS I S))) h1
    · exact congrArg (Option.map fun x => (x.1, ({ s with es := x.2 } : GS I S))) h1

theorem Sane.look (h : Sane C V Inv N s n cs) {i : I} (hi : V i n) :
    Sane C V Inv N ({ s with es := ⟨s.es.eh, { s.es.p with input := i }⟩ } : GS I S) n cs :=
  h.update hi h.le rfl (SameLinks.refl _) rfl h.built h.nt

theorem matchSet_halts (W : World C T V ix N K) (h : Sane C V Inv N s n cs) (hne : cs ≠ []) (hK : cs.length ≤ K)
    (he : HasEdge C.env.atn s.es.p.state) (types : List Int) (invert : Bool) :
    ∃ x s', matchSet C types invert s = some (x, s') ∧
      Outcome C T V ix Inv N (rank C T ix N s.es.eh n) cs (fun _ s' n' => (C.bail = true → inSet types invert (T n).ttype = true) ∧
        (inSet types invert (T n).ttype = true ∧ (T n).ttype ≠ TOKEN_EOF →
          rank C T ix N s'.es.eh n' < rank C T ix N s.es.eh n)) x s' := by
  obtain ⟨i1, a1, v1⟩ := la_ok W.view.toIsView h.view
  have h1 := h.look v1
  by_cases ht : inSet types invert (T n).ttype = true
  · obtain ⟨i2, a2, v2⟩ := la_ok W.view.toIsView (p := { s.es.p with input := i1 }) v1
    have h2 := h.look v2
    obtain ⟨e', m1, m2⟩ := match_sane W h2 hne (if (T n).ttype = TOKEN_EOF then true else s.es.p.matchedEof) ()
    refine ⟨.ok (), { s with es := e' }, ?_, m2.mono (Nat.le_refl _) fun _ _ _ _ _ hq => ⟨fun _ => ht, fun hx => hq hx.2⟩⟩
    simp only [matchSet, a1, Option.bind_some, ht, if_true, a2]
    by_cases hE : (T n).ttype = TOKEN_EOF
    · simp only [hE, if_true] at m1 ⊢
      rw [m1]; rfl
    · simp only [hE, if_false] at m1 ⊢
      rw [m1]; rfl
  · obtain ⟨x, e', m1, m2⟩ := inline_halts W h1 hne hK he
    refine ⟨x.map fun _ => (), { s with es := e' }, ?_, ?_⟩
    · unfold inline at m1
      simp only [matchSet, a1, Option.bind_some, ht, if_false, Bool.false_eq_true]
      rw [m1]; rfl
    · cases x with
      | ok a =>
        obtain ⟨n', g1, g2, g3⟩ := m2
        exact ⟨n', g1, g2, fun hb => (by rw [g3] at hb; cases hb), fun hx => absurd hx.1 ht⟩
      | error e => exact m2

end
end Antlr.Gen
