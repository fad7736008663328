import Verif.ErrorListener.Model
import Verif.Parser.HistoryProps
import Verif.Parser.Props

/-!
# The diagnostic listener (C62)
-/

namespace Antlr.DiagProps
open Antlr Diag ParserProps

set_option linter.unusedSectionVars false
variable {I : Type} [TokStream I]

/-! ## The alternatives can be read off the message -/

theorem showNat_digits (n : Nat) : ∀ c ∈ showNat n, c.isDigit = true :=
  fun _ hc => Nat.isDigit_of_mem_toDigits (by decide) (by decide) hc

/-- Digits followed by something that is no digit are read in one way. -/
theorem digits_split (a b x y : List Char) (ha : ∀ c ∈ a, c.isDigit = true) (hb : ∀ c ∈ b, c.isDigit = true)
    (hx : ∀ c ∈ x.head?, c.isDigit = false) (hy : ∀ c ∈ y.head?, c.isDigit = false)
    (h : a ++ x = b ++ y) : a = b ∧ x = y := by
  induction a generalizing b with
  | nil =>
    cases b with
    | nil => exact ⟨rfl, h⟩
    | cons d b =>
      simp only [List.nil_append, List.cons_append] at h
      subst h
      have h1 := hx d (by simp)
      have h2 := hb d (by simp)
      rw [h1] at h2; simp at h2
  | cons c a ih =>
    cases b with
    | nil =>
      simp only [List.nil_append, List.cons_append] at h
      subst h
      have h1 := hy c (by simp)
      have h2 := ha c (by simp)
      rw [h1] at h2; simp at h2
    | cons d b =>
      simp only [List.cons_append, List.cons.injEq] at h
      obtain ⟨h1, h2⟩ := ih b (fun c hc => ha c (by simp [hc])) (fun c hc => hb c (by simp [hc])) h.2
      exact ⟨by rw [h.1, h1], h2⟩

theorem showNat_inj (a b : Nat) (h : showNat a = showNat b) : a = b := by
  have := congrArg (fun l => Nat.ofDigitChars 10 l 0) h
  simpa [showNat] using this

theorem showNat_ne (n : Nat) : showNat n ≠ [] := Nat.toDigits_ne_nil

/-- After the first member comes a comma or the closing brace. -/
def tail : List Nat → List Char
  | [] => ['}']
  | l => ", ".toList ++ showMembers l ++ ['}']

theorem showMembers_cons (n : Nat) (l : List Nat) (x : List Char) :
    showMembers (n :: l) ++ ['}'] ++ x = showNat n ++ (tail l ++ x) := by
  cases l with
  | nil => simp [showMembers, tail]
  | cons m l => simp [showMembers, tail]

theorem tail_head (l : List Nat) (x : List Char) : ∀ c ∈ (tail l ++ x).head?, c.isDigit = false := by
  cases l with
  | nil => simp [tail]
  | cons m l => simp [tail]

theorem members_split (a b : List Nat) (x y : List Char)
    (h : showMembers a ++ ['}'] ++ x = showMembers b ++ ['}'] ++ y) : a = b ∧ x = y := by
  induction a generalizing b with
  | nil =>
    cases b with
    | nil => simpa [showMembers] using h
    | cons m b =>
      rw [showMembers_cons] at h
      simp only [showMembers, List.nil_append, List.cons_append] at h
      obtain ⟨c, r, hr⟩ := List.exists_cons_of_ne_nil (showNat_ne m)
      have hd := showNat_digits m c (by rw [hr]; simp)
      rw [hr] at h
      simp only [List.cons_append, List.cons.injEq] at h
      rw [← h.1] at hd; exact absurd hd (by decide)
  | cons n a ih =>
    cases b with
    | nil =>
      rw [showMembers_cons] at h
      simp only [showMembers, List.nil_append, List.cons_append] at h
      obtain ⟨c, r, hr⟩ := List.exists_cons_of_ne_nil (showNat_ne n)
      have hd := showNat_digits n c (by rw [hr]; simp)
      rw [hr] at h
      simp only [List.cons_append, List.cons.injEq] at h
      rw [h.1] at hd; exact absurd hd (by decide)
    | cons m b =>
      rw [showMembers_cons, showMembers_cons] at h
      obtain ⟨h1, h2⟩ := digits_split _ _ _ _ (showNat_digits n) (showNat_digits m) (tail_head a x)
        (tail_head b y) h
      have e := showNat_inj _ _ h1
      subst e
      cases a with
      | nil =>
        cases b with
        | nil => simpa [tail] using h2
        | cons k b => simp [tail] at h2
      | cons k a =>
        cases b with
        | nil => simp [tail] at h2
        | cons j b =>
          have h3 : showMembers (k :: a) ++ ['}'] ++ x = showMembers (j :: b) ++ ['}'] ++ y := by
            simpa [tail] using h2
          obtain ⟨h4, h5⟩ := ih (j :: b) h3
          exact ⟨by rw [h4], h5⟩

/-- **C62** The alternatives in a message are exactly those given: two ambiguity messages of the same
decision are equal only if alternatives and input text are, whatever the rest of the events. -/
theorem C62_message_alts (env : DiagEnv I) (p q : P I) (dfa : DFA) (s s' e e' : Int) (x x' : Bool)
    (a b : List Nat) (cs cs' : ConfigSet) (m : List Char)
    (h1 : message env p dfa (.ambiguity s e x a cs) = some m)
    (h2 : message env q dfa (.ambiguity s' e' x' b cs') = some m) :
    a = b ∧ env.rangeText p.input s e = env.rangeText q.input s' e' := by
  simp only [message, Option.bind_eq_some_iff, Option.map_eq_some_iff] at h1 h2
  obtain ⟨d, hd, t, ht, hm⟩ := h1
  obtain ⟨d', hd', t', ht', hm'⟩ := h2
  rw [hd] at hd'; cases hd'
  rw [ht, ht']
  rw [← hm'] at hm
  have h3 : ("reportAmbiguity d=".toList ++ d ++ ": ambigAlts=".toList) ++
      ('{' :: (showMembers a ++ ['}'] ++ (", input='".toList ++ t ++ "'".toList))) =
    ("reportAmbiguity d=".toList ++ d ++ ": ambigAlts=".toList) ++
      ('{' :: (showMembers b ++ ['}'] ++ (", input='".toList ++ t' ++ "'".toList))) := by
    simpa only [showAlts, List.append_assoc, List.cons_append] using hm
  have h4 := List.append_cancel_left h3
  simp only [List.cons.injEq, true_and] at h4
  obtain ⟨h5, h6⟩ := members_split _ _ _ _ h4
  refine ⟨h5, ?_⟩
  have h7 : ", input='".toList ++ (t ++ "'".toList) = ", input='".toList ++ (t' ++ "'".toList) := by
    simpa only [List.append_assoc] using h6
  rw [List.append_cancel_right (List.append_cancel_left h7)]

/-! ## What else can be read off a message -/

/-- The part of the input an event is about. -/
def span : DiagEvent → Int × Int
  | .ambiguity start stop _ _ _ => (start, stop)
  | .attemptingFullContext start stop _ _ => (start, stop)
  | .contextSensitivity start stop _ _ => (start, stop)

/-- Which of the three events it is. -/
def kindOf : DiagEvent → Nat
  | .ambiguity .. => 0
  | .attemptingFullContext .. => 1
  | .contextSensitivity .. => 2

theorem describe_eq {env : DiagEnv I} {dfa : DFA} {d : List Char} (h : decisionDescription env dfa = some d) :
    ∃ x, d = showInt dfa.decision ++ x ∧ (∀ c ∈ x.head?, c.isDigit = false) ∧
      ∀ st name, env.atn.states[dfa.atnStartState]? = some st → env.ruleNames[st.ruleIndex]? = some name →
        x = " (".toList ++ name ++ ")".toList := by
  simp only [decisionDescription, Option.map_eq_some_iff] at h
  obtain ⟨st, hst, h⟩ := h
  cases hn : env.ruleNames[st.ruleIndex]? with
  | none =>
    rw [hn] at h
    refine ⟨[], by simpa using h.symm, by simp, ?_⟩
    intro st' name h1 h2
    rw [hst] at h1; cases h1
    rw [hn] at h2; simp at h2
  | some nm =>
    rw [hn] at h
    refine ⟨" (".toList ++ nm ++ ")".toList, by simpa using h.symm, by simp, ?_⟩
    intro st' name h1 h2
    rw [hst] at h1; cases h1
    rw [hn] at h2; cases h2; rfl

theorem message_eq {env : DiagEnv I} {p : P I} {dfa : DFA} {ev : DiagEvent} {m : List Char}
    (h : message env p dfa ev = some m) :
    ∃ d t mid, decisionDescription env dfa = some d ∧
      env.rangeText p.input (span ev).1 (span ev).2 = some t ∧
      (∀ c ∈ mid.head?, c.isDigit = false) ∧
      m = (match kindOf ev with
        | 0 => "reportAmbiguity d=".toList
        | 1 => "reportAttemptingFullContext d=".toList
        | _ => "reportContextSensitivity d=".toList) ++ d ++ mid ++ ", input='".toList ++ t ++ "'".toList := by
  cases ev with
  | ambiguity s e x a cs =>
    simp only [message, Option.bind_eq_some_iff, Option.map_eq_some_iff] at h
    obtain ⟨d, hd, t, ht, rfl⟩ := h
    exact ⟨d, t, ": ambigAlts=".toList ++ showAlts a, hd, ht, by simp, by simp [kindOf]⟩
  | attemptingFullContext s e a cs =>
    simp only [message, Option.bind_eq_some_iff, Option.map_eq_some_iff] at h
    obtain ⟨d, hd, t, ht, rfl⟩ := h
    exact ⟨d, t, [], hd, ht, by simp, by simp [kindOf]⟩
  | contextSensitivity s e a cs =>
    simp only [message, Option.bind_eq_some_iff, Option.map_eq_some_iff] at h
    obtain ⟨d, hd, t, ht, rfl⟩ := h
    exact ⟨d, t, [], hd, ht, by simp, by simp [kindOf]⟩

/-- **C62** Every message ends with the text of the part of the input the event is about, and names the
rule of the decision if it has a name. -/
theorem C62_message_text (env : DiagEnv I) (p : P I) (dfa : DFA) (ev : DiagEvent) (m : List Char)
    (h : message env p dfa ev = some m) :
    (∃ t, env.rangeText p.input (span ev).1 (span ev).2 = some t ∧
      (", input='".toList ++ t ++ "'".toList) <:+ m) ∧
    ∀ st name, env.atn.states[dfa.atnStartState]? = some st → env.ruleNames[st.ruleIndex]? = some name →
      (" (".toList ++ name ++ ")".toList) <:+: m := by
  obtain ⟨d, t, mid, hd, ht, -, e⟩ := message_eq h
  generalize (match kindOf ev with
        | 0 => "reportAmbiguity d=".toList
        | 1 => "reportAttemptingFullContext d=".toList
        | _ => "reportContextSensitivity d=".toList) = pre at e
  subst e
  refine ⟨⟨t, ht, pre ++ d ++ mid, by simp only [List.append_assoc]⟩, fun st name h1 h2 => ?_⟩
  obtain ⟨x, rfl, -, hx⟩ := describe_eq hd
  rw [hx st name h1 h2]
  exact ⟨pre ++ showInt dfa.decision, mid ++ ", input='".toList ++ t ++ "'".toList,
    by simp only [List.append_assoc]⟩

theorem showInt_split {a b : Int} {x y : List Char} (hx : ∀ c ∈ x.head?, c.isDigit = false)
    (hy : ∀ c ∈ y.head?, c.isDigit = false) (h : showInt a ++ x = showInt b ++ y) : a = b := by
  have nodash : ∀ (n : Nat) (u v : List Char), showNat n ++ u = '-' :: v → False := by
    intro n u v h
    obtain ⟨c, r, hr⟩ := List.exists_cons_of_ne_nil (showNat_ne n)
    have hd := showNat_digits n c (by rw [hr]; simp)
    rw [hr] at h
    simp only [List.cons_append, List.cons.injEq] at h
    rw [h.1] at hd; exact absurd hd (by decide)
  unfold showInt at h
  by_cases ha : a < 0 <;> by_cases hb : b < 0
  · rw [if_pos ha, if_pos hb] at h
    simp only [List.cons_append, List.cons.injEq, true_and] at h
    have := showNat_inj _ _ (digits_split _ _ _ _ (showNat_digits _) (showNat_digits _) hx hy h).1
    omega
  · rw [if_pos ha, if_neg hb] at h
    exact (nodash _ _ _ h.symm).elim
  · rw [if_neg ha, if_pos hb] at h
    exact (nodash _ _ _ h).elim
  · rw [if_neg ha, if_neg hb] at h
    have := showNat_inj _ _ (digits_split _ _ _ _ (showNat_digits _) (showNat_digits _) hx hy h).1
    omega

/-- **C62** The event and the decision can be read off a message: equal messages are about the same kind
of event and the same decision. -/
theorem C62_message_decision (env env' : DiagEnv I) (p q : P I) (dfa dfa' : DFA) (ev ev' : DiagEvent)
    (m : List Char) (h1 : message env p dfa ev = some m) (h2 : message env' q dfa' ev' = some m) :
    kindOf ev = kindOf ev' ∧ dfa.decision = dfa'.decision := by
  obtain ⟨d, t, mid, hd, -, hm, e⟩ := message_eq h1
  obtain ⟨d', t', mid', hd', -, hm', e'⟩ := message_eq h2
  obtain ⟨x, rfl, hx, -⟩ := describe_eq hd
  obtain ⟨x', rfl, hx', -⟩ := describe_eq hd'
  have front : ∀ {a b c : List Char}, (∀ c ∈ a.head?, c.isDigit = false) → (∀ c ∈ b.head?, c.isDigit = false) →
      ∀ c' ∈ (a ++ (b ++ (", input='".toList ++ c))).head?, c'.isDigit = false := by
    intro a b c ha hb
    cases a with
    | cons => simpa using ha
    | nil => cases b with
      | cons => simpa using hb
      | nil => simp
  rw [e] at e'
  have hk : kindOf ev = kindOf ev' := by
    cases ev <;> cases ev' <;> simp [kindOf] at e' ⊢
  rw [hk] at e'
  simp only [List.append_assoc] at e'
  refine ⟨hk, ?_⟩
  exact showInt_split (front hx hm) (front hx' hm') (List.append_cancel_left e')

/-! ## What is reported -/

/-- Does a diagnostic listener with this setting report the event? -/
def Reports (exactOnly : Bool) : DiagEvent → Prop
  | .ambiguity _ _ exact _ _ => exactOnly = true → exact = true
  | _ => True

instance (b : Bool) (ev : DiagEvent) : Decidable (Reports b ev) := by
  cases ev <;> simp only [Reports] <;> infer_instance

theorem silent_iff (b : Bool) (ev : DiagEvent) : silent b ev = true ↔ ¬ Reports b ev := by
  cases ev <;> simp [silent, Reports]

/-- Everyone is told the message once. -/
theorem notify_told {p p' : P I} {m : List Char} {o : Option Int} (h : p.notifyErrorListeners m o = some p') :
    told p'.errLog = told p.errLog ++ p.errListeners.map (fun l => (l, m)) ∧
      p'.syntaxErrors = p.syntaxErrors + 1 ∧ p'.errListeners = p.errListeners ∧ p'.input = p.input ∧
      p'.heap = p.heap ∧ p'.ctx = p.ctx := by
  simp only [P.notifyErrorListeners, Option.map_eq_some_iff] at h
  obtain ⟨t, ht, rfl⟩ := h
  refine ⟨?_, rfl, rfl, rfl, rfl, rfl⟩
  simp [told, Function.comp_def]

/-- **C62** An event given to a diagnostic listener is reported — one message to every error listener
of the parser — iff it is no inexact ambiguity or the listener was not made for exact ones only;
otherwise nothing at all changes. -/
theorem C62_report (env : DiagEnv I) (exactOnly : Bool) (p p' : P I) (dfa : DFA) (ev : DiagEvent)
    (h : report env exactOnly p dfa ev = some p') :
    if Reports exactOnly ev then
      ∃ m, message env p dfa ev = some m ∧
        told p'.errLog = told p.errLog ++ p.errListeners.map (fun l => (l, m)) ∧
        p'.syntaxErrors = p.syntaxErrors + 1 ∧ p'.input = p.input
    else p' = p := by
  by_cases hr : Reports exactOnly ev
  · rw [if_pos hr]
    have hs : silent exactOnly ev = false := by
      cases hs : silent exactOnly ev with
      | false => rfl
      | true => exact absurd hr ((silent_iff _ _).mp hs)
    simp only [report, hs, Bool.false_eq_true, if_false, Option.bind_eq_some_iff] at h
    obtain ⟨m, hm, h⟩ := h
    obtain ⟨h1, h2, _, h3, _⟩ := notify_told h
    exact ⟨m, hm, h1, h2, h3⟩
  · rw [if_neg hr]
    have hs := (silent_iff exactOnly ev).mpr hr
    simp only [report, hs, if_true, Option.some.injEq] at h
    exact h.symm

theorem message_congr (env : DiagEnv I) (p q : P I) (dfa : DFA) (ev : DiagEvent) (h : p.input = q.input) :
    message env p dfa ev = message env q dfa ev := by
  cases ev <;> simp only [message, h]

/-- The messages that reach one listener when the event is given to these: one for each diagnostic
listener that reports it. -/
def copies (env : DiagEnv I) (ev : DiagEvent) (ls : List Nat) : Nat :=
  (ls.filter fun l => match env.diagnostic l with
    | some exactOnly => decide (Reports exactOnly ev)
    | none => false).length

theorem dispatchTo_told (env : DiagEnv I) (dfa : DFA) (ev : DiagEvent) (ls : List Nat) (p p' : P I)
    (h : dispatchTo env dfa ev ls p = some p') :
    (copies env ev ls = 0 → p' = p) ∧
    (∀ m, message env p dfa ev = some m →
      told p'.errLog = told p.errLog ++
        (List.replicate (copies env ev ls) (p.errListeners.map fun l => (l, m))).flatten) ∧
    p'.syntaxErrors = p.syntaxErrors + copies env ev ls ∧ p'.input = p.input ∧
    p'.errListeners = p.errListeners := by
  induction ls generalizing p with
  | nil => cases h; simp [copies]
  | cons l ls ih =>
    simp only [dispatchTo, Option.bind_eq_some_iff] at h
    obtain ⟨p1, h1, h2⟩ := h
    obtain ⟨i1, i2, i3, i4, i5⟩ := ih p1 h2
    cases hk : env.diagnostic l with
    | none =>
      rw [hk] at h1
      cases h1
      have hc : copies env ev (l :: ls) = copies env ev ls := by simp [copies, hk]
      rw [hc]; exact ⟨i1, i2, i3, i4, i5⟩
    | some b =>
      rw [hk] at h1
      simp only at h1
      have hrep := h1
      by_cases hr : Reports b ev
      · have hs : silent b ev = false := by
          cases hs : silent b ev with
          | false => rfl
          | true => exact absurd hr ((silent_iff _ _).mp hs)
        simp only [report, hs, Bool.false_eq_true, if_false, Option.bind_eq_some_iff] at h1
        obtain ⟨m0, hm0, h1⟩ := h1
        obtain ⟨t1, t2, t3, t4, _⟩ := notify_told h1
        have hc : copies env ev (l :: ls) = copies env ev ls + 1 := by simp [copies, hk, hr]
        rw [hc]
        refine ⟨by omega, ?_, by omega, i4.trans t4, i5.trans t3⟩
        intro m hm
        rw [hm0] at hm; cases hm
        rw [i2 m0 (by rw [message_congr env p1 p dfa ev t4]; exact hm0), t1, t3, List.replicate_succ,
          List.flatten_cons, List.append_assoc]
      · have hp := C62_report env b p p1 dfa ev hrep
        rw [if_neg hr] at hp
        have hc : copies env ev (l :: ls) = copies env ev ls := by simp [copies, hk, hr]
        rw [hc]; subst hp; exact ⟨i1, i2, i3, i4, i5⟩

/-- **C62** An event of a prediction: every error listener is told the message once for every
registered diagnostic listener that reports it, in order; if none does, nothing changes. -/
theorem C62_dispatch (env : DiagEnv I) (p p' : P I) (dfa : DFA) (ev : DiagEvent)
    (h : dispatch env p dfa ev = some p') :
    (copies env ev p.errListeners = 0 → p' = p) ∧
    (∀ m, message env p dfa ev = some m →
      told p'.errLog = told p.errLog ++
        (List.replicate (copies env ev p.errListeners) (p.errListeners.map fun l => (l, m))).flatten) ∧
    p'.syntaxErrors = p.syntaxErrors + copies env ev p.errListeners := by
  obtain ⟨h1, h2, h3, _⟩ := dispatchTo_told env dfa ev _ p p' h
  exact ⟨h1, h2, h3⟩

/-- **C62** No panic: it suffices that the decision's state exists, the interval has a text and there
is a current token. -/
theorem C62_no_panic (env : DiagEnv I) (p : P I) (dfa : DFA) (ev : DiagEvent)
    (hs : dfa.atnStartState < env.atn.states.length)
    (ht : ∀ s e, (env.rangeText p.input s e).isSome) (hc : p.getCurrentToken.isSome) :
    ∃ p', dispatch env p dfa ev = some p' := by
  obtain ⟨m, hm⟩ : ∃ m, message env p dfa ev = some m := by
    have hd : ∃ d, decisionDescription env dfa = some d := by
      simp only [decisionDescription, List.getElem?_eq_getElem hs, Option.map_some]; exact ⟨_, rfl⟩
    obtain ⟨d, hd⟩ := hd
    have hr : ∀ s e, ∃ t, env.rangeText p.input s e = some t := fun s e =>
      Option.isSome_iff_exists.mp (ht s e)
    cases ev <;> simp only [message, hd, Option.bind_some, Option.map_eq_some_iff] <;>
      exact ⟨_, _, (hr _ _).choose_spec, rfl⟩
  have key : ∀ (ls : List Nat) (q : P I), q.input = p.input → ∃ q', dispatchTo env dfa ev ls q = some q' := by
    intro ls
    induction ls with
    | nil => intro q _; exact ⟨q, rfl⟩
    | cons l ls ih =>
      intro q hq
      have one : ∃ q', (match env.diagnostic l with
          | none => some q
          | some exactOnly => report env exactOnly q dfa ev) = some q' ∧ q'.input = p.input := by
        cases env.diagnostic l with
        | none => exact ⟨q, rfl, hq⟩
        | some b =>
          simp only [report]
          split
          · exact ⟨q, rfl, hq⟩
          · rw [message_congr env q p dfa ev hq, hm, Option.bind_some]
            have hg : q.getCurrentToken = p.getCurrentToken := by simp only [P.getCurrentToken, hq]
            obtain ⟨t, htok⟩ := Option.isSome_iff_exists.mp hc
            simp only [P.notifyErrorListeners, hg, htok, Option.map_some]
            exact ⟨_, rfl, hq⟩
      obtain ⟨q', h1, h2⟩ := one
      obtain ⟨q'', h3⟩ := ih q' h2
      exact ⟨q'', by rw [dispatchTo]; exact (congrArg (fun o => Option.bind o _) h1).trans h3⟩
  exact key _ p rfl

/-- **C62** `get_conflicting_alts`: the given alternatives, otherwise the set of those occurring in
the configurations. -/
theorem C62_conflicting_alts (alts : Option (List Nat)) (configs : ConfigSet) :
    (∀ a, alts = some a → getConflictingAlts alts configs = a) ∧
    (alts = none → BitSorted (getConflictingAlts alts configs) ∧
      ∀ k, k ∈ getConflictingAlts alts configs ↔ ∃ c ∈ configs.configs, asUsize c.alt = k) := by
  refine ⟨fun a h => by rw [h]; rfl, ?_⟩
  rintro rfl
  have key : ∀ (cs : List Config) (acc : List Nat), BitSorted acc →
      BitSorted (cs.foldl (fun acc c => bitInsert (asUsize c.alt) acc) acc) ∧
      ∀ k, k ∈ cs.foldl (fun acc c => bitInsert (asUsize c.alt) acc) acc ↔
        k ∈ acc ∨ ∃ c ∈ cs, asUsize c.alt = k := by
    intro cs
    induction cs with
    | nil => intro acc h; exact ⟨h, by simp⟩
    | cons c cs ih =>
      intro acc h
      obtain ⟨h1, h2⟩ := ih _ (bitInsert_sorted (asUsize c.alt) acc h)
      refine ⟨h1, fun k => ?_⟩
      rw [List.foldl_cons, h2, mem_bitInsert]
      simp only [List.mem_cons, exists_eq_or_imp]
      constructor
      · rintro ((h | h) | h)
        · exact .inr (.inl h.symm)
        · exact .inl h
        · exact .inr (.inr h)
      · rintro (h | h | h)
        · exact .inl (.inr h)
        · exact .inl (.inl h.symm)
        · exact .inr h
  have := key configs.configs [] .nil
  exact ⟨this.1, by simpa [getConflictingAlts] using this.2⟩

/-! ## Cases -/

/-- Listener 5 reports everything, listener 6 only exact ambiguities. -/
def diagEnv : DiagEnv CTS :=
  { atn := { grammarType := .parser, maxTokenType := 3, states := [{ ruleIndex := 0 }] }
    ruleNames := [['r']], rangeText := fun _ _ _ => some ['a']
    diagnostic := fun l => if l = 5 then some false else if l = 6 then some true else none }

/-- A parser that has looked at its first token. -/
def diagParser : Option (P CTS) := (runOps [.addErrorListener 5, .addErrorListener 6,
  .alloc 1 none none (-1), .enterRule 0 5] parser2)

example : (diagParser.bind fun p => (dispatch diagEnv p { atnStartState := 0, decision := 3 }
      (.ambiguity 0 1 false [1, 12] (.newBase true))).map fun p => told p.errLog) =
    some ([0, 5, 6].map fun l => (l, "reportAmbiguity d=3 (r): ambigAlts={1, 12}, input='a'".toList)) := by
  decide +kernel

example : (diagParser.bind fun p => (dispatch diagEnv p { atnStartState := 0, decision := 3 }
      (.ambiguity 0 1 true [1, 12] (.newBase true))).map fun p => p.syntaxErrors) = some 2 := by
  decide +kernel

example : (diagParser.bind fun p => message diagEnv p { atnStartState := 0, decision := -3 }
      (.contextSensitivity 0 1 2 (.newBase true))) =
    some "reportContextSensitivity d=-3 (r), input='a'".toList := by
  decide +kernel

example : getConflictingAlts none { ConfigSet.newBase true with
    configs := [{ state := 1, alt := 2, ctx := PC.EMPTY }, { state := 2, alt := 1, ctx := PC.EMPTY },
      { state := 3, alt := 2, ctx := PC.EMPTY }] } = [1, 2] := by decide +kernel

end Antlr.DiagProps
