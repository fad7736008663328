import Verif.Lexer.PathSpec
import Verif.Lexer.CacheRun
import Verif.ATN.TransitionProps

/-!
# The simulator's configuration lists are the threads of the automaton
-/

namespace Antlr.LexPaths
open Antlr Lexer LexSpec LexCache IntervalSpec IntervalSet

set_option linter.unusedSectionVars false

section
variable {q : Option (List LexerAction) → Option (List LexerAction)}

/-- The context of a stack. -/
def ctxOf : List Nat → PC
  | [] => PC.EMPTY
  | f :: k => .single (some (ctxOf k)) f

/-- The executor of a list of actions. -/
def execFrom (acts : List LexerAction) : Option (List LexerAction) := if acts = [] then none else some acts

theorem newCopyAppend_execFrom (acts : List LexerAction) (a : LexerAction) :
    newCopyAppend (execFrom acts) a = acts ++ [a] := by
  simp only [newCopyAppend, execFrom]
  split <;> simp_all

/-- The configuration stands for a thread with stack `k`. -/
structure Lin (c : Config) (k : List Nat) : Prop where
  ctx : c.ctx = ctxOf k
  small : ∀ f ∈ k, (f : Int) < PC.EMPTY_RS
  plain : Plain c

/-- The configuration is at the place of the thread. -/
structure Sh (c : Config) (x : Thread) : Prop where
  state : c.state = x.state
  lin : Lin c x.stack

/-- ... and has passed no non-greedy decision. -/
structure Ea (c : Config) (x : Thread) : Prop extends Sh c x where
  passed : passedOf c = false

/-- ... and has its actions. -/
structure Rep (q : Option (List LexerAction) → Option (List LexerAction)) (c : Config) (x : Thread) : Prop
    extends Sh c x where
  acts : q (execOf c) = q (execFrom x.acts)

theorem ctx_nil : (ctxOf []).isEmpty = true ∧ (ctxOf []).hasEmptyPath = true := by decide

theorem ctx_cons {f : Nat} {k : List Nat} (h : (f : Int) < PC.EMPTY_RS) :
    (ctxOf (f :: k)).isEmpty = false ∧ (ctxOf (f :: k)).hasEmptyPath = false ∧
    returns (ctxOf (f :: k)) = [(some (ctxOf k), (f : Int))] := by
  have : ((f : Int) == PC.EMPTY_RS) = false := by simp; omega
  simp [ctxOf, PC.isEmpty, PC.hasEmptyPath, PC.entries, returns, this]
  omega

theorem lin_empty {c : Config} {k : List Nat} (h : Lin c k) : c.ctx.hasEmptyPath = decide (k = []) ∧
    c.ctx.isEmpty = decide (k = []) := by
  rw [h.ctx]
  cases k with
  | nil => simpa using ⟨ctx_nil.2, ctx_nil.1⟩
  | cons f k =>
    have := ctx_cons (k := k) (h.small f (by simp))
    simp [this.1, this.2.1]

theorem not_nongreedy {atn : ATN} {t : Nat} {tst : ATNState} (hg : Calm atn t) (h : atn.states[t]? = some tst)
    {c : Config} (hc : passedOf c = false) : checkNonGreedy c tst = false := by
  simp only [checkNonGreedy, hc, Bool.false_or]
  split
  · rename_i n ng k e
    cases ng with
    | false => rfl
    | true => exact absurd e (hg tst h n k)
  · rfl

theorem passed_cloned {c : Config} {t : Nat} {tst : ATNState} (hp : Plain c) :
    passedOf (cloned c t tst) = checkNonGreedy c tst := by
  obtain ⟨-, -, -, e, p, h⟩ := hp
  simp [passedOf, cloned, h]

theorem passed_clonedExec {c : Config} {t : Nat} {tst : ATNState} {x} (hp : Plain c) :
    passedOf (clonedExec c t tst x) = checkNonGreedy c tst := by
  obtain ⟨-, -, -, e, p, h⟩ := hp
  simp [passedOf, clonedExec, cloned, h]

theorem exec_cloned {c : Config} {t : Nat} {tst : ATNState} : execOf (cloned c t tst) = execOf c := by
  simp only [execOf, cloned]
  cases c.kind <;> rfl

theorem exec_clonedExec {c : Config} {t : Nat} {tst : ATNState} {x} (hp : Plain c) :
    execOf (clonedExec c t tst x) = x := by
  obtain ⟨-, -, -, e, p, h⟩ := hp
  simp [execOf, clonedExec, cloned, h]

variable {atn : ATN}

theorem lin_cloned {t : Nat} {tst : ATNState} {c : Config}
    {k : List Nat} (h : Lin c k) : Lin (cloned c t tst) k :=
  ⟨h.ctx, h.small, plain_cloned h.plain _ _⟩

theorem lin_clonedExec {t : Nat} {tst : ATNState} {c : Config}
    {k : List Nat} {x} (h : Lin c k) : Lin (clonedExec c t tst x) k :=
  ⟨h.ctx, h.small, plain_clonedExec h.plain _ _ _⟩

theorem lin_clonedCtx {t : Nat} {tst : ATNState} {c : Config}
    {k k' : List Nat} (h : Lin c k) (hk : ∀ f ∈ k', (f : Int) < PC.EMPTY_RS) :
    Lin (clonedCtx c t tst (ctxOf k')) k' :=
  ⟨rfl, hk, plain_clonedCtx h.plain _ _ _⟩

theorem ea_cloned {t : Nat} {tst : ATNState} (hg : Calm atn t) (ht : atn.states[t]? = some tst) {c : Config}
    {x : Thread} (h : Ea c x) : Ea (cloned c t tst) { x with state := t } :=
  ⟨⟨rfl, lin_cloned h.lin⟩, by rw [passed_cloned h.lin.plain, not_nongreedy hg ht h.passed]⟩

theorem ea_clonedExec {t : Nat} {tst : ATNState} (hg : Calm atn t) (ht : atn.states[t]? = some tst) {c : Config}
    {x : Thread} {e} {acts} (h : Ea c x) : Ea (clonedExec c t tst e) { x with state := t, acts := acts } :=
  ⟨⟨rfl, lin_clonedExec h.lin⟩, by rw [passed_clonedExec h.lin.plain, not_nongreedy hg ht h.passed]⟩

theorem ea_clonedCtx {t : Nat} {tst : ATNState} (hg : Calm atn t) (ht : atn.states[t]? = some tst) {c : Config}
    {x : Thread} {k' : List Nat} (h : Ea c x) (hk : ∀ f ∈ k', (f : Int) < PC.EMPTY_RS) :
    Ea (clonedCtx c t tst (ctxOf k')) { x with state := t, stack := k' } :=
  ⟨⟨rfl, lin_clonedCtx h.lin hk⟩, by
    have := passed_cloned (t := t) (tst := tst) h.lin.plain
    rw [not_nongreedy hg ht h.passed] at this
    exact this⟩

theorem rep_cloned {t : Nat} {tst : ATNState} {c : Config}
    {x : Thread} (h : Rep q c x) : Rep q (cloned c t tst) { x with state := t } :=
  ⟨⟨rfl, lin_cloned h.lin⟩, by rw [exec_cloned]; exact h.acts⟩

/-! ## Edges -/

theorem matches_iff (tr : Trans) (hs : match tr with
    | .set _ x | .notSet _ x => SortedDisjoint x.intervals
    | _ => True) {x : Int} {b : Bool}
    (h : tr.matches x LEXER_MIN_CHAR_VALUE LEXER_MAX_CHAR_VALUE = some b) : b = true ↔ ReadsSym tr x := by
  cases tr with
  | set t s =>
    simp only [Trans.matches, Option.some.injEq] at h
    rw [← h]; exact contains_iff s hs x
  | notSet t s =>
    simp only [Trans.matches, Option.some.injEq] at h
    rw [← h, Bool.and_eq_true, Bool.and_eq_true, Bool.not_eq_true', ← Bool.not_eq_true, contains_iff s hs x]
    simp only [decide_eq_true_eq, ge_iff_le, and_assoc]
    exact Iff.rfl
  | wildcard t =>
    simp only [Trans.matches, Option.some.injEq] at h
    rw [← h, Bool.and_eq_true]
    simp only [decide_eq_true_eq, gt_iff_lt]
    exact and_comm
  | rule => simp [Trans.matches] at h
  | _ => simp only [Trans.matches, Option.some.injEq] at h; rw [← h]; simp [ReadsSym]

theorem readsSym_not_epsilon {tr : Trans} {x : Int} (h : ReadsSym tr x) : tr.isEpsilon = false := by
  cases tr <;> first | rfl | exact absurd h (by simp [ReadsSym])

variable {pred : Int → Int → Option Bool} {eof : Bool} {holds : Int → Int → Prop} {past : Prop}

theorem epsTarget_sound (hq : Blur q) (hg : Tidy atn) (hp : ∀ r p v, pred r p = some v → (v = true ↔ holds r p))
    (he : eof = true ↔ past) {c c' : Config} {x : Thread} {st : ATNState} {tr : Trans} {b : Bool}
    (hx : atn.states[x.state]? = some st) (htr : tr ∈ st.transitions)
    (h : epsTarget atn pred eof c tr = some (b, some c')) (hr : Rep q c x) :
    ∃ y, Free atn holds past tr x y ∧ Rep q c' y := by
  simp only [epsTarget] at h
  obtain ⟨tst, ht, h⟩ := Option.bind_eq_some_iff.mp h
  have sy : ∀ {t : Nat} {o : Option Bool} {b' : Bool}, tr.target = t →
      tr.matches EOF LEXER_MIN_CHAR_VALUE LEXER_MAX_CHAR_VALUE = o →
      (if eof = true then o.map (fun m => (false, if m = true then some (cloned c t tst) else none))
        else some (false, none)) = some (b, some c') →
      past ∧ ReadsSym tr EOF ∧ c' = cloned c t tst := by
    intro t o b' e1 e2 h
    split at h
    · rename_i h1
      simp only [Option.map_eq_some_iff] at h
      obtain ⟨m, hm, h⟩ := h
      simp only [Prod.mk.injEq] at h
      obtain ⟨-, h⟩ := h
      split at h
      · rename_i h2
        simp only [Option.some.injEq] at h
        exact ⟨he.mp h1, (matches_iff tr (hg.sets _ _ hx tr htr) (e2.trans hm)).mp h2, h.symm⟩
      · simp at h
    · simp at h
  cases tr with
  | epsilon t p =>
    simp only [Option.some.injEq, Prod.mk.injEq] at h
    rw [← h.2]; exact ⟨_, rfl, rep_cloned hr⟩
  | rule t f r p =>
    simp only [Option.some.injEq, Prod.mk.injEq] at h
    have hf := hg.follow _ _ hx t f r p htr
    have hs := hg.small
    refine ⟨_, rfl, ⟨?_, ?_⟩, ?_⟩
    · rw [← h.2]; rfl
    · rw [← h.2, hr.lin.ctx]
      refine lin_clonedCtx (k' := f :: x.stack) hr.lin ?_
      intro g hg'
      simp only [List.mem_cons] at hg'
      rcases hg' with rfl | hg'
      · omega
      · exact hr.lin.small g hg'
    · rw [← h.2]
      have := exec_cloned (c := c) (t := t) (tst := tst)
      show q (execOf (cloned c t tst)) = _
      rw [this]; exact hr.acts
  | predicate t d r p =>
    simp only [Option.map_eq_some_iff] at h
    obtain ⟨v, hv, h⟩ := h
    simp only [Prod.mk.injEq] at h
    obtain ⟨-, h⟩ := h
    split at h
    · rename_i h2
      simp only [Option.some.injEq] at h
      subst h
      exact ⟨_, ⟨(hp r p v hv).mp h2, rfl⟩, rep_cloned hr⟩
    · simp at h
  | action t d r a p =>
    simp only [(lin_empty hr.lin).1, decide_eq_true_eq] at h
    by_cases hk : x.stack = []
    · rw [if_pos hk] at h
      cases hkd : c.kind with
      | base => simp [hkd] at h
      | lexer e ps =>
        simp only [hkd, Option.map_eq_some_iff, Prod.mk.injEq, Option.some.injEq] at h
        obtain ⟨act, h1, -, h2⟩ := h
        split at h1
        · rename_i h0
          refine ⟨{ x with state := t, acts := x.acts ++ [act] }, ?_, ⟨?_, ?_⟩, ?_⟩
          · simp only [Free, if_pos hk]
            exact ⟨act, h0, h1, rfl⟩
          · rw [← h2]; rfl
          · rw [← h2]; exact lin_clonedExec hr.lin
          · rw [← h2, exec_clonedExec hr.lin.plain]
            have h3 : execOf c = e := by simp [execOf, hkd]
            have h4 := hq.app e (execFrom x.acts) act (by rw [← h3]; exact hr.acts)
            rw [h4, newCopyAppend_execFrom]
            simp [execFrom]
        · simp at h1
    · rw [if_neg hk] at h
      simp only [Option.some.injEq, Prod.mk.injEq] at h
      rw [← h.2]
      refine ⟨{ x with state := t }, ?_, rep_cloned hr⟩
      simp [Free, if_neg hk]
  | range t a d =>
    obtain ⟨h1, h2, h3⟩ := sy (b' := b) rfl rfl h
    exact ⟨_, ⟨h1, h2, rfl⟩, by rw [h3]; exact rep_cloned hr⟩
  | set t a =>
    obtain ⟨h1, h2, h3⟩ := sy (b' := b) rfl rfl h
    exact ⟨_, ⟨h1, h2, rfl⟩, by rw [h3]; exact rep_cloned hr⟩
  | atom t a =>
    obtain ⟨h1, h2, h3⟩ := sy (b' := b) rfl rfl h
    exact ⟨_, ⟨h1, h2, rfl⟩, by rw [h3]; exact rep_cloned hr⟩
  | wildcard => simp at h
  | notSet => simp at h
  | precedence => simp at h

theorem epsTarget_complete (hg : Tidy atn) (hp : ∀ r p v, pred r p = some v → (v = true ↔ holds r p))
    (he : eof = true ↔ past) {c : Config} {x y : Thread} {st : ATNState} {tr : Trans} {r : Bool × Option Config}
    (hx : atn.states[x.state]? = some st) (htr : tr ∈ st.transitions)
    (h : epsTarget atn pred eof c tr = some r) (hr : Ea c x) (hf : Free atn holds past tr x y)
    (hy : Calm atn y.state) : ∃ c', r.2 = some c' ∧ Ea c' y := by
  simp only [epsTarget] at h
  obtain ⟨tst, ht, h⟩ := Option.bind_eq_some_iff.mp h
  have sy : ∀ {t : Nat} {o : Option Bool}, tr.target = t →
      tr.matches EOF LEXER_MIN_CHAR_VALUE LEXER_MAX_CHAR_VALUE = o →
      (if eof = true then o.map (fun m => (false, if m = true then some (cloned c t tst) else none))
        else some (false, none)) = some r →
      past → ReadsSym tr EOF → r.2 = some (cloned c t tst) := by
    intro t o e1 e2 h h1 h2
    rw [if_pos (he.mpr h1)] at h
    simp only [Option.map_eq_some_iff] at h
    obtain ⟨m, hm, h⟩ := h
    rw [if_pos ((matches_iff tr (hg.sets _ _ hx tr htr) (e2.trans hm)).mpr h2)] at h
    rw [← h]
  cases tr with
  | epsilon t p =>
    simp only [Option.some.injEq] at h
    simp only [Free] at hf; subst hf; subst h
    exact ⟨_, rfl, ea_cloned hy ht hr⟩
  | rule t f a p =>
    simp only [Option.some.injEq] at h
    simp only [Free] at hf; subst hf; subst h
    have hf := hg.follow _ _ hx t f a p htr
    have hs := hg.small
    rw [hr.lin.ctx]
    refine ⟨_, rfl, ea_clonedCtx (k' := f :: x.stack) hy ht hr ?_⟩
    intro g hg'
    simp only [List.mem_cons] at hg'
    rcases hg' with rfl | hg'
    · omega
    · exact hr.lin.small g hg'
  | predicate t d a p =>
    simp only [Option.map_eq_some_iff] at h
    obtain ⟨v, hv, h⟩ := h
    obtain ⟨h1, rfl⟩ := hf
    rw [if_pos ((hp a p v hv).mpr h1)] at h
    subst h
    exact ⟨_, rfl, ea_cloned hy ht hr⟩
  | action t d r' a p =>
    simp only [(lin_empty hr.lin).1, decide_eq_true_eq] at h
    by_cases hk : x.stack = []
    · rw [if_pos hk] at h
      obtain ⟨-, -, -, e, ps, hkd⟩ := hr.lin.plain
      simp only [hkd, Option.map_eq_some_iff] at h
      obtain ⟨act, h1, h⟩ := h
      simp only [Free, if_pos hk] at hf
      obtain ⟨act', _, _, rfl⟩ := hf
      subst h
      exact ⟨_, rfl, ea_clonedExec hy ht hr⟩
    · rw [if_neg hk] at h
      simp only [Free, if_neg hk] at hf
      simp only [Option.some.injEq] at h
      subst hf; subst h
      exact ⟨_, rfl, ea_cloned hy ht hr⟩
  | range t a d =>
    obtain ⟨h1, h2, rfl⟩ := hf
    exact ⟨_, sy rfl rfl h h1 h2, ea_cloned hy ht hr⟩
  | set t a =>
    obtain ⟨h1, h2, rfl⟩ := hf
    exact ⟨_, sy rfl rfl h h1 h2, ea_cloned hy ht hr⟩
  | atom t a =>
    obtain ⟨h1, h2, rfl⟩ := hf
    exact ⟨_, sy rfl rfl h h1 h2, ea_cloned hy ht hr⟩
  | wildcard => exact absurd hf (by simp [Free])
  | notSet => exact absurd hf (by simp [Free])
  | precedence => exact absurd hf (by simp [Free])

/-! ## The traversal -/

theorem trace_sound (hq : Blur q) (hg : Tidy atn) (hp : ∀ r p v, pred r p = some v → (v = true ↔ holds r p))
    (he : eof = true ↔ past) (fuel : Nat) : ∀ {c : Config} {x : Thread} {evs : List Ev} {b : Bool},
    trace atn pred eof fuel c = some (evs, b) → Rep q c x →
    ∀ e ∈ evs, ∃ y, Relation.ReflTransGen (Silent atn holds past) x y ∧ Rep q e.cfg y ∧ Worth atn y := by
  induction fuel with
  | zero => intro c x evs b h; simp [trace] at h
  | succ fuel ih =>
    intro c x evs b h hr e hme
    simp only [trace] at h
    obtain ⟨st, hst, h⟩ := Option.bind_eq_some_iff.mp h
    rw [hr.state] at hst
    obtain ⟨hem, hie⟩ := lin_empty hr.lin
    split at h
    · rename_i hstop
      cases hk : x.stack with
      | nil =>
        rw [if_pos (by simp [hem, hie, hk])] at h
        simp only [Option.some.injEq, Prod.mk.injEq] at h
        rw [← h.1] at hme
        simp only [List.mem_singleton] at hme
        subst hme
        exact ⟨x, .refl, hr, st, hst, .inl ⟨hstop, hk⟩⟩
      | cons f k =>
        rw [if_neg (by simp [hem, hk])] at h
        have hc := ctx_cons (k := k) (hr.lin.small f (by simp [hk]))
        simp only [Option.map_eq_some_iff] at h
        obtain ⟨⟨evs', b'⟩, h1, h2⟩ := h
        simp only [hr.lin.ctx, hk, hc.1, hc.2.2, Bool.false_eq_true, if_false] at h1
        simp only [hr.lin.ctx, hk, hc.2.1, Prod.mk.injEq, Bool.false_eq_true, if_false, List.nil_append] at h2
        have : evs = evs' := h2.1.symm
        subst this
        obtain ⟨ent, he1, r, he2, he3⟩ := collect_mem h1 e hme
        simp only [List.mem_singleton] at he1
        subst he1
        simp only [Option.bind_some] at he2
        obtain ⟨rst, he4, he2⟩ := Option.bind_eq_some_iff.mp he2
        simp only [Int.toNat_natCast] at he2
        have he5 : atn.states[f]? = some rst := by
          simp only [ATN.stateAt] at he4
          split at he4
          · simpa using he4
          · simp at he4
        have hr' : Rep q (clonedCtx c f rst (ctxOf k)) { x with state := f, stack := k } := by
          refine ⟨⟨rfl, lin_clonedCtx hr.lin fun g hg' => hr.lin.small g (by simp [hk, hg'])⟩, ?_⟩
          show q (execOf (cloned c f rst)) = _
          rw [exec_cloned]; exact hr.acts
        obtain ⟨y, y1, y2⟩ := ih (evs := r.1) (b := r.2) he2 hr' e he3
        exact ⟨y, .head (.ret hst hstop hk) y1, y2⟩
    · rename_i hstop
      simp only [Option.map_eq_some_iff] at h
      obtain ⟨⟨evs', b'⟩, h1, h2⟩ := h
      simp only [Prod.mk.injEq] at h2
      rw [← h2.1, List.mem_append] at hme
      rcases hme with hme | hme
      · split at hme
        · simp at hme
        · rename_i heo
          simp only [List.mem_singleton] at hme
          subst hme
          exact ⟨x, .refl, hr, st, hst, .inr ⟨hstop, by simpa using heo⟩⟩
      · obtain ⟨tr, he1, r, he2, he3⟩ := collect_mem h1 e hme
        obtain ⟨⟨b1, o⟩, he4, he2⟩ := Option.bind_eq_some_iff.mp he2
        cases o with
        | none => simp at he2; rw [← he2] at he3; simp at he3
        | some c' =>
          simp only [Option.map_eq_some_iff] at he2
          obtain ⟨⟨evs2, b2⟩, he5, he6⟩ := he2
          rw [← he6] at he3
          obtain ⟨y0, k1, k2⟩ := epsTarget_sound hq hg hp he hst he1 he4 hr
          obtain ⟨y, y1, y2⟩ := ih he5 k2 e he3
          exact ⟨y, .head (.edge hst hstop he1 k1) y1, y2⟩

theorem collect_all {α ε : Type} {f : α → Option (List ε × Bool)} {l : List α} {evs : List ε} {b : Bool}
    (h : collect f l = some (evs, b)) :
    ∀ a ∈ l, ∃ r, f a = some r ∧ ∀ e ∈ r.1, e ∈ evs := by
  induction l generalizing evs b with
  | nil => simp
  | cons a as ih =>
    simp only [collect] at h
    obtain ⟨r, hr, h⟩ := Option.bind_eq_some_iff.mp h
    simp only [Option.map_eq_some_iff] at h
    obtain ⟨⟨evs', b'⟩, hq, h'⟩ := h
    simp only [Prod.mk.injEq] at h'
    intro a' ha
    simp only [List.mem_cons] at ha
    rcases ha with rfl | ha
    · exact ⟨r, hr, fun e he => by rw [← h'.1]; simp [he]⟩
    · obtain ⟨r', h1, h2⟩ := ih hq a' ha
      exact ⟨r', h1, fun e he => by rw [← h'.1]; simp [h2 e he]⟩

/-- A step without reading that does not lead to a non-greedy decision. -/
def Quiet (atn : ATN) (holds : Int → Int → Prop) (past : Prop) (x y : Thread) : Prop :=
  Silent atn holds past x y ∧ Calm atn y.state

theorem trace_complete (hg : Tidy atn) (hp : ∀ r p v, pred r p = some v → (v = true ↔ holds r p))
    (he : eof = true ↔ past) {x y : Thread} (hxy : Relation.ReflTransGen (Quiet atn holds past) x y)
    (hw : Worth atn y) : ∀ {fuel : Nat} {c : Config} {evs : List Ev} {b : Bool},
    trace atn pred eof fuel c = some (evs, b) → Ea c x → ∃ e ∈ evs, Ea e.cfg y := by
  induction hxy using Relation.ReflTransGen.head_induction_on with
  | refl =>
    intro fuel c evs b h hr
    cases fuel with
    | zero => simp [trace] at h
    | succ fuel =>
      simp only [trace] at h
      obtain ⟨st', hst', h⟩ := Option.bind_eq_some_iff.mp h
      obtain ⟨st, hst, hw⟩ := hw
      rw [hr.state, hst] at hst'
      injection hst' with hst'; subst hst'
      rcases hw with ⟨h1, h2⟩ | ⟨h1, h2⟩
      · obtain ⟨hem, hie⟩ := lin_empty hr.lin
        rw [if_pos h1, if_pos (by simp [hem, hie, h2])] at h
        simp only [Option.some.injEq, Prod.mk.injEq] at h
        exact ⟨.stop c, by rw [← h.1]; simp, hr⟩
      · rw [if_neg h1] at h
        simp only [Option.map_eq_some_iff, h2] at h
        obtain ⟨r, -, h⟩ := h
        simp only [Prod.mk.injEq] at h
        exact ⟨.node c, by rw [← h.1]; simp, hr⟩
  | @head x z hxz hzy ih =>
    intro fuel c evs b h hr
    cases fuel with
    | zero => simp [trace] at h
    | succ fuel =>
      simp only [trace] at h
      obtain ⟨st', hst', h⟩ := Option.bind_eq_some_iff.mp h
      rw [hr.state] at hst'
      obtain ⟨hxz, hz⟩ := hxz
      cases hxz with
      | @edge _ st tr h1 h2 h3 h4 =>
        rw [h1] at hst'
        injection hst' with hst'; subst hst'
        rw [if_neg h2] at h
        simp only [Option.map_eq_some_iff] at h
        obtain ⟨⟨evs', b'⟩, h5, h6⟩ := h
        simp only [Prod.mk.injEq] at h6
        obtain ⟨r, h7, h8⟩ := collect_all h5 tr h3
        obtain ⟨⟨b1, o⟩, h9, h7⟩ := Option.bind_eq_some_iff.mp h7
        obtain ⟨c', h10, h11⟩ := epsTarget_complete hg hp he h1 h3 h9 hr h4 hz
        simp only at h10; subst h10
        simp only [Option.map_eq_some_iff] at h7
        obtain ⟨⟨evs2, b2⟩, h12, h13⟩ := h7
        obtain ⟨e, e1, e2⟩ := ih h12 h11
        refine ⟨e, ?_, e2⟩
        rw [← h6.1, List.mem_append]
        exact .inr (h8 e (by rw [← h13]; exact e1))
      | @ret st f k h1 h2 h3 =>
        rw [h1] at hst'
        injection hst' with hst'; subst hst'
        obtain ⟨hem, hie⟩ := lin_empty hr.lin
        rw [if_pos h2, if_neg (by simp [hem, h3])] at h
        have hc := ctx_cons (k := k) (hr.lin.small f (by simp [h3]))
        simp only [Option.map_eq_some_iff] at h
        obtain ⟨⟨evs', b'⟩, h4, h5⟩ := h
        simp only [hr.lin.ctx, h3, hc.1, hc.2.2, Bool.false_eq_true, if_false] at h4
        simp only [Prod.mk.injEq] at h5
        obtain ⟨r, h6, h7⟩ := collect_all h4 _ (List.mem_singleton.mpr rfl)
        simp only [Option.bind_some] at h6
        obtain ⟨rst, h8, h6⟩ := Option.bind_eq_some_iff.mp h6
        simp only [Int.toNat_natCast] at h6
        have h9 : atn.states[f]? = some rst := by
          simp only [ATN.stateAt] at h8
          split at h8
          · simpa using h8
          · simp at h8
        have hr' : Ea (clonedCtx c f rst (ctxOf k)) { x with state := f, stack := k } :=
          ea_clonedCtx hz h9 hr fun g hg' => hr.lin.small g (by simp [h3, hg'])
        obtain ⟨e, e1, e2⟩ := ih (evs := r.1) (b := r.2) h6 hr'
        exact ⟨e, by rw [← h5.1, List.mem_append]; exact .inr (h7 e e1), e2⟩

theorem emitted_mem {flag : Bool} {evs : List Ev} {e : Ev} (he : e ∈ evs) (h : passedOf e.cfg = false) :
    e.cfg ∈ (emitted flag evs).1 := by
  induction evs generalizing flag with
  | nil => cases he
  | cons e' evs ih =>
    rcases List.mem_cons.1 he with rfl | he
    · cases e with
      | stop c => simp [emitted, Ev.cfg]
      | node c => simp only [Ev.cfg] at h; simp [emitted, Ev.cfg, h]
    · have := fun flag => ih (flag := flag) he
      cases e' with
      | stop c => simp [emitted, this]
      | node c => simp only [emitted]; split <;> simp [this]

end
end Antlr.LexPaths
