import Verif.Parser.Props

/-!
# Histories of parser operations: properties C51 and C53
-/

namespace Antlr.ParserProps
open Antlr ParserSpec ParserLemmas

variable {I : Type} [TokStream I]

/-- The operations of `BaseParser`. -/
inductive POp where
  | consume (recovering : Bool)
  | matchCurrent
  | conjure (t : Tok)
  | alloc (rule : Nat) (label parent : Option Nat) (invoking : Int)
  | enterRule (localctx : Nat) (state : Int)
  | exitRule
  | enterOuterAlt (newCtx : Option Nat)
  | enterRecursionRule (localctx : Nat) (state prec : Int)
  | pushNewRecursionContext (localctx : Nat) (state : Int)
  | unrollRecursionContext (parent : Option Nat)
  | addParseListener (l : PListener)
  | removeParseListeners
  | addErrorListener (l : Nat)
  | removeErrorListeners
  | notify (msg : List Char) (offending : Option Int)

def POp.run (p : P I) : POp → Option (P I)
  | consume r => p.consume r
  | matchCurrent => p.matchCurrent
  | conjure t => p.addConjured t
  | alloc a b c d => some (p.alloc a b c d).2
  | enterRule a b => p.enterRule a b
  | exitRule => p.exitRule
  | enterOuterAlt a => p.enterOuterAlt a
  | enterRecursionRule a b c => p.enterRecursionRule a b c
  | pushNewRecursionContext a b => p.pushNewRecursionContext a b
  | unrollRecursionContext a => p.unrollRecursionContext a
  | addParseListener l => some (p.addParseListener l).2
  | removeParseListeners => some p.removeParseListeners
  | addErrorListener l => some (p.addErrorListener l)
  | removeErrorListeners => some p.removeErrorListeners
  | notify m o => p.notifyErrorListeners m o

/-- A history of operations, none of which panics. -/
def runOps : List POp → P I → Option (P I)
  | [], p => some p
  | x :: xs, p => (x.run p).bind (runOps xs)

/-! ## The parts of the state no other operation touches -/

/-- Same precedences, error listeners, error log and error count. -/
def Same (p p' : P I) : Prop :=
  p'.precStack = p.precStack ∧ p'.errListeners = p.errListeners ∧ p'.errLog = p.errLog ∧
    p'.syntaxErrors = p.syntaxErrors

theorem Same.refl (p : P I) : Same p p := ⟨rfl, rfl, rfl, rfl⟩
theorem Same.trans {p q r : P I} (h1 : Same p q) (h2 : Same q r) : Same p r :=
  ⟨h2.1.trans h1.1, h2.2.1.trans h1.2.1, h2.2.2.1.trans h1.2.2.1, h2.2.2.2.trans h1.2.2.2⟩

theorem same_modify {p p' : P I} {i : Nat} {f : Ctx → Ctx} (h : p.modify i f = some p') :
    Same p p' := by
  simp only [P.modify, Option.map_eq_some_iff] at h
  obtain ⟨c, _, rfl⟩ := h
  exact ⟨rfl, rfl, rfl, rfl⟩

theorem same_lt {p : P I} {k : Int} {r : Option Tok × P I} (h : p.lt k = some r) : Same p r.2 := by
  simp only [P.lt, Option.map_eq_some_iff] at h
  obtain ⟨c, _, rfl⟩ := h
  exact ⟨rfl, rfl, rfl, rfl⟩

theorem same_triggerEnter {p p' : P I} (h : p.triggerEnter = some p') : Same p p' := by
  simp only [P.triggerEnter, Option.bind_eq_some_iff, Option.map_eq_some_iff] at h
  obtain ⟨_, _, _, _, rfl⟩ := h
  exact ⟨rfl, rfl, rfl, rfl⟩

theorem same_triggerExit {p p' : P I} (h : p.triggerExit = some p') : Same p p' := by
  simp only [P.triggerExit, Option.bind_eq_some_iff, Option.map_eq_some_iff] at h
  obtain ⟨_, _, _, _, rfl⟩ := h
  exact ⟨rfl, rfl, rfl, rfl⟩

theorem same_consume {p p' : P I} {r : Bool} (h : p.consume r = some p') : Same p p' := by
  simp only [P.consume, Option.bind_eq_some_iff] at h
  obtain ⟨o, _, p1, h1, h2⟩ := h
  have s1 : Same p p1 := by
    split at h1
    · simp only [Option.map_eq_some_iff] at h1
      obtain ⟨_, _, rfl⟩ := h1
      exact ⟨rfl, rfl, rfl, rfl⟩
    · cases h1; exact .refl _
  refine s1.trans ?_
  split at h2
  · simp only [Option.bind_eq_some_iff, Option.map_eq_some_iff] at h2
    obtain ⟨c, _, p2, h3, rfl⟩ := h2
    exact (same_modify h3).trans ⟨rfl, rfl, rfl, rfl⟩
  · cases h2; exact .refl _

theorem same_unrollLoop {o : Option Nat} (fuel : Nat) {p p' : P I}
    (h : P.unrollLoop o fuel p = some p') : Same p p' := by
  induction fuel generalizing p with
  | zero => simp [P.unrollLoop] at h
  | succ fuel ih =>
    rw [P.unrollLoop] at h
    split at h
    · simp only [Option.bind_eq_some_iff] at h
      obtain ⟨p1, h1, i, _, c, _, h2⟩ := h
      have h3 := ih h2
      exact (same_triggerExit h1).trans ⟨h3.1, h3.2.1, h3.2.2.1, h3.2.2.2⟩
    · cases h; exact .refl _

/-- What an operation does to the precedence stack, per the grammar of calls. -/
def POp.prec : POp → List Int → List Int
  | .enterRecursionRule _ _ c, s => s ++ [c]
  | .unrollRecursionContext _, s => s.dropLast
  | _, s => s

/-- The error listeners registered after an operation. -/
def POp.regs : POp → List Nat → List Nat
  | .addErrorListener l, s => s ++ [l]
  | .removeErrorListeners, _ => []
  | _, s => s

/-- Reports made by an operation. -/
def POp.reports : POp → List (List Char)
  | .notify m _ => [m]
  | _ => []

/-- Who was told what, forgetting the position. -/
def told (log : List (Nat × Tok × Int × Int × List Char)) : List (Nat × List Char) :=
  log.map fun e => (e.1, e.2.2.2.2)

theorem op_effect (x : POp) {p p' : P I} (h : x.run p = some p') :
    p'.precStack = x.prec p.precStack ∧ p'.errListeners = x.regs p.errListeners ∧
      p'.syntaxErrors = p.syntaxErrors + x.reports.length ∧
      told p'.errLog = told p.errLog ++ x.reports.flatMap fun m => p.errListeners.map fun l => (l, m) := by
  have of : Same p p' → x.prec p.precStack = p.precStack → x.regs p.errListeners = p.errListeners →
      x.reports = [] → _ := fun hs h1 h2 h3 => show p'.precStack = x.prec p.precStack ∧
        p'.errListeners = x.regs p.errListeners ∧
        p'.syntaxErrors = p.syntaxErrors + x.reports.length ∧
        told p'.errLog = told p.errLog ++
          x.reports.flatMap (fun m => p.errListeners.map fun l => (l, m)) by
      rw [h1, h2, h3, hs.1, hs.2.1, hs.2.2.1, hs.2.2.2]; simp
  cases x with
  | consume r => exact of (same_consume h) rfl rfl rfl
  | matchCurrent =>
    refine of ?_ rfl rfl rfl
    simp only [POp.run, P.matchCurrent, Option.bind_eq_some_iff] at h
    obtain ⟨t, _, h⟩ := h
    split at h
    · have := same_consume h
      exact ⟨this.1, this.2.1, this.2.2.1, this.2.2.2⟩
    · exact same_consume h
  | conjure t =>
    refine of ?_ rfl rfl rfl
    simp only [POp.run, P.addConjured] at h
    split at h
    · simp only [Option.bind_eq_some_iff] at h
      obtain ⟨c, _, h⟩ := h
      exact same_modify h
    · cases h; exact .refl _
  | alloc a b c d =>
    simp only [POp.run, P.alloc, Option.some.injEq] at h
    subst h
    exact of ⟨rfl, rfl, rfl, rfl⟩ rfl rfl rfl
  | enterRule a b =>
    refine of ?_ rfl rfl rfl
    simp only [POp.run, P.enterRule, Option.bind_eq_some_iff] at h
    obtain ⟨r, h1, p1, h2, h3⟩ := h
    have s1 := (same_lt h1).trans (same_modify h2)
    refine Same.trans (q := p1) ⟨s1.1, s1.2.1, s1.2.2.1, s1.2.2.2⟩ ?_
    split at h3
    · simp only [P.addContextToParseTree, Option.bind_eq_some_iff] at h3
      obtain ⟨i, _, c, _, h3⟩ := h3
      split at h3
      · have := same_modify h3
        exact ⟨this.1, this.2.1, this.2.2.1, this.2.2.2⟩
      · cases h3; exact ⟨rfl, rfl, rfl, rfl⟩
    · cases h3; exact ⟨rfl, rfl, rfl, rfl⟩
  | exitRule =>
    refine of ?_ rfl rfl rfl
    simp only [POp.run, P.exitRule, Option.bind_eq_some_iff, Option.map_eq_some_iff] at h
    obtain ⟨r, h1, i, _, p1, h2, p2, h3, c, _, rfl⟩ := h
    exact ((((same_lt h1).trans (same_modify h2)).trans (same_triggerExit h3))).trans
      ⟨rfl, rfl, rfl, rfl⟩
  | enterOuterAlt a =>
    refine of ?_ rfl rfl rfl
    simp only [POp.run, P.enterOuterAlt, Option.bind_eq_some_iff] at h
    obtain ⟨p1, h1, h2⟩ := h
    refine Same.trans ?_ (same_triggerEnter h2)
    cases a with
    | none => cases h1; exact .refl _
    | some n =>
      simp only [Option.bind_eq_some_iff, Option.map_eq_some_iff] at h1
      obtain ⟨i, _, p2, h3, rfl⟩ := h1
      refine Same.trans (q := p2) ?_ ⟨rfl, rfl, rfl, rfl⟩
      split at h3
      · simp only [Option.bind_eq_some_iff] at h3
        obtain ⟨c, _, h3⟩ := h3
        split at h3
        · simp only [Option.bind_eq_some_iff] at h3
          obtain ⟨p3, h4, h5⟩ := h3
          exact (same_modify h4).trans (same_modify h5)
        · cases h3; exact .refl _
      · cases h3; exact .refl _
  | enterRecursionRule a b c =>
    simp only [POp.run, P.enterRecursionRule, Option.bind_eq_some_iff, Option.map_eq_some_iff] at h
    obtain ⟨r, h1, p1, h2, rfl⟩ := h
    have s1 := (same_lt h1).trans (same_modify h2)
    simp only [POp.prec, POp.regs, POp.reports]
    refine ⟨s1.1, s1.2.1, s1.2.2.2, ?_⟩
    rw [s1.2.2.1]; simp
  | pushNewRecursionContext a b =>
    refine of ?_ rfl rfl rfl
    simp only [POp.run, P.pushNewRecursionContext, Option.bind_eq_some_iff] at h
    obtain ⟨prev, _, p1, h1, r, h2, p2, h3, c, _, p3, h4, p4, h5, h6⟩ := h
    have s1 := (((same_modify h1).trans (same_lt h2)).trans (same_modify h3)).trans (same_modify h4)
    refine s1.trans (Same.trans (q := p4) ?_ (same_triggerEnter h6))
    split at h5
    · have := same_modify h5
      exact ⟨this.1, this.2.1, this.2.2.1, this.2.2.2⟩
    · cases h5; exact ⟨rfl, rfl, rfl, rfl⟩
  | unrollRecursionContext a =>
    simp only [POp.run, P.unrollRecursionContext, Option.bind_eq_some_iff] at h
    obtain ⟨ret, _, r, h1, p1, h2, p2, h3, p3, h4, h5⟩ := h
    have s1 := (same_lt h1).trans (same_modify h2)
    have s2 : Same p1 p2 := by
      split at h3
      · exact same_unrollLoop _ h3
      · cases h3; exact ⟨rfl, rfl, rfl, rfl⟩
    have s3 : Same p3 p' := by
      split at h5
      · split at h5
        · exact same_modify h5
        · cases h5; exact .refl _
      · cases h5; exact .refl _
    have s := ((s1.trans s2).trans (same_modify h4)).trans s3
    simp only [POp.prec, POp.regs, POp.reports]
    refine ⟨s.1, s.2.1, s.2.2.2, ?_⟩
    rw [s.2.2.1]; simp
  | addParseListener l => cases h; exact of ⟨rfl, rfl, rfl, rfl⟩ rfl rfl rfl
  | removeParseListeners => cases h; exact of ⟨rfl, rfl, rfl, rfl⟩ rfl rfl rfl
  | addErrorListener l => cases h; simp [POp.prec, POp.regs, POp.reports, P.addErrorListener]
  | removeErrorListeners => cases h; simp [POp.prec, POp.regs, POp.reports, P.removeErrorListeners]
  | notify m o =>
    simp only [POp.run, P.notifyErrorListeners, Option.map_eq_some_iff] at h
    obtain ⟨t, _, rfl⟩ := h
    refine ⟨rfl, rfl, rfl, ?_⟩
    simp [told, POp.reports, Function.comp_def]

theorem ops_prec (xs : List POp) {p p' : P I} (h : runOps xs p = some p') :
    p'.precStack = xs.foldl (fun s x => x.prec s) p.precStack := by
  induction xs generalizing p with
  | nil => cases h; rfl
  | cons x xs ih =>
    simp only [runOps, Option.bind_eq_some_iff] at h
    obtain ⟨p1, h1, h2⟩ := h
    rw [ih h2, (op_effect x h1).1]; rfl

/-! ## C51: precedences -/

/-- Operations that neither enter nor leave a left-recursive rule. -/
def Neutral : POp → Prop
  | .enterRecursionRule .. => False
  | .unrollRecursionContext _ => False
  | _ => True

/-- Histories in which every left-recursive rule entered has been left again. -/
inductive Closed : List POp → Prop
  | nil : Closed []
  | one (x : POp) : Neutral x → Closed [x]
  | call (a : Nat) (b c : Int) (o : Option Nat) (xs : List POp) : Closed xs →
      Closed (.enterRecursionRule a b c :: xs ++ [.unrollRecursionContext o])
  | append (xs ys : List POp) : Closed xs → Closed ys → Closed (xs ++ ys)

theorem closed_prec {xs : List POp} (h : Closed xs) (s : List Int) :
    xs.foldl (fun s x => x.prec s) s = s := by
  induction h generalizing s with
  | nil => rfl
  | one x hx => cases x <;> simp_all [Neutral, POp.prec]
  | call a b c o xs _ ih =>
    simp only [List.cons_append, List.foldl_cons, List.foldl_append, List.foldl_nil]
    rw [ih]
    simp [POp.prec]
  | append xs ys _ _ ih1 ih2 => rw [List.foldl_append, ih1, ih2]

/-- Entering and leaving left-recursive rules is balanced. -/
theorem C51_balanced (xs : List POp) (hx : Closed xs) (p p' : P I) (h : runOps xs p = some p') :
    p'.precStack = p.precStack := by
  rw [ops_prec xs h, closed_prec hx]

/-- `precpred(q)` compares with the precedence of the innermost left-recursive rule entered and not
yet left, whatever happened before and inside it. -/
theorem C51_precpred (before inside : List POp) (hi : Closed inside) (a : Nat) (b prec : Int)
    (p p' : P I) (h : runOps (before ++ .enterRecursionRule a b prec :: inside) p = some p') (q : Int) :
    p'.precpred q = true ↔ q ≥ prec := by
  rw [P.precpred, ops_prec _ h, List.foldl_append, List.foldl_cons, closed_prec hi]
  simp [POp.prec]

/-- Outside all left-recursive rules it compares with 0. -/
theorem C51_precpred_outside (xs : List POp) (hx : Closed xs) (i : I) (p' : P I)
    (h : runOps xs (P.new i) = some p') (q : Int) : p'.precpred q = true ↔ q ≥ 0 := by
  rw [P.precpred, ops_prec _ h, closed_prec hx]
  simp [P.new]

/-- A call of a left-recursive rule, with any operators and any nesting of calls in the operands:
the tree built is attached as one new last child of the caller, each operator's node having the node
of everything to its left as first child, and the caller's context and precedence are restored. -/
theorem C51_recursive_call {T : Nat → Tok} {V : I → Nat → Prop} (hv : IsView T V)
    (idx : Nat) (st prec : Int) (pre : List Prim) (label : Option Nat) (primary : Acts) (tail : Iters)
    (p : P I) (n c : Nat) (c0 : Ctx) (hp : Stands V p n) (hb : p.buildTrees = true)
    (hc : p.ctx = some c) (hc0 : p.heap[c]? = some c0) :
    ∃ p' root node, Act.run (.recRule idx st prec pre label primary tail) p = some p' ∧
      p'.ctx = some c ∧ p'.precStack = p.precStack ∧
      p'.heap[c]? = some { c0 with children := c0.children ++ [.ctx root] } ∧
      Reads p'.heap (fun i => p.heap.length ≤ i ∧ i < p'.heap.length) (some c) root node ∧
      skel node = [callsIters tail idx (.mk idx label (callsActs primary))] := by
  obtain ⟨p', root, node, h1, h2, h3, _, _, _, h5, h6, h7, _⟩ := C50_call hv
    (.recRule idx st prec pre label primary tail) (by simp [IsCall]) p n hp hb
  exact ⟨p', root, node, h1, h2.trans hc, h3, h5 c c0 hc hc0, hc ▸ h6, h7⟩

/-! ## C53: errors -/

/-- Reports of a history. -/
def reports (xs : List POp) : List (List Char) := xs.flatMap POp.reports

/-- Who is told what in a history, given the listeners registered at its start: everyone registered
at the time of a report, in order of registration. -/
def tellings : List POp → List Nat → List (Nat × List Char)
  | [], _ => []
  | x :: xs, regs =>
    (x.reports.flatMap fun m => regs.map fun l => (l, m)) ++ tellings xs (x.regs regs)

/-- The error counter counts the reports. -/
theorem C53_count (xs : List POp) (i : I) (p' : P I) (h : runOps xs (P.new i) = some p') :
    p'.syntaxErrors = (reports xs).length := by
  have key : ∀ (xs : List POp) (p p' : P I), runOps xs p = some p' →
      p'.syntaxErrors = p.syntaxErrors + (reports xs).length := by
    intro xs
    induction xs with
    | nil => intro p p' h; cases h; rfl
    | cons x xs ih =>
      intro p p' h
      simp only [runOps, Option.bind_eq_some_iff] at h
      obtain ⟨p1, h1, h2⟩ := h
      rw [ih p1 p' h2, (op_effect x h1).2.2.1]
      simp only [reports, List.flatMap_cons, List.length_append]
      omega
  simpa [P.new] using key xs _ p' h

/-- Everyone registered at the time of a report is told it, once, in order of registration. -/
theorem C53_told (xs : List POp) (p p' : P I) (h : runOps xs p = some p') :
    told p'.errLog = told p.errLog ++ tellings xs p.errListeners := by
  induction xs generalizing p with
  | nil => cases h; simp [tellings]
  | cons x xs ih =>
    simp only [runOps, Option.bind_eq_some_iff] at h
    obtain ⟨p1, h1, h2⟩ := h
    have := op_effect x h1
    rw [ih p1 h2, this.2.2.2, this.2.1, tellings, List.append_assoc]

/-- A listener registered once at the start, and never cleared, is told exactly the reports. -/
theorem C53_listener (xs : List POp) (p p' : P I) (h : runOps xs p = some p') (l : Nat)
    (hl : p.errListeners.count l = 1) (hn : .addErrorListener l ∉ xs) (hc : .removeErrorListeners ∉ xs) :
    ((told p'.errLog).filter (·.1 = l)).map (·.2) =
      ((told p.errLog).filter (·.1 = l)).map (·.2) ++ reports xs := by
  rw [C53_told xs p p' h, List.filter_append, List.map_append]
  congr 1
  have one : ∀ (m : List Char) (regs : List Nat),
      ((regs.map fun l => (l, m)).filter (·.1 = l)).map (·.2) = List.replicate (regs.count l) m := by
    intro m regs
    induction regs with
    | nil => rfl
    | cons r rs ih =>
      rw [List.map_cons, List.filter_cons]
      by_cases hr : r = l
      · subst hr; simp only [decide_true, if_true, List.map_cons, ih, List.count_cons_self]; rfl
      · simp only [hr, decide_false, Bool.false_eq_true, if_false, ih]
        rw [List.count_cons_of_ne hr]
  have key : ∀ (xs : List POp) (regs : List Nat), regs.count l = 1 → .addErrorListener l ∉ xs →
      .removeErrorListeners ∉ xs → ((tellings xs regs).filter (·.1 = l)).map (·.2) = reports xs := by
    intro xs
    induction xs with
    | nil => intros; rfl
    | cons x xs ih =>
      intro regs h1 h2 h3
      simp only [List.mem_cons, not_or] at h2 h3
      rw [tellings, List.filter_append, List.map_append, ih _ _ h2.2 h3.2]
      · simp only [reports, List.flatMap_cons]
        congr 1
        cases x <;> simp only [POp.reports, List.flatMap_nil, List.filter_nil, List.map_nil]
        simp only [List.flatMap_cons, List.flatMap_nil, List.append_nil]
        rw [one, h1]; rfl
      · cases x <;> simp_all [POp.regs, List.count_append, List.count_singleton]
        intro e; subst e; exact absurd rfl h2.1
  exact key xs _ hl hn hc

/-- A report names the offending token with its line and column; by default the current token. -/
theorem C53_position (p p' : P I) (msg : List Char) (o : Option Int)
    (h : p.notifyErrorListeners msg o = some p') :
    ∃ t, (match o with
          | none => TokStream.get p.input (TokStream.index p.input)
          | some i => TokStream.get p.input i) = some t ∧
      p'.errLog = p.errLog ++ p.errListeners.map fun l => (l, t, t.line, t.column, msg) := by
  simp only [P.notifyErrorListeners, Option.map_eq_some_iff] at h
  obtain ⟨t, ht, rfl⟩ := h
  refine ⟨t, ?_, rfl⟩
  cases o <;> exact ht

/-! ## Non-trivial cases -/

/-- Rule call, nested left-recursive calls, a report with two listeners. -/
def hist : List POp :=
  [.alloc 1 none none (-1), .enterRule 0 5, .alloc 2 none (some 0) 6, .enterRecursionRule 1 7 3,
   .addErrorListener 9, .notify ['x'] none, .alloc 2 none (some 1) 8, .enterRecursionRule 2 7 4,
   .matchCurrent, .unrollRecursionContext (some 1)]

example : (runOps hist parser2).map (fun p => (p.precpred 3, p.precpred 2)) = some (true, false) := by
  decide +kernel

example : (runOps hist parser2).map (fun p => told p.errLog) = some [(0, ['x']), (9, ['x'])] := by
  decide +kernel

example : hist = hist.take 3 ++ .enterRecursionRule 1 7 3 :: hist.drop 4 ∧ Closed (hist.drop 4) := by
  refine ⟨rfl, ?_⟩
  exact .append [_, _, _] [_, _, _] (.append [_] [_, _] (.one _ trivial)
    (.append [_] [_] (.one _ trivial) (.one _ trivial)))
    (.call 2 7 4 (some 1) [.matchCurrent] (.one _ trivial))

example : parser2.errListeners.count 0 = 1 ∧ .addErrorListener 0 ∉ hist := by
  refine ⟨by decide, ?_⟩
  simp [hist]

end Antlr.ParserProps
