import Verif.Prelude
import Verif.SemanticContext.Model

/-!
# Semantic contexts: properties C34, C35
-/

namespace Antlr.SemProps
open Antlr SC

/-- `ord` enumerates a set in some order. -/
def IsOrder (ord : List SC → List SC) : Prop := ∀ l x, x ∈ ord l ↔ x ∈ l

/-- Generated `sempred` functions answer `true` for the rule index -1 of `NONE`
(`Actions::sempred`, src/recognizer.rs:34-41 defaults to `true`). -/
def NoneTrue (env : Env) : Prop := env.sempred false (-1) (-1) = true

/-! ### helper lemmas -/

theorem evalAll_iff (env : Env) (l : List SC) :
    evalAll env l = true ↔ ∀ o ∈ l, o.evaluate env = true := by
  induction l <;> simp_all [evalAll]

theorem evalAny_iff (env : Env) (l : List SC) :
    evalAny env l = true ↔ ∃ o ∈ l, o.evaluate env = true := by
  induction l <;> simp_all [evalAny]

theorem mem_insertSet (l : List SC) (x y : SC) : y ∈ insertSet l x ↔ y ∈ l ∨ y = x := by
  simp only [insertSet]
  split
  · constructor
    · exact .inl
    · rintro (h | rfl) <;> assumption
  · simp

theorem mem_extendSet (l m : List SC) (y : SC) : y ∈ extendSet l m ↔ y ∈ l ∨ y ∈ m := by
  simp only [extendSet]
  induction m generalizing l with
  | nil => simp
  | cons a m ih => simp only [List.foldl_cons, ih, mem_insertSet, List.mem_cons]; tauto

theorem foldl_min_le (xs : List Int) (x t : Int) :
    t ≤ xs.foldl min x ↔ t ≤ x ∧ ∀ y ∈ xs, t ≤ y := by
  induction xs generalizing x with
  | nil => simp
  | cons a xs ih =>
    simp only [List.foldl_cons, ih, List.mem_cons, forall_eq_or_imp]
    have : t ≤ min x a ↔ t ≤ x ∧ t ≤ a := by omega
    rw [this]; tauto

theorem le_foldl_max (xs : List Int) (x t : Int) :
    t ≤ xs.foldl max x ↔ t ≤ x ∨ ∃ y ∈ xs, t ≤ y := by
  induction xs generalizing x with
  | nil => simp
  | cons a xs ih =>
    simp only [List.foldl_cons, ih, List.mem_cons, exists_eq_or_imp]
    have : t ≤ max x a ↔ t ≤ x ∨ t ≤ a := by omega
    rw [this]; tauto

theorem mem_filterMap_prec (l : List SC) (p : Int) :
    p ∈ l.filterMap prec? ↔ .precedence p ∈ l := by
  simp only [List.mem_filterMap]
  constructor
  · rintro ⟨a, h1, h2⟩
    cases a <;> simp [prec?] at h2
    rw [← h2]; exact h1
  · intro h; exact ⟨_, h, rfl⟩

/-- Precedence reduction of a conjunction. -/
theorem reduce_and (ord : List SC → List SC) (hord : IsOrder ord) (env : Env) (ops : List SC) :
    (∀ o ∈ reduceAnd ord ops, o.evaluate env = true) ↔
    ∀ o ∈ ops, o.evaluate env = true := by
  have hmem : ∀ p, p ∈ (ord ops).filterMap prec? ↔ .precedence p ∈ ops := by
    intro p; rw [mem_filterMap_prec, hord]
  have hsplit : (∀ o ∈ ops, o.evaluate env = true) ↔
      (∀ o ∈ ops.filter (fun o => o.prec?.isNone), o.evaluate env = true) ∧
      (∀ p, SC.precedence p ∈ ops → env.prec ≤ p) := by
    constructor
    · intro h
      refine ⟨fun o ho => h o (List.mem_filter.mp ho).1, fun p hp => ?_⟩
      have := h _ hp
      simpa [evaluate, Env.precpred] using this
    · rintro ⟨h1, h2⟩ o ho
      cases o with
      | precedence p =>
        have := h2 p ho
        simpa [evaluate, Env.precpred] using this
      | predicate r p d => exact h1 _ (List.mem_filter.mpr ⟨ho, rfl⟩)
      | and l => exact h1 _ (List.mem_filter.mpr ⟨ho, rfl⟩)
      | or l => exact h1 _ (List.mem_filter.mpr ⟨ho, rfl⟩)
  rw [hsplit]
  cases hp : (ord ops).filterMap prec? with
  | nil =>
    simp only [reduceAnd, hp, minPrec]
    constructor
    · intro h
      refine ⟨h, fun p hp' => ?_⟩
      rw [← hmem, hp] at hp'; simp at hp'
    · exact fun h => h.1
  | cons x xs =>
    simp only [reduceAnd, hp, minPrec, mem_insertSet]
    have hmin := foldl_min_le xs x env.prec
    have hall : (∀ p, SC.precedence p ∈ ops → env.prec ≤ p) ↔ env.prec ≤ xs.foldl min x := by
      rw [hmin]
      constructor
      · intro h
        exact ⟨h x ((hmem x).mp (by simp [hp])), fun y hy => h y ((hmem y).mp (by simp [hp, hy]))⟩
      · rintro ⟨h1, h2⟩ p hp'
        rw [← hmem, hp] at hp'
        rcases List.mem_cons.mp hp' with rfl | h
        · exact h1
        · exact h2 p h
    rw [hall]
    constructor
    · intro h
      refine ⟨fun o ho => h o (.inl ho), ?_⟩
      have := h _ (.inr rfl)
      simpa [evaluate, Env.precpred] using this
    · rintro ⟨h1, h2⟩ o (ho | rfl)
      · exact h1 o ho
      · simpa [evaluate, Env.precpred] using h2

/-- Precedence reduction of a disjunction. -/
theorem reduce_or (ord : List SC → List SC) (hord : IsOrder ord) (env : Env) (ops : List SC) :
    (∃ o ∈ reduceOr ord ops, o.evaluate env = true) ↔
    ∃ o ∈ ops, o.evaluate env = true := by
  have hmem : ∀ p, p ∈ (ord ops).filterMap prec? ↔ .precedence p ∈ ops := by
    intro p; rw [mem_filterMap_prec, hord]
  have hsplit : (∃ o ∈ ops, o.evaluate env = true) ↔
      (∃ o ∈ ops.filter (fun o => o.prec?.isNone), o.evaluate env = true) ∨
      (∃ p, SC.precedence p ∈ ops ∧ env.prec ≤ p) := by
    constructor
    · rintro ⟨o, ho, he⟩
      cases o with
      | precedence p => right; exact ⟨p, ho, by simpa [evaluate, Env.precpred] using he⟩
      | predicate r p d => left; exact ⟨_, List.mem_filter.mpr ⟨ho, rfl⟩, he⟩
      | and l => left; exact ⟨_, List.mem_filter.mpr ⟨ho, rfl⟩, he⟩
      | or l => left; exact ⟨_, List.mem_filter.mpr ⟨ho, rfl⟩, he⟩
    · rintro (⟨o, ho, he⟩ | ⟨p, hp, he⟩)
      · exact ⟨o, (List.mem_filter.mp ho).1, he⟩
      · exact ⟨_, hp, by simpa [evaluate, Env.precpred] using he⟩
  rw [hsplit]
  cases hp : (ord ops).filterMap prec? with
  | nil =>
    simp only [reduceOr, hp, maxPrec]
    constructor
    · exact .inl
    · rintro (h | ⟨p, hp', _⟩)
      · exact h
      · rw [← hmem, hp] at hp'; simp at hp'
  | cons x xs =>
    simp only [reduceOr, hp, maxPrec, mem_insertSet]
    have hmax := le_foldl_max xs x env.prec
    have hex : (∃ p, SC.precedence p ∈ ops ∧ env.prec ≤ p) ↔ env.prec ≤ xs.foldl max x := by
      rw [hmax]
      constructor
      · rintro ⟨p, hp', h⟩
        rw [← hmem, hp] at hp'
        rcases List.mem_cons.mp hp' with rfl | h'
        · exact .inl h
        · exact .inr ⟨p, h', h⟩
      · rintro (h | ⟨y, hy, h⟩)
        · exact ⟨x, (hmem x).mp (by simp [hp]), h⟩
        · exact ⟨y, (hmem y).mp (by simp [hp, hy]), h⟩
    rw [hex]
    constructor
    · rintro ⟨o, ho | rfl, he⟩
      · exact .inl ⟨o, ho, he⟩
      · right; simpa [evaluate, Env.precpred] using he
    · rintro (⟨o, ho, he⟩ | h)
      · exact ⟨o, .inl ho, he⟩
      · exact ⟨_, .inr rfl, by simpa [evaluate, Env.precpred] using h⟩

theorem bool_eq_of_iff {a b : Bool} (h : a = true ↔ b = true) : a = b := by
  cases a <;> cases b <;> simp_all

theorem evaluate_newAnd (ord : List SC → List SC) (hord : IsOrder ord) (env : Env) (a b : SC) :
    (newAnd ord a b).evaluate env = (a.evaluate env && b.evaluate env) := by
  apply bool_eq_of_iff
  have hmem : (∀ o ∈ operandsAnd a b, o.evaluate env = true) ↔
      (a.evaluate env && b.evaluate env) = true := by
    rw [Bool.and_eq_true]; unfold operandsAnd
    cases a <;> cases b <;> simp [mem_insertSet, mem_extendSet, evaluate, evalAll_iff, or_imp,
      forall_and, or_and_right, exists_or]
  rw [← hmem, ← reduce_and ord hord env, newAnd]
  generalize reduceAnd ord (operandsAnd a b) = red
  match red with
  | [o] => simp
  | [] => simp [evaluate, evalAll_iff, hord _]
  | o :: o' :: rest => simp only [evaluate, evalAll_iff, hord _]


theorem evaluate_newOr (ord : List SC → List SC) (hord : IsOrder ord) (env : Env) (a b : SC) :
    (newOr ord a b).evaluate env = (a.evaluate env || b.evaluate env) := by
  apply bool_eq_of_iff
  have hmem : (∃ o ∈ operandsOr a b, o.evaluate env = true) ↔
      (a.evaluate env || b.evaluate env) = true := by
    rw [Bool.or_eq_true]; unfold operandsOr
    cases a <;> cases b <;> simp [mem_insertSet, mem_extendSet, evaluate, evalAny_iff, or_imp,
      forall_and, or_and_right, exists_or]
  rw [← hmem, ← reduce_or ord hord env, newOr]
  generalize reduceOr ord (operandsOr a b) = red
  match red with
  | [o] => simp
  | [] => simp [evaluate, evalAny_iff, hord _]
  | o :: o' :: rest => simp only [evaluate, evalAny_iff, hord _]

/-! ### C34 -/

/-- **C34** Meaning of the four kinds of predicate. -/
theorem C34_evaluate (env : Env) :
    (∀ r p d, (SC.predicate r p d).evaluate env = env.sempred d r p) ∧
    (∀ p, (SC.precedence p).evaluate env = true ↔ env.prec ≤ p) ∧
    (∀ ops, (SC.and ops).evaluate env = true ↔ ∀ o ∈ ops, o.evaluate env = true) ∧
    (∀ ops, (SC.or ops).evaluate env = true ↔ ∃ o ∈ ops, o.evaluate env = true) :=
  ⟨fun _ _ _ => rfl, fun p => by simp [evaluate, Env.precpred],
   fun ops => by simp [evaluate, evalAll_iff], fun ops => by simp [evaluate, evalAny_iff]⟩

/-- **C34** `and(a, b)` is the conjunction, whatever the hash-set order. -/
theorem C34_and (ord : List SC → List SC) (hord : IsOrder ord) (env : Env) (hn : NoneTrue env)
    (a b : SC) :
    (mkAnd ord (some a) (some b)).evaluate env = (a.evaluate env && b.evaluate env) := by
  have hN : SC.NONE.evaluate env = true := hn
  simp only [mkAnd]
  split
  · rename_i h; rw [h, hN]; simp
  · split
    · rename_i h; rw [h, hN]; simp
    · exact evaluate_newAnd ord hord env a b

/-- **C34** `or(a, b)` is the disjunction, whatever the hash-set order. -/
theorem C34_or (ord : List SC → List SC) (hord : IsOrder ord) (env : Env) (hn : NoneTrue env)
    (a b : SC) :
    (mkOr ord (some a) (some b)).evaluate env = (a.evaluate env || b.evaluate env) := by
  have hN : SC.NONE.evaluate env = true := hn
  simp only [mkOr]
  split
  · rename_i h
    rcases h with h | h <;> rw [h, hN] <;> simp
  · exact evaluate_newOr ord hord env a b

/-- **C34** The predicate `NONE` (true) is neutral for `and`, absorbing for `or`, and a missing
operand is ignored. -/
theorem C34_units (ord : List SC → List SC) (a : SC) :
    mkAnd ord (some SC.NONE) (some a) = a ∧ mkAnd ord (some a) (some SC.NONE) = a ∧
    mkOr ord (some SC.NONE) (some a) = SC.NONE ∧ mkOr ord (some a) (some SC.NONE) = SC.NONE ∧
    mkAnd ord none (some a) = a ∧ mkAnd ord (some a) none = a ∧
    mkOr ord none (some a) = a ∧ mkOr ord (some a) none = a ∧
    mkAnd ord none none = SC.NONE ∧ mkOr ord none none = SC.NONE := by
  refine ⟨by simp [mkAnd], ?_, by simp [mkOr], by simp [mkOr], rfl, rfl, rfl, rfl, rfl, rfl⟩
  simp only [mkAnd]
  split
  · rename_i h; rw [h]
  · simp

example : mkAnd id (some (.precedence 3)) (some (.and [.predicate 1 2 true, .precedence 5])) =
    .and [.predicate 1 2 true, .precedence 3] := by decide +kernel

/-! ### C35 -/

/-- The outcome of a partial evaluation agrees with the predicate. -/
def Sound (env : Env) (c : SC) (r : Option SC) : Prop :=
  match r with
  | none => c.evaluate env = false
  | some e => e.evaluate env = c.evaluate env

theorem foldl_mkAnd (ord : List SC → List SC) (hord : IsOrder ord) (env : Env) (hn : NoneTrue env)
    (os : List SC) (o : SC) :
    (os.foldl (fun acc it => mkAnd ord (some acc) (some it)) o).evaluate env = evalAll env (o :: os) := by
  induction os generalizing o with
  | nil => simp [evalAll]
  | cons a os ih =>
    rw [List.foldl_cons, ih, evalAll, C34_and ord hord env hn]
    simp only [evalAll, Bool.and_assoc]

theorem foldl_mkOr (ord : List SC → List SC) (hord : IsOrder ord) (env : Env) (hn : NoneTrue env)
    (os : List SC) (o : SC) :
    (os.foldl (fun acc it => mkOr ord (some acc) (some it)) o).evaluate env = evalAny env (o :: os) := by
  induction os generalizing o with
  | nil => simp [evalAny]
  | cons a os ih =>
    rw [List.foldl_cons, ih, evalAny, C34_or ord hord env hn]
    simp only [evalAny, Bool.or_assoc]

theorem evalAny_append (env : Env) (l m : List SC) :
    evalAny env (l ++ m) = (evalAny env l || evalAny env m) := by
  induction l <;> simp_all [evalAny, Bool.or_assoc]

theorem evalAll_append (env : Env) (l m : List SC) :
    evalAll env (l ++ m) = (evalAll env l && evalAll env m) := by
  induction l <;> simp_all [evalAll, Bool.and_assoc]

/-- The operands collected by the loop of a disjunction. -/
theorem orLoop_sound (ord : List SC → List SC) (env : Env) (hn : NoneTrue env) (cs : List SC)
    (hc : ∀ c ∈ cs, Sound env c (c.evalPrecedence ord env)) (d : Bool) (acc : List SC) :
    match orLoop ord env cs d acc with
    | .inl r => r = some SC.NONE ∧ evalAny env cs = true
    | .inr (_, operands) => evalAny env operands = (evalAny env acc || evalAny env cs) := by
  induction cs generalizing d acc with
  | nil => simp [orLoop, evalAny]
  | cons c cs ih =>
    have h1 := hc c (by simp)
    have h2 : ∀ c ∈ cs, Sound env c (c.evalPrecedence ord env) := fun c h => hc c (by simp [h])
    rw [orLoop]
    cases he : c.evalPrecedence ord env with
    | none =>
      rw [he] at h1
      simp only [Sound] at h1
      have := ih h2 d acc
      simpa [evalAny, h1] using this
    | some e =>
      rw [he] at h1
      simp only [Sound] at h1
      by_cases hN : e = SC.NONE
      · simp only [hN, ↓reduceIte, true_and]
        rw [hN] at h1
        have : SC.NONE.evaluate env = true := hn
        simp [evalAny, ← h1, this]
      · have := ih h2 (d || decide (c = e)) (acc ++ [e])
        simp only [if_neg hN]
        revert this
        cases orLoop ord env cs (d || decide (c = e)) (acc ++ [e]) with
        | inl r => rintro ⟨a, b⟩; exact ⟨a, by simp [evalAny, b]⟩
        | inr x =>
          obtain ⟨d', ops⟩ := x
          intro this
          simp only [this, evalAny_append, evalAny, h1, Bool.or_false, Bool.or_assoc]

/-- The operands collected by the loop of a conjunction. -/
theorem andLoop_sound (ord : List SC → List SC) (env : Env) (hn : NoneTrue env) (cs : List SC)
    (hc : ∀ c ∈ cs, Sound env c (c.evalPrecedence ord env)) (d : Bool) (acc : List SC) :
    match andLoop ord env cs d acc with
    | .inl r => r = none ∧ evalAll env cs = false
    | .inr (_, operands) => evalAll env operands = (evalAll env acc && evalAll env cs) := by
  induction cs generalizing d acc with
  | nil => simp [andLoop, evalAll]
  | cons c cs ih =>
    have h1 := hc c (by simp)
    have h2 : ∀ c ∈ cs, Sound env c (c.evalPrecedence ord env) := fun c h => hc c (by simp [h])
    rw [andLoop]
    cases he : c.evalPrecedence ord env with
    | none =>
      rw [he] at h1
      simp only [Sound] at h1
      simp [evalAll, h1]
    | some e =>
      rw [he] at h1
      simp only [Sound] at h1
      have := ih h2 (d || decide (c = e)) (if e ≠ SC.NONE then acc ++ [e] else acc)
      simp only []
      revert this
      cases andLoop ord env cs (d || decide (c = e)) (if e ≠ SC.NONE then acc ++ [e] else acc) with
      | inl r => rintro ⟨a, b⟩; exact ⟨a, by simp [evalAll, b]⟩
      | inr x =>
        obtain ⟨d', ops⟩ := x
        intro this
        simp only [this]
        by_cases hN : e = SC.NONE
        · have ht : SC.NONE.evaluate env = true := hn
          rw [hN, ht] at h1
          simp [hN, evalAll, ← h1]
        · simp only [if_pos hN, evalAll_append, evalAll, h1, Bool.and_true, Bool.and_assoc]

/-- Induction principle for predicates. -/
theorem SC.induct {P : SC → Prop} (hp : ∀ r p d, P (.predicate r p d)) (hq : ∀ p, P (.precedence p))
    (ha : ∀ ops, (∀ o ∈ ops, P o) → P (.and ops)) (ho : ∀ ops, (∀ o ∈ ops, P o) → P (.or ops)) :
    ∀ c, P c
  | .predicate r p d => hp r p d
  | .precedence p => hq p
  | .and ops => ha ops fun o _ => SC.induct hp hq ha ho o
  | .or ops => ho ops fun o _ => SC.induct hp hq ha ho o
termination_by c => sizeOf c

/-- **C35** Partial evaluation at the current precedence is sound: "impossible" only for false
predicates; otherwise the residual predicate has the same truth value. -/
theorem C35_sound (ord : List SC → List SC) (hord : IsOrder ord) (env : Env) (hn : NoneTrue env)
    (c : SC) :
    (c.evalPrecedence ord env = none → c.evaluate env = false) ∧
    (∀ e, c.evalPrecedence ord env = some e → e.evaluate env = c.evaluate env) := by
  have key : ∀ c : SC, Sound env c (c.evalPrecedence ord env) := by
    intro c
    induction c using SC.induct with
    | hp r p d => simp [evalPrecedence, Sound]
    | hq p =>
      simp only [evalPrecedence]
      split
      · rename_i h
        have ht : SC.NONE.evaluate env = true := hn
        simp [Sound, ht, evaluate, h]
      · rename_i h; simp [Sound, evaluate, h]
    | ho ops ih =>
      have := orLoop_sound ord env hn ops ih false []
      rw [evalPrecedence]
      revert this
      cases orLoop ord env ops false [] with
      | inl r =>
        rintro ⟨rfl, h⟩
        have ht : SC.NONE.evaluate env = true := hn
        simp [Sound, ht, evaluate, h]
      | inr x =>
        obtain ⟨d, operands⟩ := x
        intro h
        simp only [evalAny, Bool.false_or] at h
        cases d
        · simp [Sound]
        · cases operands with
          | nil =>
            simp only [evalAny] at h
            simp [Sound, evaluate, ← h]
          | cons o os =>
            simp only [Bool.not_true, Bool.false_eq_true, ↓reduceIte, Sound]
            rw [foldl_mkOr ord hord env hn, h]; simp [evaluate]
    | ha ops ih =>
      have := andLoop_sound ord env hn ops ih false []
      rw [evalPrecedence]
      revert this
      cases andLoop ord env ops false [] with
      | inl r =>
        rintro ⟨rfl, h⟩
        simp [Sound, evaluate, h]
      | inr x =>
        obtain ⟨d, operands⟩ := x
        intro h
        simp only [evalAll, Bool.true_and] at h
        cases d
        · simp [Sound]
        · cases operands with
          | nil =>
            simp only [evalAll] at h
            have ht : SC.NONE.evaluate env = true := hn
            simp [Sound, evaluate, ← h, ht]
          | cons o os =>
            simp only [Bool.not_true, Bool.false_eq_true, ↓reduceIte, Sound]
            rw [foldl_mkAnd ord hord env hn, h]; simp [evaluate]
  have := key c
  constructor
  · intro h; rw [h] at this; exact this
  · intro e h; rw [h] at this; exact this

/-- Predicates a parser builds from precedence tests alone. -/
inductive PrecOnly (ord : List SC → List SC) : SC → Prop
  | none : PrecOnly ord SC.NONE
  | prec (p : Int) : PrecOnly ord (.precedence p)
  | and {a b} : PrecOnly ord a → PrecOnly ord b → PrecOnly ord (mkAnd ord (some a) (some b))
  | or {a b} : PrecOnly ord a → PrecOnly ord b → PrecOnly ord (mkOr ord (some a) (some b))

theorem newAnd_prec (ord : List SC → List SC) (hord : IsOrder ord) (p q : Int) :
    ∃ r, newAnd ord (.precedence p) (.precedence q) = .precedence r := by
  simp only [newAnd, operandsAnd, reduceAnd, insertSet, List.not_mem_nil, ↓reduceIte, List.nil_append]
  generalize hops : (if SC.precedence q ∈ [SC.precedence p] then [SC.precedence p]
    else [SC.precedence p] ++ [SC.precedence q]) = ops
  have hall : ∀ o ∈ ops, ∃ r, o = SC.precedence r := by
    rw [← hops]; split <;> simp
  have hf : ops.filter (fun o => o.prec?.isNone) = [] := by
    rw [List.filter_eq_nil_iff]
    intro o ho
    obtain ⟨r, rfl⟩ := hall o ho
    simp [prec?]
  have hp : SC.precedence p ∈ ops := by rw [← hops]; split <;> simp
  rw [hf]
  cases hm : (ord ops).filterMap prec? with
  | nil =>
    have : p ∈ (ord ops).filterMap prec? := by rw [mem_filterMap_prec, hord]; exact hp
    rw [hm] at this; simp at this
  | cons x xs => exact ⟨xs.foldl min x, by simp [minPrec]⟩

theorem newOr_prec (ord : List SC → List SC) (hord : IsOrder ord) (p q : Int) :
    ∃ r, newOr ord (.precedence p) (.precedence q) = .precedence r := by
  simp only [newOr, operandsOr, reduceOr, insertSet, List.not_mem_nil, ↓reduceIte, List.nil_append]
  generalize hops : (if SC.precedence q ∈ [SC.precedence p] then [SC.precedence p]
    else [SC.precedence p] ++ [SC.precedence q]) = ops
  have hall : ∀ o ∈ ops, ∃ r, o = SC.precedence r := by
    rw [← hops]; split <;> simp
  have hf : ops.filter (fun o => o.prec?.isNone) = [] := by
    rw [List.filter_eq_nil_iff]
    intro o ho
    obtain ⟨r, rfl⟩ := hall o ho
    simp [prec?]
  have hp : SC.precedence p ∈ ops := by rw [← hops]; split <;> simp
  rw [hf]
  cases hm : (ord ops).filterMap prec? with
  | nil =>
    have : p ∈ (ord ops).filterMap prec? := by rw [mem_filterMap_prec, hord]; exact hp
    rw [hm] at this; simp at this
  | cons x xs => exact ⟨xs.foldl max x, by simp [maxPrec]⟩

/-- **C35, completeness, partial.**  A predicate *built by the parser's `and`/`or`* from precedence
tests alone is decided: the answer is "impossible" or "always true" (missing: raw nested values, see
`C35_false_raw`). -/
theorem C35_complete_partial (ord : List SC → List SC) (hord : IsOrder ord) (env : Env) (c : SC)
    (h : PrecOnly ord c) :
    c.evalPrecedence ord env = none ∨ c.evalPrecedence ord env = some SC.NONE := by
  have key : c = SC.NONE ∨ ∃ p, c = .precedence p := by
    induction h with
    | none => exact .inl rfl
    | prec p => exact .inr ⟨p, rfl⟩
    | and _ _ iha ihb =>
      simp only [mkAnd]
      split
      · exact ihb
      · split
        · exact iha
        · rcases iha with h | ⟨p, rfl⟩
          · contradiction
          · rcases ihb with h | ⟨q, rfl⟩
            · contradiction
            · exact .inr (newAnd_prec ord hord p q)
    | or _ _ iha ihb =>
      simp only [mkOr]
      split
      · exact .inl rfl
      · rename_i hne
        rw [not_or] at hne
        rcases iha with h | ⟨p, rfl⟩
        · exact absurd h hne.1
        · rcases ihb with h | ⟨q, rfl⟩
          · exact absurd h hne.2
          · exact .inr (newOr_prec ord hord p q)
  rcases key with rfl | ⟨p, rfl⟩
  · right; rfl
  · rw [evalPrecedence]; split <;> simp

example (env : Env) : PrecOnly id (mkAnd id (some (.precedence 2)) (some (.precedence 4))) ∧
    mkAnd id (some (.precedence 2)) (some (.precedence 4)) = .precedence 2 :=
  ⟨.and (.prec 2) (.prec 4), by decide +kernel⟩

/-- **C35 completeness is false for raw values**: the inverted comparison in the code leaves a
disjunction of two failing precedence tests (and a conjunction of two succeeding ones) as it is. -/
theorem C35_false_raw :
    let env : Env := ⟨fun _ _ _ => true, 5⟩
    evalPrecedence id env (.or [.precedence 1, .precedence 2]) =
      some (.or [.precedence 1, .precedence 2]) ∧
    (SC.or [.precedence 1, .precedence 2]).evaluate env = false ∧
    evalPrecedence id env (.and [.precedence 7, .precedence 8]) =
      some (.and [.precedence 7, .precedence 8]) ∧
    (SC.and [.precedence 7, .precedence 8]).evaluate env = true := by decide +kernel

/-- The same defect is visible for a predicate the parser can build: evaluating
`and(prec 7, or(prec 2, pred))` at precedence 5 removes neither the satisfied test `prec 7` nor the
failed test `prec 2`, although the residual predicate should be `pred`. -/
theorem C35_false_built :
    let env : Env := ⟨fun _ _ _ => true, 5⟩
    let c := mkAnd id (some (.precedence 7))
      (some (mkOr id (some (.precedence 2)) (some (.predicate 0 0 false))))
    evalPrecedence id env c = some c ∧ c ≠ .predicate 0 0 false := by decide +kernel

end Antlr.SemProps
