import Verif.Lexer.Model
import Verif.ConfigSet.Lemmas

/-!
# The closure of the lexer simulator as a pure traversal

`closure` never looks at the set it fills, so it is a traversal (`trace`) that yields a list of
events, followed by adding the configurations of the events one by one.
-/

namespace Antlr.LexCache
open Antlr Lexer ConfigSet

set_option linter.unusedSectionVars false

/-- What every lexer configuration looks like. -/
structure Plain (c : Config) : Prop where
  sem : c.sem = SC.NONE
  reaches : c.reaches = 0
  supp : c.suppressed = false
  lexer : ∃ e p, c.kind = .lexer e p

/-- Add one configuration to a list without duplicates. -/
def insertNew {α} [DecidableEq α] (l : List α) (c : α) : List α := if c ∈ l then l else l ++ [c]

theorem firsts_append {α} [DecidableEq α] (l m : List α) :
    firsts (l ++ m) = m.foldl insertNew (firsts l) := by
  simp only [firsts, List.foldl_append]; rfl

/-- A set as the lexer fills it. -/
structure Collect (s : ConfigSet) : Prop where
  writable : s.readOnly = false
  ord : s.ordered = true
  lookup : ∀ k i, s.lookup.lookup k = some i ↔ (s.configs.map s.key)[i]? = some k
  plain : ∀ c ∈ s.configs, Plain c

theorem collect_new : Collect newOrdered := by
  constructor <;> simp [newOrdered]

theorem key_plain {s : ConfigSet} (ho : s.ordered = true) {a b : Config} (ha : Plain a) (hb : Plain b)
    (h : s.key a = s.key b) : a = b := by
  simp only [key, ho, if_true, Key.full.injEq] at h
  have h1 := ha.reaches
  have h2 := hb.reaches
  cases a; cases b
  simp_all

theorem collect_flag {s : ConfigSet} (h : Collect s) (b : Bool) : Collect { s with hasSem := b } :=
  ⟨h.writable, h.ord, h.lookup, h.plain⟩

/-- `add` on such a set never fails and adds the configuration unless it is there. -/
theorem add_ok {s : ConfigSet} (h : Collect s) {c : Config} (hc : Plain c) :
    ∃ s', add s c = some s' ∧ Collect s' ∧ s'.configs = insertNew s.configs c ∧
      s'.hasSem = s.hasSem := by
  have hn : s.noteFlags c = s := by simp [noteFlags, hc.sem, hc.reaches]
  simp only [add, addCached, hn]
  rw [if_neg (by simp [h.writable])]
  cases hl : s.lookup.lookup (s.key c) with
  | some i =>
    have h1 := (h.lookup _ _).mp hl
    simp only [List.getElem?_map, Option.map_eq_some_iff] at h1
    obtain ⟨e, he, hk⟩ := h1
    have hm : e ∈ s.configs := List.mem_of_getElem? he
    have hec : e = c := key_plain h.ord (h.plain e hm) hc hk
    subst hec
    have hmi : mergeInto e e e.ctx = e := by
      cases e; simp [mergeInto]
    simp only [he, Option.bind_some, merge_self, Option.map_some, hmi]
    refine ⟨_, rfl, ?_, ?_, rfl⟩
    · have hs : s.configs.set i e = s.configs := by
        apply List.ext_getElem?
        intro j
        by_cases hj : i = j
        · subst hj
          rw [he, List.getElem?_set_self (List.getElem?_eq_some_iff.mp he).1]
        · rw [List.getElem?_set_ne hj]
      simp only [hs]
      exact h
    · simp only [insertNew, if_pos hm]
      apply List.ext_getElem?
      intro j
      by_cases hj : i = j
      · subst hj
        rw [he, List.getElem?_set_self (List.getElem?_eq_some_iff.mp he).1]
      · rw [List.getElem?_set_ne hj]
  | none =>
    have hnm : c ∉ s.configs := by
      intro hm
      obtain ⟨i, hi⟩ := List.mem_iff_getElem?.mp hm
      have := (h.lookup (s.key c) i).mpr (by rw [List.getElem?_map, hi]; rfl)
      rw [hl] at this; simp at this
    refine ⟨_, rfl, ?_, by simp [insertNew, hnm], rfl⟩
    constructor
    · exact h.writable
    · exact h.ord
    · intro k i
      have hfun : ({ s with lookup := (s.key c, s.configs.length) :: s.lookup, configs := s.configs ++ [c] } : ConfigSet).key = s.key := rfl
      simp only [hfun, List.lookup_cons]
      by_cases hk : k = s.key c
      · subst hk
        simp only [beq_self_eq_true, List.map_append, List.map_cons, List.map_nil]
        constructor
        · rintro ⟨⟩; simp
        · intro hi
          by_cases hlt : i < s.configs.length
          · rw [List.getElem?_append_left (by simpa using hlt)] at hi
            have := (h.lookup _ _).mpr hi
            rw [hl] at this; simp at this
          · rw [List.getElem?_append_right (by simp; omega)] at hi
            simp only [List.length_map] at hi
            by_cases h0 : i - s.configs.length = 0
            · simp; omega
            · rw [List.getElem?_eq_none (by simp; omega)] at hi; simp at hi
      · have hb : (k == s.key c) = false := by simp [hk]
        simp only [hb, h.lookup, List.map_append, List.map_cons, List.map_nil]
        constructor
        · intro hi
          rw [List.getElem?_append_left (List.getElem?_eq_some_iff.mp hi).1]; exact hi
        · intro hi
          by_cases hlt : i < (s.configs.map s.key).length
          · rwa [List.getElem?_append_left hlt] at hi
          · rw [List.getElem?_append_right (by omega)] at hi
            by_cases h0 : i - (s.configs.map s.key).length = 0
            · rw [h0] at hi; simp at hi; exact absurd hi.symm hk
            · rw [List.getElem?_eq_none (by simp at h0 ⊢; omega)] at hi; simp at hi
    · intro x hx
      simp only [List.mem_append, List.mem_singleton] at hx
      rcases hx with hx | rfl
      · exact h.plain x hx
      · exact hc

/-! ## The traversal -/

/-- An event of the traversal: the end of a token rule reached with an empty stack, or another state
that is worth a configuration. -/
inductive Ev where
  | stop (c : Config)
  | node (c : Config)

/-- `epsilonTarget` without the set: was a predicate evaluated, and the new configuration. -/
def epsTarget (atn : ATN) (pred : Int → Int → Option Bool) (eof : Bool) (c : Config) (tr : Trans) :
    Option (Bool × Option Config) :=
  (atn.states[tr.target]?).bind fun tst =>
    match tr with
    | .epsilon t _ => some (false, some (cloned c t tst))
    | .rule t f _ _ => some (false, some (clonedCtx c t tst (.single (some c.ctx) f)))
    | .predicate t _ r p => (pred r p).map fun b => (true, if b then some (cloned c t tst) else none)
    | .action t _ _ a _ =>
      if c.ctx.hasEmptyPath then
        match c.kind with
        | .lexer e _ =>
          (if 0 ≤ a then atn.lexerActions[a.toNat]? else none).map fun act =>
            (false, some (clonedExec c t tst (some (newCopyAppend e act))))
        | .base => some (false, none)
      else some (false, some (cloned c t tst))
    | .range t _ _ | .set t _ | .atom t _ =>
      if eof then
        (tr.matches EOF LEXER_MIN_CHAR_VALUE LEXER_MAX_CHAR_VALUE).map fun m =>
          (false, if m then some (cloned c t tst) else none)
      else some (false, none)
    | .wildcard _ => some (false, none)
    | .notSet _ _ => some (false, none)
    | .precedence _ _ => none

theorem epsilonTarget_eq (atn : ATN) (pred : Int → Int → Option Bool) (eof : Bool) (c : Config)
    (tr : Trans) (cs : ConfigSet) :
    epsilonTarget atn pred eof c tr cs =
      (epsTarget atn pred eof c tr).map fun r => ({ cs with hasSem := cs.hasSem || r.1 }, r.2) := by
  have hcs : ({ cs with hasSem := cs.hasSem || false } : ConfigSet) = cs := by simp
  simp only [epsilonTarget, epsTarget]
  cases atn.states[tr.target]? with
  | none => rfl
  | some tst =>
    cases tr with
    | epsilon => simp
    | rule => simp
    | predicate t b r p => cases h : pred r p <;> simp [h]
    | action t b r a p =>
      simp only [Option.bind_some]
      split
      · cases c.kind with
        | lexer e q => simp only [Option.map_map, Function.comp_def, Bool.or_false]
        | base => simp
      · simp
    | range t a b => simp only [Option.bind_some]; split <;> simp [Option.map_map, Function.comp_def]
    | set t a => simp only [Option.bind_some]; split <;> simp [Option.map_map, Function.comp_def]
    | atom t a => simp only [Option.bind_some]; split <;> simp [Option.map_map, Function.comp_def]
    | notSet => simp
    | wildcard => simp
    | precedence => simp

/-- Put the results for a list of items one after the other. -/
def collect {α ε : Type} (f : α → Option (List ε × Bool)) : List α → Option (List ε × Bool)
  | [] => some ([], false)
  | a :: as => (f a).bind fun r => (collect f as).map fun q => (r.1 ++ q.1, r.2 || q.2)

/-- The traversal made by `closure`: its events and whether a predicate was evaluated. -/
def trace (atn : ATN) (pred : Int → Int → Option Bool) (eof : Bool) :
    Nat → Config → Option (List Ev × Bool)
  | 0, _ => none
  | fuel + 1, c =>
    (atn.states[c.state]?).bind fun st =>
      if st.stateType = .ruleStop then
        if c.ctx.hasEmptyPath && c.ctx.isEmpty then some ([.stop c], false)
        else
          (if c.ctx.isEmpty then some ([], false)
           else collect (fun (e : Option PC × Int) =>
              e.1.bind fun parent => (atn.stateAt e.2).bind fun rst =>
                trace atn pred eof fuel (clonedCtx c e.2.toNat rst parent)) (returns c.ctx)).map
            fun r => ((if c.ctx.hasEmptyPath then [.stop (clonedCtx c c.state st PC.EMPTY)] else []) ++ r.1,
              r.2)
      else
        (collect (fun (tr : Trans) =>
          (epsTarget atn pred eof c tr).bind fun r =>
            match r.2 with
            | none => some ([], r.1)
            | some c' => (trace atn pred eof fuel c').map fun q => (q.1, r.1 || q.2)) st.transitions).map
          fun r => ((if st.epsilonOnly then [] else [.node c]) ++ r.1, r.2)

/-- The configurations that are added for a list of events, and the flag at the end. -/
def emitted : Bool → List Ev → List Config × Bool
  | flag, [] => ([], flag)
  | _, .stop c :: evs => (c :: (emitted true evs).1, (emitted true evs).2)
  | flag, .node c :: evs =>
    ((if !flag || !passedOf c then [c] else []) ++ (emitted flag evs).1, (emitted flag evs).2)

theorem emitted_append (flag : Bool) (a b : List Ev) :
    emitted flag (a ++ b) =
      ((emitted flag a).1 ++ (emitted (emitted flag a).2 b).1, (emitted (emitted flag a).2 b).2) := by
  induction a generalizing flag with
  | nil => simp [emitted]
  | cons e a ih => cases e <;> simp [emitted, ih]

theorem plain_cloned {c : Config} (h : Plain c) (t : Nat) (tst : ATNState) : Plain (cloned c t tst) := by
  obtain ⟨h1, h2, h3, e, p, h4⟩ := h
  exact ⟨h1, h2, h3, e, checkNonGreedy c tst, by simp [cloned, h4]⟩

theorem plain_clonedCtx {c : Config} (h : Plain c) (t : Nat) (tst : ATNState) (x : PC) :
    Plain (clonedCtx c t tst x) := by
  obtain ⟨h1, h2, h3, h4⟩ := plain_cloned h t tst
  exact ⟨h1, h2, h3, h4⟩

theorem plain_clonedExec {c : Config} (h : Plain c) (t : Nat) (tst : ATNState)
    (x : Option (List LexerAction)) : Plain (clonedExec c t tst x) := by
  obtain ⟨h1, h2, h3, e, p, h4⟩ := plain_cloned h t tst
  exact ⟨h1, h2, h3, x, p, by simp [clonedExec, h4]⟩

theorem plain_epsTarget {atn : ATN} {pred : Int → Int → Option Bool} {eof : Bool} {c c' : Config}
    {tr : Trans} {b : Bool} (h : Plain c) (ht : epsTarget atn pred eof c tr = some (b, some c')) :
    Plain c' := by
  simp only [epsTarget] at ht
  obtain ⟨tst, _, ht⟩ := Option.bind_eq_some_iff.mp ht
  cases tr with
  | epsilon => simp at ht; rw [← ht.2]; exact plain_cloned h _ _
  | rule => simp at ht; rw [← ht.2]; exact plain_clonedCtx h _ _ _
  | predicate t d r p =>
    simp only [Option.map_eq_some_iff] at ht
    obtain ⟨x, _, ht⟩ := ht
    injection ht with _ ht
    split at ht
    · injection ht with ht; rw [← ht]; exact plain_cloned h _ _
    · simp at ht
  | action t d r a p =>
    simp only at ht
    split at ht
    · split at ht
      · simp only [Option.map_eq_some_iff] at ht
        obtain ⟨x, _, ht⟩ := ht
        injection ht with _ ht; injection ht with ht
        rw [← ht]; exact plain_clonedExec h _ _ _
      · simp at ht
    · simp at ht; rw [← ht.2]; exact plain_cloned h _ _
  | range t x y =>
    simp only at ht
    split at ht
    · simp only [Option.map_eq_some_iff] at ht
      obtain ⟨x, _, ht⟩ := ht
      injection ht with _ ht
      split at ht
      · injection ht with ht; rw [← ht]; exact plain_cloned h _ _
      · simp at ht
    · simp at ht
  | set t x =>
    simp only at ht
    split at ht
    · simp only [Option.map_eq_some_iff] at ht
      obtain ⟨x, _, ht⟩ := ht
      injection ht with _ ht
      split at ht
      · injection ht with ht; rw [← ht]; exact plain_cloned h _ _
      · simp at ht
    · simp at ht
  | atom t x =>
    simp only at ht
    split at ht
    · simp only [Option.map_eq_some_iff] at ht
      obtain ⟨x, _, ht⟩ := ht
      injection ht with _ ht
      split at ht
      · injection ht with ht; rw [← ht]; exact plain_cloned h _ _
      · simp at ht
    · simp at ht
  | notSet => simp at ht
  | wildcard => simp at ht
  | precedence => simp at ht

/-- The outcome `o` of filling the set `cs` is what the events `t` say. -/
def Does (o : Option (ConfigSet × Bool)) (t : Option (List Ev × Bool)) (cs : ConfigSet) (flag : Bool) :
    Prop :=
  match t with
  | none => o = none
  | some (evs, sem) => ∃ cs', o = some (cs', (emitted flag evs).2) ∧ Collect cs' ∧
      cs'.configs = (emitted flag evs).1.foldl insertNew cs.configs ∧ cs'.hasSem = (cs.hasSem || sem)

theorem does_fold {α : Type} (F : ConfigSet × Bool → α → Option (ConfigSet × Bool))
    (f : α → Option (List Ev × Bool)) (l : List α)
    (hF : ∀ a ∈ l, ∀ cs flag, Collect cs → Does (F (cs, flag) a) (f a) cs flag) :
    ∀ cs flag, Collect cs → Does (l.foldlM F (cs, flag)) (collect f l) cs flag := by
  induction l with
  | nil =>
    intro cs flag h
    exact ⟨cs, rfl, h, rfl, by simp⟩
  | cons a as ih =>
    intro cs flag h
    have h1 := hF a (by simp) cs flag h
    simp only [List.foldlM_cons, collect]
    cases hf : f a with
    | none =>
      rw [hf] at h1
      simp only [Does] at h1
      simp [Does, h1]
    | some r =>
      obtain ⟨evs, sem⟩ := r
      rw [hf] at h1
      obtain ⟨cs1, e1, c1, k1, s1⟩ := h1
      have h2 := ih (fun x hx => hF x (by simp [hx])) cs1 (emitted flag evs).2 c1
      simp only [e1, Option.bind_eq_bind, Option.bind_some]
      cases hq : collect f as with
      | none =>
        rw [hq] at h2
        simp only [Does] at h2
        simp [Does, h2]
      | some q =>
        obtain ⟨evs2, sem2⟩ := q
        rw [hq] at h2
        obtain ⟨cs2, e2, c2, k2, s2⟩ := h2
        refine ⟨cs2, ?_, c2, ?_, ?_⟩
        · rw [e2, emitted_append]
        · rw [k2, k1, emitted_append, List.foldl_append]
        · rw [s2, s1, Bool.or_assoc]

theorem closure_does (atn : ATN) (pred : Int → Int → Option Bool) (eof : Bool) (fuel : Nat) :
    ∀ (c : Config) (cs : ConfigSet) (flag : Bool), Plain c → Collect cs →
      Does (closure atn pred eof fuel c (cs, flag)) (trace atn pred eof fuel c) cs flag := by
  induction fuel with
  | zero => intro c cs flag _ _; rfl
  | succ fuel ih =>
    intro c cs flag hc h
    simp only [closure, trace]
    cases hst : atn.states[c.state]? with
    | none => simp [Does]
    | some st =>
      simp only [Option.bind_some]
      by_cases hstop : st.stateType = .ruleStop
      · simp only [hstop, if_true]
        by_cases he : (c.ctx.hasEmptyPath && c.ctx.isEmpty) = true
        · simp only [he, if_true]
          obtain ⟨cs', h1, h2, h3, h4⟩ := add_ok h hc
          exact ⟨cs', by simp [h1, emitted], h2, by simp [h3, emitted], by simp [h4]⟩
        · simp only [he]
          have first : ∃ cs1, (if c.ctx.hasEmptyPath = true then
              (add cs (clonedCtx c c.state st PC.EMPTY)).map fun cs' => (cs', true)
              else some (cs, flag)) =
              some (cs1, (emitted flag (if c.ctx.hasEmptyPath then [Ev.stop (clonedCtx c c.state st PC.EMPTY)] else [])).2) ∧
              Collect cs1 ∧ cs1.configs = (emitted flag (if c.ctx.hasEmptyPath then [Ev.stop (clonedCtx c c.state st PC.EMPTY)] else [])).1.foldl insertNew cs.configs ∧
              cs1.hasSem = cs.hasSem := by
            by_cases hp : c.ctx.hasEmptyPath = true
            · obtain ⟨cs', h1, h2, h3, h4⟩ := add_ok h (plain_clonedCtx hc c.state st PC.EMPTY)
              exact ⟨cs', by simp [hp, h1, emitted], h2, by simp [hp, h3, emitted], h4⟩
            · simp only [hp]
              exact ⟨cs, by simp [emitted], h, by simp [emitted], rfl⟩
          obtain ⟨cs1, e1, c1, k1, s1⟩ := first
          simp only [Bool.false_eq_true, if_false, e1, Option.bind_some]
          by_cases hemp : c.ctx.isEmpty = true
          · simp only [hemp, if_true, Option.map_some, List.append_nil]
            exact ⟨cs1, rfl, c1, k1, by simp [s1]⟩
          · simp only [hemp]
            have h2 := does_fold (fun (acc : ConfigSet × Bool) (e : Option PC × Int) =>
              e.1.bind fun parent => (atn.stateAt e.2).bind fun rst =>
                closure atn pred eof fuel (clonedCtx c e.2.toNat rst parent) acc)
              (fun (e : Option PC × Int) =>
              e.1.bind fun parent => (atn.stateAt e.2).bind fun rst =>
                trace atn pred eof fuel (clonedCtx c e.2.toNat rst parent)) (returns c.ctx)
              (by
                intro e _ cs2 flag2 hcs2
                cases e.1 with
                | none => simp [Does]
                | some parent =>
                  cases atn.stateAt e.2 with
                  | none => simp [Does]
                  | some rst => exact ih _ _ _ (plain_clonedCtx hc _ _ _) hcs2)
              cs1 (emitted flag (if c.ctx.hasEmptyPath then [Ev.stop (clonedCtx c c.state st PC.EMPTY)] else [])).2 c1
            simp only [Bool.false_eq_true, if_false]
            revert h2
            generalize collect _ (returns c.ctx) = q
            intro h2
            cases q with
            | none => simp only [Does] at h2; simp [Does, h2]
            | some q =>
              obtain ⟨evs, sem⟩ := q
              obtain ⟨cs3, e3, c3, k3, s3⟩ := h2
              refine ⟨cs3, ?_, c3, ?_, ?_⟩
              · rw [e3, emitted_append]
              · rw [k3, k1, emitted_append, List.foldl_append]
              · rw [s3, s1]
      · simp only [hstop, if_false]
        have first : ∃ cs1, (if (!st.epsilonOnly && (!flag || !passedOf c)) = true then add cs c else some cs) = some cs1 ∧
            (emitted flag (if st.epsilonOnly then [] else [Ev.node c])).2 = flag ∧
            Collect cs1 ∧ cs1.configs = (emitted flag (if st.epsilonOnly then [] else [Ev.node c])).1.foldl insertNew cs.configs ∧
            cs1.hasSem = cs.hasSem := by
          cases heo : st.epsilonOnly
          · by_cases hfl : (!flag || !passedOf c) = true
            · obtain ⟨cs', h1, h2, h3, h4⟩ := add_ok h hc
              refine ⟨cs', by simp [hfl, h1], by simp [emitted], h2, ?_, h4⟩
              simp only [Bool.false_eq_true, if_false, emitted, hfl, if_true]
              simpa using h3
            · refine ⟨cs, by simp [hfl], by simp [emitted], h, ?_, rfl⟩
              simp only [Bool.false_eq_true, if_false, emitted, hfl]
              simp
          · exact ⟨cs, by simp, by simp [emitted], h, by simp [emitted], rfl⟩
        obtain ⟨cs1, e1, f1, c1, k1, s1⟩ := first
        simp only [e1, Option.bind_some]
        have h2 := does_fold (fun (acc : ConfigSet × Bool) (tr : Trans) =>
            (epsilonTarget atn pred eof c tr acc.1).bind fun r =>
              match r.2 with
              | none => some (r.1, acc.2)
              | some c' => closure atn pred eof fuel c' (r.1, acc.2))
            (fun (tr : Trans) =>
              (epsTarget atn pred eof c tr).bind fun r =>
                match r.2 with
                | none => some ([], r.1)
                | some c' => (trace atn pred eof fuel c').map fun q => (q.1, r.1 || q.2)) st.transitions
            (by
              intro tr _ cs2 flag2 hcs2
              simp only [epsilonTarget_eq]
              cases het : epsTarget atn pred eof c tr with
              | none => simp [Does]
              | some r =>
                obtain ⟨b, o⟩ := r
                simp only [Option.map_some, Option.bind_some]
                cases o with
                | none => exact ⟨_, rfl, collect_flag hcs2 _, rfl, rfl⟩
                | some c' =>
                  have h3 := ih c' { cs2 with hasSem := cs2.hasSem || b } flag2 (plain_epsTarget hc het)
                    (collect_flag hcs2 _)
                  simp only
                  cases hq : trace atn pred eof fuel c' with
                  | none => rw [hq] at h3; simpa [Does] using h3
                  | some q =>
                    obtain ⟨evs, sem⟩ := q
                    rw [hq] at h3
                    obtain ⟨cs3, e3, c3, k3, s3⟩ := h3
                    exact ⟨cs3, e3, c3, k3, by rw [s3]; simp [Bool.or_assoc]⟩)
            cs1 flag c1
        revert h2
        generalize collect _ st.transitions = q
        intro h2
        cases q with
        | none => exact h2
        | some q =>
          obtain ⟨evs, sem⟩ := q
          obtain ⟨cs3, e3, c3, k3, s3⟩ := h2
          refine ⟨cs3, ?_, c3, ?_, ?_⟩
          · exact e3.trans (by rw [emitted_append, f1])
          · rw [k3, k1, emitted_append, List.foldl_append, f1]
          · rw [s3, s1]

end Antlr.LexCache
