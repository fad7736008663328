import Verif.Gen.PathLemmas

/-!
# A check whether generated code mirrors its automaton

`mirrorB` decides whether the code of a parser does what its automaton does (`Mirror`), for token types out of
a list; `tellsB` whether a test of the next token is right (`Tells`).
-/

namespace Antlr.GenSpec
open Antlr LL1Spec PredictionSpec Gen Prediction IntervalSpec

section
variable (atn : ATN)

def freeB : Trans → Bool
  | .epsilon .. | .predicate .. | .action .. | .precedence .. => true
  | _ => false

/-- Where the only way on leads, if it is silent. -/
def plainNext (a : Nat) : Option Nat :=
  match atn.states[a]? with
  | none => none
  | some st => if st.stateType = .ruleStop then none else
    match st.transitions with
    | [tr] => if freeB tr then some tr.target else none
    | _ => none

/-- The states that follow silently. -/
def chainOf : Nat → Nat → List Nat
  | 0, a => [a]
  | n + 1, a => a :: match plainNext atn a with
    | some b => chainOf n b
    | none => []

def chain (a : Nat) : List Nat := chainOf atn atn.states.length a

/-- The state with the number the code sets. -/
def enter (st : Int) (a : Nat) : Option Nat :=
  match st with
  | .ofNat n => if (chain atn a).contains n then some n else none
  | _ => none

def soleOf (a : Nat) : Option Trans :=
  match atn.states[a]? with
  | none => none
  | some st => if st.stateType = .ruleStop then none else
    match st.transitions with
    | [tr] => some tr
    | _ => none

def epsTarget : Trans → Option Nat
  | .epsilon t _ => some t
  | _ => none

/-- The targets of a decision. -/
def decisionOf (a : Nat) : Option (List Nat) :=
  match atn.states[a]? with
  | none => none
  | some st => if st.stateType = .ruleStop then none else
    if st.transitions.length < 2 ^ 63 then st.transitions.mapM epsTarget else none

def takesB (max : Int) : Trans → Int → Bool
  | .atom _ l, x => x == l
  | .range _ a b, x => decide (a ≤ x) && decide (x ≤ b)
  | .set _ s, x => decide (Mem s.intervals x)
  | .notSet _ s, x => decide (0 ≤ x) && decide (x ≤ max) && !decide (Mem s.intervals x)
  | .wildcard _, x => decide (0 < x) && decide (x < max)
  | _, _ => false

/-- The first state all the chains have in common. -/
def meet : List (List Nat) → Option Nat
  | [] => none
  | l :: ls => l.find? fun b => ls.all (·.contains b)

/-- Body and exit of a loop. -/
def sidesOf (ts : List Nat) (bodyAlt exit : Int) : Option (Nat × Nat) :=
  match ts with
  | [x, y] => if bodyAlt = 1 ∧ exit = 2 then some (x, y) else if bodyAlt = 2 ∧ exit = 1 then some (y, x) else none
  | _ => none

variable (toks : List Int) (chB : Choice → Nat → Bool)

mutual
/-- Where the code leads from state `a`. -/
def endOf : Code → Nat → Option Nat
  | .nop, a => some a
  | .seq x y, a => (endOf x a).bind (endOf y)
  | .tok st t, a => (enter atn st a).bind fun c => (soleOf atn c).bind fun tr =>
      match tr with
      | .atom b t' => if t = t' then some b else none
      | _ => none
  | .set st types invert, a => (enter atn st a).bind fun c => (soleOf atn c).bind fun tr =>
      if !tr.isEpsilon && toks.all (fun x => takesB atn.maxTokenType tr x == inSet types invert x) then some tr.target
      else none
  | .any st, a => (enter atn st a).bind fun c => (soleOf atn c).bind fun tr =>
      match tr with
      | .wildcard b => if toks.all (fun x => decide (x < atn.maxTokenType)) then some b else none
      | _ => none
  | .call st r _, a => (enter atn st a).bind fun c => (soleOf atn c).bind fun tr =>
      match tr with
      | .rule t f r' _ => if r' = (r : Nat) ∧ atn.ruleToStartState[r]? = some t then some f else none
      | _ => none
  | .guard .., _ => none
  | .block st ch alts, a => (enter atn st a).bind fun c => (decisionOf atn c).bind fun ts =>
      if chB ch c && alts.length == ts.length then (endsOf alts ts).bind fun es => meet (es.map (chain atn)) else none
  | .opt st ch off alts, a => (enter atn st a).bind fun c => (decisionOf atn c).bind fun ts =>
      if chB ch c && alts.length + 1 == ts.length then
        if off = 0 then (endsOf alts ts).bind fun es => (ts[alts.length]?).bind fun e =>
          meet ((es ++ [e]).map (chain atn))
        else if off = 1 then (endsOf alts ts.tail).bind fun es => (ts[0]?).bind fun e =>
          meet ((es ++ [e]).map (chain atn))
        else none
      else none
  | .star st back ch exit bodyAlt body, a => (enter atn st a).bind fun c => (decisionOf atn c).bind fun ts =>
      (sidesOf ts bodyAlt exit).bind fun xy => (endOf body xy.1).bind fun e => (enter atn back e).bind fun b =>
        if chB ch c && plainNext atn b == some c then some xy.2 else none
  | .plus st back ch exit bodyAlt body, a => (enter atn st a).bind fun c => (endOf body c).bind fun e =>
      (enter atn back e).bind fun b => (decisionOf atn b).bind fun ts => (sidesOf ts bodyAlt exit).bind fun xy =>
        if chB ch b && xy.1 == c then some xy.2 else none
def endsOf : List Code → List Nat → Option (List Nat)
  | [], _ => some []
  | _ :: _, [] => none
  | c :: cs, t :: ts => (endOf c t).bind fun e => (endsOf cs ts).map (e :: ·)
end

/-- The stop state of rule `r` among the states. -/
def stopOf (r : Nat) (l : List Nat) : Option Nat :=
  l.find? fun b => (atn.states[b]?).any fun st => decide (st.stateType = .ruleStop) && st.ruleIndex == r

def ruleB (r : Nat) : RuleFn → Bool
  | .plain st none [x] => (atn.ruleToStartState[r]?).any fun s => decide (st = (s : Nat)) &&
      (endOf atn toks chB x.code s).any fun e => (stopOf atn r (chain atn e)).isSome
  | .plain st (some (st', ch)) alts => (atn.ruleToStartState[r]?).any fun s => decide (st = (s : Nat)) &&
      (enter atn st' s).any fun c => (decisionOf atn c).any fun ts => chB ch c && alts.length == ts.length &&
        (endsOf atn toks chB (alts.map (·.code)) ts).any fun es =>
          (meet (es.map (chain atn))).any fun b => (stopOf atn r (chain atn b)).isSome
  | _ => false

def rulesB : Nat → List RuleFn → Bool
  | _, [] => true
  | r, fn :: fns => ruleB atn toks chB r fn && rulesB (r + 1) fns

end

/-! ## It is right -/

section
variable {atn : ATN}

theorem freeB_iff {tr : Trans} : freeB tr = true ↔ Free tr := by cases tr <;> simp [freeB, Free]

theorem takesB_iff {max x : Int} {tr : Trans} : takesB max tr x = true ↔ Takes max tr x := by
  cases tr <;> simp [takesB, Takes, and_assoc]

theorem plainNext_ok {a b : Nat} (h : plainNext atn a = some b) : Plainly atn a b := by
  unfold plainNext at h
  split at h
  · cases h
  rename_i st hst
  split at h
  · cases h
  rename_i hs
  split at h
  case h_2 => cases h
  rename_i tr htr
  split at h
  case isFalse => cases h
  rename_i hf
  simp only [Option.some.injEq] at h
  exact ⟨st, tr, hst, hs, htr, freeB_iff.1 hf, h⟩

variable {Ok : Int → Prop} {Ch : Choice → Nat → Prop}

theorem skips {n a b e : Nat} (h : b ∈ chainOf atn n a) {c : Code} (hl : Leads atn Ok Ch c b e) :
    Leads atn Ok Ch c a e := by
  induction n generalizing a with
  | zero =>
    simp only [chainOf, List.mem_singleton] at h
    subst h; exact hl
  | succ n ih =>
    simp only [chainOf, List.mem_cons] at h
    rcases h with rfl | h
    · exact hl
    · split at h
      · rename_i d hd
        exact .skip (plainNext_ok hd) (ih h)
      · simp at h

theorem rests {n a b e : Nat} (h : e ∈ chainOf atn n b) {c : Code} (hl : Leads atn Ok Ch c a b) :
    Leads atn Ok Ch c a e := by
  induction n generalizing b with
  | zero =>
    simp only [chainOf, List.mem_singleton] at h
    subst h; exact hl
  | succ n ih =>
    simp only [chainOf, List.mem_cons] at h
    rcases h with rfl | h
    · exact hl
    · split at h
      · rename_i d hd
        exact ih h (.rest hl (plainNext_ok hd))
      · simp at h

theorem enter_ok {st : Int} {a c : Nat} (h : enter atn st a = some c) : st = (c : Nat) ∧ c ∈ chain atn a := by
  unfold enter at h
  split at h
  · rename_i n
    split at h
    · rename_i hc
      simp only [Option.some.injEq] at h
      subst h
      exact ⟨rfl, by simpa using hc⟩
    · cases h
  · cases h

theorem soleOf_ok {a : Nat} {tr : Trans} (h : soleOf atn a = some tr) : Single atn a tr := by
  unfold soleOf at h
  split at h
  · cases h
  rename_i st hst
  split at h
  · cases h
  rename_i hs
  split at h
  case h_2 => cases h
  rename_i tr' htr
  simp only [Option.some.injEq] at h
  subst h
  exact ⟨st, hst, hs, htr⟩

theorem mapM_targets {l : List Trans} {ts : List Nat} (h : l.mapM epsTarget = some ts) :
    (∀ tr ∈ l, ∃ t x, tr = .epsilon t x) ∧ ts = l.map Trans.target := by
  induction l generalizing ts with
  | nil =>
    simp only [List.mapM_nil, Option.pure_def, Option.some.injEq] at h
    subst h; simp
  | cons tr l ih =>
    simp only [List.mapM_cons, Option.pure_def, Option.bind_eq_bind, Option.bind_eq_some_iff, Option.some.injEq] at h
    obtain ⟨t, ht, ts', h1, rfl⟩ := h
    obtain ⟨i1, rfl⟩ := ih h1
    cases tr <;> simp only [epsTarget, reduceCtorEq, Option.some.injEq] at ht
    subst ht
    refine ⟨?_, rfl⟩
    intro tr htr
    rcases List.mem_cons.1 htr with rfl | htr
    · exact ⟨_, _, rfl⟩
    · exact i1 tr htr

theorem decisionOf_ok {a : Nat} {ts : List Nat} (h : decisionOf atn a = some ts) :
    ∃ dec, Decision atn a dec ∧ ts = dec.transitions.map Trans.target := by
  unfold decisionOf at h
  split at h
  · cases h
  rename_i st hst
  split at h
  · cases h
  rename_i hs
  split at h
  case isFalse => cases h
  rename_i hf
  obtain ⟨h1, h2⟩ := mapM_targets h
  exact ⟨st, ⟨hst, hs, h1, hf⟩, h2⟩

theorem meet_ok {ls : List (List Nat)} {b : Nat} (h : meet ls = some b) : ∀ l ∈ ls, b ∈ l := by
  cases ls with
  | nil => cases h
  | cons l ls =>
    simp only [meet] at h
    have h1 := List.mem_of_find?_eq_some h
    have h2 := List.find?_some h
    simp only [List.all_eq_true, List.contains_iff_mem] at h2
    intro l' hl'
    rcases List.mem_cons.1 hl' with rfl | hl'
    · exact h1
    · exact h2 l' hl'

theorem sidesOf_ok {dec : ATNState} {bodyAlt exit : Int} {x y : Nat}
    (hd : ∀ tr ∈ dec.transitions, ∃ t x, tr = Trans.epsilon t x)
    (h : sidesOf (dec.transitions.map Trans.target) bodyAlt exit = some (x, y)) : Sides dec bodyAlt exit x y := by
  unfold sidesOf at h
  split at h
  case h_2 => cases h
  rename_i a b hab
  obtain ⟨t1, t2, htt, h1, h2⟩ : ∃ t1 t2, dec.transitions = [t1, t2] ∧ t1.target = a ∧ t2.target = b := by
    match hl : dec.transitions, hab with
    | [t1, t2], hab =>
      simp only [List.map_cons, List.map_nil, List.cons.injEq, and_true] at hab
      exact ⟨t1, t2, rfl, hab.1, hab.2⟩
  rw [htt] at hd
  obtain ⟨u1, x1, rfl⟩ := hd t1 (by simp)
  obtain ⟨u2, x2, rfl⟩ := hd t2 (by simp)
  simp only [Trans.target] at h1 h2
  subst h1 h2
  split at h
  · rename_i hh
    simp only [Option.some.injEq, Prod.mk.injEq] at h
    obtain ⟨rfl, rfl⟩ := h
    exact .inl ⟨hh.1, hh.2, _, _, htt⟩
  · split at h
    · rename_i hh
      simp only [Option.some.injEq, Prod.mk.injEq] at h
      obtain ⟨rfl, rfl⟩ := h
      exact .inr ⟨hh.1, hh.2, _, _, htt⟩
    · cases h

variable {toks : List Int} {chB : Choice → Nat → Bool} (hok : ∀ x, Ok x → x ∈ toks)
  (hch : ∀ ch a, chB ch a = true → Ch ch a)
include hok hch

mutual
theorem endOf_ok : ∀ (code : Code) (a b : Nat), endOf atn toks chB code a = some b → Leads atn Ok Ch code a b
  | .nop, a, b, h => by
    simp only [endOf, Option.some.injEq] at h
    subst h; exact .nop
  | .seq x y, a, b, h => by
    simp only [endOf, Option.bind_eq_some_iff] at h
    obtain ⟨c, h1, h2⟩ := h
    exact .seq (endOf_ok x a c h1) (endOf_ok y c b h2)
  | .tok st t, a, b, h => by
    simp only [endOf, Option.bind_eq_some_iff] at h
    obtain ⟨c, h1, tr, h2, h3⟩ := h
    obtain ⟨rfl, hc1⟩ := enter_ok h1
    split at h3
    case h_2 => cases h3
    split at h3
    case isFalse => cases h3
    rename_i hh
    simp only [Option.some.injEq] at h3
    subst h3 hh
    exact skips hc1 (.tok (soleOf_ok h2))
  | .set st types invert, a, b, h => by
    simp only [endOf, Option.bind_eq_some_iff] at h
    obtain ⟨c, h1, tr, h2, h3⟩ := h
    obtain ⟨rfl, hc1⟩ := enter_ok h1
    split at h3
    case isFalse => cases h3
    rename_i hh
    simp only [Option.some.injEq] at h3
    subst h3
    simp only [Bool.and_eq_true, Bool.not_eq_true', List.all_eq_true, beq_iff_eq] at hh
    exact skips hc1 (.set (soleOf_ok h2) hh.1 fun x hx => by rw [← takesB_iff, hh.2 x (hok x hx)])
  | .any st, a, b, h => by
    simp only [endOf, Option.bind_eq_some_iff] at h
    obtain ⟨c, h1, tr, h2, h3⟩ := h
    obtain ⟨rfl, hc1⟩ := enter_ok h1
    split at h3
    case h_2 => cases h3
    split at h3
    case isFalse => cases h3
    rename_i hh
    simp only [Option.some.injEq] at h3
    subst h3
    simp only [List.all_eq_true, decide_eq_true_eq] at hh
    exact skips hc1 (.any (soleOf_ok h2) fun x hx => hh x (hok x hx))
  | .call st r q, a, b, h => by
    simp only [endOf, Option.bind_eq_some_iff] at h
    obtain ⟨c, h1, tr, h2, h3⟩ := h
    obtain ⟨rfl, hc1⟩ := enter_ok h1
    split at h3
    case h_2 => cases h3
    split at h3
    case isFalse => cases h3
    rename_i hh
    simp only [Option.some.injEq] at h3
    obtain ⟨rfl, hh⟩ := hh
    subst h3
    exact skips hc1 (.call (soleOf_ok h2) hh)
  | .guard _ _ _, a, b, h => by simp [endOf] at h
  | .block st ch alts, a, b, h => by
    simp only [endOf, Option.bind_eq_some_iff] at h
    obtain ⟨c, h1, ts, h2, h3⟩ := h
    obtain ⟨rfl, hc1⟩ := enter_ok h1
    obtain ⟨dec, hd, rfl⟩ := decisionOf_ok h2
    split at h3
    case isFalse => cases h3
    rename_i hh
    simp only [Bool.and_eq_true, beq_iff_eq, List.length_map] at hh
    obtain ⟨es, h4, h5⟩ := Option.bind_eq_some_iff.1 h3
    have hm := meet_ok h5
    refine skips hc1 (.block hd (hch _ _ hh.1) hh.2 ?_)
    intro i x tr hx ht
    obtain ⟨e, he, hl⟩ := endsOf_ok alts _ es h4 i x tr.target hx (by rw [List.getElem?_map, ht]; rfl)
    exact rests (hm _ (List.mem_map.2 ⟨e, List.mem_of_getElem? he, rfl⟩)) hl
  | .opt st ch off alts, a, b, h => by
    simp only [endOf, Option.bind_eq_some_iff] at h
    obtain ⟨c, h1, ts, h2, h3⟩ := h
    obtain ⟨rfl, hc1⟩ := enter_ok h1
    obtain ⟨dec, hd, rfl⟩ := decisionOf_ok h2
    split at h3
    case isFalse => cases h3
    rename_i hh
    simp only [Bool.and_eq_true, beq_iff_eq, List.length_map] at hh
    split at h3
    · rename_i ho
      subst ho
      simp only [Option.bind_eq_some_iff] at h3
      obtain ⟨es, h4, e0, h6, h5⟩ := h3
      have hm := meet_ok h5
      rw [List.getElem?_map, Option.map_eq_some_iff] at h6
      obtain ⟨last, h6, rfl⟩ := h6
      refine skips hc1 (.opt hd (hch _ _ hh.1) hh.2 ?_ h6
        (rests (hm _ (List.mem_map.2 ⟨last.target, by simp, rfl⟩)) .nop))
      intro i x tr hx ht
      obtain ⟨e, he, hl⟩ := endsOf_ok alts _ es h4 i x tr.target hx (by rw [List.getElem?_map, ht]; rfl)
      exact rests (hm _ (List.mem_map.2 ⟨e, List.mem_append_left _ (List.mem_of_getElem? he), rfl⟩)) hl
    · split at h3
      case isFalse => cases h3
      rename_i ho
      subst ho
      simp only [Option.bind_eq_some_iff] at h3
      obtain ⟨es, h4, e0, h6, h5⟩ := h3
      have hm := meet_ok h5
      rw [List.getElem?_map, Option.map_eq_some_iff] at h6
      obtain ⟨first, h6, rfl⟩ := h6
      refine skips hc1 (.optLazy hd (hch _ _ hh.1) hh.2 ?_ h6
        (rests (hm _ (List.mem_map.2 ⟨first.target, by simp, rfl⟩)) .nop))
      intro i x tr hx ht
      obtain ⟨e, he, hl⟩ := endsOf_ok alts _ es h4 i x tr.target hx
        (by rw [List.getElem?_tail, List.getElem?_map, ht]; rfl)
      exact rests (hm _ (List.mem_map.2 ⟨e, List.mem_append_left _ (List.mem_of_getElem? he), rfl⟩)) hl
  | .star st back ch exit bodyAlt body, a, b, h => by
    simp only [endOf, Option.bind_eq_some_iff] at h
    obtain ⟨c, h1, ts, h2, ⟨x, y⟩, h3, e, h4, k, h5, h6⟩ := h
    obtain ⟨rfl, hc1⟩ := enter_ok h1
    obtain ⟨rfl, hc5⟩ := enter_ok h5
    obtain ⟨dec, hd, rfl⟩ := decisionOf_ok h2
    split at h6
    case isFalse => cases h6
    rename_i hh
    simp only [Bool.and_eq_true, beq_iff_eq] at hh
    simp only [Option.some.injEq] at h6
    subst h6
    exact skips hc1 (.star hd (hch _ _ hh.1) (sidesOf_ok hd.silent h3) (rests hc5 (endOf_ok body x e h4))
      (plainNext_ok hh.2) .nop)
  | .plus st back ch exit bodyAlt body, a, b, h => by
    simp only [endOf, Option.bind_eq_some_iff] at h
    obtain ⟨c, h1, e, h4, k, h5, ts, h2, ⟨x, y⟩, h3, h6⟩ := h
    obtain ⟨rfl, hc1⟩ := enter_ok h1
    obtain ⟨rfl, hc5⟩ := enter_ok h5
    obtain ⟨dec, hd, rfl⟩ := decisionOf_ok h2
    split at h6
    case isFalse => cases h6
    rename_i hh
    simp only [Bool.and_eq_true, beq_iff_eq] at hh
    simp only [Option.some.injEq] at h6
    obtain ⟨hh, rfl⟩ := hh
    subst h6
    exact skips hc1 (.plus hd (hch _ _ hh) (sidesOf_ok hd.silent h3) (rests hc5 (endOf_ok body _ e h4)) .nop)
theorem endsOf_ok : ∀ (alts : List Code) (ts es : List Nat), endsOf atn toks chB alts ts = some es →
    ∀ (i : Nat) c t, alts[i]? = some c → ts[i]? = some t → ∃ e, es[i]? = some e ∧ Leads atn Ok Ch c t e
  | [], ts, es, h, i, c, t, hc, ht => by simp at hc
  | c' :: cs, [], es, h, i, c, t, hc, ht => by simp at ht
  | c' :: cs, t' :: ts, es, h, i, c, t, hc, ht => by
    simp only [endsOf, Option.bind_eq_some_iff, Option.map_eq_some_iff] at h
    obtain ⟨e, h1, es', h2, rfl⟩ := h
    cases i with
    | zero =>
      simp only [List.getElem?_cons_zero, Option.some.injEq] at hc ht
      subst hc ht
      exact ⟨e, rfl, endOf_ok c' t' e h1⟩
    | succ i =>
      simp only [List.getElem?_cons_succ] at hc ht ⊢
      exact endsOf_ok cs ts es' h2 i c t hc ht
end

omit hok hch in
theorem stopOf_ok {r : Nat} {l : List Nat} (h : (stopOf atn r l).isSome = true) : ∃ b ∈ l, ∃ st,
    atn.states[b]? = some st ∧ st.stateType = .ruleStop ∧ st.ruleIndex = r := by
  obtain ⟨b, h⟩ := Option.isSome_iff_exists.1 h
  have h1 := List.mem_of_find?_eq_some h
  have h2 := List.find?_some h
  simp only [Option.any_eq_true, Bool.and_eq_true, decide_eq_true_eq, beq_iff_eq] at h2
  obtain ⟨st, h3, h4, h5⟩ := h2
  exact ⟨b, h1, st, h3, h4, h5⟩

theorem ruleB_ok {r : Nat} {fn : RuleFn} (h : ruleB atn toks chB r fn = true) : Mirrors atn Ok Ch r fn := by
  unfold ruleB at h
  split at h
  · simp only [Option.any_eq_true, Bool.and_eq_true, decide_eq_true_eq] at h
    obtain ⟨s, h1, rfl, e, h2, h3⟩ := h
    obtain ⟨b, h4, st, h5, h6, h7⟩ := stopOf_ok h3
    exact .one h1 h5 h6 h7 (rests h4 (endOf_ok hok hch _ _ _ h2))
  · simp only [Option.any_eq_true, Bool.and_eq_true, decide_eq_true_eq, beq_iff_eq] at h
    obtain ⟨s, h1, rfl, c, h2, ts, h3, ⟨h4, h5⟩, es, h6, b0, h7, h8⟩ := h
    obtain ⟨rfl, hc2⟩ := enter_ok h2
    obtain ⟨dec, hd, rfl⟩ := decisionOf_ok h3
    obtain ⟨b, h9, st, g1, g2, g3⟩ := stopOf_ok h8
    have hm := meet_ok h7
    refine .many h1 g1 g2 g3 (skips hc2 .nop) hd (hch _ _ h4) (by simpa using h5) ?_
    intro i x tr hx ht
    obtain ⟨e, he, hl⟩ := endsOf_ok hok hch _ _ es h6 i x.code tr.target (by rw [List.getElem?_map, hx]; rfl)
      (by rw [List.getElem?_map, ht]; rfl)
    exact rests h9 (rests (hm _ (List.mem_map.2 ⟨e, List.mem_of_getElem? he, rfl⟩)) hl)
  · cases h

theorem mirror_of_rulesB {rules : List RuleFn} (h : rulesB atn toks chB 0 rules = true) : Mirror atn Ok Ch rules := by
  have main : ∀ (l : List RuleFn) (r0 : Nat), rulesB atn toks chB r0 l = true → ∀ (r : Nat) fn, l[r]? = some fn →
      Mirrors atn Ok Ch (r0 + r) fn := by
    intro l
    induction l with
    | nil => intro r0 _ r fn h; simp at h
    | cons x l ih =>
      intro r0 h r fn hr
      simp only [rulesB, Bool.and_eq_true] at h
      cases r with
      | zero =>
        simp only [List.getElem?_cons_zero, Option.some.injEq] at hr
        subst hr
        exact ruleB_ok hok hch h.1
      | succ r =>
        simp only [List.getElem?_cons_succ] at hr
        have := ih (r0 + 1) h.2 r fn hr
        rwa [Nat.add_right_comm, Nat.add_assoc] at this
  intro r fn hr
  have := main rules 0 h r fn hr
  rwa [Nat.zero_add] at this

end

/-! ## Tests of the next token -/

section
variable (atn : ATN)

/-- Where a step that reads nothing can lead, whatever the stack. -/
def nextStates (a : Nat) : List Nat :=
  match atn.states[a]? with
  | none => []
  | some st => st.transitions.filterMap fun tr =>
      match tr with
      | .rule t _ _ _ => some t
      | tr => if freeB tr then some tr.target else none

/-- All states that can be reached so. -/
def reachable : Nat → List Nat → List Nat → List Nat
  | 0, _, seen => seen
  | _ + 1, [], seen => seen
  | n + 1, a :: todo, seen => if seen.contains a then reachable n todo seen
      else reachable n (nextStates atn a ++ todo) (a :: seen)

variable (EB : Nat → Bool) (toks : List Int)

/-- In none of the states a token of another alternative than `j` is read. -/
def tellsAlt (sets : List (List Int)) (other : Option Int) (j : Int) (R : List Nat) : Bool :=
  R.all fun a => (nextStates atn a).all R.contains &&
    (atn.states[a]?).all fun st =>
      (if st.stateType = .ruleStop then !EB a || look sets other TOKEN_EOF == some j
       else st.transitions.all fun tr => toks.all fun x =>
        !takesB atn.maxTokenType tr x || look sets other x == some j)

def tellsAlts (sets : List (List Int)) (other : Option Int) : Nat → List Nat → Bool
  | _, [] => true
  | i, t :: ts =>
    (let R := reachable atn (atn.states.length * 8) [t] []
     R.contains t && tellsAlt atn EB toks sets other ((i + 1 : Nat) : Int) R) && tellsAlts sets other (i + 1) ts

def tellsB (a : Nat) (sets : List (List Int)) (other : Option Int) : Bool :=
  (decisionOf atn a).any fun ts => tellsAlts atn EB toks sets other 0 ts

end

section
variable {atn : ATN} {EB : Nat → Bool} {toks : List Int} {sets : List (List Int)} {other : Option Int}

theorem tellsAlts_ok {ts : List Nat} {i0 : Nat} (h : tellsAlts atn EB toks sets other i0 ts = true) {i t : Nat}
    (ht : ts[i]? = some t) : ∃ R : List Nat, t ∈ R ∧ tellsAlt atn EB toks sets other ((i0 + i + 1 : Nat) : Int) R = true := by
  induction ts generalizing i i0 with
  | nil => simp at ht
  | cons t' ts ih =>
    simp only [tellsAlts, Bool.and_eq_true] at h
    cases i with
    | zero =>
      simp only [List.getElem?_cons_zero, Option.some.injEq] at ht
      subst ht
      exact ⟨_, by simpa using h.1.1, h.1.2⟩
    | succ i =>
      simp only [List.getElem?_cons_succ] at ht
      obtain ⟨R, h1, h2⟩ := ih h.2 ht
      refine ⟨R, h1, ?_⟩
      rwa [show i0 + 1 + i + 1 = i0 + (i + 1) + 1 by omega] at h2

theorem step_states (ha : Plain atn) {p q : Pos} (hf : Fair atn p) (hs : Step atn p q) : q.1 ∈ nextStates atn p.1 := by
  cases hs with
  | @free s k st tr h1 h2 h3 h4 =>
    simp only [nextStates, h1, List.mem_filterMap]
    refine ⟨tr, h3, ?_⟩
    cases tr <;> simp_all [Free, freeB]
  | @call s k st t f r p h1 h2 h3 =>
    simp only [nextStates, h1, List.mem_filterMap]
    exact ⟨_, h3, rfl⟩
  | @ret s f k st h1 h2 =>
    simp only [nextStates, h1, List.mem_filterMap]
    cases hf st h1 with
    | @call _ s' st0 t tst f i p k g1 g2 g3 g4 g5 =>
      obtain ⟨x, hx⟩ := ha.returns s st h1 h2 s' st0 g1 t f i p g2 tst g3 g4
      exact ⟨_, hx, by simp [freeB, Trans.target]⟩

/-- The check is right. -/
theorem tells_of_tellsB (ha : Plain atn) {a : Nat} (h : tellsB atn EB toks a sets other = true) :
    Tells atn (fun b => EB b = true) (· ∈ toks) a sets other := by
  intro dec hdec σ hσ x hx j p hp
  simp only [tellsB, Option.any_eq_true] at h
  obtain ⟨ts, hts, h⟩ := h
  obtain ⟨dec', hd, rfl⟩ := decisionOf_ok hts
  have e : dec' = dec := by
    have := hd.state
    rw [hdec, Option.some.injEq] at this
    exact this.symm
  subst e
  have next : ∀ {j R}, tellsAlt atn EB toks sets other j R = true → ∀ {p q}, p.1 ∈ R → Fair atn p → Step atn p q →
      q.1 ∈ R := by
    intro j R hR p q h1 h2 h3
    simp only [tellsAlt, List.all_eq_true, Bool.and_eq_true, List.contains_iff_mem] at hR
    exact (hR _ h1).1 _ (step_states ha h2 h3)
  have key : ∀ {j v p}, Live atn dec' σ j v p → ∃ R : List Nat, tellsAlt atn EB toks sets other j R = true ∧
      (v = [] → p.1 ∈ R ∧ Fair atn p) ∧ ∀ x ∈ toks, v = [x] → look sets other x = some j := by
    intro j v p hl
    induction hl with
    | @start i tr ht =>
      obtain ⟨R, h1, h2⟩ := tellsAlts_ok h (i := i) (t := tr.target) (by rw [List.getElem?_map, ht]; rfl)
      rw [Nat.zero_add] at h2
      refine ⟨R, h2, fun _ => ⟨h1, ?_⟩, fun x _ e => by cases e⟩
      intro st' hst'
      obtain ⟨t, y, e⟩ := hd.silent tr (List.mem_of_getElem? ht)
      rw [ha.sameRule a dec' hd.state hd.inner tr (List.mem_of_getElem? ht) (by rw [e]; intros; exact nofun) st' hst']
      exact hσ
    | silent hl hs ih =>
      obtain ⟨R, h1, h2, h3⟩ := ih
      refine ⟨R, h1, fun e => ?_, h3⟩
      obtain ⟨h4, h5⟩ := h2 e
      exact ⟨next h1 h4 h5 hs, h5.step ha hs⟩
    | @read j v p q t hl hr ih =>
      obtain ⟨R, h1, h2, h3⟩ := ih
      refine ⟨R, h1, fun e => by simp at e, ?_⟩
      intro x hx e
      cases v with
      | cons y v => simp at e
      | nil =>
        simp only [List.nil_append, List.cons.injEq, and_true] at e
        subst e
        obtain ⟨st, tr, g1, g2, g3, g4, -⟩ := hr
        simp only [tellsAlt, List.all_eq_true, Bool.and_eq_true] at h1
        have := (h1 _ (h2 rfl).1).2
        rw [g1, Option.all_some, if_neg g2, List.all_eq_true] at this
        have := List.all_eq_true.1 (this tr g3) t hx
        rw [takesB_iff.2 g4] at this
        simpa using this
    | more hl hr ih =>
      obtain ⟨R, h1, h2, h3⟩ := ih
      exact ⟨R, h1, fun e => by simp at e, h3⟩
  rcases hp with hp | ⟨rfl, hp, ⟨-, st, g1, g2⟩, hE⟩
  · obtain ⟨R, -, -, h3⟩ := key hp
    exact h3 x hx rfl
  · obtain ⟨R, h1, h2, -⟩ := key hp
    simp only [tellsAlt, List.all_eq_true, Bool.and_eq_true] at h1
    have := (h1 _ (h2 rfl).1).2
    rw [g1, Option.all_some, if_pos g2, hE] at this
    simpa using this

def chosenB (atn : ATN) (EB : Nat → Bool) (toks : List Int) : Choice → Nat → Bool
  | .look sets other, a => tellsB atn EB toks a sets other
  | .predict d, a => atn.decisionToState[d]? == some a

def testedB (atn : ATN) (EB : Nat → Bool) (toks : List Int) : Choice → Nat → Bool
  | .look sets other, a => tellsB atn EB toks a sets other
  | .predict _, _ => false

theorem chosen_of_chosenB (ha : Plain atn) {ch : Choice} {a : Nat} (h : chosenB atn EB toks ch a = true) :
    Chosen atn (fun b => EB b = true) (· ∈ toks) ch a := by
  cases ch with
  | predict d => simpa [chosenB, Chosen] using h
  | look sets other => exact tells_of_tellsB ha h

theorem tested_of_testedB (ha : Plain atn) {ch : Choice} {a : Nat} (h : testedB atn EB toks ch a = true) :
    Tested atn (fun b => EB b = true) (· ∈ toks) ch a := by
  cases ch with
  | predict d => cases h
  | look sets other => exact tells_of_tellsB ha h

end
end Antlr.GenSpec
