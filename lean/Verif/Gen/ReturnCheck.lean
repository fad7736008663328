import Verif.Gen.ReturnSpec

/-! # Checks of the conditions of C77 -/

namespace Antlr.GenProps
open Antlr GenSpec Gen

/-- The answers a choice can give if the next token is of type `t`; `ans` are those of predictions. -/
def answersB (ans : Nat → Int → List Int) : Choice → Int → List Int
  | .look sets other, t => (look sets other t).toList
  | .predict d, t => ans d t

theorem answers_of {ans : Nat → Int → List Int} {pr : Nat → Int → Int → Prop} {t : Int} (hans : ∀ d k, pr d t k → k ∈ ans d t)
    {ch : Choice} {k : Int} (h : Answers pr ch t k) : k ∈ answersB ans ch t := by
  cases ch with
  | look sets other => simpa [answersB, Answers] using h
  | predict d => exact hans d k h

/-- The least that can be said about all cases. -/
def allB (ks : List Int) (g : Int → Option Bool) : Option Bool :=
  if ks.all (fun k => (g k).isSome) then some (ks.all fun k => g k == some true) else none

theorem allB_of {ks : List Int} {g : Int → Option Bool} {b : Bool} (h : allB ks g = some b) {k : Int} (hk : k ∈ ks) :
    ∃ b', g k = some b' ∧ (b = true → b' = true) := by
  unfold allB at h
  split at h
  · rename_i h1
    simp only [Option.some.injEq] at h
    obtain ⟨b', h2⟩ := Option.isSome_iff_exists.1 (List.all_eq_true.1 h1 k hk)
    refine ⟨b', h2, fun hb => ?_⟩
    rw [hb] at h
    have := List.all_eq_true.1 h k hk
    rw [h2] at this
    simpa using this
  · cases h

/-- The alternatives that may be the ones to take; `none` is the arm without code. -/
def takenB {α : Type} (ans : Nat → Int → List Int) (t : Int) (sel : Option (Int × Choice)) (alts : List α) : List (Option α) :=
  match sel with
  | none => [alts.head?]
  | some (_, ch) => (answersB ans ch t).map (pick alts)

theorem taken_of {α : Type} {ans : Nat → Int → List Int} {pr : Nat → Int → Int → Prop} {t : Int} (hans : ∀ d k, pr d t k → k ∈ ans d t)
    {sel : Option (Int × Choice)} {alts : List α} {a : α} (h : Taken pr t sel alts a) : some a ∈ takenB ans t sel alts := by
  cases sel with
  | none => simp only [takenB, List.mem_singleton]; exact Eq.symm h
  | some x =>
    obtain ⟨k, h1, h2⟩ := h
    exact List.mem_map.2 ⟨k, answers_of hans h1, h2⟩

theorem blank_of {α : Type} {ans : Nat → Int → List Int} {pr : Nat → Int → Int → Prop} {t : Int} (hans : ∀ d k, pr d t k → k ∈ ans d t)
    {sel : Option (Int × Choice)} {alts : List α} (h : Blank pr t sel alts) : none ∈ takenB ans t sel alts := by
  cases sel with
  | none =>
    have : alts = [] := h
    simp [takenB, this]
  | some x =>
    obtain ⟨k, h1, h2⟩ := h
    exact List.mem_map.2 ⟨k, answers_of hans h1, h2⟩

/-- What `Settles` says, computed; the first number bounds the recursion, the second the calls. -/
def settleB (rules : List RuleFn) (ans : Nat → Int → List Int) (bail : Bool) (t : Int) : Nat → Nat → Code → Option Bool
  | 0, _, _ => none
  | _ + 1, _, .nop => some false
  | _ + 1, _, .guard .. => some false
  | f + 1, h, .seq x y => match settleB rules ans bail t f h x with
    | none => none
    | some true => some true
    | some false => settleB rules ans bail t f h y
  | _ + 1, _, .tok _ ty => some (decide (t = ty ∧ t ≠ TOKEN_EOF) || (bail && decide (t ≠ ty)))
  | _ + 1, _, .set _ types invert => some (decide (inSet types invert t = true ∧ t ≠ TOKEN_EOF) || (bail && !inSet types invert t))
  | _ + 1, _, .any _ => some (decide (0 < t) || (bail && decide (t ≤ 0)))
  | _ + 1, 0, .call .. => none
  | f + 1, h + 1, .call _ r _ => match rules[r]? with
    | some (.plain _ none (a :: _)) => (settleB rules ans bail t f h a.code).map fun b => decide (b = true ∧ (bail = true ∨ t ≠ TOKEN_EOF))
    | some (.plain _ (some (_, ch)) alts) => (allB (answersB ans ch t) fun k => match pick alts k with
        | none => some false
        | some a => settleB rules ans bail t f h a.code).map fun b => decide (b = true ∧ (bail = true ∨ t ≠ TOKEN_EOF))
    | some (.recursive _ sel prims _ _ _ _ _) => if bail && ((takenB ans t sel prims).all fun a => match a with
        | none => false
        | some a => settleB rules ans bail t f h a.code == some true) then some true else none
    | _ => none
  | f + 1, h, .block _ ch alts => allB (answersB ans ch t) fun k => match pick alts k with
    | none => some false
    | some a => settleB rules ans bail t f h a
  | f + 1, h, .opt _ ch off alts => allB (answersB ans ch t) fun k => match pick alts (k - off) with
    | none => some false
    | some a => settleB rules ans bail t f h a
  | f + 1, h, .star _ _ ch exit bodyAlt body => allB (answersB ans ch t) fun k =>
    if k = exit ∨ k = 0 then some false
    else if k = bodyAlt ∧ settleB rules ans bail t f h body = some true then some true else none
  | f + 1, h, .plus _ _ ch exit bodyAlt body => match settleB rules ans bail t f h body with
    | none => none
    | some b => if (answersB ans ch t).all fun k => decide (k ≠ exit ∧ k ≠ 0 ∧ k = bodyAlt → b = true) then some b else none

theorem weaken {rules : List RuleFn} {bail : Bool} {pr : Nat → Int → Int → Prop} {t : Int} {h : Nat} {c : Code} {b b' : Bool}
    (hs : Settles rules pr bail t h b c) (hb : b' = true → b = true) : Settles rules pr bail t h b' c := by
  cases b <;> cases b'
  · exact hs
  · exact absurd (hb rfl) (by simp)
  · exact .less hs
  · exact hs

theorem settles_of {rules : List RuleFn} {bail : Bool} {ans : Nat → Int → List Int} {pr : Nat → Int → Int → Prop} {t : Int}
    (hans : ∀ d k, pr d t k → k ∈ ans d t) {f h : Nat} {c : Code} {b : Bool}
    (e : settleB rules ans bail t f h c = some b) : Settles rules pr bail t h b c := by
  induction f generalizing h c b with
  | zero => simp [settleB] at e
  | succ f ih =>
    cases c with
    | nop => simp only [settleB, Option.some.injEq] at e; subst e; exact .nop
    | guard => simp only [settleB, Option.some.injEq] at e; subst e; exact .guard
    | tok st ty =>
      simp only [settleB, Option.some.injEq] at e; subst e
      by_cases hb : bail = true ∧ t ≠ ty
      · exact weaken (.noTok hb.1 hb.2) fun _ => rfl
      · have : (bail && decide (t ≠ ty)) = false := by simpa using hb
        rw [this, Bool.or_false]; exact .tok
    | set st types invert =>
      simp only [settleB, Option.some.injEq] at e; subst e
      by_cases hb : bail = true ∧ inSet types invert t = false
      · exact weaken (.noSet hb.1 hb.2) fun _ => rfl
      · have : (bail && !inSet types invert t) = false := by simpa using hb
        rw [this, Bool.or_false]; exact .set
    | any st =>
      simp only [settleB, Option.some.injEq] at e; subst e
      by_cases hb : bail = true ∧ t ≤ 0
      · exact weaken (.noAny hb.1 hb.2) fun _ => rfl
      · have : (bail && decide (t ≤ 0)) = false := by simpa using hb
        rw [this, Bool.or_false]; exact .any
    | seq x y =>
      simp only [settleB] at e
      split at e
      · cases e
      · rename_i h1
        simp only [Option.some.injEq] at e; subst e
        exact Settles.seq (b := true) (b' := false) (ih h1) (fun h => by cases h)
      · rename_i h1
        exact Settles.seq (b := false) (ih h1) (fun _ => ih e)
    | call st r q =>
      cases h with
      | zero => simp [settleB] at e
      | succ h =>
        simp only [settleB] at e
        split at e
        · rename_i h1
          obtain ⟨b', e1, rfl⟩ := Option.map_eq_some_iff.1 e
          exact .one h1 (ih e1)
        · rename_i h1
          obtain ⟨b', e1, rfl⟩ := Option.map_eq_some_iff.1 e
          refine .many h1 (fun k a hk ha => ?_) (fun hb k hk hn => ?_)
          · obtain ⟨b2, e2, e3⟩ := allB_of e1 (answers_of hans hk)
            rw [ha] at e2
            exact weaken (ih e2) e3
          · obtain ⟨b2, e2, e3⟩ := allB_of e1 (answers_of hans hk)
            rw [hn] at e2
            simp only [Option.some.injEq] at e2
            rw [e3 hb] at e2; cases e2
        · rename_i h1
          split at e
          · rename_i h2
            simp only [Option.some.injEq] at e; subst e
            simp only [Bool.and_eq_true] at h2
            refine .recursive h2.1 h1 (fun a ha => ?_) (fun hb => ?_)
            · have := List.all_eq_true.1 h2.2 _ (taken_of hans ha)
              exact ih (by simpa using this)
            · have := List.all_eq_true.1 h2.2 _ (blank_of hans hb)
              simp at this
          · cases e
        · cases e
    | block st ch alts =>
      simp only [settleB] at e
      refine .block (fun k a hk ha => ?_) (fun hb k hk hn => ?_)
      · obtain ⟨b2, e2, e3⟩ := allB_of e (answers_of hans hk)
        rw [ha] at e2
        exact weaken (ih e2) e3
      · obtain ⟨b2, e2, e3⟩ := allB_of e (answers_of hans hk)
        rw [hn] at e2
        simp only [Option.some.injEq] at e2
        rw [e3 hb] at e2; cases e2
    | opt st ch off alts =>
      simp only [settleB] at e
      refine .opt (fun k a hk ha => ?_) (fun hb k hk hn => ?_)
      · obtain ⟨b2, e2, e3⟩ := allB_of e (answers_of hans hk)
        rw [ha] at e2
        exact weaken (ih e2) e3
      · obtain ⟨b2, e2, e3⟩ := allB_of e (answers_of hans hk)
        rw [hn] at e2
        simp only [Option.some.injEq] at e2
        rw [e3 hb] at e2; cases e2
    | star st back ch exit bodyAlt body =>
      simp only [settleB] at e
      have go : ∀ k, Answers pr ch t k → k ≠ exit → k ≠ 0 → k = bodyAlt ∧ settleB rules ans bail t f h body = some true := by
        intro k hk h1 h2
        obtain ⟨b2, e2, -⟩ := allB_of e (answers_of hans hk)
        rw [if_neg (by simp [h1, h2])] at e2
        split at e2
        · assumption
        · cases e2
      refine .star (fun k hk h1 h2 => (go k hk h1 h2).1) (fun k hk h1 h2 => ih (go k hk h1 h2).2) (fun hb k hk => ?_)
      obtain ⟨b2, e2, e3⟩ := allB_of e (answers_of hans hk)
      rw [e3 hb] at e2
      by_cases hx : k = exit ∨ k = 0
      · rw [if_pos hx] at e2; cases e2
      · exact not_or.1 hx
    | plus st back ch exit bodyAlt body =>
      simp only [settleB] at e
      split at e
      · cases e
      · rename_i b' h1
        split at e
        · rename_i h2
          simp only [Option.some.injEq] at e; subst e
          refine .plus (ih h1) (fun k hk h3 h4 h5 => ?_)
          have := List.all_eq_true.1 h2 k (answers_of hans hk)
          rw [decide_eq_true_eq] at this
          rw [← this ⟨h3, h4, h5⟩]
          exact ih h1
        · cases e

mutual
/-- A test of all pieces of a piece of code. -/
def eachB (p : Code → Bool) : Code → Bool
  | .seq x y => p (.seq x y) && eachB p x && eachB p y
  | .block st ch alts => p (.block st ch alts) && eachAltB p alts
  | .opt st ch off alts => p (.opt st ch off alts) && eachAltB p alts
  | .star st back ch exit bodyAlt body => p (.star st back ch exit bodyAlt body) && eachB p body
  | .plus st back ch exit bodyAlt body => p (.plus st back ch exit bodyAlt body) && eachB p body
  | c => p c
def eachAltB (p : Code → Bool) : List Code → Bool
  | [] => true
  | c :: cs => eachB p c && eachAltB p cs
end

theorem eachAltB_mem {p : Code → Bool} {cs : List Code} (h : eachAltB p cs = true) : ∀ c ∈ cs, eachB p c = true := by
  induction cs with
  | nil => simp
  | cons a l ih =>
    simp only [eachAltB, Bool.and_eq_true] at h
    intro c hc
    rcases List.mem_cons.1 hc with rfl | hc
    · exact h.1
    · exact ih h.2 c hc

def ruleEachB (p : Code → Bool) : RuleFn → Bool
  | .plain _ _ alts => alts.all fun a => eachB p a.code
  | .recursive _ _ prims _ _ _ _ ops => (prims.all fun a => eachB p a.code) && ops.all fun o => eachB p o.code

/-- A test of all pieces of the rules. -/
def partsB (rules : List RuleFn) (p : Nat → Code → Bool) : Bool :=
  (List.range rules.length).all fun r => (rules[r]?).any (ruleEachB (p r))

theorem part_of {rules : List RuleFn} {p : Nat → Code → Bool} (h : partsB rules p = true) {r : Nat} {c : Code}
    (hc : Part rules r c) : p r c = true := by
  have key : eachB (p r) c = true := by
    induction hc with
    | alt hr ha =>
      have hl := (List.getElem?_eq_some_iff.1 hr).1
      have h1 := List.all_eq_true.1 h r (List.mem_range.2 hl)
      rw [hr] at h1
      exact List.all_eq_true.1 h1 _ ha
    | prim hr ha =>
      have hl := (List.getElem?_eq_some_iff.1 hr).1
      have h1 := List.all_eq_true.1 h r (List.mem_range.2 hl)
      rw [hr] at h1
      simp only [Option.any_some, ruleEachB, Bool.and_eq_true] at h1
      exact List.all_eq_true.1 h1.1 _ ha
    | op hr ha =>
      have hl := (List.getElem?_eq_some_iff.1 hr).1
      have h1 := List.all_eq_true.1 h r (List.mem_range.2 hl)
      rw [hr] at h1
      simp only [Option.any_some, ruleEachB, Bool.and_eq_true] at h1
      exact List.all_eq_true.1 h1.2 _ ha
    | seqL _ ih => simp only [eachB, Bool.and_eq_true] at ih; exact ih.1.2
    | seqR _ ih => simp only [eachB, Bool.and_eq_true] at ih; exact ih.2
    | block _ ha ih => simp only [eachB, Bool.and_eq_true] at ih; exact eachAltB_mem ih.2 _ ha
    | opt _ ha ih => simp only [eachB, Bool.and_eq_true] at ih; exact eachAltB_mem ih.2 _ ha
    | star _ ih => simp only [eachB, Bool.and_eq_true] at ih; exact ih.2
    | plus _ ih => simp only [eachB, Bool.and_eq_true] at ih; exact ih.2
  cases c <;> simp only [eachB, Bool.and_eq_true] at key <;> first | exact key | exact key.1 | exact key.1.1

/-- The loop of a left-recursive rule -/
def loopB (rules : List RuleFn) (ans : Nat → Int → List Int) (bail : Bool) (types : List Int) (f D : Nat) : RuleFn → Bool
  | .plain .. => true
  | .recursive _ _ _ _ _ ch opSel ops => bail && types.all fun t =>
      ((answersB ans ch t).all fun k => decide (k = 0 ∨ k = 1 ∨ k = 2)) &&
      (!(answersB ans ch t).contains 1 || (takenB ans t opSel ops).all fun o => match o with
        | none => false
        | some o => settleB rules ans bail t f D o.code == some true)

/-- `Prompt` for the token types `types`. -/
def promptB (rules : List RuleFn) (ans : Nat → Int → List Int) (bail : Bool) (types : List Int) (f D : Nat) : Bool :=
  (partsB rules fun _ c => types.all fun t => (settleB rules ans bail t f D c).isSome) &&
    rules.all (loopB rules ans bail types f D)

theorem prompt_of {rules : List RuleFn} {ans : Nat → Int → List Int} {pr : Nat → Int → Int → Prop} {bail : Bool} {types : List Int}
    {f D : Nat} (hans : ∀ d t k, t ∈ types → pr d t k → k ∈ ans d t) (h : promptB rules ans bail types f D = true) :
    Prompt rules pr bail (· ∈ types) D := by
  simp only [promptB, Bool.and_eq_true] at h
  refine ⟨?_, ?_⟩
  · intro r c hc t ht
    obtain ⟨b, hb⟩ := Option.isSome_iff_exists.1 (List.all_eq_true.1 (part_of h.1 hc) t ht)
    exact ⟨b, settles_of (fun d k => hans d t k ht) hb⟩
  · intro r start sel prims entry back ch opSel ops hr
    have h2 := List.all_eq_true.1 h.2 _ (List.mem_of_getElem? hr)
    simp only [loopB, Bool.and_eq_true] at h2
    refine ⟨h2.1, fun t ht => ?_⟩
    have h3 := List.all_eq_true.1 h2.2 t ht
    simp only [Bool.and_eq_true, Bool.or_eq_true, Bool.not_eq_true'] at h3
    have hans' : ∀ d k, pr d t k → k ∈ ans d t := fun d k => hans d t k ht
    refine ⟨fun k hk => ?_, fun h1 => ?_⟩
    · simpa using List.all_eq_true.1 h3.1 k (answers_of hans' hk)
    · have h4 := h3.2.resolve_left (by simpa using answers_of hans' h1)
      refine ⟨fun o ho => ?_, fun hb => ?_⟩
      · have := List.all_eq_true.1 h4 _ (taken_of hans' ho)
        exact settles_of hans' (by simpa using this)
      · have := List.all_eq_true.1 h4 _ (blank_of hans' hb)
        simp at this

def stateB (atn : ATN) (st : Int) (p : ATNState → Bool) : Bool :=
  decide (0 ≤ st) && (atn.states[st.toNat]?).any p

theorem stateB_iff {atn : ATN} {st : Int} {p : ATNState → Bool} (h : stateB atn st p = true) :
    ∃ (a : Nat) (s : ATNState), st = a ∧ atn.states[a]? = some s ∧ p s = true := by
  simp only [stateB, Bool.and_eq_true, decide_eq_true_eq, Option.any_eq_true] at h
  obtain ⟨h1, s, h2, h3⟩ := h
  exact ⟨st.toNat, s, (Int.toNat_of_nonneg h1).symm, h2, h3⟩

def syncsB (atn : ATN) (st : Int) : Bool := stateB atn st fun s => (ES.syncKind s.stateType).isSome

theorem syncs_of {atn : ATN} {st : Int} (h : syncsB atn st = true) : Syncs atn st := by
  obtain ⟨a, s, h1, h2, h3⟩ := stateB_iff h
  exact ⟨a, s, h1, h2, fun h => by rw [h] at h3; cases h3⟩

def edgeB (atn : ATN) (st : Int) : Bool := stateB atn st fun s => !s.transitions.isEmpty

theorem edge_of {atn : ATN} {st : Int} (h : edgeB atn st = true) : HasEdge atn st := by
  obtain ⟨a, s, h1, h2, h3⟩ := stateB_iff h
  cases ht : s.transitions with
  | nil => simp [ht] at h3
  | cons x l => exact ⟨a, s, x, l, h1, h2, ht⟩

def callsB (atn : ATN) (st : Int) (r r' : Nat) : Bool := stateB atn st fun s => match s.transitions with
  | .rule t _ i _ :: _ => decide (i = (r' : Int)) && decide (s.ruleIndex = r) &&
      (atn.states[t]?).any fun tst => decide (tst.ruleIndex = r')
  | _ => false

theorem calls_of {atn : ATN} {st : Int} {r r' : Nat} (h : callsB atn st r r' = true) : CallsRule atn st r r' := by
  obtain ⟨a, s, h1, h2, h3⟩ := stateB_iff h
  cases ht : s.transitions with
  | nil => simp [ht] at h3
  | cons x l =>
    cases x <;> simp only [ht, Bool.false_eq_true, Bool.and_eq_true, decide_eq_true_eq, Option.any_eq_true] at h3
    rename_i t f i p
    obtain ⟨⟨rfl, h4⟩, tst, h5, h6⟩ := h3
    exact ⟨a, s, t, f, p, l, tst, h1, h2, ht, h4, h5, h6⟩

def seatedB (atn : ATN) (chB : Nat → Choice → Bool) (rules r : Nat) : Code → Bool
  | .nop => true
  | .seq .. => true
  | .tok st _ => edgeB atn st
  | .set st .. => edgeB atn st
  | .any st => edgeB atn st
  | .guard st .. => edgeB atn st
  | .call st r' _ => callsB atn st r r' && decide (r' < rules)
  | .block st ch _ => syncsB atn st && chB r ch
  | .opt st ch .. => syncsB atn st && chB r ch
  | .star st back ch .. => syncsB atn st && syncsB atn back && chB r ch
  | .plus st back ch .. => syncsB atn st && syncsB atn back && chB r ch

def lookB (_ : Nat) : Choice → Bool
  | .look .. => true
  | .predict .. => false

theorem look_of {r : Nat} {ch : Choice} (h : lookB r ch = true) : IsLook r ch := by
  cases ch with
  | look s o => exact ⟨s, o, rfl⟩
  | predict => cases h

def seatedSelB (atn : ATN) (chB : Nat → Choice → Bool) (r : Nat) (sel : Option (Int × Choice)) : Bool :=
  match sel with
  | none => true
  | some (st, ch) => syncsB atn st && chB r ch

def seatedRuleB (atn : ATN) (chB : Nat → Choice → Bool) (r : Nat) : RuleFn → Bool
  | .plain start sel alts => decide (0 ≤ start) && decide (start.toNat < atn.states.length) && !alts.isEmpty &&
      seatedSelB atn chB r sel
  | .recursive start sel prims entry back ch opSel ops => decide (0 ≤ start) && decide (start.toNat < atn.states.length) &&
      !prims.isEmpty && seatedSelB atn chB r sel && syncsB atn entry && syncsB atn back && chB r ch && seatedSelB atn chB r opSel &&
      ops.all fun o => edgeB atn o.predState

theorem seatedSel_of {atn : ATN} {chB : Nat → Choice → Bool} {Ch : Nat → Choice → Prop} (hch : ∀ r ch, chB r ch = true → Ch r ch)
    {r : Nat} {sel : Option (Int × Choice)} (h : seatedSelB atn chB r sel = true) : SeatedSel atn Ch r sel := by
  rintro st ch rfl
  simp only [seatedSelB, Bool.and_eq_true] at h
  exact ⟨syncs_of h.1, hch r ch h.2⟩

def fitsB (atn : ATN) (chB : Nat → Choice → Bool) (rules : List RuleFn) : Bool :=
  ((List.range rules.length).all fun r => (rules[r]?).any (seatedRuleB atn chB r)) &&
    partsB rules (seatedB atn chB rules.length)

theorem fits_of {atn : ATN} {chB : Nat → Choice → Bool} {Ch : Nat → Choice → Prop} {rules : List RuleFn}
    (hch : ∀ r ch, chB r ch = true → Ch r ch) (h : fitsB atn chB rules = true) : Fits atn Ch rules := by
  simp only [fitsB, Bool.and_eq_true] at h
  refine ⟨fun r fn hfn => ?_, fun r c hc => ?_⟩
  · have := List.all_eq_true.1 h.1 r (List.mem_range.2 (List.getElem?_eq_some_iff.1 hfn).1)
    rw [hfn, Option.any_some] at this
    cases fn with
    | recursive start sel prims entry back ch opSel ops =>
      simp only [seatedRuleB, Bool.and_eq_true, decide_eq_true_eq, Bool.not_eq_true', List.isEmpty_eq_false_iff] at this
      obtain ⟨⟨⟨⟨⟨⟨⟨⟨h1, h2⟩, h3⟩, h4⟩, h5⟩, h6⟩, h7⟩, h8⟩, h9⟩ := this
      exact ⟨⟨start.toNat, (Int.toNat_of_nonneg h1).symm, h2⟩, h3, seatedSel_of hch h4, syncs_of h5, syncs_of h6, hch _ _ h7,
        seatedSel_of hch h8, fun o ho => edge_of (List.all_eq_true.1 h9 o ho)⟩
    | plain start sel alts =>
      simp only [seatedRuleB, Bool.and_eq_true, decide_eq_true_eq, Bool.not_eq_true', List.isEmpty_eq_false_iff] at this
      obtain ⟨⟨⟨h1, h2⟩, h3⟩, h4⟩ := this
      exact ⟨⟨start.toNat, (Int.toNat_of_nonneg h1).symm, h2⟩, h3, seatedSel_of hch h4⟩
  · have := part_of h.2 hc
    cases c <;> simp only [seatedB, Bool.and_eq_true, decide_eq_true_eq] at this <;> simp only [Seated]
    case tok => exact edge_of this
    case set => exact edge_of this
    case any => exact edge_of this
    case guard => exact edge_of this
    case call => exact ⟨calls_of this.1, this.2⟩
    case block => exact ⟨syncs_of this.1, hch _ _ this.2⟩
    case opt => exact ⟨syncs_of this.1, hch _ _ this.2⟩
    case star => exact ⟨syncs_of this.1.1, syncs_of this.1.2, hch _ _ this.2⟩
    case plus => exact ⟨syncs_of this.1.1, syncs_of this.1.2, hch _ _ this.2⟩

/-- `RealLabels` -/
def realB (atn : ATN) : Bool :=
  atn.states.all fun st => st.transitions.all fun tr => match tr with
    | .atom _ l => decide (TOKEN_EOF ≤ l)
    | .range _ a _ => decide (TOKEN_EOF ≤ a)
    | .set _ s => s.intervals.all fun r => decide (TOKEN_EOF ≤ r.a)
    | _ => true

theorem real_of {atn : ATN} (h : realB atn = true) : RealLabels atn := by
  intro s st tr h1 h2 x hx
  have := List.all_eq_true.1 (List.all_eq_true.1 h st (List.mem_of_getElem? h1)) tr h2
  cases tr <;> simp only [LL1Spec.Matches] at hx
  case atom => subst hx; simpa using this
  case range => simp only [decide_eq_true_eq] at this; omega
  case set =>
    obtain ⟨r, hr, h3⟩ := hx
    have := List.all_eq_true.1 this r hr
    simp only [decide_eq_true_eq] at this
    exact Int.le_trans this h3.1
  case notSet => have := hx.1; simp only [TOKEN_EOF] at *; omega
  case wildcard => have := hx.1; simp only [TOKEN_EOF] at *; omega

end Antlr.GenProps
