import Verif.LL1.Lemmas

/-!
# `look_work` terminates

The stack never gets deeper than the initial one plus the number of rules, so only finitely many
configurations can be visited.
-/

namespace Antlr.LL1Lemmas
open Antlr LL1Spec

/-! ## More fuel does not change a result -/

def RecLe (r r' : Nat → Option PC → LookState → Option LookState) : Prop :=
  ∀ s c st st', r s c st = some st' → r' s c st = some st'

theorem foldlM_le {α β : Type} {f g : β → α → Option β} (h : ∀ b a b', f b a = some b' → g b a = some b')
    (l : List α) : ∀ b b', l.foldlM f b = some b' → l.foldlM g b = some b' := by
  induction l with
  | nil => intro b b' h; exact h
  | cons a l ih =>
    intro b b' hb
    obtain ⟨b1, h1, h2⟩ := Option.bind_eq_some_iff.mp hb
    exact Option.bind_eq_some_iff.mpr ⟨b1, h _ _ _ h1, ih _ _ h2⟩

theorem lookEdge_le {atn : ATN} {r r'} (h : RecLe r r') (ctx : Option PC) (st : LookState) (tr : Trans)
    (st' : LookState) (he : lookEdge atn r ctx st tr = some st') :
    lookEdge atn r' ctx st tr = some st' := by
  obtain ⟨tst, h1, h2⟩ := Option.bind_eq_some_iff.mp he
  refine Option.bind_eq_some_iff.mpr ⟨tst, h1, ?_⟩
  cases tr with
  | rule t f i p =>
    simp only at h2 ⊢
    split
    · rename_i hc; rw [if_pos hc] at h2; exact h2
    · rename_i hc
      rw [if_neg hc] at h2
      obtain ⟨st1, h3, h4⟩ := Option.map_eq_some_iff.mp h2
      exact Option.map_eq_some_iff.mpr ⟨st1, h _ _ _ _ h3, h4⟩
  | epsilon => exact h _ _ _ _ h2
  | predicate => exact h _ _ _ _ h2
  | precedence => exact h _ _ _ _ h2
  | action => exact h _ _ _ _ h2
  | range => exact h2
  | atom => exact h2
  | set => exact h2
  | notSet => exact h2
  | wildcard => exact h2

theorem lookBody_le {atn : ATN} {r r'} (h : RecLe r r') : RecLe (lookBody atn r) (lookBody atn r') := by
  intro s c st st' he
  simp only [lookBody] at he ⊢
  split
  · rename_i hb; rw [if_pos hb] at he; exact he
  rename_i hb
  rw [if_neg hb] at he
  obtain ⟨state, h1, h2⟩ := Option.bind_eq_some_iff.mp he
  refine Option.bind_eq_some_iff.mpr ⟨state, h1, ?_⟩
  split
  · rename_i hs
    rw [if_pos hs] at h2
    cases c with
    | none => exact h2
    | some c =>
      simp only at h2 ⊢
      split
      · rename_i hi; rw [if_pos hi] at h2; exact h2
      · rename_i hi
        rw [if_neg hi] at h2
        split
        · rename_i hc
          rw [if_pos hc] at h2
          exact foldlM_le (lookEdge_le h _) _ _ _ h2
        · rename_i hc
          rw [if_neg hc] at h2
          obtain ⟨st1, h3, h4⟩ := Option.map_eq_some_iff.mp h2
          refine Option.map_eq_some_iff.mpr ⟨st1, foldlM_le ?_ _ _ _ h3, h4⟩
          intro b a b' hab
          split
          · rename_i h0; rw [if_pos h0] at hab; exact h _ _ _ _ hab
          · rename_i h0; rw [if_neg h0] at hab; exact hab
  · rename_i hs
    rw [if_neg hs] at h2
    exact foldlM_le (lookEdge_le h _) _ _ _ h2

theorem lookWork_succ (atn : ATN) : ∀ fuel, RecLe (lookWork atn fuel) (lookWork atn (fuel + 1))
  | 0 => fun s c st st' h => by simp [lookWork] at h
  | fuel + 1 => lookBody_le (lookWork_succ atn fuel)

theorem lookWork_mono (atn : ATN) {m n : Nat} (h : m ≤ n) : RecLe (lookWork atn m) (lookWork atn n) := by
  induction h with
  | refl => exact fun _ _ _ _ h => h
  | step _ ih => exact fun s c st st' hs => lookWork_succ atn _ s c st st' (ih s c st st' hs)

/-! ## Enough fuel -/

/-- A bound for the rule indices. -/
def ruleBound (atn : ATN) : Nat := (atn.states.map (·.ruleIndex)).foldr max 0 + 1

theorem le_foldr_max (l : List Nat) : ∀ x ∈ l, x ≤ l.foldr max 0 := by
  induction l with
  | nil => simp
  | cons a l ih =>
    intro x hx
    simp only [List.foldr_cons]
    rcases List.mem_cons.mp hx with rfl | h
    · omega
    · have := ih x h; omega

theorem rule_lt {atn : ATN} {s : Nat} {st : ATNState} (h : atn.states[s]? = some st) :
    st.ruleIndex < ruleBound atn := by
  have := le_foldr_max (atn.states.map (·.ruleIndex)) st.ruleIndex
    (List.mem_map.mpr ⟨st, List.mem_of_getElem? h, rfl⟩)
  simp only [ruleBound]; omega

/-- Rules not being called. -/
def idle (atn : ATN) (called : Nat → Bool) : Nat :=
  ((List.range (ruleBound atn)).filter fun r => !called r).length

theorem filter_set_lt (l : List Nat) (hn : l.Nodup) (c : Nat → Bool) (r : Nat) (hr : r ∈ l)
    (hc : c r = false) :
    (l.filter fun x => !(if x = r then true else c x)).length + 1 = (l.filter fun x => !c x).length := by
  induction l with
  | nil => simp at hr
  | cons a l ih =>
    have hn' := List.nodup_cons.mp hn
    by_cases ha : a = r
    · subst ha
      have : (l.filter fun x => !(if x = a then true else c x)) = l.filter fun x => !c x := by
        apply List.filter_congr
        intro x hx
        have : x ≠ a := fun h => hn'.1 (h ▸ hx)
        simp [this]
      rw [List.filter_cons, List.filter_cons, this]
      simp [hc]
    · have ih := ih hn'.2 (by simpa [Ne.symm ha] using hr)
      rw [List.filter_cons, List.filter_cons]
      simp only [ha, if_false]
      cases c a <;> simp only [Bool.not_false, Bool.not_true, if_true, List.length_cons] <;> simpa using ih

theorem idle_call {atn : ATN} {called : Nat → Bool} {r : Nat} (hr : r < ruleBound atn)
    (hc : called r = false) :
    idle atn (fun x => if x = r then true else called x) + 1 = idle atn called :=
  filter_set_lt _ List.nodup_range _ _ (by simpa using hr) hc

theorem idle_ret {atn : ATN} {called : Nat → Bool} {r : Nat} (hr : r < ruleBound atn) :
    idle atn (fun x => if x = r then false else called x) ≤ idle atn called + 1 := by
  cases hc : called r with
  | false =>
    have : (fun x => if x = r then false else called x) = called := by
      funext x; split
      · rename_i h; rw [h, hc]
      · rfl
    rw [this]; omega
  | true =>
    have := idle_call (atn := atn) (called := fun x => if x = r then false else called x) hr (by simp)
    have h2 : (fun x => if x = r then true else if x = r then false else called x) = called := by
      funext x; split
      · rename_i h; rw [h, hc]
      · rfl
    rw [h2] at this
    omega

/-- All stacks of depth at most `d` over the states below `n`. -/
def stacks (n : Nat) : Nat → List (List Nat)
  | 0 => [[]]
  | d + 1 => [] :: (List.range n).flatMap fun f => (stacks n d).map (f :: ·)

theorem mem_stacks (n : Nat) : ∀ (d : Nat) (k : List Nat), k.length ≤ d → (∀ f ∈ k, f < n) →
    k ∈ stacks n d
  | 0, [], _, _ => by simp [stacks]
  | 0, _ :: _, h, _ => by simp at h
  | d + 1, [], _, _ => by simp [stacks]
  | d + 1, f :: k, h, hf => by
    have := mem_stacks n d k (by simpa using h) (fun g hg => hf g (by simp [hg]))
    simp only [stacks, List.mem_cons, List.mem_flatMap, List.mem_map]
    exact Or.inr ⟨f, by simpa using hf f (by simp), k, this, rfl⟩

/-- All positions with bounded stacks. -/
def allPos (atn : ATN) (d : Nat) : List Pos :=
  (List.range atn.states.length).flatMap fun s => (stacks atn.states.length d).map fun k => (s, k)

theorem mem_allPos {atn : ATN} {d s : Nat} {k : List Nat} (hs : s < atn.states.length)
    (hk : ∀ f ∈ k, f < atn.states.length) (hd : k.length ≤ d) : (s, k) ∈ allPos atn d := by
  simp only [allPos, List.mem_flatMap, List.mem_map]
  exact ⟨s, by simpa using hs, k, mem_stacks _ _ _ hd hk, rfl⟩

/-- Positions not visited yet. -/
def left (atn : ATN) (eof : Bool) (d : Nat) (busy : List (Nat × Option PC)) : Nat :=
  ((allPos atn d).filter fun p => decide (key eof p ∉ busy)).length

theorem filter_length_le {α : Type} (l : List α) (p q : α → Bool) (h : ∀ x ∈ l, p x = true → q x = true) :
    (l.filter p).length ≤ (l.filter q).length := by
  induction l with
  | nil => simp
  | cons a l ih =>
    have ih := ih fun x hx => h x (by simp [hx])
    have ha := h a (by simp)
    simp only [List.filter_cons]
    by_cases hp : p a = true
    · simp [hp, ha hp, ih]
    · rw [if_neg hp]
      split
      · simp only [List.length_cons]; omega
      · exact ih

theorem filter_length_lt {α : Type} (l : List α) (p q : α → Bool) (h : ∀ x ∈ l, p x = true → q x = true)
    (a : α) (ha : a ∈ l) (hp : p a = false) (hq : q a = true) :
    (l.filter p).length < (l.filter q).length := by
  induction l with
  | nil => simp at ha
  | cons b l ih =>
    have hle := filter_length_le l p q fun x hx => h x (by simp [hx])
    simp only [List.filter_cons]
    rcases List.mem_cons.mp ha with rfl | hal
    · simp only [hp, hq]; simp; omega
    · have ih := ih (fun x hx => h x (by simp [hx])) hal
      have hb := h b (by simp)
      by_cases hpb : p b = true
      · simp [hpb, hb hpb, ih]
      · rw [if_neg hpb]
        split
        · simp only [List.length_cons]; omega
        · exact ih

theorem left_mono {atn : ATN} {eof : Bool} {d : Nat} {a b : List (Nat × Option PC)}
    (h : ∀ n ∈ a, n ∈ b) : left atn eof d b ≤ left atn eof d a := by
  apply filter_length_le
  intro x _ hx
  simp only [decide_eq_true_eq] at hx ⊢
  exact fun hn => hx (h _ hn)

theorem left_insert {atn : ATN} {eof : Bool} {d s : Nat} {k : List Nat} {a : List (Nat × Option PC)}
    (hs : s < atn.states.length) (hk : ∀ f ∈ k, f < atn.states.length) (hd : k.length ≤ d)
    (h : (s, toPC eof k) ∉ a) : left atn eof d ((s, toPC eof k) :: a) < left atn eof d a := by
  refine filter_length_lt _ _ _ ?_ (s, k) (mem_allPos hs hk hd) (by simp [key]) (decide_eq_true h)
  intro x _ hx
  simp only [decide_eq_true_eq, List.mem_cons, not_or] at hx ⊢
  exact hx.2

variable {atn : ATN} {eof : Bool}

/-- The search succeeds with enough fuel. -/
def RecTotal (atn : ATN) (eof : Bool) (d fuel : Nat)
    (rec : Nat → Option PC → LookState → Option LookState) : Prop :=
  ∀ s k st, s < atn.states.length → (∀ f ∈ k, f < atn.states.length) →
    k.length + idle atn st.called ≤ d → left atn eof d st.busy < fuel →
    ∃ st', rec s (toPC eof k) st = some st' ∧ st'.called = st.called ∧ ∀ n ∈ st.busy, n ∈ st'.busy

theorem lookEdge_total (wf : WFAtn atn) {d fuel s : Nat} {k : List Nat} {state : ATNState} {tr : Trans}
    {rec : Nat → Option PC → LookState → Option LookState} (hrec : RecTotal atn eof d fuel rec)
    (hst : atn.states[s]? = some state) (htr : tr ∈ state.transitions)
    (hk : ∀ f ∈ k, f < atn.states.length) (st : LookState)
    (hd : k.length + idle atn st.called ≤ d) (hl : left atn eof d st.busy < fuel) :
    ∃ st', lookEdge atn rec (toPC eof k) st tr = some st' ∧ st'.called = st.called ∧
      ∀ n ∈ st.busy, n ∈ st'.busy := by
  have htl := wf.target s state tr hst htr
  obtain ⟨tst, htgt⟩ : ∃ tst, atn.states[tr.target]? = some tst := ⟨_, List.getElem?_eq_getElem htl⟩
  have hfree := hrec tr.target k st htl hk hd hl
  simp only [lookEdge, htgt, Option.bind_some]
  cases tr with
  | rule t f r p =>
    simp only [Trans.target] at htl htgt ⊢
    by_cases hc : st.called tst.ruleIndex = true
    · rw [if_pos hc]; exact ⟨st, rfl, rfl, fun _ h => h⟩
    · rw [if_neg hc]
      have hc' : st.called tst.ruleIndex = false := by simpa using hc
      have hi := idle_call (rule_lt htgt) hc'
      obtain ⟨st1, h1, h2, h3⟩ := hrec t (f :: k)
        { st with called := fun r => if r = tst.ruleIndex then true else st.called r } htl
        (by simpa using ⟨wf.follow s state t f r p hst htr, hk⟩) (by simp only [List.length_cons]; omega) hl
      refine ⟨_, Option.map_eq_some_iff.mpr ⟨st1, h1, rfl⟩, ?_, h3⟩
      funext r'
      simp only [h2]
      by_cases hr' : r' = tst.ruleIndex
      · simp only [hr', if_true, hc']
      · simp [hr']
  | epsilon => exact hfree
  | predicate => exact hfree
  | precedence => exact hfree
  | action => exact hfree
  | range => exact ⟨_, rfl, rfl, fun _ h => h⟩
  | atom => exact ⟨_, rfl, rfl, fun _ h => h⟩
  | set => exact ⟨_, rfl, rfl, fun _ h => h⟩
  | notSet => exact ⟨_, rfl, rfl, fun _ h => h⟩
  | wildcard => exact ⟨_, rfl, rfl, fun _ h => h⟩

theorem edges_total (wf : WFAtn atn) {d fuel s : Nat} {k : List Nat} {state : ATNState}
    {rec : Nat → Option PC → LookState → Option LookState} (hrec : RecTotal atn eof d fuel rec)
    (hst : atn.states[s]? = some state) (hk : ∀ f ∈ k, f < atn.states.length) :
    ∀ (trs : List Trans) (st : LookState), (∀ tr ∈ trs, tr ∈ state.transitions) →
      k.length + idle atn st.called ≤ d → left atn eof d st.busy < fuel →
      ∃ st', trs.foldlM (lookEdge atn rec (toPC eof k)) st = some st' ∧ st'.called = st.called ∧
        ∀ n ∈ st.busy, n ∈ st'.busy
  | [], st, _, _, _ => ⟨st, rfl, rfl, fun _ h => h⟩
  | tr :: trs, st, hsub, hd, hl => by
    obtain ⟨st1, h1, h2, h3⟩ := lookEdge_total wf hrec hst (hsub tr (by simp)) hk st hd hl
    obtain ⟨st2, g1, g2, g3⟩ := edges_total wf hrec hst hk trs st1 (fun t ht => hsub t (by simp [ht]))
      (by rw [h2]; exact hd) (Nat.lt_of_le_of_lt (left_mono h3) hl)
    exact ⟨st2, Option.bind_eq_some_iff.mpr ⟨st1, h1, g1⟩, g2.trans h2, fun n hn => g3 n (h3 n hn)⟩

theorem lookWork_total (wf : WFAtn atn) (d : Nat) : ∀ fuel, RecTotal atn eof d fuel (lookWork atn fuel)
  | 0 => fun s k st _ _ _ hl => absurd hl (by omega)
  | fuel + 1 => fun s k st hs hk hd hl => by
    have ih := lookWork_total wf d fuel
    obtain ⟨state, hst⟩ : ∃ state, atn.states[s]? = some state := ⟨_, List.getElem?_eq_getElem hs⟩
    simp only [lookWork, lookBody]
    by_cases hb : (s, toPC eof k) ∈ st.busy
    · rw [if_pos hb]; exact ⟨st, rfl, rfl, fun _ h => h⟩
    rw [if_neg hb]
    simp only [hst, Option.bind_some]
    have hl' : left atn eof d ((s, toPC eof k) :: st.busy) < fuel := by
      have := left_insert hs hk (by omega : k.length ≤ d) hb
      omega
    by_cases hstop : state.stateType = .ruleStop
    · rw [if_pos hstop]
      cases k with
      | nil =>
        cases eof
        · exact ⟨_, rfl, rfl, fun n h => by simp [h]⟩
        · exact ⟨_, rfl, rfl, fun n h => by simp [h]⟩
      | cons f k =>
        have hfl := hk f (by simp)
        have hne : ¬ ((f : Int) = PC.EMPTY_RS) := by have := wf.small; omega
        have hne2 : ¬ (PC.single (toPC eof k) f = PC.EMPTY) := by simp [PC.EMPTY, hne]
        simp only [toPC, PC.isEmpty, beq_iff_eq, hne, hne2, Bool.and_eq_true, false_and, if_false, PC.entries,
          List.foldlM_cons, List.foldlM_nil, Int.natCast_nonneg, if_true, Int.toNat_natCast, bind_pure]
        have hi := idle_ret (called := st.called) (rule_lt hst)
        obtain ⟨st1, h1, h2, h3⟩ := ih f k
          { st with
            busy := (s, toPC eof (f :: k)) :: st.busy
            called := fun r => if r = state.ruleIndex then false else st.called r }
          hfl (fun g hg => hk g (by simp [hg])) (by simp only [List.length_cons] at hd ⊢; omega) hl'
        refine ⟨_, Option.map_eq_some_iff.mpr ⟨st1, h1, rfl⟩, ?_, ?_⟩
        · funext r
          by_cases hr : r = state.ruleIndex
          · subst hr
            split
            · rename_i hc; simp [hc]
            · rename_i hc; rw [h2]; simpa using hc
          · split <;> simp [h2, hr]
        · intro n hn
          have := h3 n (by simp [hn])
          split <;> exact this
    · rw [if_neg hstop]
      obtain ⟨st1, h1, h2, h3⟩ := edges_total wf ih hst hk state.transitions
        { st with busy := (s, toPC eof k) :: st.busy } (fun _ h => h) hd hl'
      exact ⟨st1, h1, h2, fun n hn => h3 n (by simp [hn])⟩

end Antlr.LL1Lemmas
