import Verif.Lexer.Trace

/-!
# The configuration sets of the lexer simulator as lists

`reachSet` and `startSet` add the configurations of a list (`reachList`, `startList`) one by one.
-/

namespace Antlr.LexCache
open Antlr Lexer ConfigSet

set_option linter.unusedSectionVars false

/-- What one configuration contributes to the next set: the configurations, was a predicate evaluated,
did the loop over its transitions end early. -/
def contrib (atn : ATN) (pred : Int → Int → Option Bool) (fuel : Nat) (t off : Int) (c : Config)
    (flag : Bool) : List Trans → Option (List Config × Bool × Bool)
  | [] => some ([], false, false)
  | tr :: trs =>
    (tr.getReachableTarget t).bind fun m =>
      match m with
      | none => contrib atn pred fuel t off c flag trs
      | some target =>
        (atn.states[target]?).bind fun tst =>
          (trace atn pred (decide (t = EOF)) fuel
            (clonedExec c target tst ((execOf c).map (fixOffset off)))).bind fun r =>
              if (emitted flag r.1).2 then some ((emitted flag r.1).1, r.2, true)
              else (contrib atn pred fuel t off c flag trs).map fun q =>
                ((emitted flag r.1).1 ++ q.1, r.2 || q.2.1, q.2.2)

/-- The configurations `get_reachable_config_set` adds, in order, and was a predicate evaluated. -/
def reachList (atn : ATN) (pred : Int → Int → Option Bool) (fuel : Nat) (t off : Int) :
    List Config → Int → Option (List Config × Bool)
  | [], _ => some ([], false)
  | c :: rest, skip =>
    if decide (c.alt = skip) && passedOf c then reachList atn pred fuel t off rest skip
    else
      (atn.states[c.state]?).bind fun st =>
        (contrib atn pred fuel t off c (decide (c.alt = skip)) st.transitions).bind fun r =>
          (reachList atn pred fuel t off rest (if r.2.2 then c.alt else skip)).map fun q =>
            (r.1 ++ q.1, r.2.1 || q.2)

/-- The configuration the `i`-th alternative starts with. -/
abbrev startCfg (tr : Trans) (i : Nat) : Config :=
  { state := tr.target, alt := ((i + 1 : Nat) : Int), ctx := PC.EMPTY, kind := .lexer none false }

/-- The configurations `compute_start_state` adds. -/
def startList (atn : ATN) (pred : Int → Int → Option Bool) (fuel : Nat) :
    List Trans → Nat → Option (List Config × Bool)
  | [], _ => some ([], false)
  | tr :: trs, i =>
    (trace atn pred false fuel (startCfg tr i)).bind fun r =>
      (startList atn pred fuel trs (i + 1)).map fun q => ((emitted false r.1).1 ++ q.1, r.2 || q.2)

theorem reachTrans_eq {atn : ATN} {pred : Int → Int → Option Bool} {fuel : Nat} {t off : Int}
    {c : Config} (hc : Plain c) (flag : Bool) (trs : List Trans) :
    ∀ cs : ConfigSet, Collect cs →
      match contrib atn pred fuel t off c flag trs with
      | none => reachTrans atn pred fuel t off c flag trs cs = none
      | some (ys, sem, brk) => ∃ cs', reachTrans atn pred fuel t off c flag trs cs = some (cs', brk) ∧
          Collect cs' ∧ cs'.configs = ys.foldl insertNew cs.configs ∧ cs'.hasSem = (cs.hasSem || sem) := by
  induction trs with
  | nil => intro cs h; exact ⟨cs, rfl, h, rfl, by simp⟩
  | cons tr trs ih =>
    intro cs h
    simp only [contrib, reachTrans]
    cases hm : tr.getReachableTarget t with
    | none => simp
    | some m =>
      simp only [Option.bind_some]
      cases m with
      | none => exact ih cs h
      | some target =>
        dsimp only
        cases hst : atn.states[target]? with
        | none => simp
        | some tst =>
          simp only [Option.bind_some]
          have h1 := closure_does atn pred (decide (t = EOF)) fuel
            (clonedExec c target tst ((execOf c).map (fixOffset off))) cs flag
            (plain_clonedExec hc _ _ _) h
          cases ht : trace atn pred (decide (t = EOF)) fuel
            (clonedExec c target tst ((execOf c).map (fixOffset off))) with
          | none =>
            rw [ht] at h1
            simp only [Does] at h1
            simp [h1]
          | some r =>
            obtain ⟨evs, sem⟩ := r
            rw [ht] at h1
            obtain ⟨cs1, e1, c1, k1, s1⟩ := h1
            simp only [e1, Option.bind_some]
            by_cases hb : (emitted flag evs).2 = true
            · simp only [hb, if_true]
              exact ⟨cs1, rfl, c1, k1, s1⟩
            · simp only [hb]
              have h2 := ih cs1 c1
              cases hq : contrib atn pred fuel t off c flag trs with
              | none => rw [hq] at h2; simpa using h2
              | some q =>
                obtain ⟨ys, sem2, brk⟩ := q
                rw [hq] at h2
                obtain ⟨cs2, e2, c2, k2, s2⟩ := h2
                exact ⟨cs2, e2, c2, by rw [k2, k1, List.foldl_append], by rw [s2, s1, Bool.or_assoc]⟩

theorem reachSet_eq {atn : ATN} {pred : Int → Int → Option Bool} {fuel : Nat} {t off : Int}
    (l : List Config) :
    ∀ (skip : Int) (cs : ConfigSet), (∀ c ∈ l, Plain c) → Collect cs →
      match reachList atn pred fuel t off l skip with
      | none => reachSet atn pred fuel t off l skip cs = none
      | some (ys, sem) => ∃ cs', reachSet atn pred fuel t off l skip cs = some cs' ∧
          Collect cs' ∧ cs'.configs = ys.foldl insertNew cs.configs ∧ cs'.hasSem = (cs.hasSem || sem) := by
  induction l with
  | nil => intro skip cs _ h; exact ⟨cs, rfl, h, rfl, by simp⟩
  | cons c rest ih =>
    intro skip cs hp h
    simp only [reachList, reachSet]
    by_cases hs : (decide (c.alt = skip) && passedOf c) = true
    · simp only [hs, if_true]
      exact ih skip cs (fun x hx => hp x (by simp [hx])) h
    · simp only [hs]
      cases hst : atn.states[c.state]? with
      | none => simp
      | some st =>
        simp only [Bool.false_eq_true, if_false, Option.bind_some]
        have h1 := reachTrans_eq (atn := atn) (pred := pred) (fuel := fuel) (t := t) (off := off)
          (hp c (by simp)) (decide (c.alt = skip)) st.transitions cs h
        cases hq : contrib atn pred fuel t off c (decide (c.alt = skip)) st.transitions with
        | none => rw [hq] at h1; simp only at h1; simp [h1]
        | some q =>
          obtain ⟨ys, sem, brk⟩ := q
          rw [hq] at h1
          obtain ⟨cs1, e1, c1, k1, s1⟩ := h1
          simp only [e1, Option.bind_some]
          have h2 := ih (if brk then c.alt else skip) cs1 (fun x hx => hp x (by simp [hx])) c1
          cases hr : reachList atn pred fuel t off rest (if brk then c.alt else skip) with
          | none => rw [hr] at h2; simpa using h2
          | some r =>
            obtain ⟨ys2, sem2⟩ := r
            rw [hr] at h2
            obtain ⟨cs2, e2, c2, k2, s2⟩ := h2
            exact ⟨cs2, e2, c2, by rw [k2, k1, List.foldl_append], by rw [s2, s1, Bool.or_assoc]⟩

theorem startSet_eq {atn : ATN} {pred : Int → Int → Option Bool} {fuel : Nat} (trs : List Trans) :
    ∀ (i : Nat) (cs : ConfigSet), Collect cs →
      match startList atn pred fuel trs i with
      | none => startSet atn pred fuel trs i cs = none
      | some (ys, sem) => ∃ cs', startSet atn pred fuel trs i cs = some cs' ∧
          Collect cs' ∧ cs'.configs = ys.foldl insertNew cs.configs ∧ cs'.hasSem = (cs.hasSem || sem) := by
  induction trs with
  | nil => intro i cs h; exact ⟨cs, rfl, h, rfl, by simp⟩
  | cons tr trs ih =>
    intro i cs h
    simp only [startList, startSet]
    have hp : Plain (startCfg tr i) := ⟨rfl, rfl, rfl, none, false, rfl⟩
    have h1 := closure_does atn pred false fuel _ cs false hp h
    cases ht : trace atn pred false fuel (startCfg tr i) with
    | none => rw [ht] at h1; simp only [Does] at h1; simp only [h1, Option.bind_none]
    | some r =>
      obtain ⟨evs, sem⟩ := r
      rw [ht] at h1
      obtain ⟨cs1, e1, c1, k1, s1⟩ := h1
      simp only [e1, Option.bind_some]
      have h2 := ih (i + 1) cs1 c1
      cases hr : startList atn pred fuel trs (i + 1) with
      | none => rw [hr] at h2; simpa using h2
      | some r =>
        obtain ⟨ys2, sem2⟩ := r
        rw [hr] at h2
        obtain ⟨cs2, e2, c2, k2, s2⟩ := h2
        exact ⟨cs2, e2, c2, by rw [k2, k1, List.foldl_append], by rw [s2, s1, Bool.or_assoc]⟩

/-! ## What the lists look like -/

/-- The configuration of an event. -/
def Ev.cfg : Ev → Config
  | .stop c => c
  | .node c => c

theorem mem_emitted {flag : Bool} {evs : List Ev} {c : Config} (h : c ∈ (emitted flag evs).1) :
    ∃ e ∈ evs, e.cfg = c := by
  induction evs generalizing flag with
  | nil => simp [emitted] at h
  | cons e evs ih =>
    cases e with
    | stop x =>
      simp only [emitted, List.mem_cons] at h
      rcases h with rfl | h
      · exact ⟨.stop c, by simp, rfl⟩
      · obtain ⟨e, h1, h2⟩ := ih h; exact ⟨e, by simp [h1], h2⟩
    | node x =>
      simp only [emitted, List.mem_append] at h
      rcases h with h | h
      · split at h
        · simp at h; subst h; exact ⟨.node c, by simp, rfl⟩
        · simp at h
      · obtain ⟨e, h1, h2⟩ := ih h; exact ⟨e, by simp [h1], h2⟩

theorem collect_mem {α ε : Type} {f : α → Option (List ε × Bool)} {l : List α} {evs : List ε} {b : Bool}
    (h : collect f l = some (evs, b)) :
    ∀ e ∈ evs, ∃ a ∈ l, ∃ r, f a = some r ∧ e ∈ r.1 := by
  induction l generalizing evs b with
  | nil => simp [collect] at h; obtain ⟨rfl, _⟩ := h; simp
  | cons a as ih =>
    simp only [collect] at h
    obtain ⟨r, hr, h⟩ := Option.bind_eq_some_iff.mp h
    simp only [Option.map_eq_some_iff] at h
    obtain ⟨q, hq, h⟩ := h
    injection h with h1 _
    subst h1
    intro e he
    simp only [List.mem_append] at he
    rcases he with he | he
    · exact ⟨a, by simp, r, hr, he⟩
    · obtain ⟨x, h1, r', h2, h3⟩ := ih (evs := q.1) (b := q.2) hq e he
      exact ⟨x, by simp [h1], r', h2, h3⟩

theorem alt_epsTarget {atn : ATN} {pred : Int → Int → Option Bool} {eof : Bool} {c c' : Config}
    {tr : Trans} {b : Bool} (ht : epsTarget atn pred eof c tr = some (b, some c')) : c'.alt = c.alt := by
  simp only [epsTarget] at ht
  obtain ⟨tst, _, ht⟩ := Option.bind_eq_some_iff.mp ht
  have key : ∀ {o : Option Bool} {t : Nat} {x : Bool},
      (o.map fun m => (x, if m then some (cloned c t tst) else none)) = some (b, some c') → c'.alt = c.alt := by
    intro o t x h
    simp only [Option.map_eq_some_iff] at h
    obtain ⟨y, _, h⟩ := h
    injection h with _ h
    split at h
    · injection h with h; rw [← h]; rfl
    · simp at h
  cases tr with
  | epsilon => simp at ht; rw [← ht.2]; rfl
  | rule => simp at ht; rw [← ht.2]; rfl
  | predicate t d r p => exact key ht
  | action t d r a p =>
    simp only at ht
    split at ht
    · split at ht
      · simp only [Option.map_eq_some_iff] at ht
        obtain ⟨x, _, ht⟩ := ht
        injection ht with _ ht; injection ht with ht
        rw [← ht]; rfl
      · simp at ht
    · simp at ht; rw [← ht.2]; rfl
  | range t x y =>
    simp only at ht
    split at ht
    · exact key ht
    · simp at ht
  | set t x =>
    simp only at ht
    split at ht
    · exact key ht
    · simp at ht
  | atom t x =>
    simp only at ht
    split at ht
    · exact key ht
    · simp at ht
  | notSet => simp at ht
  | wildcard => simp at ht
  | precedence => simp at ht

/-- Every configuration of a traversal is a plain one of the alternative it started with. -/
theorem trace_mem {atn : ATN} {pred : Int → Int → Option Bool} {eof : Bool} (fuel : Nat) :
    ∀ {c : Config} {evs : List Ev} {b : Bool}, Plain c → trace atn pred eof fuel c = some (evs, b) →
      ∀ e ∈ evs, Plain e.cfg ∧ e.cfg.alt = c.alt := by
  induction fuel with
  | zero => intro c evs b _ h; simp [trace] at h
  | succ fuel ih =>
    intro c evs b hc h
    simp only [trace] at h
    obtain ⟨st, hst, h⟩ := Option.bind_eq_some_iff.mp h
    split at h
    · split at h
      · injection h with h; injection h with h _; subst h
        intro e he; simp at he; subst he; exact ⟨hc, rfl⟩
      · simp only [Option.map_eq_some_iff] at h
        obtain ⟨r, hr, h⟩ := h
        injection h with h _; subst h
        intro e he
        simp only [List.mem_append] at he
        rcases he with he | he
        · split at he
          · simp at he; subst he; exact ⟨plain_clonedCtx hc _ _ _, rfl⟩
          · simp at he
        · split at hr
          · injection hr with hr; subst hr; simp at he
          · obtain ⟨x, _, r', h1, h2⟩ := collect_mem (evs := r.1) (b := r.2) hr e he
            obtain ⟨parent, _, h1⟩ := Option.bind_eq_some_iff.mp h1
            obtain ⟨rst, _, h1⟩ := Option.bind_eq_some_iff.mp h1
            exact ih (evs := r'.1) (b := r'.2) (plain_clonedCtx hc _ _ _) h1 e h2
    · simp only [Option.map_eq_some_iff] at h
      obtain ⟨r, hr, h⟩ := h
      injection h with h _; subst h
      intro e he
      simp only [List.mem_append] at he
      rcases he with he | he
      · split at he
        · simp at he
        · simp at he; subst he; exact ⟨hc, rfl⟩
      · obtain ⟨tr, _, r', h1, h2⟩ := collect_mem (evs := r.1) (b := r.2) hr e he
        obtain ⟨⟨b', o⟩, h3, h1⟩ := Option.bind_eq_some_iff.mp h1
        cases o with
        | none => injection h1 with h1; subst h1; simp at h2
        | some c' =>
          simp only [Option.map_eq_some_iff] at h1
          obtain ⟨q, hq, h4⟩ := h1
          subst h4
          have h5 := ih (evs := q.1) (b := q.2) (plain_epsTarget hc h3) hq e h2
          exact ⟨h5.1, h5.2.trans (alt_epsTarget h3)⟩

theorem contrib_mem {atn : ATN} {pred : Int → Int → Option Bool} {fuel : Nat} {t off : Int}
    {c : Config} (hc : Plain c) {flag : Bool} {trs : List Trans} :
    ∀ {ys : List Config} {x : Bool × Bool}, contrib atn pred fuel t off c flag trs = some (ys, x) →
      ∀ y ∈ ys, Plain y ∧ y.alt = c.alt := by
  induction trs with
  | nil => intro ys x h; simp [contrib] at h; obtain ⟨rfl, _⟩ := h; simp
  | cons tr trs ih =>
    intro ys x h
    simp only [contrib] at h
    obtain ⟨m, _, h⟩ := Option.bind_eq_some_iff.mp h
    cases m with
    | none => exact ih h
    | some target =>
      simp only at h
      obtain ⟨tst, _, h⟩ := Option.bind_eq_some_iff.mp h
      obtain ⟨r, hr, h⟩ := Option.bind_eq_some_iff.mp h
      have h1 := trace_mem fuel (evs := r.1) (b := r.2) (plain_clonedExec hc _ _ _) hr
      split at h
      · injection h with h; injection h with h _; subst h
        intro y hy
        obtain ⟨e, he, rfl⟩ := mem_emitted hy
        exact h1 e he
      · simp only [Option.map_eq_some_iff] at h
        obtain ⟨q, hq, h⟩ := h
        injection h with h _; subst h
        intro y hy
        simp only [List.mem_append] at hy
        rcases hy with hy | hy
        · obtain ⟨e, he, rfl⟩ := mem_emitted hy
          exact h1 e he
        · exact ih (ys := q.1) (x := q.2) hq y hy

/-- Plain configurations, alternatives in order. -/
structure Good (l : List Config) : Prop where
  plain : ∀ c ∈ l, Plain c
  sorted : l.Pairwise fun a b => a.alt ≤ b.alt

theorem reachList_mem {atn : ATN} {pred : Int → Int → Option Bool} {fuel : Nat} {t off : Int}
    (l : List Config) : ∀ {skip : Int} {ys : List Config} {b : Bool}, Good l →
    reachList atn pred fuel t off l skip = some (ys, b) →
      Good ys ∧ ∀ y ∈ ys, ∃ c ∈ l, y.alt = c.alt := by
  induction l with
  | nil =>
    intro skip ys b _ h; simp [reachList] at h; obtain ⟨rfl, _⟩ := h
    exact ⟨⟨by simp, by simp⟩, by simp⟩
  | cons c rest ih =>
    intro skip ys b hg h
    have hg' : Good rest := ⟨fun x hx => hg.plain x (by simp [hx]), (List.pairwise_cons.mp hg.sorted).2⟩
    simp only [reachList] at h
    split at h
    · obtain ⟨h1, h2⟩ := ih hg' h
      exact ⟨h1, fun y hy => by obtain ⟨x, h3, h4⟩ := h2 y hy; exact ⟨x, by simp [h3], h4⟩⟩
    · obtain ⟨st, _, h⟩ := Option.bind_eq_some_iff.mp h
      obtain ⟨⟨r1, r2⟩, hr, h⟩ := Option.bind_eq_some_iff.mp h
      simp only [Option.map_eq_some_iff] at h
      obtain ⟨q, hq, h⟩ := h
      injection h with h _; subst h
      obtain ⟨h1, h2⟩ := ih (ys := q.1) (b := q.2) hg' hq
      have h3 := contrib_mem (hg.plain c (by simp)) hr
      refine ⟨⟨?_, ?_⟩, ?_⟩
      · intro y hy
        simp only [List.mem_append] at hy
        rcases hy with hy | hy
        · exact (h3 y hy).1
        · exact h1.plain y hy
      · rw [List.pairwise_append]
        refine ⟨?_, h1.sorted, ?_⟩
        · rw [List.pairwise_iff_forall_sublist]
          intro a b hs
          have ha := (h3 a (hs.subset (by simp))).2
          have hb := (h3 b (hs.subset (by simp))).2
          omega
        · intro a ha b hb
          have := (h3 a ha).2
          obtain ⟨x, hx, hx'⟩ := h2 b hb
          have := (List.pairwise_cons.mp hg.sorted).1 x hx
          omega
      · intro y hy
        simp only [List.mem_append] at hy
        rcases hy with hy | hy
        · exact ⟨c, by simp, (h3 y hy).2⟩
        · obtain ⟨x, h4, h5⟩ := h2 y hy; exact ⟨x, by simp [h4], h5⟩

theorem startList_mem {atn : ATN} {pred : Int → Int → Option Bool} {fuel : Nat} (trs : List Trans) :
    ∀ {i : Nat} {ys : List Config} {b : Bool}, startList atn pred fuel trs i = some (ys, b) →
      Good ys ∧ ∀ y ∈ ys, (i : Int) < y.alt := by
  induction trs with
  | nil =>
    intro i ys b h; simp [startList] at h; obtain ⟨rfl, _⟩ := h
    exact ⟨⟨by simp, by simp⟩, by simp⟩
  | cons tr trs ih =>
    intro i ys b h
    simp only [startList] at h
    obtain ⟨r, hr, h⟩ := Option.bind_eq_some_iff.mp h
    simp only [Option.map_eq_some_iff] at h
    obtain ⟨q, hq, h⟩ := h
    injection h with h _; subst h
    obtain ⟨h1, h2⟩ := ih (ys := q.1) (b := q.2) hq
    have h3 := trace_mem fuel (evs := r.1) (b := r.2) ⟨rfl, rfl, rfl, none, false, rfl⟩ hr
    have h4 : ∀ y ∈ (emitted false r.1).1, Plain y ∧ y.alt = ((i + 1 : Nat) : Int) := by
      intro y hy
      obtain ⟨e, he, rfl⟩ := mem_emitted hy
      exact h3 e he
    refine ⟨⟨?_, ?_⟩, ?_⟩
    · intro y hy
      simp only [List.mem_append] at hy
      rcases hy with hy | hy
      · exact (h4 y hy).1
      · exact h1.plain y hy
    · rw [List.pairwise_append]
      refine ⟨?_, h1.sorted, ?_⟩
      · rw [List.pairwise_iff_forall_sublist]
        intro a b hs
        have ha := (h4 a (hs.subset (by simp))).2
        have hb := (h4 b (hs.subset (by simp))).2
        omega
      · intro a ha b hb
        have := (h4 a ha).2
        have := h2 b hb
        omega
    · intro y hy
      simp only [List.mem_append] at hy
      rcases hy with hy | hy
      · have := (h4 y hy).2; omega
      · have := h2 y hy; omega

end Antlr.LexCache
