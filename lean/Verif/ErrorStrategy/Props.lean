import Verif.ErrorStrategy.Lemmas
import Verif.ErrorStrategy.History
import Verif.LL1.Props
import Verif.Parser.View
import Mathlib.Data.List.Perm.Subperm

/-!
# Error recovery: properties C45–C48, C66
-/

namespace Antlr.ErrorProps
open Antlr ParserSpec ErrorSpec ErrorLemmas IntervalSpec IntervalProps CommonProps TokenSpec

variable {I : Type} [TokStream I] {T : Nat → Tok} {V : I → Nat → Prop} {ix : Nat → Int}

/-- The common token stream is such a view: the index of a token is its position in the source. -/
theorem indexed_cts (src : Source) (c : Int) (hfirst : TokenSpec.Visible src c 0) :
    IsIndexed (I := CTS) (ParserView.seen src c) (ParserView.CtsAt src c)
      (fun n => (ParserView.visPos src c n : Int)) where
  toIsView := ParserView.view_cts src c hfirst
  index := by
    rintro s n ⟨⟨len, rfl, _⟩, _⟩
    simp [TokStream.index, CTS.index, cst, st]
  tokIndex := fun n => rfl
  mono := by
    intro n hn
    have : ParserView.visPos src c n < TokenSpec.eofIdx src := by
      have := ParserView.visPos_le src c n
      rcases Nat.lt_or_eq_of_le this with h | h
      · exact h
      · exact absurd ((tok_eof_iff src _).mpr (Nat.le_of_eq h.symm)) hn
    have := ParserView.visPos_lt src c n this
    omega
  back := by
    rintro s n ⟨⟨len, rfl, hok⟩, _⟩
    have hlt : ParserView.visPos src c n - 1 < len := by have := hok.1; omega
    have e : TS.bufferStart (cst src c len (ParserView.visPos src c n)).base = 0 := by
      simp [TS.bufferStart, cst, st]
    have e3 : max ((ParserView.visPos src c n : Int) - 1) 0 = ((ParserView.visPos src c n - 1 : Nat) : Int) := by
      omega
    refine ⟨TokenSpec.tok src (ParserView.visPos src c n - 1), ?_⟩
    show (cst src c len (ParserView.visPos src c n)).base.get _ = _
    rw [TS.get, e, e3]
    simpa using cgetAt src c len (ParserView.visPos src c n) _ hlt

/-! ## C45 recovery -/

/-- **C45, skipping ends**: if there is an EOF ahead, there is exactly one number of tokens to skip. -/
theorem C45_consume_until_terminates (set : IntervalSet) (n N : Nat) (hN : n ≤ N)
    (he : (T N).ttype = TOKEN_EOF) : ∃ m, n + m ≤ N ∧ Skips T set n m ∧ ∀ m', Skips T set n m' → m' = m := by
  have uniq : ∀ m m', Skips T set n m → Skips T set n m' → ¬ m < m' := by
    intro m m' h h' hlt
    have := h'.1 m hlt
    rcases h.2 with h | h
    · exact this.1 h
    · simp [h] at this
  have ex : ∀ d n, n + d = N → ∃ m, n + m ≤ N ∧ Skips T set n m := by
    intro d
    induction d with
    | zero =>
      intro n hn
      exact ⟨0, by omega, fun j hj => by omega, .inl (by simpa [hn] using he)⟩
    | succ d ih =>
      intro n hn
      by_cases hstop : (T n).ttype = TOKEN_EOF ∨ set.contains (T n).ttype = true
      · exact ⟨0, by omega, fun j hj => by omega, by simpa using hstop⟩
      · obtain ⟨m, hm, hs⟩ := ih (n + 1) (by omega)
        refine ⟨m + 1, by omega, ?_, by rw [show n + (m + 1) = n + 1 + m by omega]; exact hs.2⟩
        intro j hj
        cases j with
        | zero =>
          rw [not_or] at hstop
          exact ⟨hstop.1, by simpa using hstop.2⟩
        | succ j =>
          have := hs.1 j (by omega)
          rwa [show n + 1 + j = n + (j + 1) by omega] at this
  obtain ⟨m, hm, hs⟩ := ex (N - n) n (by omega)
  refine ⟨m, hm, hs, fun m' hs' => ?_⟩
  have h1 := uniq m m' hs hs'
  have h2 := uniq m' m hs' hs
  omega

/-- This recovery starts at the token of the last one and in a state already seen since the last
match: another way out must be forced. -/
def Stuck (eh : EH) (idx state : Int) : Prop :=
  eh.lastIndex = idx ∧ ∃ set, eh.lastStates = some set ∧ set.contains state = true

/-- What `recover` remembers. -/
def remember (eh : EH) (idx state : Int) : EH :=
  { eh with lastIndex := idx
            lastStates := some ((eh.lastStates.getD IntervalSet.new).addOne state) }

theorem stuck_iff (eh : EH) (idx state : Int) :
    (eh.lastIndex = idx ∧ eh.lastStates.any (fun set => set.contains state) = true) ↔
      Stuck eh idx state := by
  unfold Stuck
  cases eh.lastStates <;> simp

/-- **C45, recovery.**  A recovery that is not stuck skips exactly the tokens up to the first one in
the recovery set or EOF, adding them to the tree; it reports nothing. -/
theorem C45_recover (hv : IsIndexed T V ix) (env : EEnv I) (s : ES I) (n c : Nat)
    (h : Ready V s.p n c) (R : IntervalSet) (hR : ES.recoverySet env s.p = some R)
    (hs : ¬ Stuck s.eh (ix n) s.p.state) (m : Nat) (hm : Skips T R n m) (fuel : Nat) (hf : m < fuel) :
    ∃ i', s.recover env fuel = some ⟨remember s.eh (ix n) s.p.state,
        after s.p i' c (skipped T n m s.eh.mode) []⟩ ∧ V i' (n + m) := by
  unfold ES.recover
  have hix := hv.index _ _ h.view
  rw [← stuck_iff] at hs
  rw [hix, if_neg hs, Option.bind_some]
  simp only [hR, Option.bind_some, hix]
  obtain ⟨i', h1, h2⟩ := consumeUntil_after hv.toIsView R m
    (s := ⟨remember s.eh (ix n) s.p.state, s.p⟩) h hm fuel hf
  exact ⟨i', h1, h2⟩

/-- **C45, forced progress.**  A recovery that is stuck first consumes the current token (EOF is added
to the tree but never passed), then skips as usual. -/
theorem C45_recover_stuck (hv : IsIndexed T V ix) (env : EEnv I) (s : ES I) (n c : Nat)
    (h : Ready V s.p n c) (R : IntervalSet) (hR : ES.recoverySet env s.p = some R)
    (hs : Stuck s.eh (ix n) s.p.state) (m : Nat) (hm : Skips T R (next T n) m) (fuel : Nat)
    (hf : m < fuel) :
    ∃ i', s.recover env fuel = some ⟨remember s.eh (ix (next T n)) s.p.state,
        after s.p i' c ((T n, s.eh.mode) :: skipped T (next T n) m s.eh.mode) []⟩ ∧
      V i' (next T n + m) := by
  unfold ES.recover
  have hix := hv.index _ _ h.view
  rw [← stuck_iff] at hs
  obtain ⟨i1, h1, v1⟩ := consume_after hv.toIsView h s.eh.mode
  have hix1 := hv.index _ _ v1
  rw [hix, if_pos hs, ES.consume, h1, Option.map_some, Option.bind_some]
  have e1 : (after s.p i1 c [(T n, s.eh.mode)] []).input = i1 := rfl
  simp only [recoverySet_after, hR, Option.bind_some, e1, hix1]
  obtain ⟨i', h2, v2⟩ := consumeUntil_after hv.toIsView R m
    (s := ⟨remember s.eh (ix (next T n)) s.p.state, after s.p i1 c [(T n, s.eh.mode)] []⟩)
    (ready_after h v1 _ _) hm fuel hf
  refine ⟨i', ?_, v2⟩
  rw [after_after] at h2
  exact h2

theorem consumeUntil_moves (hv : IsView T V) (set : IntervalSet) (fuel : Nat) {s s' : ES I} {n c : Nat}
    (h : Ready V s.p n c) (hc : ES.consumeUntil set fuel s = some s') :
    ∃ m, n ≤ m ∧ V s'.p.input m := by
  induction fuel generalizing s n with
  | zero => simp [ES.consumeUntil] at hc
  | succ fuel ih =>
    obtain ⟨i1, h1, v1⟩ := la_after hv h 1 (by omega)
    rw [show ((1 : Nat) : Int) = 1 from rfl] at h1
    rw [ES.consumeUntil, h1, Option.bind_some] at hc
    simp only [] at hc
    split at hc
    · obtain ⟨i2, h2, v2⟩ := consume_after hv (ready_after h v1 [] []) s.eh.mode
      rw [after_after] at h2
      rw [ES.consume, h2, Option.map_some, Option.bind_some] at hc
      obtain ⟨m, hm, hv'⟩ := ih (s := ⟨s.eh, after s.p i2 c _ _⟩) (ready_after h v2 _ _) hc
      refine ⟨m, ?_, hv'⟩
      unfold next at hm
      split at hm <;> omega
    · cases hc
      exact ⟨n, Nat.le_refl _, v1⟩

/-- The states remembered are the ones added one by one since the last match. -/
def Built (eh : EH) (vs : List Int) : Prop :=
  (eh.lastStates = none ∧ vs = []) ∨ eh.lastStates = some (run (vs.map AddCall.one))

theorem built_remember {eh : EH} {vs : List Int} (h : Built eh vs) (idx state : Int) :
    Built (remember eh idx state) (vs ++ [state]) := by
  right
  have e : ∀ s : IntervalSet, s.addOne state = perform s (.one state) := fun _ => rfl
  rcases h with ⟨h, rfl⟩ | h
  · simp [remember, h, run, e]
  · simp [remember, h, run, e]

theorem built_stuck {eh : EH} {vs : List Int} (h : Built eh vs) (idx state : Int)
    (hi : eh.lastIndex = idx) (hm : state ∈ vs) : Stuck eh idx state := by
  refine ⟨hi, ?_⟩
  rcases h with ⟨h, rfl⟩ | h
  · simp at hm
  · exact ⟨_, h, by rw [C01_add_one_history]; exact hm⟩

/-- Successive recoveries of one error episode: before and after each; in between the parser may do
anything that leaves the strategy alone. -/
def Episode (env : EEnv I) (fuel : Nat) : EH → List (ES I × ES I) → Prop
  | _, [] => True
  | eh, (a, b) :: l => a.eh = eh ∧ a.recover env fuel = some b ∧ Episode env fuel b.eh l

/-- **C45, no endless recovery.**  Among successive recoveries that all start at the same token (not
EOF) without getting past it, no two are in the same parser state: so with `N` ATN states, at most
`N` of them, and the next one makes progress. -/
theorem C45_progress (hv : IsIndexed T V ix) (env : EEnv I) (fuel : Nat) (n : Nat)
    (hn : (T n).ttype ≠ TOKEN_EOF) (eh : EH) (vs : List Int) (hb : Built eh vs)
    (l : List (ES I × ES I)) (he : Episode env fuel eh l)
    (hstart : ∀ x ∈ l, ∃ c, Ready V x.1.p n c)
    (hend : ∀ x ∈ l, ¬ ∃ m, n < m ∧ V x.2.p.input m) :
    (l.map fun x => x.1.p.state).Nodup := by
  suffices H : (l.map fun x => x.1.p.state).Nodup ∧
      (eh.lastIndex = ix n → ∀ x ∈ l, x.1.p.state ∉ vs) from H.1
  induction l generalizing eh vs with
  | nil => simp
  | cons x l ih =>
    obtain ⟨a, b⟩ := x
    obtain ⟨rfl, hr, he⟩ := he
    obtain ⟨c, hc⟩ := hstart (a, b) (by simp)
    have hno := hend (a, b) (by simp)
    have hix := hv.index _ _ hc.view
    unfold ES.recover at hr
    rw [hix] at hr
    by_cases hs : Stuck a.eh (ix n) a.p.state
    · exfalso
      obtain ⟨i1, h1, v1⟩ := consume_after hv.toIsView hc a.eh.mode
      rw [if_pos ((stuck_iff ..).mpr hs), ES.consume, h1, Option.map_some, Option.bind_some] at hr
      simp only [Option.bind_eq_some_iff] at hr
      obtain ⟨R, _, hr⟩ := hr
      obtain ⟨m, hm, hv'⟩ := consumeUntil_moves hv.toIsView R fuel
        (s := ⟨_, after a.p i1 c [(T n, a.eh.mode)] []⟩) (ready_after hc v1 _ _) hr
      refine hno ⟨m, ?_, hv'⟩
      rw [next, if_neg hn] at hm
      omega
    · rw [if_neg (fun h => hs ((stuck_iff ..).mp h)), Option.bind_some] at hr
      simp only [Option.bind_eq_some_iff] at hr
      obtain ⟨R, _, hr⟩ := hr
      have hbe := (consumeUntil_quiet fuel hr).2
      rw [hix] at hbe
      have ih := ih b.eh (vs ++ [a.p.state]) (by rw [hbe]; exact built_remember hb _ _) he
        (fun x hx => hstart x (by simp [hx])) (fun x hx => hend x (by simp [hx]))
      have h2 := ih.2 (by rw [hbe])
      refine ⟨?_, fun hl x hx => ?_⟩
      · rw [List.map_cons, List.nodup_cons]
        refine ⟨?_, ih.1⟩
        intro hmem
        obtain ⟨y, hy, hye⟩ := List.mem_map.mp hmem
        exact h2 y hy (by simp [hye])
      · rcases List.mem_cons.mp hx with rfl | hx
        · exact fun hmem => hs (built_stuck hb _ _ hl hmem)
        · exact fun hmem => h2 x hx (by simp [hmem])

/-- The calling states found on the way from a context to the outermost one. -/
inductive Callers (h : List Ctx) : Option Nat → List Int → Prop
  | none : Callers h none []
  | root {i : Nat} {c : Ctx} : h[i]? = some c → c.invoking < 0 → Callers h (some i) []
  | up {i : Nat} {c : Ctx} {stack} : h[i]? = some c → 0 ≤ c.invoking → Callers h c.parent stack →
      Callers h (some i) (c.invoking :: stack)

theorem callers_unique {h : List Ctx} {i : Option Nat} {s s' : List Int} (h1 : Callers h i s)
    (h2 : Callers h i s') : s = s' := by
  induction h1 generalizing s' with
  | none => cases h2; rfl
  | root a b =>
    cases h2 with
    | root => rfl
    | up a' b' => rw [a] at a'; cases a'; omega
  | up a b c ih =>
    cases h2 with
    | root a' b' => rw [a] at a'; cases a'; omega
    | up a' b' c' => rw [a] at a'; cases a'; rw [ih c']

/-- The sets added by the loop. -/
def joined (sets : List IntervalSet) (acc : IntervalSet) : IntervalSet := sets.foldl IntervalSet.addSet acc

open LL1Spec LL1Props in
theorem recoverySetLoop_ok (env : EEnv I) (wf : WFAtn env.atn) (h : List Ctx) {i : Option Nat}
    {stack : List Int} (hc : Callers h i stack) {k : List Nat} (hk : Climbs env.atn stack k)
    (sets : List IntervalSet)
    (hs : List.Forall₂ (fun f s => nextTokens env.atn env.fuel f = some s) k sets) :
    ∃ ns : List Nat, ns.Nodup ∧
      (∀ j ∈ ns, j < h.length ∧ ∃ s, Callers h (some j) s ∧ s.length ≤ stack.length) ∧
      ∀ fuel acc, ns.length ≤ fuel →
        ES.recoverySetLoop env h fuel i acc = some (joined sets acc) := by
  induction hc generalizing k sets with
  | none =>
    cases hk; cases hs
    exact ⟨[], by simp, by simp, fun fuel acc _ => by cases fuel <;> rfl⟩
  | @root i c a b =>
    cases hk; cases hs
    refine ⟨[i], by simp, ?_, fun fuel acc hf => ?_⟩
    · simp only [List.mem_singleton, forall_eq]
      exact ⟨(List.getElem?_eq_some_iff.mp a).1, [], .root a b, Nat.le_refl _⟩
    · obtain ⟨fuel, rfl⟩ : ∃ f, fuel = f + 1 := ⟨fuel - 1, by simp at hf; omega⟩
      simp [ES.recoverySetLoop, a, b, joined]
  | @up i c stack a b hc ih =>
    cases hk with
    | cons hi hrest =>
    rename_i f k
    cases hs with
    | cons h1 hs =>
    rename_i s sets
    obtain ⟨ns, n1, n2, n3⟩ := ih hrest sets hs
    obtain ⟨n, st, t, r, p, ts, hn, hst, htr⟩ := hi
    have hlt : f < env.atn.states.length := wf.follow n st t f r p hst (by simp [htr])
    refine ⟨i :: ns, ?_, ?_, fun fuel acc hf => ?_⟩
    · rw [List.nodup_cons]
      refine ⟨fun hm => ?_, n1⟩
      obtain ⟨_, s', hs', hl⟩ := n2 i hm
      have := callers_unique hs' (Callers.up a b hc)
      rw [this, List.length_cons] at hl
      omega
    · intro j hj
      rcases List.mem_cons.mp hj with rfl | hj
      · exact ⟨(List.getElem?_eq_some_iff.mp a).1, _, .up a b hc, Nat.le_refl _⟩
      · obtain ⟨x, s', hs', hl⟩ := n2 j hj
        exact ⟨x, s', hs', by simp; omega⟩
    · obtain ⟨fuel, rfl⟩ : ∃ f, fuel = f + 1 := ⟨fuel - 1, by simp at hf; omega⟩
      have hfo : followOf env.atn (n : Int) = some f := by
        simp [followOf, ATN.stateAt, hst, htr]
      simp only [ES.recoverySetLoop, a, Option.bind_some, if_neg (Int.not_lt.mpr b), hn, hfo,
        if_pos hlt, h1]
      exact n3 fuel _ (by simpa using hf)

open LL1Spec LL1Props in
/-- The recovery set is the union of the sets of the callers' follow states, without the marker. -/
theorem recoverySet_eq (env : EEnv I) (wf : WFAtn env.atn) (p : P I) {c : Nat} (hctx : p.ctx = some c)
    {stack : List Int} (hc : Callers p.heap (some c) stack) {k : List Nat}
    (hk : Climbs env.atn stack k) (sets : List IntervalSet)
    (hs : List.Forall₂ (fun f s => nextTokens env.atn env.fuel f = some s) k sets) :
    ES.recoverySet env p = (joined sets IntervalSet.new).removeOne TOKEN_EPSILON := by
  obtain ⟨ns, h1, h2, h3⟩ := recoverySetLoop_ok env wf p.heap hc hk sets hs
  have : ns.length ≤ p.heap.length := by
    have := (h1.subperm (l₂ := List.range p.heap.length) fun j hj => by simpa using (h2 j hj).1).length_le
    simpa using this
  rw [ES.recoverySet, hctx, Option.bind_some, h3 _ _ this, Option.bind_some]

open LL1Spec LL1Props in
theorem recoverySetLoop_sets (env : EEnv I) (wf : WFAtn env.atn) (h : List Ctx) {i : Option Nat}
    {stack : List Int} (hc : Callers h i stack) {k : List Nat} (hk : Climbs env.atn stack k)
    (fuel : Nat) (acc set : IntervalSet) (hl : ES.recoverySetLoop env h fuel i acc = some set) :
    ∃ sets, List.Forall₂ (fun f s => nextTokens env.atn env.fuel f = some s) k sets := by
  induction hc generalizing k fuel acc with
  | none => cases hk; exact ⟨[], .nil⟩
  | root => cases hk; exact ⟨[], .nil⟩
  | @up i c stack a b hc ih =>
    cases hk with
    | cons hi hrest =>
    rename_i f k
    obtain ⟨n, st, t, r, p, ts, hn, hst, htr⟩ := hi
    have hlt : f < env.atn.states.length := wf.follow n st t f r p hst (by simp [htr])
    have hfo : followOf env.atn (n : Int) = some f := by
      simp [followOf, ATN.stateAt, hst, htr]
    cases fuel with
    | zero => simp [ES.recoverySetLoop] at hl
    | succ fuel =>
      rw [ES.recoverySetLoop, a, Option.bind_some, if_neg (Int.not_lt.mpr b), hn, hfo,
        Option.bind_some, if_pos hlt] at hl
      obtain ⟨s, h1, h2⟩ := Option.bind_eq_some_iff.mp hl
      obtain ⟨sets, h3⟩ := ih hrest fuel _ h2
      exact ⟨s :: sets, .cons h1 h3⟩

theorem joined_sound (sets : List IntervalSet) (acc : IntervalSet)
    (hv : ∀ r ∈ acc.intervals, r.a ≤ r.b) :
    (∀ r ∈ (joined sets acc).intervals, r.a ≤ r.b) ∧
      ∀ x, Mem (joined sets acc).intervals x → Mem acc.intervals x ∨ ∃ s ∈ sets, Mem s.intervals x := by
  induction sets generalizing acc with
  | nil => exact ⟨hv, fun x hx => .inl hx⟩
  | cons s sets ih =>
    have s1 := foldl_sound acc s.intervals hv
    have s2 := ih (acc.addSet s) s1.1
    refine ⟨s2.1, fun x hx => ?_⟩
    rcases s2.2 x hx with h | ⟨s', h, h'⟩
    · rcases s1.2 x h with h | h
      · exact .inl h
      · exact .inr ⟨s, by simp, h⟩
    · exact .inr ⟨s', by simp [h], h'⟩

open LL1Spec LL1Props in
/-- **C45, only sensible places to resume.**  Every token type in the recovery set can be matched
right after the call of one of the active rules. -/
theorem C45_recovery_set_sound (env : EEnv I) (wf : WFAtn env.atn) (p : P I) (c : Nat)
    (hctx : p.ctx = some c) (stack : List Int) (hc : Callers p.heap (some c) stack) (k : List Nat)
    (hk : Climbs env.atn stack k) (R : IntervalSet) (hR : ES.recoverySet env p = some R) (x : Int)
    (hx : R.contains x = true) (hne : x ≠ TOKEN_EPSILON) : ∃ f ∈ k, CanMatch env.atn (f, []) x := by
  have hR0 := hR
  rw [ES.recoverySet, hctx, Option.bind_some] at hR
  obtain ⟨set, h1, h2⟩ := Option.bind_eq_some_iff.mp hR
  obtain ⟨sets, hs⟩ := recoverySetLoop_sets env wf p.heap hc hk _ _ _ h1
  rw [recoverySet_eq env wf p hctx hc hk sets hs] at hR0
  have j := joined_sound sets IntervalSet.new (by simp [IntervalSet.new])
  have r := C05_remove_one_sound _ _ _ j.1 hR0
  rcases j.2 x (r.2 x (IntervalSet.contains_sound _ _ hx)) with h | ⟨s, hsm, h⟩
  · simp [IntervalSet.new] at h
  · clear hR hR0 h1 h2 j r hc
    induction hs generalizing stack with
    | nil => simp at hsm
    | @cons f s' k sets a b ih =>
      cases hk with
      | cons hi hrest =>
      rcases List.mem_cons.mp hsm with rfl | hsm
      · obtain ⟨n, st, t, r, p, ts, hn, hst, htr⟩ := hi
        have hlt : f < env.atn.states.length := wf.follow n st t f r p hst (by simp [htr])
        rcases nextTokens_mem wf hlt a x h with h | h
        · exact ⟨f, by simp, h⟩
        · exact absurd h.1 hne
      · obtain ⟨f', m, h⟩ := ih _ hrest hsm
        exact ⟨f', by simp [m], h⟩

/-- Adding these sets one after the other never bridges two gaps at once. -/
def SetsGently : (Int → Prop) → List IntervalSet → Prop
  | _, [] => True
  | S, s :: sets => GentleFrom S s.intervals ∧ SetsGently (fun x => S x ∨ Mem s.intervals x) sets

theorem joined_exact (sets : List IntervalSet) (acc : IntervalSet) (hc : Canonical acc.intervals)
    (hro : acc.readOnly = false) (hg : SetsGently (Mem acc.intervals) sets) :
    Canonical (joined sets acc).intervals ∧ (joined sets acc).readOnly = false ∧
      ∀ x, Mem (joined sets acc).intervals x ↔ Mem acc.intervals x ∨ ∃ s ∈ sets, Mem s.intervals x := by
  induction sets generalizing acc with
  | nil => exact ⟨hc, hro, fun x => by simp [joined]⟩
  | cons s sets ih =>
    obtain ⟨g1, g2⟩ := hg
    obtain ⟨h1, h2⟩ := foldl_exact acc s.intervals hc g1
    have hro' : ∀ (l : List Interval) (s : IntervalSet), s.readOnly = false →
        (l.foldl IntervalSet.addInterval s).readOnly = false := by
      intro l
      induction l with
      | nil => intro s h; exact h
      | cons r l ih =>
        intro s h
        apply ih
        simp only [IntervalSet.addInterval]; split <;> exact h
    have e : (fun x => Mem acc.intervals x ∨ Mem s.intervals x) = Mem (acc.addSet s).intervals := by
      funext x; exact propext (h2 x).symm
    rw [e] at g2
    obtain ⟨i1, i2, i3⟩ := ih (acc.addSet s) h1 (hro' _ _ hro) g2
    refine ⟨i1, i2, fun x => (i3 x).trans ?_⟩
    have := h2 x
    rw [show (List.foldl IntervalSet.addInterval acc s.intervals).intervals =
      (acc.addSet s).intervals from rfl] at this
    rw [this]
    simp only [List.mem_cons, exists_eq_or_imp]
    tauto

open LL1Spec LL1Props in
/-- **C45, the recovery set is complete, partial**: with exact next-token sets that join gently, it
holds exactly the tokens that can be matched right after the call of one of the active rules.
Missing: joins can lose tokens (`C43_false`, `C01_false_contains`). -/
theorem C45_recovery_set_exact_partial (env : EEnv I) (wf : WFAtn env.atn) (p : P I) (c : Nat)
    (hctx : p.ctx = some c) (stack : List Int) (hc : Callers p.heap (some c) stack) (k : List Nat)
    (hk : Climbs env.atn stack k) (sets : List IntervalSet)
    (hs : List.Forall₂ (fun f s => nextTokens env.atn env.fuel f = some s) k sets)
    (hex : ∀ f ∈ k, Exact env.atn env.fuel f) (hg : SetsGently (fun _ => False) sets) :
    ∃ R, ES.recoverySet env p = some R ∧
      ∀ x, R.contains x = true ↔ ∃ f ∈ k, CanMatch env.atn (f, []) x := by
  have e : (fun _ => False) = Mem IntervalSet.new.intervals := by
    funext x; simp [IntervalSet.new]
  rw [e] at hg
  obtain ⟨j1, j2, j3⟩ := joined_exact sets IntervalSet.new (by simp [IntervalSet.new, Canonical]) rfl hg
  obtain ⟨R, r1, r2, _, r3⟩ := C05_remove_one _ TOKEN_EPSILON j1 j2
  refine ⟨R, by rw [recoverySet_eq env wf p hctx hc hk sets hs, r1], fun x => ?_⟩
  rw [r3, IntervalSet.contains_iff _ j1.sortedDisjoint, j3]
  simp only [IntervalSet.new, IntervalSet.mem_nil, false_or]
  clear r1 r2 r3 j1 j2 j3 hg hc hk e
  constructor
  · rintro ⟨⟨s, hm, hx⟩, hne⟩
    induction hs with
    | nil => simp at hm
    | @cons f s' k sets a b ih =>
      rcases List.mem_cons.mp hm with rfl | hm
      · obtain ⟨s2, e1, e2, e3⟩ := hex f (by simp)
        rw [a] at e1; cases e1
        rw [← IntervalSet.contains_iff _ e2.sortedDisjoint, e3] at hx
        rcases hx with hx | hx
        · exact ⟨f, by simp, hx⟩
        · exact absurd hx.1 hne
      · obtain ⟨f', m, h⟩ := ih (fun f hf => hex f (by simp [hf])) hm
        exact ⟨f', by simp [m], h⟩
  · rintro ⟨f, hm, hx⟩
    refine ⟨?_, canMatch_ne wf hx⟩
    induction hs with
    | nil => simp at hm
    | @cons f0 s' k sets a b ih =>
      rcases List.mem_cons.mp hm with rfl | hm
      · obtain ⟨s2, e1, e2, e3⟩ := hex f (by simp)
        rw [a] at e1; cases e1
        exact ⟨s', by simp, (IntervalSet.contains_iff _ e2.sortedDisjoint x).mp ((e3 x).mpr (.inl hx))⟩
      · obtain ⟨s, m, h⟩ := ih (fun f hf => hex f (by simp [hf])) hm
        exact ⟨s, by simp [m], h⟩

/-! ## C46 inline recovery -/

/-- **C46, deletion.**  If the token after the current one is expected, the current one is skipped
(as an error leaf, reported as extraneous unless recovering) and the expected one is matched. -/
theorem C46_deletes (hv : IsIndexed T V ix) (env : EEnv I) (s : ES I) (n c : Nat)
    (h : Ready V s.p n c) (E : IntervalSet) (hE : s.p.getExpectedTokens env = some E)
    (hc : E.contains (T (n + 1)).ttype = true) :
    ∃ i', s.recoverInline env = some (.ok (T (next T n)), ⟨s.eh.end_,
        after s.p i' c [(T n, true), (T (next T n), false)]
          (unlessRecovering s.eh (T n, extraneous env.display E (T n)))⟩) ∧
      V i' (next T (next T n)) := by
  obtain ⟨i1, h1, v1⟩ := deletion_yes hv env h hE hc
  obtain ⟨i2, h2, v2⟩ := consume_after hv.toIsView (ready_after h v1 [(T n, true)]
    (unlessRecovering s.eh (T n, extraneous env.display E (T n)))) s.eh.end_.mode
  refine ⟨i2, ?_, v2⟩
  unfold ES.recoverInline
  rw [h1, Option.bind_some]
  simp only [ES.consume, h2, Option.map_some]
  rw [after_after, List.append_nil]
  rfl

/-- The token made up for a missing one of the type `ttype`, placed at `t`. -/
def madeUp (display : Int → String) (ttype : Int) (t : Tok) : Tok :=
  { ttype, channel := 0, start := -1, stop := -1, line := t.line, column := t.column, index := -1
    text := if ttype = TOKEN_EOF then "<missing EOF>".toList
      else "<missing ".toList ++ (display ttype).toList ++ ['>'] }

/-- **C46, insertion.**  Otherwise, if the current token can come after the expected one, a token of
the smallest expected type is made up; it is placed at the current token (at EOF: at the token before
it in the stream), reported as missing unless recovering; nothing is consumed. -/
theorem C46_inserts (hv : IsIndexed T V ix) (env : EEnv I) (s : ES I) (n c : Nat)
    (h : Ready V s.p n c) (E L : IntervalSet) (hE : s.p.getExpectedTokens env = some E)
    (hc : E.contains (T (n + 1)).ttype = false) (hL : ES.afterExpected env s.p = some L)
    (hl : L.contains (T n).ttype = true) :
    ∃ i' t, s.recoverInline env = some (.ok (madeUp env.display (E.getMin.getD 0) t), ⟨s.eh.begin,
        after s.p i' c [] (unlessRecovering s.eh (T n, missing env.display E (T n)))⟩) ∧
      V i' n ∧ ((T n).ttype ≠ TOKEN_EOF → t = T n) ∧
      ((T n).ttype = TOKEN_EOF → TokStream.get i' (max (ix n - 1) 0) = some t) := by
  obtain ⟨i1, h1, v1⟩ := deletion_no hv env h hE hc
  have r1 := ready_after h v1 [] []
  obtain ⟨i2, h2, v2⟩ := insertion_after hv env (s := ⟨s.eh, after s.p i1 c [] []⟩) r1
    (by rw [expected_after]; exact hE) (by rw [afterExpected_after]; exact hL)
  rw [if_pos hl, after_after] at h2
  simp only [List.nil_append] at h2
  unfold ES.recoverInline
  rw [h1, Option.bind_some]
  simp only [h2, Option.bind_some, if_true]
  have r2 := ready_after h v2 [] (unlessRecovering s.eh (T n, missing env.display E (T n)))
  have hex := expected_after (env := env) (p := s.p) (i := i2) (c := c) (l := [])
    (r := unlessRecovering s.eh (T n, missing env.display E (T n)))
  simp only [ES.getMissingSymbol, hex, hE, Option.bind_some, cur_eq hv.toIsView r2]
  have hin : (after s.p i2 c [] (unlessRecovering s.eh (T n, missing env.display E (T n)))).input = i2 := rfl
  simp only [hin, hv.index _ _ v2]
  by_cases he : (T n).ttype = TOKEN_EOF
  · obtain ⟨t, ht⟩ := hv.back _ _ v2
    simp only [he, if_true, ht, Option.bind_some, createToken, createText, Option.map_some]
    exact ⟨i2, t, rfl, v2, fun h => absurd rfl h, fun _ => ht⟩
  · simp only [if_neg he, Option.bind_some, createToken, createText, Option.map_some]
    exact ⟨i2, T n, rfl, v2, fun _ => rfl, fun h => absurd h he⟩

/-- **C46, otherwise an input mismatch.**  Nothing is consumed or reported; the error names the
current token and the state and callers at which a skippable part was last passed, if any. -/
theorem C46_raises (hv : IsIndexed T V ix) (env : EEnv I) (s : ES I) (n c : Nat)
    (h : Ready V s.p n c) (E L : IntervalSet) (hE : s.p.getExpectedTokens env = some E)
    (hc : E.contains (T (n + 1)).ttype = false) (hL : ES.afterExpected env s.p = some L)
    (hl : L.contains (T n).ttype = false) (stack stack' : List Int)
    (hs : s.p.statesStack c = some stack)
    (hs' : s.p.statesStack (s.eh.ntCtx.getD c) = some stack') :
    ∃ i', s.recoverInline env = some (.error (.mismatch
        { message := [], token := (T n).toOwned
          state := if s.eh.ntCtx.isSome then s.eh.ntState else s.p.state, stack := stack' }),
        ⟨s.eh, after s.p i' c [] []⟩) ∧ V i' n := by
  obtain ⟨i1, h1, v1⟩ := deletion_no hv env h hE hc
  have r1 := ready_after h v1 [] []
  obtain ⟨i2, h2, v2⟩ := insertion_after hv env (s := ⟨s.eh, after s.p i1 c [] []⟩) r1
    (by rw [expected_after]; exact hE) (by rw [afterExpected_after]; exact hL)
  rw [if_neg (by simp [hl]), after_after] at h2
  refine ⟨i2, ?_, v2⟩
  unfold ES.recoverInline
  rw [h1, Option.bind_some]
  simp only [h2, Option.bind_some, Bool.false_eq_true, if_false, List.append_nil]
  have r2 := ready_after h v2 [] []
  have hrec : (after s.p i2 c [] []).recog [] = some
      { message := [], token := (T n).toOwned, state := s.p.state, stack } := by
    rw [P.recog, cur_eq hv.toIsView r2, Option.bind_some, r2.ctx, Option.bind_some, stack_after, hs]
    rfl
  cases hn : s.eh.ntCtx with
  | none =>
    rw [hn, Option.getD_none, hs] at hs'
    cases hs'
    simp [mismatchNew, hrec]
  | some c' =>
    rw [hn, Option.getD_some] at hs'
    simp [mismatchWithState, hrec, stack_after, hs']

open LL1Spec LL1Props in
/-- **C46, a token is only deleted if that helps**: the token after it can be matched in the current
state under the current callers (or is EOF and all active rules can end). -/
theorem C46_deletion_helps (env : EEnv I) (wf : WFAtn env.atn) (p : P I) (c q : Nat)
    (hctx : p.ctx = some c) (hq : p.state = q) (hlt : q < env.atn.states.length) (stack : List Int)
    (hs : p.statesStack c = some stack) (k : List Nat) (hk : Climbs env.atn stack k)
    (E : IntervalSet) (hE : p.getExpectedTokens env = some E) (x : Int) (hx : E.contains x = true)
    (hne : x ≠ TOKEN_EPSILON) :
    CanMatch env.atn (q, k) x ∨ (x = TOKEN_EOF ∧ CanEnd env.atn (q, k)) := by
  rw [P.getExpectedTokens, hctx, Option.bind_some, hs, Option.bind_some, hq] at hE
  exact C43_only_possible env.atn wf env.fuel q hlt stack k hk E hE x hx hne

open LL1Spec LL1Props in
/-- **C46, a token is only made up if that helps**: the current token can be matched right after the
expected one (or is EOF and all active rules can end there). -/
theorem C46_insertion_helps (env : EEnv I) (wf : WFAtn env.atn) (p : P I) (c q : Nat)
    (hctx : p.ctx = some c) (hq : p.state = q) (st : ATNState) (hst : env.atn.states[q]? = some st)
    (tr : Trans) (ts : List Trans) (htr : st.transitions = tr :: ts) (chain : List Int)
    (hch : P.chainFrom p.heap p.heap.length (some c) = some chain) (k : List Nat)
    (hk : StackProps.Calls env.atn chain (k.map Int.ofNat)) (L : IntervalSet)
    (hL : ES.afterExpected env p = some L) (x : Int) (hx : L.contains x = true) :
    CanMatch env.atn (tr.target, k) x ∨ (x = TOKEN_EOF ∧ CanEnd env.atn (tr.target, k)) := by
  have hlt := wf.target q st tr hst (by simp [htr])
  simp only [ES.afterExpected, hq, ATN.stateAt, hst, htr, hctx, hch, Int.natCast_nonneg, if_true,
    Int.toNat_natCast, Option.bind_some, List.head?_cons, if_pos hlt] at hL
  exact (C42_in_context env.atn wf env.fuel tr.target hlt chain k hk L hL).1 x hx

/-! ### `match_token` -/

/-- The made-up token becomes an error leaf; listeners do not see it. -/
def withConjured (p : P I) (c : Nat) (t : Tok) : P I :=
  { p with heap := if p.buildTrees then
      p.heap.modify c fun x => { x with children := x.children ++ [.leaf t true] } else p.heap }

omit [TokStream I] in
theorem addConjured_made {p : P I} {c : Nat} (hc : p.ctx = some c) (hm : c < p.heap.length) (t : Tok)
    (ht : t.index = -1) : p.addConjured t = some (withConjured p c t) := by
  unfold P.addConjured withConjured
  by_cases hb : p.buildTrees = true
  · rw [if_pos ⟨hb, ht⟩, hc, Option.bind_some, if_pos hb]
    obtain ⟨x, hx⟩ : ∃ x, p.heap[c]? = some x := ⟨_, List.getElem?_eq_getElem hm⟩
    simp only [P.addChild, P.modify, hx, Option.map_some, Option.some.injEq]
    congr 1
    · apply List.ext_getElem?
      intro i
      rw [List.getElem?_modify, List.getElem?_set]
      by_cases hi : c = i
      · subst hi; rw [hx]; simp [hm]
      · simp [hi]
  · rw [if_neg (by simp [hb]), if_neg hb]

/-- **C46, `match_token` accepts the right token**: it becomes an ordinary leaf, whatever happened
before, nothing is reported and error recovery is over.  (The leaf part is C66.) -/
theorem C46_match_token_ok (hv : IsIndexed T V ix) (env : EEnv I) (s : ES I) (n c : Nat)
    (h : Ready V s.p n c) :
    ∃ i', s.matchToken env (T n).ttype = some (.ok (T n), ⟨s.eh.end_,
        { after s.p i' c [(T n, false)] [] with
          matchedEof := if (T n).ttype = TOKEN_EOF then true else s.p.matchedEof }⟩) ∧
      V i' (next T n) := by
  unfold ES.matchToken
  rw [cur_eq hv.toIsView h, Option.bind_some, if_pos rfl]
  by_cases he : (T n).ttype = TOKEN_EOF
  · have h' : Ready V { s.p with matchedEof := true } n c := ⟨h.view, h.ctx, h.mem⟩
    obtain ⟨i1, h1, v1⟩ := consume_after hv.toIsView h' false
    refine ⟨i1, ?_, v1⟩
    simp only [if_pos he, ES.reportMatch, ES.consume, EH.end_, h1, Option.map_some]
    rfl
  · obtain ⟨i1, h1, v1⟩ := consume_after hv.toIsView h false
    refine ⟨i1, ?_, v1⟩
    simp only [if_neg he, ES.reportMatch, ES.consume, EH.end_, h1, Option.map_some]
    rfl

/-- **C46 in `match_token`, the three outcomes** for a token that does not match: the wrong token is
skipped and the next one is matched; a token is made up and put into the tree as an error leaf; or
an error is returned and nothing has changed. -/
theorem C46_match_token (hv : IsIndexed T V ix) (env : EEnv I) (s : ES I) (n c : Nat) (t : Int)
    (h : Ready V s.p n c) (ht : (T n).ttype ≠ t) (hidx : ∀ m, 0 ≤ ix m)
    (E L : IntervalSet) (hE : s.p.getExpectedTokens env = some E)
    (hL : ES.afterExpected env s.p = some L) (stack stack' : List Int)
    (hs : s.p.statesStack c = some stack)
    (hs' : s.p.statesStack (s.eh.ntCtx.getD c) = some stack') :
    (E.contains (T (n + 1)).ttype = true → ∃ i',
      s.matchToken env t = some (.ok (T (next T n)), ⟨s.eh.end_,
        after s.p i' c [(T n, true), (T (next T n), false)]
          (unlessRecovering s.eh (T n, extraneous env.display E (T n)))⟩) ∧
      V i' (next T (next T n))) ∧
    (E.contains (T (n + 1)).ttype = false → L.contains (T n).ttype = true → ∃ i' t',
      s.matchToken env t = some (.ok (madeUp env.display (E.getMin.getD 0) t'), ⟨s.eh.begin,
        withConjured (after s.p i' c [] (unlessRecovering s.eh (T n, missing env.display E (T n)))) c
          (madeUp env.display (E.getMin.getD 0) t')⟩) ∧ V i' n) ∧
    (E.contains (T (n + 1)).ttype = false → L.contains (T n).ttype = false → ∃ i' e,
      s.matchToken env t = some (.error e, ⟨s.eh, after s.p i' c [] []⟩) ∧ V i' n) := by
  unfold ES.matchToken
  rw [cur_eq hv.toIsView h, Option.bind_some, if_neg ht]
  refine ⟨fun hc => ?_, fun hc hl => ?_, fun hc hl => ?_⟩
  · obtain ⟨i', h1, v1⟩ := C46_deletes hv env s n c h E hE hc
    refine ⟨i', ?_, v1⟩
    rw [h1, Option.bind_some]
    have : (T (next T n)).index ≠ -1 := by
      rw [hv.tokIndex]; have := hidx (next T n); omega
    simp [P.addConjured, this]
  · obtain ⟨i', t', h1, v1, _⟩ := C46_inserts hv env s n c h E L hE hc hL hl
    refine ⟨i', t', ?_, v1⟩
    rw [h1, Option.bind_some]
    have r := ready_after h v1 [] (unlessRecovering s.eh (T n, missing env.display E (T n)))
    simp only [addConjured_made r.ctx r.mem _ (show (madeUp env.display (E.getMin.getD 0) t').index = -1 from rfl),
      Option.map_some]
  · obtain ⟨i', h1, v1⟩ := C46_raises hv env s n c h E L hE hc hL hl stack stack' hs hs'
    exact ⟨i', _, by rw [h1, Option.bind_some], v1⟩

/-! ## C47 `sync` -/

/-- **C47, nothing in recovery mode.** -/
theorem C47_recovering (env : EEnv I) (fuel : Nat) (s : ES I) (hm : s.eh.mode = true) :
    s.sync env fuel = some (.ok (), s) := by
  unfold ES.sync; rw [if_pos hm]

section
variable (hv : IsIndexed T V ix) (env : EEnv I) (fuel : Nat) (s : ES I) (n c q : Nat)
  (h : Ready V s.p n c) (hm : s.eh.mode = false) (hq : s.p.state = q) (st : ATNState)
  (hst : env.atn.states[q]? = some st) (N : IntervalSet)
  (hN : nextTokens env.atn env.fuel q = some N)
include hv h hm hq hst hN

theorem sync_start : ∃ i', V i' n ∧ s.sync env fuel =
    (let s' : ES I := ⟨s.eh, after s.p i' c [] []⟩
     if N.contains (T n).ttype then
      some (.ok (), { s' with eh := { s.eh with ntState := -1, ntCtx := none } })
    else if N.contains TOKEN_EPSILON then
      match s.eh.ntCtx with
      | some _ => some (.ok (), s')
      | none => s'.p.ctx.map fun c =>
          (.ok (), { s' with eh := { s.eh with ntState := s.p.state, ntCtx := some c } })
    else match ES.syncKind st.stateType with
      | some false =>
        (s'.singleTokenDeletion env).bind fun (t, s) =>
        match t with
        | some _ => some (.ok (), s)
        | none => (mismatchNew s.p).map fun e => (.error e, s)
      | some true =>
        (s'.reportUnwanted env).bind fun (s : ES I) =>
          (s.p.getExpectedTokens env).bind fun expecting =>
          (ES.recoverySet env s.p).bind fun follow =>
          (ES.consumeUntil (expecting.addSet follow) fuel s).map fun s => (.ok (), s)
      | none => none) := by
  obtain ⟨i1, h1, v1⟩ := la_after hv.toIsView h 1 (by omega)
  rw [show ((1 : Nat) : Int) = 1 from rfl] at h1
  refine ⟨i1, v1, ?_⟩
  unfold ES.sync
  have hq' : (after s.p i1 c [] []).state = (q : Int) := hq
  rw [if_neg (by simp [hm]), h1, Option.bind_some]
  simp only [hq', ATN.stateAt, Int.natCast_nonneg, if_true, Int.toNat_natCast, hst,
    Option.bind_some, hN, Nat.add_sub_cancel, hq]
  rfl

/-- **C47, an expected token**: nothing happens to the parser; what was remembered for a later error
message is forgotten. -/
theorem C47_expected (he : N.contains (T n).ttype = true) : ∃ i', V i' n ∧
    s.sync env fuel = some (.ok (),
      ⟨{ s.eh with ntState := -1, ntCtx := none }, after s.p i' c [] []⟩) := by
  obtain ⟨i', v, e⟩ := sync_start hv env fuel s n c q h hm hq st hst N hN
  exact ⟨i', v, by rw [e]; simp [he]⟩

/-- **C47, a decision that can be skipped**: nothing happens to the parser; the first such state is
remembered for a later error message. -/
theorem C47_skippable (he : N.contains (T n).ttype = false)
    (hs : N.contains TOKEN_EPSILON = true) : ∃ i', V i' n ∧
    s.sync env fuel = some (.ok (),
      ⟨if s.eh.ntCtx.isSome then s.eh else { s.eh with ntState := q, ntCtx := some c },
        after s.p i' c [] []⟩) := by
  obtain ⟨i', v, e⟩ := sync_start hv env fuel s n c q h hm hq st hst N hN
  refine ⟨i', v, ?_⟩
  rw [e]
  have hctx : (after s.p i' c [] []).ctx = some c := h.ctx
  cases hn : s.eh.ntCtx <;> simp [he, hs, hctx, hq]

/-- **C47, at a block start or loop entry**: a token that does not fit is deleted if the one after it
is expected (but that one is not consumed). -/
theorem C47_entry_deletes (he : N.contains (T n).ttype = false)
    (hs : N.contains TOKEN_EPSILON = false) (hk : ES.syncKind st.stateType = some false)
    (E : IntervalSet) (hE : s.p.getExpectedTokens env = some E)
    (hc : E.contains (T (n + 1)).ttype = true) : ∃ i', V i' (next T n) ∧
    s.sync env fuel = some (.ok (), ⟨s.eh.end_,
      after s.p i' c [(T n, true)] [(T n, extraneous env.display E (T n))]⟩) := by
  obtain ⟨i', v, e⟩ := sync_start hv env fuel s n c q h hm hq st hst N hN
  obtain ⟨i2, h2, v2⟩ := deletion_yes hv env (s := ⟨s.eh, after s.p i' c [] []⟩)
    (ready_after h v [] []) (by rw [expected_after]; exact hE) hc
  refine ⟨i2, v2, ?_⟩
  rw [e]
  simp [he, hs, hk, h2, after_after, unlessRecovering, hm]

/-- **C47, at a block start or loop entry**: otherwise an input mismatch is returned, and nothing has
changed. -/
theorem C47_entry_raises (he : N.contains (T n).ttype = false)
    (hs : N.contains TOKEN_EPSILON = false) (hk : ES.syncKind st.stateType = some false)
    (E : IntervalSet) (hE : s.p.getExpectedTokens env = some E)
    (hc : E.contains (T (n + 1)).ttype = false) (stack : List Int)
    (hstk : s.p.statesStack c = some stack) : ∃ i', V i' n ∧
    s.sync env fuel = some (.error (.mismatch
      { message := [], token := (T n).toOwned, state := q, stack }),
      ⟨s.eh, after s.p i' c [] []⟩) := by
  obtain ⟨i', v, e⟩ := sync_start hv env fuel s n c q h hm hq st hst N hN
  obtain ⟨i2, h2, v2⟩ := deletion_no hv env (s := ⟨s.eh, after s.p i' c [] []⟩)
    (ready_after h v [] []) (by rw [expected_after]; exact hE) hc
  refine ⟨i2, v2, ?_⟩
  rw [e]
  rw [after_after] at h2
  have r2 := ready_after h v2 [] []
  have hst2 : (after s.p i2 c [] []).state = q := hq
  simp only [List.append_nil] at h2
  simp [he, hs, hk, h2, mismatchNew, P.recog, cur_eq hv.toIsView r2, r2.ctx, stack_after, hstk, hst2]

/-- **C47, at a loop back**: the token is reported as extraneous, and tokens are skipped up to the
first one that is expected, in the recovery set, or EOF. -/
theorem C47_loop_back (he : N.contains (T n).ttype = false)
    (hs : N.contains TOKEN_EPSILON = false) (hk : ES.syncKind st.stateType = some true)
    (E R : IntervalSet) (hE : s.p.getExpectedTokens env = some E)
    (hR : ES.recoverySet env s.p = some R) (m : Nat) (hskip : Skips T (E.addSet R) n m)
    (hf : m < fuel) : ∃ i', V i' (n + m) ∧
    s.sync env fuel = some (.ok (), ⟨s.eh.begin,
      after s.p i' c (skipped T n m true) [(T n, extraneous env.display E (T n))]⟩) := by
  obtain ⟨i', v, e⟩ := sync_start hv env fuel s n c q h hm hq st hst N hN
  have r1 := ready_after h v [] []
  have h2 := reportUnwanted_after hv env (s := ⟨s.eh, after s.p i' c [] []⟩) r1
    (by rw [expected_after]; exact hE)
  rw [after_after] at h2
  simp only [unlessRecovering, hm, Bool.false_eq_true, if_false, List.append_nil, List.nil_append] at h2
  obtain ⟨i3, h3, v3⟩ := consumeUntil_after hv.toIsView (E.addSet R) m
    (s := ⟨s.eh.begin, after s.p i' c [] [(T n, extraneous env.display E (T n))]⟩)
    (ready_after h v _ _) hskip fuel hf
  refine ⟨i3, v3, ?_⟩
  rw [e]
  have hi : (after s.p i' c [] []).input = i' := rfl
  rw [hi] at h2
  simp only [he, hs, hk, Bool.false_eq_true, if_false, h2, Option.bind_some, expected_after, hE,
    recoverySet_after, hR, h3, after_after, Option.map_some]
  rfl

/-- **C47, elsewhere** `sync` panics. -/
theorem C47_elsewhere (he : N.contains (T n).ttype = false)
    (hs : N.contains TOKEN_EPSILON = false) (hk : ES.syncKind st.stateType = none) :
    s.sync env fuel = none := by
  obtain ⟨i', v, e⟩ := sync_start hv env fuel s n c q h hm hq st hst N hN
  rw [e]; simp [he, hs, hk]

end

/-! ## C48 the bail strategy -/

/-- The chain of parents ends. -/
inductive Rooted (h : List Ctx) : Nat → Prop
  | root {i : Nat} {c : Ctx} : h[i]? = some c → c.parent = none → Rooted h i
  | up {i q : Nat} {c : Ctx} : h[i]? = some c → c.parent = some q → Rooted h q → Rooted h i

/-- Reaching the root takes no more steps than there are contexts. -/
theorem climb_rooted (h : List Ctx) (i : Nat) (hr : Rooted h i) : ES.climb h h.length i = some () := by
  suffices H : ∃ ns : List Nat, ns.Nodup ∧ (∀ j ∈ ns, j < h.length ∧
      ∃ d, (∀ d', ES.climb h d' j = some () ↔ d < d') ∧ d < ns.length) ∧
      ∀ d', ES.climb h d' i = some () ↔ ns.length ≤ d' by
    obtain ⟨ns, h1, h2, h3⟩ := H
    have := (h1.subperm (l₂ := List.range h.length) fun j hj => by simpa using (h2 j hj).1).length_le
    exact (h3 _).mpr (by simpa using this)
  induction hr with
  | @root i c a b =>
    have e : ∀ d', ES.climb h d' i = some () ↔ 1 ≤ d' := by
      intro d'; cases d' <;> simp [ES.climb, a, b]
    refine ⟨[i], by simp, ?_, by simpa using e⟩
    simp only [List.mem_singleton, forall_eq]
    exact ⟨(List.getElem?_eq_some_iff.mp a).1, 0, fun d' => (e d').trans (by omega), by simp⟩
  | @up i q c a b hq ih =>
    obtain ⟨ns, h1, h2, h3⟩ := ih
    have e : ∀ d', ES.climb h d' i = some () ↔ ns.length + 1 ≤ d' := by
      intro d'
      cases d' with
      | zero => simp [ES.climb]
      | succ d' => simp [ES.climb, a, b, h3]
    refine ⟨i :: ns, ?_, ?_, by simpa using e⟩
    · rw [List.nodup_cons]
      refine ⟨fun hm => ?_, h1⟩
      obtain ⟨_, d, hd, hlt⟩ := h2 i hm
      have := ((e (d + 1)).mp ((hd (d + 1)).mpr (by omega)))
      omega
    · intro j hj
      rcases List.mem_cons.mp hj with rfl | hj
      · exact ⟨(List.getElem?_eq_some_iff.mp a).1, ns.length, fun d' => (e d').trans (by omega), by simp⟩
      · obtain ⟨x, d, y, z⟩ := h2 j hj
        exact ⟨x, d, y, by simp; omega⟩

/-- **C48, a mismatch**: an error is returned that makes all rule functions return; the parser and the
strategy are unchanged: nothing consumed, made up, deleted or reported. -/
theorem C48_match_token_bails (hv : IsIndexed T V ix) (s : ES I) (n c : Nat) (t : Int)
    (h : Ready V s.p n c) (ht : (T n).ttype ≠ t) (hr : Rooted s.p.heap c) (stack : List Int)
    (hs : s.p.statesStack c = some stack) :
    s.bailMatchToken t = some (.error (.fallThrough (.mismatch
      { message := [], token := (T n).toOwned, state := s.p.state, stack })), s) := by
  simp [ES.bailMatchToken, cur_eq hv.toIsView h, ht, ES.bailRecoverInline, mismatchNew, P.recog,
    h.ctx, hs, ES.processError, climb_rooted _ _ hr]

/-- **C48, the first error leaves all rules**: whatever error a rule function runs into (one of its
own or one of a rule it called), it returns an error that makes its caller return too, and nothing is
consumed or made up; an error that is not yet on its way out is reported first. -/
theorem C48_rule_end_bails (env : EEnv I) (s : ES I) (e : PErr) (r : Except PErr Unit) (s' : ES I)
    (h : s.bailRuleEnd env (.error e) = some (r, s')) :
    ∃ e', r = .error (.fallThrough e') ∧ (e = .fallThrough e' ∨ e = e') ∧
      s'.p.input = s.p.input ∧ s'.p.heap = s.p.heap ∧ s'.p.log = s.p.log ∧
      s'.p.syntaxErrors = s.p.syntaxErrors +
        (if s.eh.mode = true ∨ e = .fallThrough e' then 0 else 1) := by
  have key : (ES.reportError env s e).bind (fun (s : ES I) => s.bailRecover e) = some (r, s') →
      (∀ x, e ≠ .fallThrough x) → ∃ e', r = .error (.fallThrough e') ∧
      (e = .fallThrough e' ∨ e = e') ∧ s'.p.input = s.p.input ∧ s'.p.heap = s.p.heap ∧
      s'.p.log = s.p.log ∧ s'.p.syntaxErrors = s.p.syntaxErrors +
        (if s.eh.mode = true ∨ e = .fallThrough e' then 0 else 1) := by
    intro h hne
    obtain ⟨s1, h1, h2⟩ := Option.bind_eq_some_iff.mp h
    simp only [ES.bailRecover, Option.map_eq_some_iff, Prod.mk.injEq] at h2
    obtain ⟨e1, h2, rfl, rfl⟩ := h2
    simp only [ES.processError, Option.bind_eq_some_iff, Option.map_eq_some_iff] at h2
    obtain ⟨_, _, _, _, rfl⟩ := h2
    refine ⟨e, rfl, .inr rfl, ?_⟩
    unfold ES.reportError at h1
    by_cases hm : s.eh.mode = true
    · rw [if_pos hm] at h1; cases h1; simp [hm]
    · rw [if_neg hm] at h1
      simp only [Option.bind_eq_some_iff, Option.map_eq_some_iff, P.notifyErrorListeners] at h1
      obtain ⟨_, _, _, ⟨_, _, rfl⟩, rfl⟩ := h1
      refine ⟨rfl, rfl, rfl, ?_⟩
      rw [if_neg]
      rintro (h | h)
      · exact hm h
      · exact hne _ h
  cases e with
  | fallThrough e' =>
    simp only [ES.bailRuleEnd, Option.some.injEq, Prod.mk.injEq] at h
    obtain ⟨rfl, rfl⟩ := h
    exact ⟨e', rfl, .inl rfl, rfl, rfl, rfl, by simp⟩
  | _ => exact key h (by simp)

/-- Rule functions return one after the other; each entry is what happens between the error handling
of one rule function and that of its caller (`exit_rule`). -/
def unwind (env : EEnv I) : List (ES I → ES I) → Except PErr Unit → ES I →
    Option (Except PErr Unit × ES I)
  | [], r, s => some (r, s)
  | exit :: exits, r, s => (s.bailRuleEnd env r).bind fun (r, s) => unwind env exits r (exit s)

/-- **C48, all the way out**: however deeply the rules are nested, a reported error arrives at the top
as the same error, and no rule function on the way does anything but exit. -/
theorem C48_unwinds (env : EEnv I) (exits : List (ES I → ES I)) (e : PErr) (s : ES I) :
    unwind env exits (.error (.fallThrough e)) s =
      some (.error (.fallThrough e), exits.foldl (fun s f => f s) s) := by
  induction exits generalizing s with
  | nil => rfl
  | cons f exits ih => simp only [unwind, ES.bailRuleEnd, Option.bind_some, List.foldl_cons]; exact ih _

/-- A rule body without decisions, under the bail strategy: before each expected token `sync` is
called, and the first error ends the body. -/
def straightBody (s : ES I) : List Int → Option (Except PErr Unit × ES I)
  | [] => some (.ok (), s)
  | t :: ts =>
    match s.bailSync with
    | (.error e, s) => some (.error e, s)
    | (.ok _, s) => (s.bailMatchToken t).bind fun (r, s) =>
      match r with
      | .error e => some (.error e, s)
      | .ok _ => straightBody s ts

/-- The position `k` tokens after `n`. -/
def ahead (T : Nat → Tok) (n : Nat) : Nat → Nat
  | 0 => n
  | k + 1 => ahead T (next T n) k

theorem rooted_links {h h' : List Ctx} (hl : SameLinks h h') {i : Nat} (hr : Rooted h i) : Rooted h' i := by
  induction hr with
  | @root i c a b =>
    rcases hl.get i with ⟨h1, _⟩ | ⟨c1, c2, h1, h2, h3, _⟩
    · rw [a] at h1; cases h1
    · rw [a] at h1; cases h1
      exact .root h2 (h3.trans b)
  | @up i q c a b _ ih =>
    rcases hl.get i with ⟨h1, _⟩ | ⟨c1, c2, h1, h2, h3, _⟩
    · rw [a] at h1; cases h1
    · rw [a] at h1; cases h1
      exact .up h2 (h3.trans b) ih

/-- **C48, a rule body without decisions**: the body accepts exactly the expected tokens.  At the first
token that differs it returns the error for that token; only the matched tokens were consumed, and
nothing was reported. -/
theorem C48_straight_body (hv : IsIndexed T V ix) (ts : List Int) (s : ES I) (n c : Nat)
    (h : Ready V s.p n c) (hr : Rooted s.p.heap c) (stack : List Int)
    (hs : s.p.statesStack c = some stack) :
    ∃ k r s', straightBody s ts = some (r, s') ∧ k ≤ ts.length ∧
      (∀ i < k, ts[i]? = some (T (ahead T n i)).ttype) ∧ V s'.p.input (ahead T n k) ∧
      s'.p.syntaxErrors = s.p.syntaxErrors ∧ s'.p.errLog = s.p.errLog ∧ s'.eh = s.eh ∧
      ((k = ts.length ∧ r = .ok ()) ∨
       (k < ts.length ∧ ts[k]? ≠ some (T (ahead T n k)).ttype ∧
        r = .error (.fallThrough (.mismatch
          { message := [], token := (T (ahead T n k)).toOwned, state := s.p.state, stack })))) := by
  induction ts generalizing s n with
  | nil => exact ⟨0, .ok (), s, rfl, by simp, by simp, h.view, rfl, rfl, rfl, .inl ⟨rfl, rfl⟩⟩
  | cons t ts ih =>
    by_cases ht : (T n).ttype = t
    · subst ht
      obtain ⟨i1, b, h1, v1⟩ : ∃ i1 b, s.bailMatchToken (T n).ttype = some (.ok (T n),
          { s with p := { after s.p i1 c [(T n, s.eh.mode)] [] with matchedEof := b } }) ∧ V i1 (next T n) := by
        unfold ES.bailMatchToken
        rw [cur_eq hv.toIsView h, Option.bind_some, if_pos rfl]
        by_cases he : (T n).ttype = TOKEN_EOF
        · have h' : Ready V { s.p with matchedEof := true } n c := ⟨h.view, h.ctx, h.mem⟩
          obtain ⟨i1, h1, v1⟩ := consume_after hv.toIsView h' s.eh.mode
          refine ⟨i1, true, ?_, v1⟩
          simp only [if_pos he, ES.bailReportMatch, ES.consume, h1, Option.map_some]
          rfl
        · obtain ⟨i1, h1, v1⟩ := consume_after hv.toIsView h s.eh.mode
          refine ⟨i1, s.p.matchedEof, ?_, v1⟩
          simp only [if_neg he, ES.bailReportMatch, ES.consume, h1, Option.map_some]
          rfl
      obtain ⟨k, r, s', e1, e2, e3, e4, e5, e6, e7, e8⟩ := ih
        { s with p := { after s.p i1 c [(T n, s.eh.mode)] [] with matchedEof := b } } (next T n)
        ⟨v1, h.ctx, by simpa [after_len] using h.mem⟩ (rooted_links (after_links s.p i1 c [(T n, s.eh.mode)] []) hr)
        ((stack_after s.p i1 c [(T n, s.eh.mode)] [] c).trans hs)
      refine ⟨k + 1, r, s', ?_, by simpa using e2, ?_, e4, by simpa [after] using e5,
        by simpa [after] using e6, e7, ?_⟩
      · simp only [straightBody, ES.bailSync, h1, Option.bind_some]
        exact e1
      · intro i hi
        cases i with
        | zero => rfl
        | succ i => simpa [ahead] using e3 i (by omega)
      · simpa [ahead, after] using e8
    · refine ⟨0, _, s, ?_, by simp, by simp, h.view, rfl, rfl, rfl, .inr ⟨by simp, ?_, rfl⟩⟩
      · simp only [straightBody, ES.bailSync, C48_match_token_bails hv s n c t h ht hr stack hs, Option.bind_some, ahead]
      · simpa [ahead] using fun e => ht e.symm

/-! ## C66 matched tokens are ordinary -/

/-- **C66 (default strategy).**  A token accepted by `match_token` becomes an ordinary leaf (the last
child of the current rule node), not an error leaf, whatever errors came before. -/
theorem C66_matched_is_ordinary (hv : IsIndexed T V ix) (env : EEnv I) (s : ES I) (n c : Nat)
    (h : Ready V s.p n c) (hb : s.p.buildTrees = true) (x : Ctx) (hx : s.p.heap[c]? = some x) :
    ∃ s', s.matchToken env (T n).ttype = some (.ok (T n), s') ∧
      ∃ x', s'.p.heap[c]? = some x' ∧ x'.children = x.children ++ [.leaf (T n) false] := by
  obtain ⟨i', h1, _⟩ := C46_match_token_ok hv env s n c h
  refine ⟨_, h1, ?_⟩
  simp only [after, hb, true_or, if_true, List.getElem?_modify, hx]
  simp

/-- **C66 is false for the bail strategy.**  Once it is in recovery mode, which it enters with the first
reported error and never leaves, tokens accepted by `match_token` become error leaves, and errors are no
longer reported. -/
theorem C66_false_bail (hv : IsIndexed T V ix) (env : EEnv I) (s : ES I) (n c : Nat)
    (h : Ready V s.p n c) (hm : s.eh.mode = true) (hb : s.p.buildTrees = true) (x : Ctx)
    (hx : s.p.heap[c]? = some x) :
    (∃ s', s.bailMatchToken (T n).ttype = some (.ok (T n), s') ∧ s'.eh.mode = true ∧
      ∃ x', s'.p.heap[c]? = some x' ∧ x'.children = x.children ++ [.leaf (T n) true]) ∧
    ∀ e, s.reportError env e = some s := by
  refine ⟨?_, fun e => by unfold ES.reportError; rw [if_pos hm]⟩
  unfold ES.bailMatchToken
  rw [cur_eq hv.toIsView h, Option.bind_some, if_pos rfl]
  by_cases he : (T n).ttype = TOKEN_EOF
  · have h' : Ready V { s.p with matchedEof := true } n c := ⟨h.view, h.ctx, h.mem⟩
    obtain ⟨i1, h1, v1⟩ := consume_after hv.toIsView h' true
    simp only [if_pos he, ES.bailReportMatch, ES.consume, hm, h1, Option.map_some]
    refine ⟨_, rfl, hm, ?_⟩
    simp only [after, hb, true_or, if_true, List.getElem?_modify, hx]
    simp
  · obtain ⟨i1, h1, v1⟩ := consume_after hv.toIsView h true
    simp only [if_neg he, ES.bailReportMatch, ES.consume, hm, h1, Option.map_some]
    refine ⟨_, rfl, hm, ?_⟩
    simp only [after, hb, true_or, if_true, List.getElem?_modify, hx]
    simp

/-! ## Concrete cases

Rule 0 is `r1 B`, rule 1 is `A C | A D` (A = 1, B = 2, C = 3, D = 4); state 8 is a loop back. -/

def exATN : ATN :=
  { grammarType := .parser, maxTokenType := 9,
    states := [
      { stateType := .basic, transitions := [.rule 2 1 1 0] },
      { stateType := .basic, transitions := [.atom 3 2] },
      { stateType := .decision 0 false (.blockStart 4 .basic), ruleIndex := 1,
        transitions := [.epsilon 5 0, .epsilon 6 0] },
      { stateType := .ruleStop },
      { stateType := .ruleStop, ruleIndex := 1 },
      { stateType := .basic, ruleIndex := 1, transitions := [.atom 7 1] },
      { stateType := .basic, ruleIndex := 1, transitions := [.atom 9 1] },
      { stateType := .basic, ruleIndex := 1, transitions := [.atom 4 3] },
      { stateType := .decision 1 false .plusLoopBack, ruleIndex := 1, transitions := [.epsilon 5 0] },
      { stateType := .basic, ruleIndex := 1, transitions := [.atom 4 4] }] }

def exEnv : EEnv CTS :=
  { atn := exATN, fuel := 20, display := fun n => if n = 3 then "C" else "x", ruleNames := [], rangeText := fun _ _ _ => some [] }

def mkSrc (l : List Int) (h : ∀ t ∈ l, t ≠ TOKEN_EOF) : Source :=
  ⟨l.map fun t => { ttype := t }, { ttype := TOKEN_EOF },
   by simpa using h, rfl⟩

/-- A parser inside rule 1, called from rule 0, about to read `l`. -/
def exState (state : Int) (src : Source) : ES CTS :=
  ⟨{}, { P.new (CTS.withChannel src 0) with
    heap := [⟨0, none, none, -1, { ttype := 1 }, { ttype := 1 }, []⟩,
      ⟨1, none, some 0, 0, { ttype := 1 }, { ttype := 1 }, []⟩]
    ctx := some 1
    state := state }⟩

def srcXC : Source := mkSrc [9, 3, 2] (by decide)
def srcB : Source := mkSrc [2] (by decide)
def srcXX : Source := mkSrc [9, 9, 2] (by decide)
def srcXA : Source := mkSrc [9, 1, 9] (by decide)

theorem exReady (q : Int) (src : Source) (hf : Visible src 0 0) :
    Ready (ParserView.CtsAt src 0) (exState q src).p 0 1 :=
  ⟨ParserView.cts_start src 0 hf, rfl, by simp [exState]⟩

/-- The views and positions of the theorems exist. -/
example : Visible srcXC 0 0 ∧ Visible srcB 0 0 ∧ Visible srcXX 0 0 := by decide

example : (exState 7 srcXC).p.getExpectedTokens exEnv = some ⟨[⟨3, 3⟩], true⟩ ∧
    ES.afterExpected exEnv (exState 7 srcXC).p = some ⟨[⟨2, 2⟩], false⟩ ∧
    ES.recoverySet exEnv (exState 7 srcXC).p = some ⟨[⟨2, 2⟩], false⟩ ∧
    (exState 7 srcXC).p.statesStack 1 = some [0] := by decide +kernel

/-- Deletion: `X C` when `C` is expected. -/
example : ((exState 7 srcXC).matchToken exEnv 3).map
    (fun r => (r.1.toOption.map (·.index), r.2.p.syntaxErrors, (r.2.p.heap[1]?).map fun (c : Ctx) =>
      c.children.map fun | .leaf t e => (t.ttype, e) | .ctx _ => (0, false))) =
    some (some 1, 1, some [(9, true), (3, false)]) := by decide +kernel

/-- Insertion: `B` when `C` is expected. -/
example : ((exState 7 srcB).matchToken exEnv 3).map
    (fun r => (r.1.toOption.map (fun t => (t.index, t.ttype)), r.2.p.syntaxErrors,
      (r.2.p.heap[1]?).map fun (c : Ctx) =>
      c.children.map fun | .leaf t e => (t.ttype, e) | .ctx _ => (0, false))) =
    some (some (-1, 3), 1, some [(3, true)]) := by decide +kernel

/-- Neither: `X X` when `C` is expected; recovery then skips to `B`. -/
example : ((exState 7 srcXX).matchToken exEnv 3).map
    (fun r => (r.1.toOption.isSome, r.2.p.syntaxErrors)) = some (false, 0) ∧
    ((exState 7 srcXX).recover exEnv 5).map (fun s => (TokStream.index s.p.input, s.eh.lastIndex)) =
      some (2, 0) := by decide +kernel

/-- A second recovery at the same place and state is stuck. -/
example : Stuck { lastIndex := 0, lastStates := some (IntervalSet.new.addOne 7) } 0 7 :=
  ⟨rfl, _, rfl, by decide +kernel⟩

example : Built { lastIndex := 0, lastStates := some (IntervalSet.new.addOne 7) } [7] := .inr rfl

example : Skips (ParserView.seen srcXX 0) ⟨[⟨2, 2⟩], false⟩ 0 2 := by
  refine ⟨fun j hj => ?_, .inr (by decide +kernel)⟩
  have : j = 0 ∨ j = 1 := by omega
  rcases this with rfl | rfl <;> decide +kernel

open LL1Props in
example : LL1Spec.WFAtn exATN ∧ Callers (exState 7 srcXX).p.heap (some 1) [0] ∧ Climbs exATN [0] [1] :=
  ⟨wf_of_check _ (by decide +kernel), .up (c := ⟨1, none, some 0, 0, { ttype := 1 }, { ttype := 1 }, []⟩) rfl (by simp) (.root rfl (by simp)),
   .cons ⟨0, _, 2, 1, 0, [], rfl, rfl, rfl⟩ .nil⟩

example : Rooted (exState 7 srcXX).p.heap 1 := .up rfl rfl (.root rfl rfl)

/-- `X A C` expected, `X A X` read: the third token is the error. -/
example : (straightBody (exState 7 srcXA) [9, 1, 3]).map (fun r => (r.1.toOption, TokStream.index r.2.p.input,
      r.2.p.syntaxErrors)) = some (none, 2, 0) ∧
    (straightBody (exState 7 srcXA) [9, 1, 9]).map (fun r => (r.1.toOption, TokStream.index r.2.p.input)) =
      some (some (), 3) := by decide +kernel

/-- `sync` at the block start: deletes `X` before `A`; raises on `X X`; at the loop back it skips to
`B`. -/
example : ((exState 2 srcXA).sync exEnv 5).map (fun r => (r.1.toOption, TokStream.index r.2.p.input)) =
      some (some (), 1) ∧
    ((exState 2 srcXX).sync exEnv 5).map (fun r => (r.1.toOption, TokStream.index r.2.p.input)) =
      some (none, 0) ∧
    ((exState 8 srcXX).sync exEnv 5).map (fun r => (r.1.toOption, TokStream.index r.2.p.input)) =
      some (some (), 2) := by decide +kernel

/-- **C44 is false if only matched tokens count**: `sync` deletes and reports `X`, and before any
token is matched the error that no alternative fits `A X` is reported as well. -/
theorem C44_false : ∃ s1 p1 s2 e, EOp.run exEnv 5 (exState 2 srcXA) .sync = some s1 ∧
    s1.p.la 2 = some (9, p1) ∧ EOp.run exEnv 5 ⟨s1.eh, p1⟩ (.reportError e) = some s2 ∧
    reports s2 = 2 ∧
    (s2.p.heap[1]?).map (fun (c : Ctx) => c.children.map fun | .leaf t e => (t.ttype, e) | .ctx _ => (0, false)) =
      some [(9, true)] := by
  have h1 : ((EOp.run exEnv 5 (exState 2 srcXA) .sync).bind fun s1 => (s1.p.la 2).bind fun r =>
      (EOp.run exEnv 5 ⟨s1.eh, r.2⟩ (.reportError (.noAlt
        { message := [], token := ParserView.seen srcXA 0 2, state := 2, stack := [0] }
        (ParserView.seen srcXA 0 1)))).map fun s2 =>
      (r.1, reports s2, (s2.p.heap[1]?).map (fun (c : Ctx) => c.children.map fun
        | .leaf t e => (t.ttype, e) | .ctx _ => (0, false)))) = some (9, 2, some [(9, true)]) := by
    decide +kernel
  obtain ⟨s1, h2, h3⟩ := Option.bind_eq_some_iff.mp h1
  obtain ⟨⟨t, p1⟩, h6, h7⟩ := Option.bind_eq_some_iff.mp h3
  obtain ⟨s2, h4, h5⟩ := Option.map_eq_some_iff.mp h7
  simp only [Prod.mk.injEq] at h5
  exact ⟨s1, p1, s2, _, h2, by rw [h6, h5.1], h4, h5.2.1, h5.2.2⟩

/-- **C48: the exception is not recorded anywhere**: after two different errors the states of parser
and strategy are the same. -/
theorem C48_false_recorded : ∃ e1 e2 r1 r2 s', e1 ≠ e2 ∧
    (exState 7 srcXX).bailRecover e1 = some (r1, s') ∧ (exState 7 srcXX).bailRecover e2 = some (r2, s') := by
  refine ⟨.other ['a'], .other ['b'], .error (.fallThrough (.other ['a'])), .error (.fallThrough (.other ['b'])),
    exState 7 srcXX, by simp, rfl, rfl⟩

end Antlr.ErrorProps
