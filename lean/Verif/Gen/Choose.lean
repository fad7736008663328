import Verif.Gen.Complete
import Verif.Gen.Only
import Verif.Gen.Real
import Verif.Prediction.Sizes
import Verif.Prediction.AnswerProps

/-! # Choices that take the alternative of a winning path -/

namespace Antlr.GenSpec
open Antlr LL1Spec PredictionSpec Gen Prediction

variable {atn : ATN} {E : Nat → Prop} {w : Nat → Int}

/-! ## The alternative of the path is alive all the time -/

theorem takes_reads {max x : Int} {tr : Trans} (h : Takes max tr x) : tr.isEpsilon = false := by
  cases tr <;> simp_all [Takes, Trans.isEpsilon]

theorem reads_waits {t : Int} {p q : Pos} (h : ReadStep atn t p q) : Waits atn p := by
  obtain ⟨st, tr, h1, h2, h3, h4, -⟩ := h
  exact ⟨st, h1, h2, tr, h3, takes_reads h4⟩

/-- After EOF the path goes on to its end. -/
theorem Go.after (ha : Plain atn) {dec : ATNState} {τ : List Nat} {j : Int} {u : List Int} {k n : Nat} {p : Pos}
    (hw : w n = TOKEN_EOF) (h : Go atn E w k n p) (hl : Live atn dec τ j (u ++ [TOKEN_EOF]) p) :
    ∃ q, Live atn dec τ j (u ++ [TOKEN_EOF]) q ∧ Ended atn q ∧ E q.1 := by
  induction k generalizing p with
  | zero =>
    rcases h.cases ha with ⟨h, -, hE⟩ | ⟨l, h, -⟩
    · exact ⟨p, hl, h, hE⟩
    · cases h
  | succ k ih =>
    rcases h.cases ha with ⟨h, -, hE⟩ | ⟨l, h, ⟨q, hs, hg⟩ | ⟨q, he, -⟩ | ⟨q, he, hr, hg⟩⟩
    · exact ⟨p, hl, h, hE⟩
    · cases h; exact ih hg (.silent hl hs)
    · exact absurd hw he
    · cases h; exact ih hg (.more hl hr)

/-- Until then some thread of its alternative counts. -/
theorem Go.counts (ha : Plain atn) (hE : ∀ a, E a → Dead atn a) {dec : ATNState} {τ : List Nat} {j : Int} {k n m m' : Nat}
    {p : Pos} (h : Go atn E w k (n + m) p) (hl : Live atn dec τ j (pre (fun i => w (n + i)) m) p)
    (hm : m ≤ m') (ho : ∀ i, i < m → w (n + i) ≠ TOKEN_EOF) (ho' : ∀ i, i + 1 < m' → w (n + i) ≠ TOKEN_EOF) :
    ∃ q, Alive atn dec false τ j (pre (fun i => w (n + i)) m') q ∧
      Counts atn false (pre (fun i => w (n + i)) m') q := by
  have hlast : ∀ {m : Nat}, (∀ i, i < m → w (n + i) ≠ TOKEN_EOF) →
      (pre (fun i => w (n + i)) m).getLast? ≠ some TOKEN_EOF := by
    intro m ho
    cases m with
    | zero => simp [pre]
    | succ m =>
      rw [pre_succ]
      simpa using ho m (by omega)
  induction k generalizing m p with
  | zero =>
    rcases h.cases ha with ⟨he, hw, hd⟩ | ⟨l, h, -⟩
    · by_cases hmm : m = m'
      · subst hmm
        exact ⟨p, .inl hl, .inr ⟨he, .inr (hE _ hd)⟩, fun h => absurd h (hlast ho)⟩
      · obtain rfl : m' = m + 1 := by
          by_cases h : m + 1 < m'
          · exact absurd hw (ho' m h)
          · omega
        rw [pre_succ, hw]
        exact ⟨p, .inr ⟨rfl, _, rfl, hl, he⟩, .inr ⟨he, .inr (hE _ hd)⟩, fun _ => he⟩
    · cases h
  | succ k ih =>
    rcases h.cases ha with ⟨he, hw, hd⟩ | ⟨l, h, ⟨q, hs, hg⟩ | ⟨q, he, hr, hg⟩ | ⟨q, he, hr, hg⟩⟩
    · by_cases hmm : m = m'
      · subst hmm
        exact ⟨p, .inl hl, .inr ⟨he, .inr (hE _ hd)⟩, fun h => absurd h (hlast ho)⟩
      · obtain rfl : m' = m + 1 := by
          by_cases h : m + 1 < m'
          · exact absurd hw (ho' m h)
          · omega
        rw [pre_succ, hw]
        exact ⟨p, .inr ⟨rfl, _, rfl, hl, he⟩, .inr ⟨he, .inr (hE _ hd)⟩, fun _ => he⟩
    · cases h; exact ih hg (.silent hl hs) hm ho
    · cases h
      by_cases hmm : m = m'
      · subst hmm
        exact ⟨p, .inl hl, .inl (reads_waits hr), fun h => absurd h (hlast ho)⟩
      · refine ih (m := m + 1) hg (by rw [pre_succ]; exact .read hl hr) (by omega) ?_
        intro i hi
        by_cases e : i = m
        · rw [e]; exact he
        · exact ho i (by omega)
    · cases h
      by_cases hmm : m = m'
      · subst hmm
        exact ⟨p, .inl hl, .inl (reads_waits hr), fun h => absurd h (hlast ho)⟩
      · obtain rfl : m' = m + 1 := by
          by_cases h : m + 1 < m'
          · exact absurd he (ho' m h)
          · omega
        rw [pre_succ, he]
        obtain ⟨q', h1, h2, h3⟩ := hg.after ha he (.read hl hr)
        exact ⟨q', .inl h1, .inr ⟨h2, .inr (hE _ h3)⟩, fun _ => h2⟩

end Antlr.GenSpec

namespace Antlr.Gen
open Antlr ParserSpec ParserLemmas ParserProps ErrorProps GenSpec LL1Spec PredictionSpec StackProps Prediction
  ParserView TokenSpec CommonProps PredictionProps

/-! ## Tests of the next token -/

section
set_option linter.unusedSectionVars false
variable {I S : Type} [TokStream I] {C : Cfg I S} {T : Nat → Tok} {V : I → Nat → Prop}
  {atn : ATN} {E : Nat → Prop} {w : Nat → Int} {Ok : Int → Prop} {Inv : S → Prop} {total : Bool}

theorem look_right (hv : IsView T V) (hw : ∀ n, w n = (T n).ttype) (hok : ∀ n, Ok (w n)) (ha : Plain atn)
    {sets : List (List Int)} {other : Option Int} {a : Nat} (ht : Tells atn E Ok a sets other) {dec : ATNState}
    (hd : Decision atn a dec) {e : Nat} {s : GS I S} {n : Nat} {cs : List Nat} {outer : List Int} {τ : List Nat}
    (hg : Good V Inv e s n cs outer) (hp : Proper atn dec.ruleIndex τ) {k i : Nat} {tr : Trans}
    (hi : dec.transitions[i]? = some tr) (hgo : Go atn E w k n (tr.target, τ)) :
    Ends total (fun m => choose C m (.look sets other) s) fun x s' =>
      x = ((i + 1 : Nat) : Int) ∧ Good V Inv e s' n cs outer := by
  obtain ⟨i1, a1, v1⟩ := la_ok hv hg.view
  obtain ⟨p, hp'⟩ := hgo.live ha hi
  have h1 : look sets other (w n) = some ((i + 1 : Nat) : Int) := ht dec hd.state τ hp (w n) (hok n) _ p hp'
  rw [hw] at h1
  refine Ends.ret (a := ((i + 1 : Nat) : Int)) (s' := ⟨⟨s.es.eh, { s.es.p with input := i1 }⟩, s.sim⟩) ?_
    ⟨rfl, hg.look v1 hg.mode hg.inv⟩
  intro m
  simp only [choose, a1, Option.bind_some]
  unfold look at h1
  cases hfi : sets.findIdx? (·.contains (T n).ttype) with
  | some k =>
    rw [hfi] at h1
    simp only [Option.some.injEq] at h1
    simp only [h1]; rfl
  | none =>
    rw [hfi] at h1
    dsimp only at h1
    subst h1
    rfl

end

/-! ## Predictions -/

/-- Every DFA is what predictions for its decision made of a new one. -/
def Learned (atn : ATN) (σ : SimState) : Prop :=
  ∀ (d : Nat) (dfa : DFA), σ.dfas[d]? = some dfa → ∃ s dec, atn.decisionToState[d]? = some s ∧
    atn.states[s]? = some dec ∧ Cached atn s dec dfa

/-- No prediction had to look at the context, and the numbers of the DFA states fit into a `usize`. -/
def Local (σ : SimState) : Bool :=
  σ.reports.all (fun r => match r with | .fullContext .. => false | _ => true) &&
    σ.dfas.all fun d => decide (d.states.length ≤ ERROR_DFA_STATE_REF)

theorem plain_sim {C : Cfg CTS SimState} {M : Sim CTS} (hC : C.predict = M.predict) : Backward C Local := by
  intro m d p σ x i' σ' h hf
  rw [hC] at h
  simp only [Sim.predict, Option.bind_eq_some_iff] at h
  obtain ⟨c, -, outer, -, dfa, hd, r, hr, h⟩ := h
  have e : σ' = ⟨σ.dfas.set d r.dfa, σ.reports ++ r.reports⟩ := by
    split at h
    · simp only [Option.some.injEq, Prod.mk.injEq] at h
      exact h.2.2.symm
    · simp only [Option.map_eq_some_iff, Prod.mk.injEq] at h
      obtain ⟨e, -, -, -, e'⟩ := h
      exact e'.symm
  subst e
  simp only [Local, Bool.and_eq_true, List.all_append, List.all_eq_true, decide_eq_true_eq] at hf ⊢
  refine ⟨hf.1.1, ?_⟩
  intro d' hd'
  obtain ⟨j, hj⟩ := List.getElem?_of_mem hd'
  by_cases hjd : d = j
  · subst hjd
    rw [hd, Option.some.injEq] at hj
    subst hj
    have := adaptivePredict_size hr
    have hl : d < σ.dfas.length := (List.getElem?_eq_some_iff.1 hd).1
    have := hf.2 r.dfa (List.mem_of_getElem? (i := d) (by rw [List.getElem?_set_self hl]))
    omega
  · exact hf.2 d' (List.mem_of_getElem? (i := j) (by rw [List.getElem?_set_ne hjd]; exact hj))

theorem stepVis_add (src : Source) (c : Int) (a b i : Nat) :
    stepVis src c b (stepVis src c a i) = stepVis src c (a + b) i := by
  induction b with
  | zero => rfl
  | succ b ih => rw [stepVis_succ, ih, ← Nat.add_assoc, stepVis_succ]

theorem types_seen {src : Source} {c : Int} {inp : CTS} {n : Nat} (h : CtsHas src c inp n) (k : Nat) :
    typesAhead src c inp k = (seen src c (n + k)).ttype := by
  obtain ⟨⟨⟨len, e, -⟩, -⟩, -⟩ := h
  rw [e, typesAhead, cst_index, seen, visPos, visPos, Int.toNat_natCast, stepVis_add]

section
variable {C : Cfg CTS SimState} {M : Sim CTS} {src : Source} {c : Int} {E : Nat → Prop} {w : Nat → Int}

/-- A prediction that does not have to look at the context. -/
theorem predict_right (hC : C.predict = M.predict) (ha : Plain M.atn) (hE : ∀ a, E a → Dead M.atn a)
    (hmode : M.mode ≠ .SLL)
    (hw : ∀ n, w n = (seen src c n).ttype) (hty : ∀ n, -1 ≤ (tok src n).ttype ∧ (tok src n).ttype < 2 ^ 63)
    {d a : Nat} (hda : M.atn.decisionToState[d]? = some a) {dec : ATNState} (hd : Decision M.atn a dec) {e : Nat}
    {s : GS CTS SimState} {n : Nat} {cs : List Nat} {outer : List Int} {τ : List Nat}
    (hg : Good (CtsHas src c) (fun σ => Learned M.atn σ) e s n cs outer) (hc : cs ≠ [])
    (hcalls : Calls M.atn outer (ints τ)) (hp : Proper M.atn dec.ruleIndex τ) {k i : Nat} {tr : Trans}
    (hi : dec.transitions[i]? = some tr) (hgo : Go M.atn E w k n (tr.target, τ)) :
    Ends false (fun m => choose (C.only Local) m (.predict d) s) fun x s' =>
      x = ((i + 1 : Nat) : Int) ∧ Good (CtsHas src c) (fun σ => Learned M.atn σ) e s' n cs outer := by
  intro m x s' h
  simp only [choose, Cfg.only, Option.map_eq_some_iff, Option.bind_eq_some_iff] at h
  obtain ⟨⟨y, i', σ'⟩, ⟨⟨y0, i0, σ0⟩, h, h2⟩, h3⟩ := h
  dsimp only at h2
  split at h2
  case isFalse => cases h2
  rename_i hfine
  simp only [Option.some.injEq, Prod.mk.injEq] at h2
  obtain ⟨rfl, rfl, rfl⟩ := h2
  simp only [Prod.mk.injEq] at h3
  obtain ⟨rfl, rfl⟩ := h3
  rw [hC] at h
  have hhas := has_predict hg.view h
  simp only [Sim.predict, Option.bind_eq_some_iff] at h
  obtain ⟨c0, hc0, outer', ho, dfa, hdfa, r, hr, h⟩ := h
  have hctx := hg.ctx
  rw [hc0] at hctx
  rw [hctx, hg.track.chain.from (fun q hq => (hg.track.chain.lt q (List.mem_of_mem_head? hq))), Option.some.injEq] at ho
  subst ho
  have eσ : σ0 = ⟨s.sim.dfas.set d r.dfa, s.sim.reports ++ r.reports⟩ := by
    split at h
    · simp only [Option.some.injEq, Prod.mk.injEq] at h
      exact h.2.2.symm
    · simp only [Option.map_eq_some_iff, Prod.mk.injEq] at h
      obtain ⟨e, -, -, -, e'⟩ := h
      exact e'.symm
  have hl : d < s.sim.dfas.length := (List.getElem?_eq_some_iff.1 hdfa).1
  rw [eσ] at hfine
  simp only [Local, Bool.and_eq_true, List.all_append, List.all_eq_true, decide_eq_true_eq] at hfine
  have hsz : r.dfa.states.length ≤ ERROR_DFA_STATE_REF :=
    hfine.2 r.dfa (List.mem_of_getElem? (i := d) (by rw [List.getElem?_set_self hl]))
  have hf : ¬ WentFull r := by
    rintro ⟨a1, a2, l, hmem⟩
    have := hfine.1.2 _ hmem
    simp at this
  obtain ⟨a', dec', b1, b2, b3⟩ := hg.inv d dfa hdfa
  rw [hda, Option.some.injEq] at b1
  subst b1
  rw [hd.state, Option.some.injEq] at b2
  subst b2
  have hdec : Decides M.atn a dec := ⟨hd.state, hd.inner, hd.silent, hd.few⟩
  have hq : Asked src c dec (M.params s.es.p outer) s.es.p.input τ := by
    refine ⟨?_, hty, hcalls, hp⟩
    obtain ⟨-, hh⟩ := hg.view
    exact hh
  have hwt : typesAhead src c s.es.p.input = fun i => w (n + i) := by
    funext k
    rw [types_seen hg.view, hw]
  have hcounts : ∀ v, Ahead (typesAhead src c s.es.p.input) v →
      ∃ p, Alive M.atn dec false τ ((i + 1 : Nat) : Int) v p ∧ Counts M.atn false v p := by
    rintro v ⟨m', rfl, hv⟩
    rw [hwt] at hv ⊢
    exact hgo.counts (m := 0) ha hE (.start hi) (Nat.zero_le _) (fun i hi => by omega) hv
  obtain ⟨k', v, p, g1, g2, -, -, g3⟩ := C40_valid_local ha hdec b3 rfl hq hr hsz hmode hf
    (fun v hv => by obtain ⟨p, h1, h2⟩ := hcounts v hv; exact ⟨_, p, h1, h2⟩)
  obtain ⟨p', h4, h5⟩ := hcounts v g2
  obtain rfl := g3 _ _ h4 h5
  rw [g1] at h
  simp only [Option.some.injEq, Prod.mk.injEq] at h
  obtain ⟨rfl, rfl, rfl⟩ := h
  refine ⟨_, rfl, rfl, hg.look hhas hg.mode ?_⟩
  intro d' dfa' hd'
  rw [List.getElem?_set] at hd'
  by_cases hdd : d = d'
  · subst hdd
    rw [if_pos rfl] at hd'
    try rw [if_pos hl] at hd'
    rw [Option.some.injEq] at hd'
    subst hd'
    obtain ⟨d0, n0, c1, c2⟩ := b3
    exact ⟨a, dec, hda, hd.state, d0, n0, c1, .step c2 rfl hq hr hsz⟩
  · rw [if_neg hdd] at hd'
    exact hg.inv d' dfa' hd'

end
end Antlr.Gen
