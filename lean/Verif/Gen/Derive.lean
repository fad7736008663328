import Verif.Gen.PathLemmas

/-! # Trees of the grammar are paths of the machine -/

namespace Antlr.Gen
open Antlr ParserSpec GenSpec LL1Spec PredictionSpec

/-! ## Trees -/

mutual
/-- Number of nodes. -/
def sizeOf' : Node → Nat
  | .leaf _ _ => 1
  | .rule _ _ _ _ _ kids => sizeAll kids + 1
def sizeAll : List Node → Nat
  | [] => 0
  | n :: ns => sizeOf' n + sizeAll ns
end

theorem sizeAll_append (x y : List Node) : sizeAll (x ++ y) = sizeAll x + sizeAll y := by
  induction x with
  | nil => simp [sizeAll]
  | cons a x ih => simp [sizeAll, ih]; omega

theorem tokensAll_append' (x y : List Node) : tokensAll (x ++ y) = tokensAll x ++ tokensAll y := by
  induction x with
  | nil => simp [tokensAll]
  | cons a x ih => simp [tokensAll, ih]

theorem consumes_append {T : Nat → Tok} {n n' : Nat} {x y : List Tok} (h : Consumes T n (x ++ y) n') :
    ∃ m, Consumes T n x m ∧ Consumes T m y n' := by
  induction x generalizing n with
  | nil => exact ⟨n, .nil, h⟩
  | cons a x ih =>
    rw [List.cons_append] at h
    cases h with
    | tok h1 h2 =>
      obtain ⟨m, h3, h4⟩ := ih h2
      exact ⟨m, .tok h1 h3, h4⟩
    | eof h1 h2 =>
      obtain ⟨m, h3, h4⟩ := ih h2
      exact ⟨m, .eof h1 h3, h4⟩

theorem alts_yield {G : Grammar} : ∀ {alts : List Code} {kids : List Node}, Yields G (altsEbnf alts) kids →
    ∃ (i : Nat) (c : Code), alts[i]? = some c ∧ Yields G c.ebnf kids := by
  intro alts
  induction alts with
  | nil => intro kids h; simp only [altsEbnf] at h; cases h
  | cons c cs ih =>
    intro kids h
    simp only [altsEbnf] at h
    cases h with
    | altL h => exact ⟨0, c, rfl, h⟩
    | altR h =>
      obtain ⟨i, d, h1, h2⟩ := ih h
      exact ⟨i + 1, d, h1, h2⟩

/-- A repetition is a list of parts. -/
theorem yields_star {G : Grammar} {a : Ebnf} : ∀ {e : Ebnf} {kids : List Node}, Yields G e kids → e = .star a →
    ∃ parts : List (List Node), kids = parts.flatten ∧ ∀ x ∈ parts, Yields G a x
  | _, _, .starNil, _ => ⟨[], rfl, by simp⟩
  | _, _, .starCons (x := x) h1 h2, e => by
    obtain ⟨parts, h3, h4⟩ := yields_star h2 e
    cases e
    refine ⟨x :: parts, by rw [h3]; rfl, ?_⟩
    intro y hy
    rcases List.mem_cons.1 hy with rfl | hy
    · exact h1
    · exact h4 y hy
  | _, _, .eps, e => by cases e
  | _, _, .tok, e => by cases e
  | _, _, .set _, e => by cases e
  | _, _, .notSet _ _, e => by cases e
  | _, _, .any _, e => by cases e
  | _, _, .rule _, e => by cases e
  | _, _, .seq _ _, e => by cases e
  | _, _, .altL _, e => by cases e
  | _, _, .altR _, e => by cases e

section
variable {T : Nat → Tok} {atn : ATN} {E : Nat → Prop} {w : Nat → Int} {Ok : Int → Prop} {Ch : Choice → Nat → Prop}

theorem Plainly.step {a b : Nat} (h : Plainly atn a b) (τ : List Nat) : Step atn (a, τ) (b, τ) := by
  obtain ⟨st, tr, h1, h2, h3, h4, rfl⟩ := h
  exact .free h1 h2 (by rw [h3]; simp) h4

theorem Decision.step {a : Nat} {dec : ATNState} (h : Decision atn a dec) {i : Nat} {tr : Trans}
    (ht : dec.transitions[i]? = some tr) (τ : List Nat) : Step atn (a, τ) (tr.target, τ) := by
  have hm := List.mem_of_getElem? ht
  obtain ⟨t, x, rfl⟩ := h.silent tr hm
  exact .free h.state h.inner hm (by simp [Free])

/-- There is a path from state to state inside a rule. -/
def Runs (atn : ATN) (w : Nat → Int) (n a n' b : Nat) : Prop := ∀ τ, ∃ k, Path atn w k n (a, τ) n' (b, τ)

theorem Runs.refl {n a : Nat} : Runs atn w n a n a := fun _ => ⟨0, .nil⟩

theorem Runs.trans {n a n1 b n2 c : Nat} (h1 : Runs atn w n a n1 b) (h2 : Runs atn w n1 b n2 c) : Runs atn w n a n2 c := by
  intro τ
  obtain ⟨k, h1⟩ := h1 τ
  obtain ⟨l, h2⟩ := h2 τ
  exact ⟨k + l, h1.trans h2⟩

theorem Runs.step {n a b : Nat} (h : ∀ τ, Step atn (a, τ) (b, τ)) : Runs atn w n a n b := fun τ => ⟨1, .one (h τ)⟩

theorem Runs.read (hw : ∀ n, w n = (T n).ttype) {n n' a : Nat} {t : Tok} {tr : Trans} (hs : Single atn a tr)
    (ht : t = T n → Takes atn.maxTokenType tr (w n)) (hc : Consumes T n [t] n') : Runs atn w n a n' tr.target := by
  obtain ⟨st, h1, h2, h3⟩ := hs
  intro τ
  cases hc with
  | tok e h4 =>
    cases h4
    exact ⟨1, .read (by rw [hw]; exact e) ⟨st, tr, h1, h2, by rw [h3]; simp, ht rfl, rfl⟩ .nil⟩
  | eof e h4 =>
    cases h4
    have ht := ht rfl
    rw [hw, e] at ht
    exact ⟨1, .eof (by rw [hw]; exact e) ⟨st, tr, h1, h2, by rw [h3]; simp, ht, rfl⟩ .nil⟩

theorem sides_runs {a : Nat} {dec : ATNState} (hd : Decision atn a dec) {bodyAlt exit : Int} {x y : Nat}
    (hs : Sides dec bodyAlt exit x y) : (∀ n, Runs atn w n a n x) ∧ (∀ n, Runs atn w n a n y) := by
  rcases hs with ⟨-, -, u, v, e⟩ | ⟨-, -, u, v, e⟩
  · exact ⟨fun n => Runs.step (Decision.step hd (i := 0) (tr := .epsilon x u) (by rw [e]; rfl)),
      fun n => Runs.step (Decision.step hd (i := 1) (tr := .epsilon y v) (by rw [e]; rfl))⟩
  · exact ⟨fun n => Runs.step (Decision.step hd (i := 1) (tr := .epsilon x v) (by rw [e]; rfl)),
      fun n => Runs.step (Decision.step hd (i := 0) (tr := .epsilon y u) (by rw [e]; rfl))⟩

/-- A tree of a rule is a path from the start of the rule to its end. -/
theorem rule_runs {rules : List RuleFn} (hm : Mirror atn Ok Ch rules) {N : Nat}
    (hf : ∀ code a b, Leads atn Ok Ch code a b → ∀ kids, sizeAll kids ≤ N →
      Yields (grammar rules) code.ebnf kids → ∀ n n', Consumes T n (tokensAll kids) n' → Runs atn w n a n' b)
    {r t : Nat} (hr : atn.ruleToStartState[r]? = some t) {q : Int} {node : Node} (hb : Builds (grammar rules) r q node)
    (hN : sizeOf' node ≤ N + 1) {n n' : Nat} (hc : Consumes T n (tokens node) n') :
    ∃ stop sst, atn.states[stop]? = some sst ∧ sst.stateType = .ruleStop ∧ sst.ruleIndex = r ∧ Runs atn w n t n' stop := by
  cases hb with
  | @plain _ _ inv alts label e start stop kids h1 h2 h3 =>
    obtain ⟨fn, h4, h5⟩ := Option.map_eq_some_iff.1 h1
    simp only [sizeOf'] at hN
    simp only [tokens] at hc
    cases hm r fn h4 with
    | @one start stop a sst g1 g2 g3 g5 g4 =>
      rw [hr, Option.some.injEq] at g1
      subst g1
      simp only [RuleFn.rhs, Rhs.plain.injEq] at h5
      subst h5
      simp only [List.map_cons, List.map_nil, List.mem_singleton, Prod.mk.injEq] at h2
      obtain ⟨rfl, rfl⟩ := h2
      exact ⟨stop, sst, g2, g3, g5, hf _ _ _ g4 kids (by omega) h3 n n' hc⟩
    | @many start stop a dec sst ch alts' g1 g2 g3 g5 g4 hd hch hl ha =>
      rw [hr, Option.some.injEq] at g1
      subst g1
      simp only [RuleFn.rhs, Rhs.plain.injEq] at h5
      subst h5
      obtain ⟨x, hx, h2⟩ := List.mem_map.1 h2
      simp only [Prod.mk.injEq] at h2
      obtain ⟨rfl, rfl⟩ := h2
      obtain ⟨i, hi⟩ := List.mem_iff_getElem?.1 hx
      have hlt := (List.getElem?_eq_some_iff.1 hi).1
      have ht : dec.transitions[i]? = some _ := List.getElem?_eq_getElem (by omega)
      refine ⟨stop, sst, g2, g3, g5, (hf _ _ _ g4 [] (by simp [sizeAll]) (by simp only [Code.ebnf]; exact .eps) n n .nil).trans ?_⟩
      exact (Runs.step (Decision.step hd ht)).trans (hf _ _ _ (ha i x _ hi ht) kids (by omega) h3 n n' hc)
  | prim h1 =>
    obtain ⟨fn, h4, h5⟩ := Option.map_eq_some_iff.1 h1
    cases hm r fn h4 <;> cases h5
  | op h1 =>
    obtain ⟨fn, h4, h5⟩ := Option.map_eq_some_iff.1 h1
    cases hm r fn h4 <;> cases h5

variable {rules : List RuleFn} (hw : ∀ n, w n = (T n).ttype) (hok : ∀ n, Ok (w n)) (hm : Mirror atn Ok Ch rules)
include hw hok hm

/-- What the code of a piece of the machine stands for is a path through it. -/
theorem runs (N : Nat) : ∀ code a b, Leads atn Ok Ch code a b → ∀ kids, sizeAll kids ≤ N →
    Yields (grammar rules) code.ebnf kids → ∀ n n', Consumes T n (tokensAll kids) n' → Runs atn w n a n' b := by
  induction N using Nat.strongRecOn with
  | _ N IH =>
  intro code a b h
  have loop : ∀ {body : Code} {x back : Nat} {a : Nat},
      (∀ kids, sizeAll kids ≤ N → Yields (grammar rules) body.ebnf kids → ∀ n n', Consumes T n (tokensAll kids) n' →
        Runs atn w n x n' back) → (∀ n, Runs atn w n back n a) → (∀ n, Runs atn w n a n x) →
      ∀ parts : List (List Node), sizeAll parts.flatten ≤ N → (∀ y ∈ parts, Yields (grammar rules) body.ebnf y) →
      ∀ n n', Consumes T n (tokensAll parts.flatten) n' → Runs atn w n a n' a := by
    intro body x back a hb h1 h2 parts
    induction parts with
    | nil => intro _ _ n n' hc; cases hc; exact .refl
    | cons y ys ih =>
      intro hN hy n n' hc
      rw [List.flatten_cons, sizeAll_append] at hN
      rw [List.flatten_cons, tokensAll_append'] at hc
      obtain ⟨m, c1, c2⟩ := consumes_append hc
      exact (h2 n).trans ((hb y (by omega) (hy y (by simp)) n m c1).trans ((h1 m).trans
        (ih (by omega) (fun z hz => hy z (by simp [hz])) m n' c2)))
  induction h with
  | skip h1 h2 ih =>
    intro kids hN hy n n' hc
    exact (Runs.step (Plainly.step h1)).trans (ih kids hN hy n n' hc)
  | rest h1 h2 ih =>
    intro kids hN hy n n' hc
    exact (ih kids hN hy n n' hc).trans (Runs.step (Plainly.step h2))
  | nop =>
    intro kids hN hy n n' hc
    simp only [Code.ebnf] at hy
    cases hy
    cases hc
    exact .refl
  | seq h1 h2 ih1 ih2 =>
    intro kids hN hy n n' hc
    simp only [Code.ebnf] at hy
    cases hy with
    | seq y1 y2 =>
      rw [sizeAll_append] at hN
      rw [tokensAll_append'] at hc
      obtain ⟨m, c1, c2⟩ := consumes_append hc
      exact (ih1 _ (by omega) y1 n m c1).trans (ih2 _ (by omega) y2 m n' c2)
  | @tok a b t h1 =>
    intro kids hN hy n n' hc
    simp only [Code.ebnf] at hy
    cases hy
    exact Runs.read hw h1 (fun e => by subst e; simp [Takes, hw]) hc
  | @set a tr ts invert h1 h0 h2 =>
    intro kids hN hy n n' hc
    simp only [Code.ebnf] at hy
    cases invert
    · simp only [Bool.false_eq_true, if_false] at hy
      cases hy with
      | set h3 =>
        refine Runs.read hw h1 (fun e => ?_) hc
        subst e
        rw [h2 _ (hok n), hw]
        simp [inSet, h3]
    · simp only [if_true] at hy
      cases hy with
      | notSet h3 h4 =>
        refine Runs.read hw h1 (fun e => ?_) hc
        subst e
        rw [h2 _ (hok n), hw]
        simp [inSet, h3, h4]
  | @any a b h1 h2 =>
    intro kids hN hy n n' hc
    simp only [Code.ebnf] at hy
    cases hy with
    | any h3 =>
      refine Runs.read hw h1 (fun e => ?_) hc
      subst e
      exact ⟨by rw [hw]; exact h3, h2 _ (hok n)⟩
  | @call a t f r p q h1 h2 =>
    intro kids hN hy n n' hc
    simp only [Code.ebnf] at hy
    obtain ⟨st, g1, g2, g3⟩ := h1
    cases hy with
    | @rule _ _ node hb =>
      simp only [sizeAll, Nat.add_zero] at hN
      simp only [tokensAll, List.append_nil] at hc
      have : ∃ stop sst, atn.states[stop]? = some sst ∧ sst.stateType = .ruleStop ∧ sst.ruleIndex = r ∧ Runs atn w n t n' stop := by
        have h1 : 1 ≤ sizeOf' node := by cases hb <;> simp [sizeOf']
        exact rule_runs hm (N := N - 1) (IH (N - 1) (by omega)) h2 hb (by omega) hc
      obtain ⟨stop, sst, e1, e2, -, hr⟩ := this
      intro τ
      obtain ⟨k, hr⟩ := hr (f :: τ)
      have hmem : Trans.rule t f (r : Nat) p ∈ st.transitions := by rw [g3]; simp
      exact ⟨_, .step (.call g1 g2 hmem) (hr.trans (.one (.ret e1 e2)))⟩
  | @block a dec ch alts b hd hch hl ha ih =>
    intro kids hN hy n n' hc
    simp only [Code.ebnf] at hy
    obtain ⟨i, c, hi, hy⟩ := alts_yield hy
    have hlt := (List.getElem?_eq_some_iff.1 hi).1
    have ht : dec.transitions[i]? = some _ := List.getElem?_eq_getElem (by omega)
    exact (Runs.step (Decision.step hd ht)).trans (ih i c _ hi ht kids hN hy n n' hc)
  | @opt a dec ch alts last b hd hch hl ha hlast hnop ih ihn =>
    intro kids hN hy n n' hc
    simp only [Code.ebnf] at hy
    cases hy with
    | altL hy =>
      obtain ⟨i, c, hi, hy⟩ := alts_yield hy
      have hlt := (List.getElem?_eq_some_iff.1 hi).1
      have ht : dec.transitions[i]? = some _ := List.getElem?_eq_getElem (by omega)
      exact (Runs.step (Decision.step hd ht)).trans (ih i c _ hi ht kids hN hy n n' hc)
    | altR hy => exact (Runs.step (Decision.step hd hlast)).trans (ihn kids hN hy n n' hc)
  | @optLazy a dec ch alts first b hd hch hl ha hfirst hnop ih ihn =>
    intro kids hN hy n n' hc
    simp only [Code.ebnf] at hy
    cases hy with
    | altL hy =>
      obtain ⟨i, c, hi, hy⟩ := alts_yield hy
      have hlt := (List.getElem?_eq_some_iff.1 hi).1
      have ht : dec.transitions[i + 1]? = some _ := List.getElem?_eq_getElem (by omega)
      exact (Runs.step (Decision.step hd ht)).trans (ih i c _ hi ht kids hN hy n n' hc)
    | altR hy => exact (Runs.step (Decision.step hd hfirst)).trans (ihn kids hN hy n n' hc)
  | @star a back dec ch exit bodyAlt body x y b hd hch hs hb hback hn ihb ihn =>
    intro kids hN hy n n' hc
    simp only [Code.ebnf] at hy
    obtain ⟨parts, rfl, hp⟩ := yields_star hy rfl
    obtain ⟨hx, hy'⟩ := sides_runs hd hs (w := w)
    exact (loop ihb (fun n => Runs.step (Plainly.step hback)) hx parts hN hp n n' hc).trans
      ((hy' n').trans (ihn [] (by simp [sizeAll]) (by simp only [Code.ebnf]; exact .eps) n' n' .nil))
  | @plus a back dec ch exit bodyAlt body y b hd hch hs hb hn ihb ihn =>
    intro kids hN hy n n' hc
    simp only [Code.ebnf] at hy
    cases hy with
    | seq y1 y2 =>
      obtain ⟨parts, rfl, hp⟩ := yields_star y2 rfl
      obtain ⟨hx, hy'⟩ := sides_runs hd hs (w := w)
      rw [sizeAll_append] at hN
      rw [tokensAll_append'] at hc
      obtain ⟨m, c1, c2⟩ := consumes_append hc
      exact (ihb _ (by omega) y1 n m c1).trans ((loop ihb (fun n => .refl) hx parts (by omega) hp m n' c2).trans
        ((hy' n').trans (ihn [] (by simp [sizeAll]) (by simp only [Code.ebnf]; exact .eps) n' n' .nil)))

/-- An input with a tree of the rule is accepted by the machine. -/
theorem tree_wins {r start : Nat} (hr : atn.ruleToStartState[r]? = some start) {q : Int} {node : Node}
    (hb : Builds (grammar rules) r q node) {n n' : Nat} (hc : Consumes T n (tokens node) n')
    (he : (T n').ttype = TOKEN_EOF) (hE : ∀ (a : Nat) (st : ATNState), atn.states[a]? = some st →
      st.stateType = .ruleStop → st.ruleIndex = r → E a) : ∃ k, Wins atn E w k n (start, []) := by
  obtain ⟨stop, sst, h1, h2, h5, h3⟩ := rule_runs hm (N := sizeOf' node) (runs hw hok hm _) hr hb (by omega) hc
  obtain ⟨k, h3⟩ := h3 []
  exact ⟨k, n', (stop, []), h3, ⟨rfl, sst, h1, h2⟩, by rw [hw]; exact he, hE _ _ h1 h2 h5⟩

end
end Antlr.Gen
