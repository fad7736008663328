import Verif.Lexer.Total
import Verif.Lexer.Longest

/-!
# The loop of the matcher returns
-/

namespace Antlr.LexTotal
open Antlr Lexer LexPaths LexCache LexSpec LexProps

set_option linter.unusedSectionVars false

section
variable {q : Option (List LexerAction) → Option (List LexerAction)} {atn : ATN}

/-- Every configuration stands for a thread of the kind `P`. -/
def Fits (atn : ATN) (P : Thread → Prop) (m : List Config) : Prop :=
  ∀ c ∈ m, ∃ x, At c x ∧ Inside atn x ∧ Worth atn x ∧ P x

theorem fits_abs {P : Thread → Prop} {m : List Config} (h : Fits atn P m) : Fits atn P (abs q m) := by
  intro c hc
  obtain ⟨c', h1, rfl⟩ := mem_abs.mp hc
  obtain ⟨x, h2, h3⟩ := h c' h1
  refine ⟨x, ⟨h2.state, h2.ctx, ?_⟩, h3⟩
  obtain ⟨p1, p2, p3, e, p, p4⟩ := h2.plain
  exact ⟨p1, p2, p3, q e, p, by simp [er, p4]⟩

theorem fits_mono {P Q : Thread → Prop} {m : List Config} (h : Fits atn P m) (hpq : ∀ x, P x → Q x) : Fits atn Q m := by
  intro c hc
  obtain ⟨x, h1, h2, h3, h4⟩ := h c hc
  exact ⟨x, h1, h2, h3, hpq x h4⟩

/-- The accepting configuration is found, and is at the end of a token rule. -/
theorem accOf_ok (hw : Whole atn) {P : Thread → Prop} {m : List Config} (h : Fits atn P m) :
    ∃ a, accOf q atn m = some a ∧ (a ≠ none → ∃ x st, P x ∧ x.stack = [] ∧ atn.states[x.state]? = some st ∧
      st.stateType = .ruleStop) := by
  induction m with
  | nil => exact ⟨none, rfl, by simp⟩
  | cons c m ih =>
    obtain ⟨x, h1, h2, h3, h4⟩ := h c (by simp)
    obtain ⟨st, hst⟩ : ∃ st, atn.states[x.state]? = some st := ⟨_, List.getElem?_eq_getElem h2.1⟩
    rw [accOf_cons, h1.state, hst, Option.bind_some]
    split
    · rename_i hs
      have := (hw.stop _ _ hst hs).1
      rw [List.getElem?_eq_getElem this]
      refine ⟨_, rfl, fun _ => ⟨x, st, h4, ?_, hst, hs⟩⟩
      obtain ⟨st', h5, h6⟩ := h3
      rw [hst] at h5; injection h5 with h5; subst h5
      rcases h6 with h6 | h6
      · exact h6.2
      · exact absurd hs h6.1
    · exact ih fun c hc => h c (by simp [hc])

/-- A step, on threads of bounded stacks. -/
theorem pstep_ok (hw : Whole atn) {N K fc : Nat} (hl : ∀ s, ¬ Chain atn N ⟨s, [], []⟩) (hf : N * (K + N + 1) ≤ fc)
    {pred : Int → Int → Option Bool} {t : Int} (hp : Askable atn pred t) {P : Thread → Prop} {m : List Config}
    (h : Fits atn (fun x => Bounded atn N K x ∧ P x) m) :
    ∃ r, pstep q atn pred fc t m = some r ∧
      Fits atn (fun z => Bounded atn N (K + N) z ∧ ∃ x, P x ∧ Bounded atn N K x ∧ Inside atn x ∧ Goes atn t x z) r.1 := by
  obtain ⟨r, r1, r2⟩ := reachList_ok (fuel := fc) (off := 0) (P := fun x => Bounded atn N K x ∧ P x) hw hp m (skip := 0) (by
    intro c hc
    obtain ⟨x, h1, h2, h3, h4, h5⟩ := h c hc
    refine ⟨x, h1, h2, h3, fun s hch => ?_, h4, h5⟩
    have hlen := bounded_length h4
    refine chain_bound hw hl x.stack s x.acts (chain_le ?_ hch)
    exact Nat.le_trans (Nat.mul_le_mul_left _ (by omega)) hf)
  refine ⟨_, by rw [pstep, r1]; rfl, fits_abs ?_⟩
  intro y hy
  obtain ⟨x, z, ⟨h1, h2⟩, h3, h4, h5, h6⟩ := r2 y hy
  obtain ⟨st, tr, g1, g2, g3, g4⟩ := h4
  obtain ⟨b1, b2⟩ := bounded_idles hw hl (x := { x with state := tr.target }) ⟨hw.target _ _ g1 tr g2, h3.2⟩
    (bounded_fresh hl (K := K + N) (x := { x with state := tr.target }) (show x.stack.length ≤ K + N from bounded_length h1)) g4
  exact ⟨z, h5, b1, h6, b2, x, h2, h1, h3, st, tr, g1, g2, g3, g4⟩

/-- Reading EOF is an idle step. -/
theorem goes_eof (hw : Whole atn) {x z : Thread} (h : Goes atn EOF x z) :
    ∃ y, Idle atn x y ∧ Relation.ReflTransGen (Idle atn) y z := by
  obtain ⟨st, tr, h1, h2, h3, h4⟩ := h
  obtain ⟨h5, h6⟩ := matches_eof h3
  refine ⟨_, .edge h1 ?_ h2 ?_, h4⟩
  · intro hs
    obtain ⟨t, p, rfl⟩ := (hw.stop _ _ h1 hs).2 tr h2
    simp [ReadsSym] at h5
  · rcases h6 with ⟨t, l, rfl⟩ | ⟨t, l, u, rfl⟩ | ⟨t, s, rfl⟩ <;> exact ⟨trivial, h5, rfl⟩

theorem idles_chain {x z : Thread} (h : Relation.ReflTransGen (Idle atn) x z) {k : Nat} (hc : ¬ Chain atn k x) :
    ¬ Chain atn k z := by
  induction h with
  | refl => exact hc
  | tail _ h1 ih => exact fun h2 => ih (chain_mono ⟨_, h1, h2⟩)

variable {D : Type} [InputData D] {d : D} {cs : List Int} {ix : Nat → Int} {sl : Nat → Nat → D}

/-- The end of a token rule is reached by a thread of the kind `Q`. -/
def Ends (atn : ATN) (Q : Thread → Prop) : Prop :=
  ∃ x st, Q x ∧ x.stack = [] ∧ atn.states[x.state]? = some st ∧ st.stateType = .ruleStop

/-- The loop at the end of the input. -/
theorem prun_past (hw : Whole atn) {N K fc : Nat} (hl : ∀ s, ¬ Chain atn N ⟨s, [], []⟩) (hf : N * (K + N + 1) ≤ fc)
    (R : Reads d cs ix sl) {sp : Int → Int → Cursor D → Bool} {Q : Thread → Prop}
    (hQ : ∀ x y, Q x → Idle atn x y → Q y) (k : Nat) : ∀ {fe : Nat} {m : List Config} {p : Option PAcc},
    Fits atn (fun x => Bounded atn N K x ∧ ¬ Chain atn k x ∧ Q x) m → k + 1 ≤ fe →
    ∃ o, prun q atn sp fc fe (at_ d cs ix cs.length) m EOF p = some o ∧ o.symbol = EOF ∧
      o.cur = at_ d cs ix cs.length ∧
      (o.prev = p ∨ (Ends atn Q ∧ ∃ b, o.prev = some b ∧ b.index = ix cs.length)) := by
  have hask : Askable atn (fun r p => predValue sp r p true (at_ d cs ix cs.length)) EOF := by
    rcases hw.eof with h | h
    · left
      intro s st hs t b r p hm
      exact absurd hm (h s st hs t b r p)
    · right
      intro s st hs tr htr hm
      exact h s st hs tr htr (matches_eof hm).1
  have hQs : ∀ {x y}, Q x → Relation.ReflTransGen (Idle atn) x y → Q y := by
    intro x y hx h
    induction h with
    | refl => exact hx
    | tail _ h1 ih => exact hQ _ _ ih h1
  have hsym : symAt cs cs.length = EOF := (symAt_eof_iff R (Nat.le_refl _)).mpr rfl
  induction k with
  | zero =>
    intro fe m p h hfe
    obtain ⟨fe, rfl⟩ : ∃ f, fe = f + 1 := ⟨fe - 1, by omega⟩
    have hm : m = [] := by
      cases m with
      | nil => rfl
      | cons c m =>
        obtain ⟨x, -, -, -, -, h1, -⟩ := h c (by simp)
        exact absurd trivial h1
    subst hm
    refine ⟨⟨at_ d cs ix cs.length, p, EOF⟩, ?_, rfl, rfl, .inl rfl⟩
    simp [prun, pstep, reachList, abs_eq_nil]
  | succ k ih =>
    intro fe m p h hfe
    obtain ⟨fe, rfl⟩ : ∃ f, fe = f + 1 := ⟨fe - 1, by omega⟩
    obtain ⟨r, r1, r2⟩ := pstep_ok (q := q) hw hl hf hask (P := fun x => ¬ Chain atn (k + 1) x ∧ Q x) h
    have r3 : Fits atn (fun x => Bounded atn N K x ∧ ¬ Chain atn k x ∧ Q x) r.1 := by
      refine fits_mono r2 ?_
      rintro z ⟨-, x, ⟨h1, h2⟩, h3, h4, h5⟩
      obtain ⟨y, y1, y2⟩ := goes_eof hw h5
      refine ⟨(bounded_idles hw hl h4 h3 (.head y1 y2)).2, idles_chain y2 (fun hc => h1 ⟨y, y1, hc⟩), ?_⟩
      exact hQs h2 (.head y1 y2)
    simp only [prun, r1, Option.bind_some]
    split
    · exact ⟨_, rfl, rfl, rfl, .inl rfl⟩
    · obtain ⟨a, a1, a2⟩ := accOf_ok (q := q) hw r3
      simp only [a1, Option.bind_some, ne_eq, not_true_eq_false, if_false, decide_true, Bool.and_true]
      cases a with
      | none =>
        simp only [Option.isSome_none, Bool.false_eq_true, if_false, la_at R (Nat.le_refl _), Option.bind_some, hsym, note]
        exact ih r3 (by omega)
      | some y =>
        simp only [Option.isSome_some, if_true]
        refine ⟨_, rfl, rfl, rfl, .inr ⟨?_, _, rfl, rfl⟩⟩
        obtain ⟨x, st, h1, h2⟩ := a2 (by simp)
        exact ⟨x, st, h1.2.2, h2⟩

/-- The accepting states noted lie after `n`. -/
def Later (cs : List Int) (ix : Nat → Int) (n : Nat) (p : Option PAcc) : Prop :=
  ∀ b, p = some b → ∃ v, n < v ∧ v ≤ cs.length ∧ b.index = ix v

/-- The loop. -/
theorem prun_ok (hw : Whole atn) {N fc : Nat} (hl : ∀ s, ¬ Chain atn N ⟨s, [], []⟩)
    (R : Reads d cs ix sl) {sp : Int → Int → Cursor D → Bool} {n : Nat} (i : Nat) :
    ∀ {v K fe : Nat} {m : List Config} {p : Option PAcc}, v + i = cs.length → n ≤ v → (v = n → n < cs.length) →
    N * (K + N * (i + 1) + 1) ≤ fc → i + N * (K + N * (i + 1) + 1) + 1 ≤ fe → Fits atn (fun x => Bounded atn N K x) m →
    ∃ o, prun q atn sp fc fe (at_ d cs ix v) m (symAt cs v) p = some o ∧ (Later cs ix n p → Later cs ix n o.prev) ∧
      ∃ w, w ≤ cs.length ∧ o.cur = at_ d cs ix w ∧ o.symbol = symAt cs w := by
  induction i with
  | zero =>
    intro v K fe m p hv hnv hne hf hfe h
    have e : v = cs.length := by omega
    subst e
    rw [(symAt_eof_iff R (Nat.le_refl _)).mpr rfl]
    simp only [Nat.zero_add, Nat.mul_one] at hf hfe
    obtain ⟨o, o1, o2, o3, o4⟩ := prun_past (q := q) (sp := sp) (p := p) (Q := fun _ => True) hw hl hf R (fun _ _ _ _ => trivial)
      (N * (K + N + 1)) (fe := fe) (fits_mono h fun x hx => ⟨hx, bounded_chain hw hl hx, trivial⟩) (by omega)
    refine ⟨o, o1, fun hp => ?_, cs.length, Nat.le_refl _, o3, by rw [o2, (symAt_eof_iff R (Nat.le_refl _)).mpr rfl]⟩
    rcases o4 with o4 | ⟨-, b, o4, o5⟩
    · rw [o4]; exact hp
    · intro b' hb'
      rw [o4] at hb'; injection hb' with hb'; subst hb'
      exact ⟨cs.length, by omega, Nat.le_refl _, o5⟩
  | succ i ih =>
    intro v K fe m p hv hnv hne hf hfe h
    obtain ⟨fe, rfl⟩ : ∃ f, fe = f + 1 := ⟨fe - 1, by omega⟩
    have hlt : v < cs.length := by omega
    have hsym : symAt cs v ≠ EOF := fun h0 => by have := (symAt_eof_iff R (by omega)).mp h0; omega
    have hask : Askable atn (fun r p => predValue sp r p true (at_ d cs ix v)) (symAt cs v) := by
      left
      intro s st hs t b r p hm
      simp only [predValue, evaluatePredicate, if_true, consume_at R hlt, Option.bind_some, Option.map_some]
      exact ⟨_, rfl⟩
    have e : K + N * (i + 1 + 1) = K + N + N * (i + 1) := by rw [Nat.mul_succ N (i + 1)]; omega
    rw [e] at hf hfe
    have hK : N * (K + N + 1) ≤ fc := Nat.le_trans (Nat.mul_le_mul_left _ (by omega)) hf
    obtain ⟨r, r1, r2⟩ := pstep_ok (q := q) hw hl hK hask (P := fun _ => True) (fits_mono h fun x hx => ⟨hx, trivial⟩)
    have r3 : Fits atn (fun x => Bounded atn N (K + N) x) r.1 := fits_mono r2 fun z hz => hz.1
    simp only [prun, r1, Option.bind_some]
    split
    · exact ⟨_, rfl, fun h => h, v, by omega, rfl, rfl⟩
    · obtain ⟨a, a1, -⟩ := accOf_ok (q := q) hw r3
      simp only [a1, Option.bind_some, ne_eq, hsym, not_false_eq_true, if_true, consume_at R hlt, decide_false, Bool.and_false,
        Bool.false_eq_true, if_false, la_at R (show v + 1 ≤ cs.length by omega)]
      obtain ⟨o, o1, o2, o3⟩ := ih (v := v + 1) (fe := fe) (p := note a (at_ d cs ix (v + 1)) p) (by omega) (by omega)
        (by omega) hf (by omega) r3
      refine ⟨o, o1, fun hp => o2 ?_, o3⟩
      cases a with
      | none => exact hp
      | some y =>
        intro b hb
        simp only [note, Option.some.injEq] at hb
        subst hb
        exact ⟨v + 1, by omega, by omega, rfl⟩

/-- The matcher without a cache returns; a match ends after its beginning, and at the end of the input
there is none. -/
theorem pmatch_ok {env : Env D} (hw : Whole env.atn) {N : Nat} (hl : ∀ s, ¬ Chain env.atn N ⟨s, [], []⟩)
    (R : Reads d cs ix sl) {L : Lex D} {n : Nat} (hn : n ≤ cs.length) (hc : L.cur = at_ d cs ix n) {fc fe : Nat}
    (hfc : N * (N * (cs.length + 1) + 1) ≤ fc) (hfe : cs.length + N * (N * (cs.length + 1) + 1) + 1 ≤ fe) :
    ∃ o, pmatch q env fc fe L = some o ∧ (NoEmpty env.atn → ∀ x, o = some x →
      (n < cs.length → Later cs ix n x.prev ∧ ∃ w, w ≤ cs.length ∧ x.cur = at_ d cs ix w ∧ x.symbol = symAt cs w) ∧
      (n = cs.length → x.prev = none ∧ x.symbol = EOF ∧ x.cur = at_ d cs ix n)) := by
  simp only [pmatch]
  cases hss : env.atn.modeToStartState[L.mode]? with
  | none => exact ⟨none, rfl, by simp⟩
  | some ss =>
    have hmem := List.mem_of_getElem? hss
    have hlt := hw.mode ss hmem
    obtain ⟨st, hst⟩ : ∃ st, env.atn.states[ss]? = some st := ⟨_, List.getElem?_eq_getElem hlt⟩
    have hN : N ≤ N * (N * (cs.length + 1) + 1) := Nat.le_mul_of_pos_right _ (by omega)
    obtain ⟨r, r1, r2⟩ := startList_ok (pred := fun r p => predValue (fun r p c => env.sempred r p { L with cur := c }) r p
        false L.cur) (fuel := fc) hw (fun _ _ _ _ _ _ _ _ => ⟨_, rfl⟩) st.transitions (i := 0) (fun tr htr =>
      ⟨hw.target _ _ hst tr htr, fun h => hl _ (chain_le (by omega) h)⟩)
    let Q : Thread → Prop := fun z => ∃ tr ∈ st.transitions, Relation.ReflTransGen (Idle env.atn) ⟨tr.target, [], []⟩ z
    have hfit : Fits env.atn (fun x => Bounded env.atn N 0 x ∧ Q x) r.1 := by
      intro y hy
      obtain ⟨tr, h1, z, h2, h3, h4⟩ := r2 y hy
      obtain ⟨b1, b2⟩ := bounded_idles hw hl (x := ⟨tr.target, [], []⟩) (K := 0) ⟨hw.target _ _ hst tr h1, by simp⟩
        (bounded_fresh hl (by simp)) h2
      exact ⟨z, h3, b1, h4, b2, tr, h1, h2⟩
    have hno : NoEmpty env.atn → ¬ Ends env.atn Q := by
      rintro he ⟨⟨s, k, acts⟩, t, ⟨tr, h1, h2⟩, h3, h4, h5⟩
      simp only at h3; subst h3
      exact he ss hmem st hst tr h1 s acts t h4 h5 h2
    have hfit' := fits_abs (q := q) hfit
    obtain ⟨a, a1, a2⟩ := accOf_ok (q := q) hw hfit'
    simp only [hst, Option.bind_some]
    rw [r1]
    simp only [Option.bind_some, a1]
    simp only [hc, la_at R hn, Option.bind_some]
    by_cases hnl : n < cs.length
    · have hg := Nat.mul_le_mul_left N (show cs.length - n + 1 ≤ cs.length + 1 by omega)
      have hg' := Nat.mul_le_mul_left N (show 0 + N * (cs.length - n + 1) + 1 ≤ N * (cs.length + 1) + 1 by omega)
      obtain ⟨o, o1, o2, o3⟩ := prun_ok (q := q) (sp := fun r p c => env.sempred r p { L with cur := c }) (n := n)
        (p := note a (at_ d cs ix n) none) (fc := fc) (fe := fe) hw hl R (cs.length - n) (v := n) (K := 0) (by omega) (Nat.le_refl _) (fun _ => hnl)
        (by omega) (by omega) (fits_mono hfit' fun x hx => hx.1)
      refine ⟨some o, by rw [o1]; rfl, ?_⟩
      intro he x hx
      simp only [Option.some.injEq] at hx; subst hx
      refine ⟨fun _ => ⟨o2 ?_, o3⟩, by omega⟩
      cases a with
      | none => intro b hb; simp [note] at hb
      | some y =>
        obtain ⟨x, t, h1, h2⟩ := a2 (by simp)
        exact absurd ⟨x, t, h1.2, h2⟩ (hno he)
    · have e : n = cs.length := by omega
      subst e
      rw [(symAt_eof_iff R hn).mpr rfl]
      have hg := Nat.le_mul_of_pos_right N (show 0 < cs.length + 1 by omega)
      have hg' := Nat.mul_le_mul_left N (show 0 + N + 1 ≤ N * (cs.length + 1) + 1 by omega)
      obtain ⟨o, o1, o2, o3, o4⟩ := prun_past (q := q) (sp := fun r p c => env.sempred r p { L with cur := c })
        (p := note a (at_ d cs ix cs.length) none) (K := 0) (fc := fc) (Q := Q) hw hl (by omega) R
        (fun x y ⟨tr, h1, h2⟩ h => ⟨tr, h1, h2.tail h⟩) (N * (0 + N + 1)) (fe := fe)
        (fits_mono hfit' fun x hx => ⟨hx.1, bounded_chain hw hl hx.1, hx.2⟩) (by omega)
      refine ⟨some o, by rw [o1]; rfl, ?_⟩
      intro he x hx
      simp only [Option.some.injEq] at hx; subst hx
      refine ⟨by omega, fun _ => ⟨?_, o2, o3⟩⟩
      rcases o4 with o4 | ⟨o4, -⟩
      · rw [o4]
        cases a with
        | none => rfl
        | some y =>
          obtain ⟨x, t, h1, h2⟩ := a2 (by simp)
          exact absurd ⟨x, t, h1.2, h2⟩ (hno he)
      · exact absurd o4 (hno he)

end

end Antlr.LexTotal
