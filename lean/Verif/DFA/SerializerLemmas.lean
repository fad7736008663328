import Verif.DFA.Serializer
import Verif.DFA.SerializerSpec
import Verif.ErrorListener.Props

/-! # Helper lemmas: printing a DFA -/

namespace Antlr.PrintProps
open Antlr PrintSpec

/-- The mark of state `i`. -/
def markOf (d : DFA) (i : Nat) : Mark :=
  match d.states[i]? with
  | some s => ⟨i - 1, if s.isAccept then some s.prediction else none, s.requiresFullCtx⟩
  | none => ⟨0, none, false⟩

/-- The line of an arrow. -/
def line (label : Nat → List Char) (d : DFA) (a : Nat × Nat × Nat) : List Char :=
  (markOf d a.1).text showNat showInt ++ '-' :: label a.2.1 ++ '-' :: '>' :: (markOf d a.2.2).text showNat showInt ++ ['\n']

theorem stateString_mark {d : DFA} {i : Nat} {s : DFAState} (h : d.states[i]? = some s) (hn : s.stateNumber = i) (hi : 1 ≤ i)
    (hp : s.predicates = []) : stateString s = some ((markOf d i).text showNat showInt) := by
  unfold stateString markOf
  rw [h, if_neg (by omega)]
  simp only [hp, List.isEmpty_nil, Bool.not_true, Bool.and_false, Bool.false_eq_true, if_false, hn, Mark.text]
  by_cases ha : s.isAccept = true <;> simp [ha]

/-- The arrows among the edges of state `i` from label `c` on. -/
def arrowsOf (i : Nat) : Nat → List Nat → List (Nat × Nat × Nat)
  | _, [] => []
  | c, e :: es => if e ≠ 0 ∧ e ≠ ERROR_DFA_STATE_REF then (i, c, e) :: arrowsOf i (c + 1) es else arrowsOf i (c + 1) es

def arrowsFrom : Nat → List DFAState → List (Nat × Nat × Nat)
  | _, [] => []
  | i, s :: ss => arrowsOf i 0 s.edges ++ arrowsFrom (i + 1) ss

theorem mem_arrowsOf {i : Nat} {a : Nat × Nat × Nat} : ∀ (es : List Nat) (c : Nat), a ∈ arrowsOf i c es ↔
    a.1 = i ∧ c ≤ a.2.1 ∧ es[a.2.1 - c]? = some a.2.2 ∧ a.2.2 ≠ 0 ∧ a.2.2 ≠ ERROR_DFA_STATE_REF := by
  intro es
  induction es with
  | nil => intro c; simp [arrowsOf]
  | cons e es ih =>
    intro c
    have key : a ∈ arrowsOf i (c + 1) es ↔ a.1 = i ∧ c + 1 ≤ a.2.1 ∧ (e :: es)[a.2.1 - c]? = some a.2.2 ∧ a.2.2 ≠ 0 ∧
        a.2.2 ≠ ERROR_DFA_STATE_REF := by
      rw [ih]
      constructor
      · rintro ⟨h1, h2, h3, h4⟩
        refine ⟨h1, h2, ?_, h4⟩
        rw [show a.2.1 - c = (a.2.1 - (c + 1)) + 1 by omega]; simpa using h3
      · rintro ⟨h1, h2, h3, h4⟩
        refine ⟨h1, h2, ?_, h4⟩
        rw [show a.2.1 - c = (a.2.1 - (c + 1)) + 1 by omega] at h3; simpa using h3
    have zero : c = a.2.1 → (e :: es)[a.2.1 - c]? = some e := fun h => by simp [h]
    obtain ⟨a1, a2, a3⟩ := a
    simp only at key zero ⊢
    unfold arrowsOf
    split
    · rename_i he
      simp only [List.mem_cons, key, Prod.mk.injEq]
      constructor
      · rintro (⟨rfl, rfl, rfl⟩ | ⟨h1, h2, h3⟩)
        · exact ⟨rfl, Nat.le_refl _, zero rfl, he⟩
        · exact ⟨h1, by omega, h3⟩
      · rintro ⟨h1, h2, h3, h4⟩
        by_cases h : c = a2
        · rw [zero h] at h3
          exact Or.inl ⟨h1, h.symm, (Option.some.inj h3).symm⟩
        · exact Or.inr ⟨h1, by omega, h3, h4⟩
    · rename_i he
      rw [key]
      constructor
      · rintro ⟨h1, h2, h3⟩; exact ⟨h1, by omega, h3⟩
      · rintro ⟨h1, h2, h3, h4⟩
        by_cases h : c = a2
        · rw [zero h] at h3
          cases h3
          exact absurd h4 he
        · exact ⟨h1, by omega, h3, h4⟩

theorem sorted_arrowsOf {i : Nat} : ∀ (es : List Nat) (c : Nat), (arrowsOf i c es).Pairwise Before := by
  intro es
  induction es with
  | nil => intro c; exact List.Pairwise.nil
  | cons e es ih =>
    intro c
    unfold arrowsOf
    split
    · refine List.Pairwise.cons (fun b hb => ?_) (ih _)
      rw [mem_arrowsOf] at hb
      exact Or.inr ⟨hb.1.symm, by simp only; omega⟩
    · exact ih _

theorem mem_arrowsFrom {a : Nat × Nat × Nat} : ∀ (ss : List DFAState) (i : Nat), a ∈ arrowsFrom i ss ↔
    i ≤ a.1 ∧ ∃ s, ss[a.1 - i]? = some s ∧ s.edges[a.2.1]? = some a.2.2 ∧ a.2.2 ≠ 0 ∧ a.2.2 ≠ ERROR_DFA_STATE_REF := by
  intro ss
  induction ss with
  | nil => intro i; simp [arrowsFrom]
  | cons s ss ih =>
    intro i
    unfold arrowsFrom
    rw [List.mem_append, mem_arrowsOf, ih]
    constructor
    · rintro (⟨h1, -, h2, h3⟩ | ⟨h1, t, h2, h3⟩)
      · exact ⟨by omega, s, by simp [h1], by simpa using h2, h3⟩
      · refine ⟨by omega, t, ?_, h3⟩
        rw [show a.1 - i = (a.1 - (i + 1)) + 1 by omega]; simpa using h2
    · rintro ⟨h1, t, h2, h3, h4⟩
      by_cases h : a.1 = i
      · left
        rw [h, Nat.sub_self] at h2
        cases h2
        exact ⟨h, by omega, by simpa using h3, h4⟩
      · right
        refine ⟨by omega, t, ?_, h3, h4⟩
        rw [show a.1 - i = (a.1 - (i + 1)) + 1 by omega] at h2; simpa using h2

theorem sorted_arrowsFrom : ∀ (ss : List DFAState) (i : Nat), (arrowsFrom i ss).Pairwise Before := by
  intro ss
  induction ss with
  | nil => intro i; exact List.Pairwise.nil
  | cons s ss ih =>
    intro i
    unfold arrowsFrom
    rw [List.pairwise_append]
    refine ⟨sorted_arrowsOf _ _, ih _, fun a ha b hb => ?_⟩
    rw [mem_arrowsOf] at ha
    rw [mem_arrowsFrom] at hb
    exact Or.inl (by omega)

/-- Everything a line says about the state can be printed. -/
def Prints (d : DFA) (i : Nat) : Prop :=
  ∃ s : DFAState, d.states[i]? = some s ∧ s.stateNumber = i ∧ 1 ≤ i ∧ (s.isAccept = true → s.predicates = [])

theorem prints_some {d : DFA} {i : Nat} (h : Prints d i) : ∃ s : DFAState, d.states[i]? = some s ∧
    stateString s = some ((markOf d i).text showNat showInt) := by
  obtain ⟨s, h1, h2, h3, h4⟩ := h
  refine ⟨s, h1, ?_⟩
  cases ha : s.isAccept with
  | true => exact stateString_mark h1 h2 h3 (h4 ha)
  | false =>
    unfold stateString markOf
    rw [h1, if_neg (by omega)]
    simp [ha, h2, Mark.text]

theorem edgeStrings_eq {d : DFA} {label : Nat → Option (List Char)} {lab : Nat → List Char} {i : Nat} {s : DFAState}
    (hs : d.states[i]? = some s) : ∀ (es : List Nat) (c : Nat),
      (∀ a ∈ arrowsOf i c es, Prints d a.1 ∧ label a.2.1 = some (lab a.2.1) ∧ Prints d a.2.2) →
      edgeStrings d.states label s c es = some ((arrowsOf i c es).flatMap (line lab d)) := by
  intro es
  induction es with
  | nil => intro c _; rfl
  | cons e es ih =>
    intro c h
    unfold edgeStrings edgeString
    unfold arrowsOf at h ⊢
    split at h
    · rename_i he
      rw [if_pos he, if_pos he, ih _ (fun a ha => h a (List.mem_cons_of_mem _ ha))]
      obtain ⟨h1, h2, h3⟩ := h _ (List.mem_cons_self ..)
      obtain ⟨s', e1, e2⟩ := prints_some h1
      obtain ⟨t, e3, e4⟩ := prints_some h3
      simp only at e1 e2 e3 e4 h2
      rw [hs] at e1
      cases e1
      simp only [e3, e2, h2, e4, Option.bind_some, Option.map_some, List.flatMap_cons, line]
    · rename_i he
      rw [if_neg he, if_neg he, ih _ h]
      rfl

theorem stateStrings_eq {d : DFA} {label : Nat → Option (List Char)} {lab : Nat → List Char} : ∀ (ss : List DFAState) (i : Nat),
      (∀ k s, ss[k]? = some s → d.states[i + k]? = some s) →
      (∀ a ∈ arrowsFrom i ss, Prints d a.1 ∧ label a.2.1 = some (lab a.2.1) ∧ Prints d a.2.2) →
      stateStrings d.states label ss = some ((arrowsFrom i ss).flatMap (line lab d)) := by
  intro ss
  induction ss with
  | nil => intro i _ _; rfl
  | cons s ss ih =>
    intro i hd h
    unfold stateStrings arrowsFrom
    unfold arrowsFrom at h
    rw [edgeStrings_eq (lab := lab) (hd 0 s rfl) _ _ (fun a ha => h a (List.mem_append_left _ ha)),
      ih (i + 1) (fun k t ht => by
        have := hd (k + 1) t (by simpa using ht)
        rwa [show i + 1 + k = i + (k + 1) by omega]) (fun a ha => h a (List.mem_append_right _ ha))]
    simp

/-- All arrows of the DFA. -/
def arrows (d : DFA) : List (Nat × Nat × Nat) := arrowsFrom 0 d.states

theorem mem_arrows {d : DFA} {i c j : Nat} : (i, c, j) ∈ arrows d ↔ Arrow d i c j := by
  unfold arrows Arrow
  rw [mem_arrowsFrom]
  simp

theorem printed {d : DFA} {label : Nat → Option (List Char)} {lab : Nat → List Char}
    (h : ∀ i c j, Arrow d i c j → Prints d i ∧ label c = some (lab c) ∧ Prints d j) :
    stateStrings d.states label d.states = some ((arrows d).flatMap (line lab d)) := by
  refine stateStrings_eq _ 0 (fun k s hk => by simpa using hk) (fun a ha => ?_)
  exact h a.1 a.2.1 a.2.2 (mem_arrows.1 ha)

theorem marked_markOf {d : DFA} {i : Nat} (h : Prints d i) : Marked d i (markOf d i) := by
  obtain ⟨s, h1, -, h3, -⟩ := h
  exact ⟨s, h1, by simp only [markOf, h1]; omega, by simp [markOf, h1], by simp [markOf, h1]⟩

theorem markOf_unique {d : DFA} {i : Nat} {m : Mark} (h : Marked d i m) : m = markOf d i := by
  obtain ⟨s, h1, h2, h3, h4⟩ := h
  obtain ⟨n, p, f⟩ := m
  simp only at h2 h3 h4
  simp only [markOf, h1, ← h3, ← h4, Mark.mk.injEq, and_self, and_true]
  omega

/-! ## Reading -/

/-- What may follow a mark. -/
def After (z : Char) : Prop := z.isDigit = false ∧ z ≠ '^' ∧ z ≠ '='

/-- What an accepting state predicts. -/
def answer : Option Int → List Char
  | some p => '=' :: '>' :: showInt p
  | none => []

theorem tail_split {f f' : Bool} {z : Char} (hz : After z) {p p' : Option Int} (hp : p.isSome = p'.isSome) {x y : List Char}
    (h : (if f then ['^'] else []) ++ answer p ++ z :: x =
      (if f' then ['^'] else []) ++ answer p' ++ z :: y) :
    f = f' ∧ p = p' ∧ x = y := by
  obtain ⟨z1, z2, z3⟩ := hz
  cases p with
  | none =>
    cases p' with
    | some b => simp at hp
    | none =>
      cases f <;> cases f' <;> simp_all [answer]
      exact absurd h.1.symm z2
  | some a =>
    cases p' with
    | none => simp at hp
    | some b =>
      have key : ∀ {x y : List Char}, showInt a ++ z :: x = showInt b ++ z :: y → a = b ∧ x = y := by
        intro x y h
        have e := DiagProps.showInt_split (by simpa using z1) (by simpa using z1) h
        subst e
        simpa using h
      cases f <;> cases f' <;> simp [answer] at h ⊢
      · exact key h
      · exact key h

theorem text_split {m m' : Mark} {z : Char} (hz : After z) {x y : List Char}
    (h : m.text showNat showInt ++ z :: x = m'.text showNat showInt ++ z :: y) : m = m' ∧ x = y := by
  obtain ⟨n, p, f⟩ := m
  obtain ⟨n', p', f'⟩ := m'
  have hp : p.isSome = p'.isSome := by
    cases p <;> cases p' <;> simp [Mark.text] at h ⊢
  have h' : showNat n ++ ((if f then ['^'] else []) ++ answer p ++ z :: x) =
      showNat n' ++ ((if f' then ['^'] else []) ++ answer p' ++ z :: y) := by
    cases p <;> cases p' <;> simp [Mark.text, answer] at h hp ⊢ <;> exact h
  have hd : ∀ (f : Bool) (p : Option Int) (x : List Char), ∀ c ∈ ((if f then ['^'] else []) ++
      answer p ++ z :: x).head?, c.isDigit = false := by
    intro f p x c hc
    cases f <;> cases p <;> simp [answer] at hc <;> subst hc
    · exact hz.1
    · decide
    · decide
    · decide
  obtain ⟨h1, h2⟩ := DiagProps.digits_split _ _ _ _ (DiagProps.showNat_digits _)
    (DiagProps.showNat_digits _) (hd _ _ _) (hd _ _ _) h'
  obtain ⟨h3, h4, h5⟩ := tail_split hz hp h2
  have := DiagProps.showNat_inj _ _ h1
  subst this h3 h4
  exact ⟨rfl, h5⟩

/-- Labels can be read where they begin. -/
def Readable (lab : Nat → List Char) (c : Nat → Prop) : Prop :=
  ∀ a b x y, c a → c b → lab a ++ '-' :: '>' :: x = lab b ++ '-' :: '>' :: y → a = b ∧ x = y

theorem lines_split {lab : Nat → List Char} {C : Nat → Prop} (hr : Readable lab C) {d d' : DFA} : ∀ (l l' : List (Nat × Nat × Nat)),
    (∀ a ∈ l, C a.2.1) → (∀ a ∈ l', C a.2.1) → l.flatMap (line lab d) = l'.flatMap (line lab d') →
    l.map (fun a => (markOf d a.1, a.2.1, markOf d a.2.2)) = l'.map (fun a => (markOf d' a.1, a.2.1, markOf d' a.2.2)) := by
  have some_line : ∀ (d : DFA) (a : Nat × Nat × Nat) (x : List Char), line lab d a ++ x ≠ [] := by
    intro d a x; simp [line]
  intro l
  induction l with
  | nil =>
    intro l' _ _ h
    cases l' with
    | nil => rfl
    | cons b l' => exact absurd h.symm (some_line _ _ _)
  | cons a l ih =>
    intro l' hl hl' h
    cases l' with
    | nil => exact absurd h (some_line _ _ _)
    | cons b l' =>
      simp only [List.flatMap_cons, line, List.append_assoc, List.cons_append, List.nil_append] at h
      obtain ⟨e1, h⟩ := text_split ⟨by decide, by decide, by decide⟩ h
      obtain ⟨e2, h⟩ := hr _ _ _ _ (hl a (List.mem_cons_self ..)) (hl' b (List.mem_cons_self ..)) h
      obtain ⟨e3, h⟩ := text_split ⟨by decide, by decide, by decide⟩ h
      simp only [List.map_cons, e1, e2, e3, ih l' (fun a h => hl a (List.mem_cons_of_mem _ h))
        (fun a h => hl' a (List.mem_cons_of_mem _ h)) h]

/-- A DFA whose arrows can all be printed. -/
def AllPrint (lab : Nat → List Char) (label : Nat → Option (List Char)) (C : Nat → Prop) (d : DFA) : Prop :=
  ∀ i c j, Arrow d i c j → Prints d i ∧ (label c = some (lab c) ∧ C c) ∧ Prints d j

theorem read_arrows {lab : Nat → List Char} {label : Nat → Option (List Char)} {C : Nat → Prop} (hr : Readable lab C) {d d' : DFA}
    (h : AllPrint lab label C d) (h' : AllPrint lab label C d')
    (e : stateStrings d.states label d.states = stateStrings d'.states label d'.states) {i c j : Nat} (ha : Arrow d i c j) :
    Arrow d' i c j ∧ markOf d i = markOf d' i ∧ markOf d j = markOf d' j := by
  rw [printed (lab := lab) (fun i c j ha => ⟨(h i c j ha).1, (h i c j ha).2.1.1, (h i c j ha).2.2⟩),
    printed (lab := lab) (fun i c j ha => ⟨(h' i c j ha).1, (h' i c j ha).2.1.1, (h' i c j ha).2.2⟩)] at e
  have key := lines_split hr _ _ (fun a ha => (h _ _ _ (mem_arrows.1 ha)).2.1.2) (fun a ha => (h' _ _ _ (mem_arrows.1 ha)).2.1.2)
    (Option.some.inj e)
  have hm : (markOf d i, c, markOf d j) ∈ (arrows d).map (fun a => (markOf d a.1, a.2.1, markOf d a.2.2)) :=
    List.mem_map.2 ⟨(i, c, j), mem_arrows.2 ha, rfl⟩
  rw [key] at hm
  obtain ⟨⟨i', c', j'⟩, hb, e⟩ := List.mem_map.1 hm
  simp only [Prod.mk.injEq] at e
  obtain ⟨e1, e2, e3⟩ := e
  have hb := mem_arrows.1 hb
  have num : ∀ {i i' : Nat}, Prints d i → Prints d' i' → markOf d' i' = markOf d i → i' = i := by
    intro i i' p p' e
    obtain ⟨-, -, q, -⟩ := marked_markOf p
    obtain ⟨-, -, q', -⟩ := marked_markOf p'
    rw [e] at q'
    omega
  have f1 := num (h _ _ _ ha).1 (h' _ _ _ hb).1 e1
  have f3 := num (h _ _ _ ha).2.2 (h' _ _ _ hb).2.2 e3
  subst f1 e2 f3
  exact ⟨hb, e1.symm, e3.symm⟩

end Antlr.PrintProps
